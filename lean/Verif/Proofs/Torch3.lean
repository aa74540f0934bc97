import Verif.Proofs.Torch2
import Verif.Proofs.DepthTune
import Verif.Props.GammaProps

/-! `update_rf`, and the features it uses. -/

set_option linter.unusedSectionVars false

namespace SmoothRF
open Topo SkTree

variable {K : Type} [Field K] [LinearOrder K] {C p : ℕ}

theorem mapM_get {α β : Type} {l : List α} {f : α → Except PyErr β} {m : List β} (h : l.mapM f = .ok m) :
    m.length = l.length ∧ ∀ (i : ℕ) (a : α), l[i]? = some a → ∃ b, m[i]? = some b ∧ f a = .ok b := by
  induction l generalizing m with
  | nil => cases h; simp
  | cons a l ih =>
    rw [List.mapM_cons] at h
    obtain ⟨b, h1, h⟩ := bind_ok h
    obtain ⟨bs, h2, h⟩ := bind_ok h
    cases h
    obtain ⟨i1, i2⟩ := ih h2
    refine ⟨by simp [i1], ?_⟩
    intro i x hx
    cases i with
    | zero => simp only [List.getElem?_cons_zero, Option.some.injEq] at hx; subst hx; exact ⟨b, rfl, h1⟩
    | succ i => exact i2 i x (by simpa using hx)

/-- The weights of class `c`, leaf `r` of tree `idx` in `update_rf`. -/
def updLamb (exp : K → K) (net : Net K) (forest : List (SkTree K C))
    (d : Dataset K (forestDepth forest + 1)) (idx c r : ℕ) : Fin (forestDepth forest + 1) → K :=
  net.lamb exp (d.feats (c * (leafListI forest).length + (leafOff forest idx + r)))

theorem updateTrees_ok (hC : 0 < C) {exp : K → K} {net : Net K} {kind : Kind} {forest : List (SkTree K C)}
    (hwf : ∀ t ∈ forest, t.WF) {s : Style} {pa : Bool}
    {tune : ℕ → List (TuneRow K C)} {one : List (String × List K)}
    {two : List (String × List (List K))} {d : Dataset K (forestDepth forest + 1)}
    (h : mkDataset (prepRows kind forest s pa tune) one two = .ok d) {rf' : List (SkTree K C)}
    (hu : updateTrees exp net d forest = .ok rf') :
    rf'.length = forest.length ∧ ∀ (idx : ℕ) (t : SkTree K C), forest[idx]? = some t →
      0 < net.numVars ∧ net.numVars ≤ one.length + two.length ∧
      (∀ (r : Fin t.nLeaves) (c : Fin C), smoothDen t s pa (updLamb exp net forest d idx c r) r ≠ 0) ∧
      ∃ t', rf'[idx]? = some t' ∧ LeafUpdate t t' fun r c =>
        smoothNum kind t s pa (updLamb exp net forest d idx c r) r c /
          smoothDen t s pa (updLamb exp net forest d idx c r) r := by
  obtain ⟨-, -, -, -, -, -, hN, -, -⟩ := mkDataset_ok h
  rw [prepRows_ids kind forest hwf hC] at hN
  unfold updateTrees at hu
  rw [hN, if_neg (lt_irrefl _)] at hu
  obtain ⟨h1, h2⟩ := mapM_get hu
  refine ⟨by simpa using h1, ?_⟩
  intro idx t ht
  have hlt : idx < forest.length := (List.getElem?_eq_some_iff.1 ht).1
  obtain ⟨t', g1, g2⟩ := h2 idx (t, idx) (by simp [List.getElem?_zipIdx, ht])
  simp only [if_pos hlt] at g2
  obtain ⟨out, g3, g4⟩ := bind_ok g2
  rw [forward_forest h ht] at g3
  split_ifs at g3 with hv
  push Not at hv
  obtain ⟨m1, m2⟩ := mapM_inv (classLeaf t) _ _ _ out g3
  refine ⟨Nat.pos_of_ne_zero hv.1, hv.2, ?_, t', g1, ?_⟩
  · intro r c
    exact m1 (c, r) (by
      unfold classLeaf
      exact List.mem_flatMap.2 ⟨c, List.mem_finRange c, List.mem_map.2 ⟨r, List.mem_finRange r, rfl⟩⟩)
  · have hrs : reshapeF C out = (List.finRange t.nLeaves).map fun (r : Fin t.nLeaves) (c : Fin C) =>
        smoothNum kind t s pa (updLamb exp net forest d idx c r) r c /
          smoothDen t s pa (updLamb exp net forest d idx c r) r := by
      rw [m2, classLeaf_map]
      exact reshapeF_flat hC (List.finRange t.nLeaves) fun r c =>
        smoothNum kind t s pa (updLamb exp net forest d idx c r) r c /
          smoothDen t s pa (updLamb exp net forest d idx c r) r
    obtain ⟨t'', e1, e2⟩ := writeLeaves_spec t (hwf t (List.mem_of_getElem? ht)) (reshapeF C out)
      (by rw [hrs]; simp)
    rw [e1] at g4
    cases g4
    obtain ⟨v, q1, q2, q3⟩ := e2
    exact ⟨v, q1, fun r c => (q2 r c).trans (by
      beta_reduce
      rw [List.getElem_of_eq hrs]
      simp), q3⟩

theorem updateTrees_returns (hC : 0 < C) {exp : K → K} {net : Net K} {kind : Kind}
    {forest : List (SkTree K C)}
    (hwf : ∀ t ∈ forest, t.WF) {s : Style} {pa : Bool}
    {tune : ℕ → List (TuneRow K C)} {one : List (String × List K)}
    {two : List (String × List (List K))} {d : Dataset K (forestDepth forest + 1)}
    (h : mkDataset (prepRows kind forest s pa tune) one two = .ok d)
    (hv1 : 0 < net.numVars) (hv2 : net.numVars ≤ one.length + two.length)
    (hden : ∀ (idx : ℕ) (t : SkTree K C), forest[idx]? = some t → ∀ (r : Fin t.nLeaves) (c : Fin C),
      smoothDen t s pa (updLamb exp net forest d idx c r) r ≠ 0) :
    ∃ rf', updateTrees exp net d forest = .ok rf' := by
  obtain ⟨-, -, -, -, -, -, hN, -, -⟩ := mkDataset_ok h
  rw [prepRows_ids kind forest hwf hC] at hN
  unfold updateTrees
  rw [hN, if_neg (lt_irrefl _)]
  obtain ⟨m, h1, -⟩ := mapM_forall2 (l := forest.zipIdx) (R := fun _ _ => True)
    (f := fun tt => if tt.2 < forest.length then do
      let yTree ← forward exp net (d.item tt.2)
      writeLeaves tt.1 (reshapeF C yTree)
    else pure tt.1) (by
    rintro ⟨t, idx⟩ htt
    obtain ⟨-, hlt, he⟩ := List.mem_zipIdx htt
    simp only [Nat.zero_add, Nat.sub_zero] at hlt he
    have ht : forest[idx]? = some t := by rw [he]; exact List.getElem?_eq_getElem hlt
    simp only [if_pos hlt]
    rw [forward_forest h ht, if_neg (by omega)]
    rw [mapM_ok (classLeaf t) _ (fun e => smoothNum kind t s pa (updLamb exp net forest d idx e.1 e.2) e.2 e.1 /
          smoothDen t s pa (updLamb exp net forest d idx e.1 e.2) e.2)
      (fun e _ => by exact if_neg (hden idx t ht e.2 e.1))]
    simp only [bind, Except.bind]
    rw [classLeaf_map, reshapeF_flat hC (List.finRange t.nLeaves) fun r c =>
        smoothNum kind t s pa (updLamb exp net forest d idx c r) r c /
          smoothDen t s pa (updLamb exp net forest d idx c r) r]
    obtain ⟨t', e1, -⟩ := writeLeaves_spec t (hwf t (List.mem_of_getElem? ht))
      ((List.finRange t.nLeaves).map fun (r : Fin t.nLeaves) (c : Fin C) =>
        smoothNum kind t s pa (updLamb exp net forest d idx c r) r c /
          smoothDen t s pa (updLamb exp net forest d idx c r) r) (by simp)
    exact ⟨t', e1, trivial⟩)
  exact ⟨m, h1⟩

/-! ### softmax -/

theorem linear_eq {net : Net K} {n k : ℕ} {feat : ℕ → K} {x : ℕ → ℕ → K}
    (h : ∀ v < net.numVars, feat (n * v + k) = x v k) :
    net.linear n feat k = linSpec net.params net.numVars x k := by
  unfold Net.linear linSpec
  rw [sum_map_range]
  congr 1
  refine Finset.sum_congr rfl fun v hv => ?_
  rw [Nat.add_comm k, h v (Finset.mem_range.1 hv)]

theorem lamb_eq {exp : K → K} {net : Net K} {n : ℕ} {feat : ℕ → K} {x : ℕ → ℕ → K}
    (h : ∀ v < net.numVars, ∀ k < n, feat (n * v + k) = x v k) (k : Fin n) :
    net.lamb exp feat k = softSpec exp (linSpec net.params net.numVars x) k := by
  have e : ∀ k : Fin n, net.linear n feat k = linSpec net.params net.numVars x k :=
    fun k => linear_eq fun v hv => h v hv k k.2
  unfold Net.lamb softmax softSpec
  simp only [e]

theorem lamb_pos [IsStrictOrderedRing K] {exp : K → K} (hexp : ∀ x, 0 < exp x) (net : Net K) {n : ℕ}
    (feat : ℕ → K) (k : Fin n) : 0 < (net.lamb exp feat : Fin n → K) k := by
  unfold Net.lamb softmax
  exact div_pos (hexp _) (Finset.sum_pos (fun j _ => hexp _) ⟨k, Finset.mem_univ k⟩)

theorem lamb_sum [IsStrictOrderedRing K] {exp : K → K} (hexp : ∀ x, 0 < exp x) (net : Net K) {n : ℕ}
    (feat : ℕ → K) : ∑ k, (net.lamb exp feat : Fin (n + 1) → K) k = 1 := by
  unfold Net.lamb softmax
  rw [← Finset.sum_div, div_self]
  exact (Finset.sum_pos (fun j _ => hexp _) ⟨0, Finset.mem_univ 0⟩).ne'

theorem smoothDen_pos [IsStrictOrderedRing K] {t : SkTree K C} (h : t.WF) (s : Style) (pa : Bool) {n : ℕ}
    (lamb : Fin (n + 1) → K) (hl : ∀ k, 0 < lamb k) (hn : ∀ j, 0 < t.nSamp (t.leafNode j))
    (r : Fin t.nLeaves) : 0 < smoothDen t s pa lamb r := by
  unfold smoothDen
  refine lt_of_lt_of_le ?_ (Finset.single_le_sum
    (f := fun k : Fin (n + 1) => levelSum pa (t.distDepth s) (fun j => t.nSamp (t.leafNode j)) r k * lamb k)
    (fun k _ => mul_nonneg (levelSum_nonneg _ _ _ (fun j => (hn j).le) _ _) (hl k).le) (Finset.mem_univ 0))
  exact mul_pos (by
    have := levelSum_zero h s pa (fun j => t.nSamp (t.leafNode j)) r
    simp only [Fin.val_zero]
    rw [this]
    exact hn r) (hl 0)

/-! ### features -/

/-- The values of the five variables of `pytorch_numpy_prep` with the standard distance. -/
theorem features_standard {kind : Kind} {forest : List (SkTree K C)} (hwf : ∀ t ∈ forest, t.WF)
    {pa : Bool} {a : DataArgs} {tO : Bool} {sources : PSrc → ℕ → List (TuneRow K C)}
    {pr : Prep K (forestDepth forest + 1)}
    (h : pytorchPrep (some kind) forest .standard pa a tO sources = .ok pr) {idx : ℕ} {t : SkTree K C}
    (ht : forest[idx]? = some t) (c : Fin C) (r : Fin t.nLeaves) (k : ℕ) (hk : k < forestDepth forest + 1)
    (v : ℕ) (hv : v < 5) :
    FeatIs t r k v (varLevel pr.one pr.two v
      (c.val * (leafListI forest).length + (leafOff forest idx + r.val)) k) := by
  obtain ⟨src, more, -, h2, -, -, h3, h4⟩ := prep_ok hwf h
  obtain ⟨M, hM, ⟨R1, e1, p1⟩, ⟨R2, e2, p2⟩, e3, e4, dl, e5, p5⟩ := C18_level_features_partial forest hwf
  rw [hM] at h2
  cases h2
  have htm := List.mem_of_getElem? ht
  have hget : ∀ {l : List K} {x : K}, l[k]? = some x → l.getD k 0 = x := by
    intro l x hx
    rw [List.getD_eq_getElem?_getD, hx]; rfl
  rw [h3, h4]
  match v, hv with
  | 0, _ =>
    simp only [varLevel, List.length_cons, List.length_nil, FeatIs]
    simp only [List.getElem?_cons_zero, Option.elim, e3, tile_leaf forest _ ht]
    simp
  | 1, _ =>
    simp only [varLevel, List.length_cons, List.length_nil, FeatIs]
    have : more.depthLeaf.map (fun z : ℤ => (z : K)) =
        forest.flatMap fun t => (List.finRange t.nLeaves).map fun i => (dl t i : K) := by
      rw [e5, List.map_flatMap]; simp [Function.comp_def]
    simp only [List.getElem?_cons_succ, List.getElem?_cons_zero, Option.elim, this, tile_leaf forest _ ht]
    exact ⟨dl t r, p5 t htm r, by simp⟩
  | 2, _ =>
    simp only [varLevel, List.length_cons, List.length_nil, FeatIs]
    simp only [List.getElem?_cons_succ, List.getElem?_cons_zero, Option.elim, e4, tile_leaf forest _ ht]
    simp
  | 3, _ =>
    obtain ⟨-, q1, q2⟩ := p1 t htm r
    simp only [varLevel, List.length_cons, List.length_nil, FeatIs]
    simp only [Nat.reduceAdd, Nat.lt_irrefl, if_false, Nat.sub_self, List.getElem?_cons_zero, Option.elim, e1,
      tile_leaf forest _ ht]
    exact ⟨fun a d ha hd => hget (q1 k a d ha hd), fun d hd hdk => hget (q2 k d hd hdk (Nat.lt_succ_iff.1 hk))⟩
  | 4, _ =>
    obtain ⟨-, q1, q2⟩ := p2 t htm r
    simp only [varLevel, List.length_cons, List.length_nil, FeatIs]
    have h43 : ¬ (4 : ℕ) < 0 + 1 + 1 + 1 := by omega
    simp only [h43, if_false, Nat.reduceAdd, Nat.reduceSub, List.getElem?_cons_succ, List.getElem?_cons_zero,
      Option.elim, e2, tile_leaf forest _ ht]
    exact ⟨fun a ha => hget (q1 k a ha), fun d hd hdk hj => hget (q2 k d hd hdk hj)⟩

end SmoothRF
