import Verif.Proofs.Torch

/-! The batch of one tree, and the write-back. -/

set_option linter.unusedSectionVars false

namespace SmoothRF
open Topo SkTree

variable {K : Type} [Field K] [LinearOrder K] {C p : ℕ}

theorem maskSel_append {α : Type} (a b : List ℕ) (c d : List α) (h : a.length = c.length) (idx : ℕ) :
    maskSel (a ++ b) idx (c ++ d) = maskSel a idx c ++ maskSel b idx d := by
  unfold maskSel
  rw [List.zip_append h, List.filter_append, List.map_append]

theorem maskSel_none {α : Type} (a : List ℕ) (c : List α) (idx : ℕ) (h : ∀ i ∈ a, i ≠ idx) :
    maskSel a idx c = [] := by
  unfold maskSel
  rw [List.map_eq_nil_iff, List.filter_eq_nil_iff]
  intro e he
  have := h _ (List.of_mem_zip he).1
  simpa using this

theorem maskSel_all {α : Type} (a : List ℕ) (c : List α) (idx : ℕ) (h : ∀ i ∈ a, i = idx)
    (hl : a.length = c.length) : maskSel a idx c = c := by
  unfold maskSel
  rw [List.filter_eq_self.2, List.map_snd_zip hl.ge]
  intro e he
  simpa using h _ (List.of_mem_zip he).1

/-- Number of leaves of the first `idx` trees. -/
def leafOff (forest : List (SkTree K C)) (idx : ℕ) : ℕ := ((forest.take idx).map fun t => t.nLeaves).sum

theorem leafOff_succ (t : SkTree K C) (ts : List (SkTree K C)) (idx : ℕ) :
    leafOff (t :: ts) (idx + 1) = t.nLeaves + leafOff ts idx := by simp [leafOff]

theorem leafList_get (forest : List (SkTree K C)) (idx : ℕ) (t : SkTree K C) (ht : forest[idx]? = some t)
    (r : Fin t.nLeaves) : (leafList forest)[leafOff forest idx + r.val]? = some ⟨t, r⟩ := by
  induction forest generalizing idx with
  | nil => simp at ht
  | cons u us ih =>
    rw [leafList_cons]
    cases idx with
    | zero =>
      simp only [List.getElem?_cons_zero, Option.some.injEq] at ht
      subst ht
      have : leafOff (u :: us) 0 = 0 := by simp [leafOff]
      rw [this, Nat.zero_add, List.getElem?_append_left (by simp [r.2])]
      simp [r.2]
    | succ i =>
      rw [leafOff_succ, List.getElem?_append_right (by simp; omega)]
      simp only [List.length_map, List.length_finRange]
      rw [show u.nLeaves + leafOff us i + r.val - u.nLeaves = leafOff us i + r.val by omega]
      exact ih i (by simpa using ht)

theorem leafListI_get (forest : List (SkTree K C)) (idx : ℕ) (t : SkTree K C) (ht : forest[idx]? = some t)
    (r : Fin t.nLeaves) : (leafListI forest)[leafOff forest idx + r.val]? = some (⟨t, r⟩, idx) := by
  unfold leafListI
  have key : ∀ (k : ℕ), ((forest.zipIdx k).flatMap fun tt => (List.finRange tt.1.nLeaves).map fun r =>
      ((⟨tt.1, r⟩ : (t : SkTree K C) × Fin t.nLeaves), tt.2))[leafOff forest idx + r.val]? =
        some (⟨t, r⟩, k + idx) := by
    induction forest generalizing idx with
    | nil => simp at ht
    | cons u us ih =>
      intro k
      rw [List.zipIdx_cons, List.flatMap_cons]
      cases idx with
      | zero =>
        simp only [List.getElem?_cons_zero, Option.some.injEq] at ht
        subst ht
        have : leafOff (u :: us) 0 = 0 := by simp [leafOff]
        rw [this, Nat.zero_add, List.getElem?_append_left (by simp [r.2])]
        simp [r.2]
      | succ i =>
        rw [leafOff_succ, List.getElem?_append_right (by simp; omega)]
        simp only [List.length_map, List.length_finRange]
        rw [show u.nLeaves + leafOff us i + r.val - u.nLeaves = leafOff us i + r.val by omega]
        rw [ih i (by simpa using ht) (k + 1)]
        rw [show k + 1 + i = k + (i + 1) by omega]
  rw [key 0, Nat.zero_add]

theorem leafListI_length (forest : List (SkTree K C)) :
    (leafListI forest).length = (leafList forest).length := by
  rw [← leafListI_fst, List.length_map]

theorem range_add_map {α : Type} (a b : ℕ) (g : ℕ → α) :
    (List.range (a + b)).map g = (List.range a).map g ++ (List.range b).map fun i => g (a + i) := by
  rw [List.range_add, List.map_append, List.map_map]
  rfl

/-- Masking the leaves of one tree. -/
theorem maskSel_tree {α : Type} (forest : List (SkTree K C)) (idx : ℕ) (t : SkTree K C)
    (ht : forest[idx]? = some t) (g : ℕ → α) :
    maskSel ((leafListI forest).map Prod.snd) idx ((List.range (leafListI forest).length).map g) =
      (List.finRange t.nLeaves).map fun r => g (leafOff forest idx + r.val) := by
  unfold leafListI
  have key : ∀ k (g : ℕ → α), maskSel (((forest.zipIdx k).flatMap fun tt =>
      (List.finRange tt.1.nLeaves).map fun r =>
      ((⟨tt.1, r⟩ : (t : SkTree K C) × Fin t.nLeaves), tt.2)).map Prod.snd) (k + idx)
      ((List.range ((forest.zipIdx k).flatMap fun tt => (List.finRange tt.1.nLeaves).map fun r =>
      ((⟨tt.1, r⟩ : (t : SkTree K C) × Fin t.nLeaves), tt.2)).length).map g) =
      (List.finRange t.nLeaves).map fun r => g (leafOff forest idx + r.val) := by
    induction forest generalizing idx with
    | nil => simp at ht
    | cons u us ih =>
      intro k g
      rw [List.zipIdx_cons, List.flatMap_cons, List.map_append, List.length_append, range_add_map,
        maskSel_append _ _ _ _ (by simp)]
      cases idx with
      | zero =>
        simp only [List.getElem?_cons_zero, Option.some.injEq] at ht
        subst ht
        rw [maskSel_all _ _ _ (by simp) (by simp), maskSel_none _ _ _ ?_, List.append_nil]
        · have : leafOff (u :: us) 0 = 0 := by simp [leafOff]
          rw [this]
          simp only [Nat.zero_add, List.length_map, List.length_finRange]
          rw [← finRange_map_val, List.map_map]
          rfl
        · intro i hi
          simp only [List.map_flatMap, List.map_map, List.mem_flatMap, List.mem_map] at hi
          obtain ⟨tt, h1, r, -, h2⟩ := hi
          have := (List.mem_zipIdx h1).1
          simp at h2
          omega
      | succ i =>
        rw [maskSel_none _ _ _ (by simp), List.nil_append]
        have e := ih i (by simpa using ht) (k + 1) fun j => g (u.nLeaves + j)
        rw [show k + 1 + i = k + (i + 1) by omega] at e
        simp only [List.length_map, List.length_finRange]
        rw [e]
        simp only [leafOff_succ, Nat.add_assoc]
  simpa using key 0 g

theorem maskSel_flatMap {γ α : Type} (A : List ℕ) (idx : ℕ) (cs : List γ) (B : γ → List α)
    (h : ∀ c, (B c).length = A.length) :
    maskSel (cs.flatMap fun _ => A) idx (cs.flatMap B) = cs.flatMap fun c => maskSel A idx (B c) := by
  induction cs with
  | nil => rfl
  | cons c cs ih => rw [List.flatMap_cons, List.flatMap_cons, maskSel_append _ _ _ _ (h c).symm, ih,
      List.flatMap_cons]

theorem range_mul_map {α : Type} (C N : ℕ) (g : ℕ → α) :
    (List.range (C * N)).map g = (List.finRange C).flatMap fun c => (List.range N).map fun j => g (c.val * N + j) := by
  apply List.ext_getElem?
  intro i
  by_cases hi : i < C * N
  · have hN : 0 < N := Nat.pos_of_ne_zero fun h => by simp [h] at hi
    have e1 : i = (i / N) * (List.range N).length + i % N := by
      rw [List.length_range, Nat.mul_comm]; exact (Nat.div_add_mod i N).symm
    have hm : i % N < (List.range N).length := by simpa using Nat.mod_lt i hN
    have hq : i / N < C := Nat.div_lt_of_lt_mul (by rwa [Nat.mul_comm])
    have := flatMap_block (List.range N) (fun j (c : Fin C) => g (c.val * N + j)) (List.finRange C) (i / N)
      (i % N) hm
    rw [← e1] at this
    rw [this, finRange_getElem? ⟨i / N, hq⟩]
    simp only [List.getElem_range, Option.map_some]
    rw [Nat.mul_comm (i / N), Nat.div_add_mod]
    simp [hi]
  · rw [List.getElem?_eq_none (by simpa using hi), List.getElem?_eq_none]
    rw [flatMap_block_length (List.range N) (fun j (c : Fin C) => g (c.val * N + j))]
    simpa using hi

/-- Masking the rows of one tree: class by class, leaf by leaf. -/
theorem maskSel_forest {α : Type} (forest : List (SkTree K C)) (idx : ℕ) (t : SkTree K C)
    (ht : forest[idx]? = some t) (g : ℕ → α) :
    maskSel ((List.finRange C).flatMap fun _ => (leafListI forest).map Prod.snd) idx
        ((List.range (C * (leafListI forest).length)).map g) =
      (List.finRange C).flatMap fun c => (List.finRange t.nLeaves).map fun r =>
        g (c.val * (leafListI forest).length + (leafOff forest idx + r.val)) := by
  rw [range_mul_map, maskSel_flatMap _ _ _ _ (by simp)]
  congr 1
  funext c
  exact maskSel_tree forest idx t ht fun j => g (c.val * (leafListI forest).length + j)

theorem leafListI_filter (forest : List (SkTree K C)) (idx : ℕ) (t : SkTree K C)
    (ht : forest[idx]? = some t) :
    (leafListI forest).filter (fun q => q.2 == idx) =
      (List.finRange t.nLeaves).map fun r => (⟨t, r⟩, idx) := by
  have h1 := maskSel_tree forest idx t ht fun i => (leafListI forest)[i]?
  have h2 : (List.range (leafListI forest).length).map (fun i => (leafListI forest)[i]?) =
      (leafListI forest).map some := by
    apply List.ext_getElem
    · simp
    · intro i h3 h4
      have : i < (leafListI forest).length := by simpa using h3
      simp [this]
  rw [h2, maskSel_map] at h1
  simp only [leafListI_get forest idx t ht] at h1
  have h3 : (List.finRange t.nLeaves).map (fun r =>
      some ((⟨t, r⟩ : (t : SkTree K C) × Fin t.nLeaves), idx)) =
      ((List.finRange t.nLeaves).map fun r => ((⟨t, r⟩ : (t : SkTree K C) × Fin t.nLeaves), idx)).map some := by
    rw [List.map_map]; rfl
  rw [h3] at h1
  exact List.map_injective_iff.2 (Option.some_injective _) h1

/-- The pairs (class, leaf) of a tree, class by class. -/
def classLeaf (t : SkTree K C) : List (Fin C × Fin t.nLeaves) :=
  (List.finRange C).flatMap fun c => (List.finRange t.nLeaves).map (Prod.mk c)

theorem classLeaf_map {α : Type} (t : SkTree K C) (f : Fin C × Fin t.nLeaves → α) :
    (classLeaf t).map f =
      (List.finRange C).flatMap fun c => (List.finRange t.nLeaves).map fun r => f (c, r) := by
  unfold classLeaf
  rw [List.map_flatMap]
  simp only [List.map_map]
  rfl

/-- The rows of `pytorch_numpy_prep`, read off the specification. -/
def prepRows (kind : Kind) (forest : List (SkTree K C)) (s : Style) (pa : Bool)
    (tune : ℕ → List (TuneRow K C)) : List (Row K (forestDepth forest + 1)) :=
  (List.finRange C).flatMap fun c => (leafListI forest).map
    (specRow kind s pa false tune (forestDepth forest + 1) c)

theorem prepRows_length (kind : Kind) (forest : List (SkTree K C)) (s : Style) (pa : Bool)
    (tune : ℕ → List (TuneRow K C)) :
    (prepRows kind forest s pa tune).length = C * (leafListI forest).length := by
  unfold prepRows
  rw [flatMap_block_length (leafListI forest)
    (fun q c => specRow kind s pa false tune (forestDepth forest + 1) c q), List.length_finRange]

theorem prepRows_tree (kind : Kind) (forest : List (SkTree K C)) (s : Style) (pa : Bool)
    (tune : ℕ → List (TuneRow K C)) : (prepRows kind forest s pa tune).map Row.tree =
      (List.finRange C).flatMap fun _ => (leafListI forest).map Prod.snd := by
  unfold prepRows
  rw [List.map_flatMap]
  simp only [List.map_map]
  rfl

theorem prep_ok {kind : Kind} {forest : List (SkTree K C)} (hwf : ∀ t ∈ forest, t.WF) {s : Style}
    {pa : Bool} {a : DataArgs} {tO : Bool} {sources : PSrc → ℕ → List (TuneRow K C)}
    {pr : Prep K (forestDepth forest + 1)}
    (h : pytorchPrep (some kind) forest s pa a tO sources = .ok pr) :
    ∃ src more, prepSource a tO = .ok src ∧ forestMore forest s = .ok more ∧
      ¬ (kind = .cls ∧ src ≠ .given ∧
        ∃ tt ∈ forest.zipIdx, ∃ c, ∀ r ∈ sources src tt.2, r.y c = 0) ∧
      pr.rows = prepRows kind forest s pa (sources src) ∧
      pr.one = [("leaf_n", tile C more.numLeaf),
        ("leaf_d", tile C (more.depthLeaf.map fun z : ℤ => (z : K))),
        ("leaf_i", tile C more.impurityLeaf)] ∧
      pr.two = [("full_d", tile C more.depthFull), ("full_i", tile C more.impurityFull)] := by
  unfold pytorchPrep at h
  obtain ⟨src, h1, h⟩ := bind_ok h
  obtain ⟨more, h2, h⟩ := bind_ok h
  obtain ⟨yw, h3, h⟩ := bind_ok h
  simp only [pure, Except.pure, Except.ok.injEq] at h
  rw [tuneSummaries_eq] at h3
  split_ifs at h3 with hd
  simp only [Except.ok.injEq] at h3
  subst h
  refine ⟨src, more, h1, h2, ?_, ?_, rfl, rfl⟩
  · rintro ⟨e1, e2, e3⟩
    exact hd (Or.inr ⟨by simp [e1, e2], e3⟩)
  · simp only
    rw [← h3, flatRows_eq kind forest hwf]
    rfl

theorem prep_returns {kind : Kind} {forest : List (SkTree K C)} {s : Style}
    {pa : Bool} {a : DataArgs} {tO : Bool} {sources : PSrc → ℕ → List (TuneRow K C)} {src : PSrc}
    {more : More K} (h1 : prepSource a tO = .ok src) (h2 : forestMore forest s = .ok more)
    (h3 : ¬ (kind = .cls ∧ src ≠ .given ∧
        ∃ tt ∈ forest.zipIdx, ∃ c, ∀ r ∈ sources src tt.2, r.y c = 0))
    (h4 : ∀ tt ∈ forest.zipIdx, sources src tt.2 ≠ []) :
    ∃ pr, pytorchPrep (some kind) forest s pa a tO sources = .ok pr := by
  unfold pytorchPrep
  simp only [h1, h2, bind, Except.bind]
  rw [tuneSummaries_eq, if_neg]
  · exact ⟨_, rfl⟩
  · rintro (⟨tt, htt, e⟩ | ⟨e1, e2⟩)
    · exact h4 tt htt e
    · simp only [Bool.and_eq_true, decide_eq_true_eq] at e1
      exact h3 ⟨e1.1, e1.2, e2⟩

/-- A batch of `ForestDataset` on the rows of `pytorch_numpy_prep`. -/
theorem item_forest {kind : Kind} {forest : List (SkTree K C)} {s : Style} {pa : Bool}
    {tune : ℕ → List (TuneRow K C)} {one : List (String × List K)}
    {two : List (String × List (List K))} {d : Dataset K (forestDepth forest + 1)}
    (h : mkDataset (prepRows kind forest s pa tune) one two = .ok d) {idx : ℕ} {t : SkTree K C}
    (ht : forest[idx]? = some t) :
    let row := fun e : Fin C × Fin t.nLeaves =>
      specRow kind s pa false tune (forestDepth forest + 1) e.1 (⟨t, e.2⟩, idx)
    (d.item idx).y = (classLeaf t).map (fun e => (row e).y) ∧
    (d.item idx).weights = (classLeaf t).map (fun e => (row e).w) ∧
    (d.item idx).gamma = (classLeaf t).map (fun e => (row e).gam) ∧
    (d.item idx).eta = (classLeaf t).map (fun e => (row e).eta) ∧
    (d.item idx).feats = (classLeaf t).map (fun e =>
      d.feats (e.1.val * (leafListI forest).length + (leafOff forest idx + e.2.val))) ∧
    (d.item idx).numVars = one.length + two.length := by
  obtain ⟨-, h1, h2, h3, h4, h5, h6, h7, h8⟩ := mkDataset_ok h
  have hm : ∀ {α : Type} (f : Row K (forestDepth forest + 1) → α),
      maskSel ((prepRows kind forest s pa tune).map Row.tree) idx ((prepRows kind forest s pa tune).map f) =
      (classLeaf t).map fun e =>
        f (specRow kind s pa false tune (forestDepth forest + 1) e.1 (⟨t, e.2⟩, idx)) := by
    intro α f
    rw [prepRows_tree]
    unfold prepRows
    rw [List.map_flatMap, maskSel_flatMap _ _ _ _ (by simp), classLeaf_map]
    congr 1
    funext c
    rw [List.map_map, maskSel_map, leafListI_filter forest idx t ht, List.map_map]
    rfl
  refine ⟨?_, ?_, ?_, ?_, ?_, h7⟩
  · simp only [Dataset.item, h1, h5]; exact hm _
  · simp only [Dataset.item, h4, h5]; exact hm _
  · simp only [Dataset.item, h2, h5]; exact hm _
  · simp only [Dataset.item, h3, h5]; exact hm _
  · simp only [Dataset.item, h5]
    rw [List.length_map, prepRows_length, prepRows_tree, maskSel_forest forest idx t ht, classLeaf_map]

theorem mapM_map' {α β γ : Type} (l : List α) (f : α → β) (g : β → Except PyErr γ) :
    (l.map f).mapM g = l.mapM fun a => g (f a) := by
  induction l with
  | nil => rfl
  | cons a l ih => rw [List.map_cons, List.mapM_cons, List.mapM_cons, ih]

/-- The network on one tree's batch. -/
theorem forward_forest {exp : K → K} {net : Net K} {kind : Kind} {forest : List (SkTree K C)}
    {s : Style} {pa : Bool}
    {tune : ℕ → List (TuneRow K C)} {one : List (String × List K)}
    {two : List (String × List (List K))} {d : Dataset K (forestDepth forest + 1)}
    (h : mkDataset (prepRows kind forest s pa tune) one two = .ok d) {idx : ℕ} {t : SkTree K C}
    (ht : forest[idx]? = some t) :
    forward exp net (d.item idx) =
      if net.numVars = 0 ∨ one.length + two.length < net.numVars then .error .indexError
      else (classLeaf t).mapM fun e =>
        let l : Fin (forestDepth forest + 1) → K := net.lamb exp
          (d.feats (e.1.val * (leafListI forest).length + (leafOff forest idx + e.2.val)))
        if smoothDen t s pa l e.2 = 0 then .error .nonFinite
        else .ok (smoothNum kind t s pa l e.2 e.1 / smoothDen t s pa l e.2) := by
  obtain ⟨-, -, h3, h4, h5, h6⟩ := item_forest h ht
  unfold forward
  rw [h3, h4, h5, h6, List.zip_map', List.zip_map', mapM_map']
  rfl

theorem mapM_inv {α β : Type} (l : List α) (den : α → K) (v : α → β) (e : PyErr) (out : List β)
    (h : l.mapM (fun a => if den a = 0 then (.error e : Except PyErr β) else .ok (v a)) = .ok out) :
    (∀ a ∈ l, den a ≠ 0) ∧ out = l.map v := by
  induction l generalizing out with
  | nil => cases h; simp
  | cons a l ih =>
    rw [List.mapM_cons] at h
    obtain ⟨b, h1, h⟩ := bind_ok h
    obtain ⟨bs, h2, h⟩ := bind_ok h
    split_ifs at h1 with h0
    cases h1
    cases h
    obtain ⟨i1, rfl⟩ := ih bs h2
    exact ⟨by simpa [h0] using i1, rfl⟩

theorem prepRows_ids (kind : Kind) (forest : List (SkTree K C)) (hwf : ∀ t ∈ forest, t.WF) (hC : 0 < C)
    (s : Style) (pa : Bool) (tune : ℕ → List (TuneRow K C)) :
    ((prepRows kind forest s pa tune).map Row.tree).dedup.length = forest.length := by
  rw [← List.card_toFinset]
  have : ((prepRows kind forest s pa tune).map Row.tree).toFinset = Finset.range forest.length := by
    ext i
    rw [List.mem_toFinset, prepRows_tree, List.mem_flatMap, Finset.mem_range]
    constructor
    · rintro ⟨c, -, h⟩
      obtain ⟨q, h1, rfl⟩ := List.mem_map.1 h
      unfold leafListI at h1
      obtain ⟨tt, h2, h3⟩ := List.mem_flatMap.1 h1
      obtain ⟨r, -, rfl⟩ := List.mem_map.1 h3
      have := List.mem_zipIdx h2
      simp only
      omega
    · intro h
      refine ⟨⟨0, hC⟩, List.mem_finRange _, ?_⟩
      have ht : forest[i]? = some forest[i] := List.getElem?_eq_getElem h
      have hp := nLeaves_pos (hwf _ (List.getElem_mem h))
      have hg := leafListI_get forest i _ ht ⟨0, hp⟩
      exact List.mem_map.2 ⟨_, List.mem_of_getElem? hg, rfl⟩
  rw [this, Finset.card_range]

theorem tile_getD {α : Type} (l : List α) {c C j : ℕ} (hc : c < C) (hj : j < l.length) (x : α) :
    (tile C l).getD (c * l.length + j) x = l[j] := by
  have h : tile C l = (List.finRange C).flatMap fun _ => l.map fun a => a := by
    unfold tile
    induction C with
    | zero => rfl
    | succ C ih =>
      clear ih
      simp [List.flatMap, List.map_const']
  rw [h, List.getD_eq_getElem?_getD, flatMap_block l (fun a _ => a) (List.finRange C) c j hj,
    finRange_getElem? ⟨c, hc⟩]
  simp

theorem tile_length {α : Type} (C : ℕ) (l : List α) : (tile C l).length = C * l.length := by
  simp [tile]

theorem mem_tile {α : Type} {C : ℕ} {l : List α} {a : α} (h : a ∈ tile C l) : a ∈ l := by
  unfold tile at h
  obtain ⟨m, h1, h2⟩ := List.mem_flatten.1 h
  rw [(List.mem_replicate.1 h1).2] at h2
  exact h2

theorem tile_leaf {α : Type} (forest : List (SkTree K C)) (f : (t : SkTree K C) → Fin t.nLeaves → α)
    {idx : ℕ} {t : SkTree K C} (ht : forest[idx]? = some t) (c : Fin C) (r : Fin t.nLeaves) (x : α) :
    (tile C (forest.flatMap fun t => (List.finRange t.nLeaves).map (f t))).getD
      (c.val * (leafListI forest).length + (leafOff forest idx + r.val)) x = f t r := by
  rw [← leafList_map, leafListI_length]
  have hg := leafList_get forest idx t ht r
  obtain ⟨hj, hge⟩ := List.getElem?_eq_some_iff.1 hg
  have := tile_getD ((leafList forest).map fun p => f p.1 p.2) c.2 (j := leafOff forest idx + r.val)
    (by simpa using hj) x
  rw [List.getElem_map, hge, List.length_map] at this
  exact this

end SmoothRF
