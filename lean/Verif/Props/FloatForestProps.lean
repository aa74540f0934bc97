import Verif.Model.FloatForest
import Verif.Props.FloatSgdProps
import Verif.Props.FloatSanityProps
import Verif.Props.FloatDepthProps
import Verif.Props.FloatProps
import Verif.Props.TuneLossProps
import Verif.Proofs.Smooth2

/-!
# C199: smooth in double precision
-/

set_option linter.unusedSectionVars false

namespace SmoothRF

open Topo SkTree

variable {C : ℕ}

attribute [local irreducible] fl

/-! ### the arrays -/

theorem flGammaEtaForest_eq (sum : List ℚ → ℚ) (kind : Kind) (forest : List (SkTree ℚ C)) (s : Style) (pa : Bool) :
    (∀ c, (flGammaEtaForest sum kind forest s pa).gamma c = (leafListI forest).map fun q =>
      padRow pa (forestDepth forest + 1)
        (flLevelRow sum q.1.1 pa (q.1.1.distDepth s) (fun j => flNy kind q.1.1 (q.1.1.leafNode j) c) q.1.2)) ∧
    ((flGammaEtaForest sum kind forest s pa).eta = (leafListI forest).map fun q =>
      padRow pa (forestDepth forest + 1)
        (flLevelRow sum q.1.1 pa (q.1.1.distDepth s) (fun j => q.1.1.nSamp (q.1.1.leafNode j)) q.1.2)) ∧
    ((flGammaEtaForest sum kind forest s pa).tIdx = (leafListI forest).map fun q => q.2) := by
  unfold flGammaEtaForest
  generalize forestDepth forest + 1 = width
  have key : ∀ (l : List (SkTree ℚ C × ℕ)) (acc : GE ℚ C),
      let r := l.foldl (fun acc tt =>
        ({ gamma := fun c => acc.gamma c ++ ((List.finRange tt.1.nLeaves).map fun i =>
            flLevelRow sum tt.1 pa (tt.1.distDepth s) (fun j => flNy kind tt.1 (tt.1.leafNode j) c) i).map (padRow pa width)
           eta := acc.eta ++ ((List.finRange tt.1.nLeaves).map fun i =>
            flLevelRow sum tt.1 pa (tt.1.distDepth s) (fun j => tt.1.nSamp (tt.1.leafNode j)) i).map (padRow pa width)
           tIdx := acc.tIdx ++ List.replicate tt.1.nLeaves tt.2 } : GE ℚ C)) acc
      (∀ c, r.gamma c = acc.gamma c ++ (l.flatMap fun tt => (List.finRange tt.1.nLeaves).map fun i =>
        padRow pa width (flLevelRow sum tt.1 pa (tt.1.distDepth s) (fun j => flNy kind tt.1 (tt.1.leafNode j) c) i))) ∧
      (r.eta = acc.eta ++ (l.flatMap fun tt => (List.finRange tt.1.nLeaves).map fun i =>
        padRow pa width (flLevelRow sum tt.1 pa (tt.1.distDepth s) (fun j => tt.1.nSamp (tt.1.leafNode j)) i))) ∧
      (r.tIdx = acc.tIdx ++ l.flatMap fun tt => List.replicate tt.1.nLeaves tt.2) := by
    intro l
    induction l with
    | nil => intro acc; simp
    | cons tt l ih =>
      intro acc
      obtain ⟨h1, h2, h3⟩ := ih _
      refine ⟨fun c => ?_, ?_, ?_⟩
      · refine (h1 c).trans ?_
        simp only [List.flatMap_cons, List.append_assoc, List.map_map]
        rfl
      · refine h2.trans ?_
        simp only [List.flatMap_cons, List.append_assoc, List.map_map]
        rfl
      · refine h3.trans ?_
        simp only [List.flatMap_cons, List.append_assoc]
  obtain ⟨h1, h2, h3⟩ := key forest.zipIdx { gamma := fun _ => [], eta := [], tIdx := [] }
  refine ⟨fun c => (h1 c).trans ?_, h2.trans ?_, h3.trans ?_⟩ <;> rw [List.nil_append] <;> apply leafListI_map
  · intro tt _; rfl
  · intro tt _; rfl
  · intro tt _
    simp [List.map_const']

theorem flTuneSummaries_eq (sum : List ℚ → ℚ) (d : Bool) (forest : List (SkTree ℚ C)) (tune : ℕ → List (TuneRow ℚ C)) :
    (flTuneSummaries sum d forest tune = .ok ((leafListI forest).map fun q =>
      ((fun c => flLeafMean sum (tune q.2) q.1.2 c), leafWeight (tune q.2) q.1.2)) ∧
      ∀ tt ∈ forest.zipIdx, tune tt.2 ≠ [] ∧ ¬ (d = true ∧ ∃ c, ∀ r ∈ tune tt.2, r.y c = 0)) ∨
    (flTuneSummaries sum d forest tune = .error .valueError ∧
      ∃ tt ∈ forest.zipIdx, tune tt.2 = [] ∨ (d = true ∧ ∃ c, ∀ r ∈ tune tt.2, r.y c = 0)) := by
  have key : ∀ (l : List (SkTree ℚ C × ℕ)) (acc : List ((Fin C → ℚ) × ℚ)),
      let r := l.foldlM (fun acc tt =>
        let rows := tune tt.2
        if rows.isEmpty || (d && decide (∃ c, ∀ r ∈ rows, r.y c = 0)) then .error .valueError
        else pure (acc ++ (List.range tt.1.nLeaves).map fun i =>
          ((fun c => flLeafMean sum rows i c), leafWeight rows i))) acc
      (r = (Except.ok (acc ++ l.flatMap fun tt => (List.finRange tt.1.nLeaves).map fun i : Fin _ =>
          ((fun c => flLeafMean sum (tune tt.2) i.val c), leafWeight (tune tt.2) i.val)) :
            Except PyErr (List ((Fin C → ℚ) × ℚ))) ∧
        ∀ tt ∈ l, tune tt.2 ≠ [] ∧ ¬ (d = true ∧ ∃ c, ∀ r ∈ tune tt.2, r.y c = 0)) ∨
      (r = .error .valueError ∧
        ∃ tt ∈ l, tune tt.2 = [] ∨ (d = true ∧ ∃ c, ∀ r ∈ tune tt.2, r.y c = 0)) := by
    intro l
    induction l with
    | nil => intro acc; left; exact ⟨by simp; rfl, by simp⟩
    | cons tt l ih =>
      intro acc
      simp only [List.foldlM_cons]
      by_cases h : tune tt.2 = [] ∨ (d = true ∧ ∃ c, ∀ r ∈ tune tt.2, r.y c = 0)
      · right
        refine ⟨?_, tt, by simp, h⟩
        have : ((tune tt.2).isEmpty || (d && decide (∃ c, ∀ r ∈ tune tt.2, r.y c = 0))) = true := by
          rcases h with h | h
          · simp [h]
          · simp [h.1, h.2]
        rw [if_pos this]; rfl
      · have hn := not_or.1 h
        have : ¬ ((tune tt.2).isEmpty || (d && decide (∃ c, ∀ r ∈ tune tt.2, r.y c = 0))) = true := by
          simpa using h
        rw [if_neg this]
        rcases ih (acc ++ (List.range tt.1.nLeaves).map fun i =>
          ((fun c => flLeafMean sum (tune tt.2) i c), leafWeight (tune tt.2) i)) with ⟨h1, h2⟩ | ⟨h1, x, hx, hb⟩
        · left
          refine ⟨h1.trans ?_, fun x hx => ?_⟩
          · rw [List.flatMap_cons, List.append_assoc, ← finRange_map_val, List.map_map]
            rfl
          · rcases List.mem_cons.1 hx with rfl | hx
            · exact hn
            · exact h2 x hx
        · right
          exact ⟨h1, x, by simp [hx], hb⟩
  have := key forest.zipIdx []
  rw [List.nil_append] at this
  have e : (forest.zipIdx.flatMap fun tt => (List.finRange tt.1.nLeaves).map fun i : Fin _ =>
      (((fun c => flLeafMean sum (tune tt.2) i.val c), leafWeight (tune tt.2) i.val) : (Fin C → ℚ) × ℚ)) =
      (leafListI forest).map fun q =>
      ((fun c => flLeafMean sum (tune q.2) q.1.2 c), leafWeight (tune q.2) q.1.2) := by
    apply leafListI_map
    intro tt _; rfl
  rw [e] at this
  exact this

/-- The leaves of all trees, once per class, with the tree number the optimiser sees and the tuning mean in doubles. -/
def costLeaves (sum : List ℚ → ℚ) (s : Style) (al : Bool) (tune : ℕ → List (TuneRow ℚ C)) (forest : List (SkTree ℚ C)) :
    List (ℕ × CostLeaf C) :=
  (List.finRange C).flatMap fun c => (leafListI forest).map fun q =>
    (if al then 0 else q.2,
      { t := q.1.1, D := q.1.1.distDepth s, i := q.1.2, c := c
        y := flLeafMean sum (tune q.2) q.1.2 c, w := leafWeight (tune q.2) q.1.2 })

theorem flatRows_map {α : Type} (n : ℕ) (al : Bool) (Q : List α) (ge : GE ℚ C) (g : Fin C → α → List ℚ) (e : α → List ℚ)
    (tr : α → ℕ) (m : α → Fin C → ℚ) (w : α → ℚ) (h1 : ∀ c, ge.gamma c = Q.map (g c)) (h2 : ge.eta = Q.map e)
    (h3 : ge.tIdx = Q.map tr) :
    flatRows n al ge (Q.map fun q => (m q, w q)) = (List.finRange C).flatMap fun c => Q.map fun q =>
      { y := m q c, w := w q, gam := toVec n (g c q), eta := toVec n (e q), tree := if al then 0 else tr q } := by
  unfold flatRows
  congr 1
  funext c
  rw [h2, List.length_map, h1 c, h3]
  refine range_map_getD _ _ _ fun i hi => ?_
  simp only [List.getD_eq_getElem?_getD, List.getElem?_map, List.getElem?_eq_getElem hi,
    Option.map_some, Option.getD_some, Option.elim_some]

/-- The rows given to the optimiser in doubles. -/
theorem flFlatRows (sum : List ℚ → ℚ) (kind : Kind) (forest : List (SkTree ℚ C)) (s : Style) (pa al : Bool)
    (tune : ℕ → List (TuneRow ℚ C)) :
    flatRows (forestDepth forest + 1) al (flGammaEtaForest sum kind forest s pa) ((leafListI forest).map fun q =>
      ((fun c => flLeafMean sum (tune q.2) q.1.2 c), leafWeight (tune q.2) q.1.2)) =
      flRows sum kind pa (forestDepth forest + 1) (costLeaves sum s al tune forest) := by
  obtain ⟨h1, h2, h3⟩ := flGammaEtaForest_eq sum kind forest s pa
  rw [flatRows_map _ al _ _ _ _ _ _ _ h1 h2 h3]
  unfold flRows costLeaves
  rw [List.map_flatMap]
  congr 1
  funext c
  rw [List.map_map]
  refine List.map_congr_left fun q _ => ?_
  simp only [Function.comp_apply, CostLeaf.flRow, flLeafRow]

/-! ### the returned forests -/

theorem flValues (sum : List ℚ → ℚ) (kind : Kind) (forest : List (SkTree ℚ C)) (s : Style) (pa al : Bool)
    (tune : ℕ → List (TuneRow ℚ C)) (lamb : Fin (forestDepth forest + 1) → ℚ) :
    (flRows sum kind pa (forestDepth forest + 1) (costLeaves sum s al tune forest)).map
        (fun r => flSmoothValue sum r lamb) =
      (List.finRange C).flatMap fun c => (leafList forest).map fun p =>
        flSmoothValue sum (flLeafRow sum kind p.1 pa (p.1.distDepth s) (forestDepth forest + 1) p.2 c) lamb := by
  unfold flRows costLeaves
  rw [List.map_flatMap, List.map_flatMap]
  congr 1
  funext c
  rw [← leafListI_fst, List.map_map, List.map_map, List.map_map]
  refine List.map_congr_left fun q _ => ?_
  simp only [Function.comp_apply, CostLeaf.flRow, flSmoothValue]

/-- Inversion of a successful run of `flSmooth`. -/
theorem flSmooth_ok (hC : 0 < C) {sum : List ℚ → ℚ} {pow : ℚ → ℕ → ℚ} {sqrt : ℚ → ℚ}
    {ce : (n : ℕ) → SgdOpts ℚ → ℚ → List (Row ℚ n) → List ℚ → List ℕ →
      Except PyErr ((Fin n → ℚ) × (Fin n → ℚ) × List ℚ)}
    {kind : Kind} {forest : List (SkTree ℚ C)} (hwf : ∀ t ∈ forest, t.WF) {cfg : SmoothCfg ℚ} {src : TuneSrc}
    (hsrc : tuneSource cfg.data = .ok src)
    {sources : TuneSrc → ℕ → List (TuneRow ℚ C)} {out : SmoothOut ℚ C (forestDepth forest + 1)}
    (h : flSmooth sum pow sqrt ce (some kind) forest cfg sources = .ok out) :
    ∃ lamb, flInitLamb kind (forestDepth forest + 1) cfg.seed cfg.classEps = .ok lamb ∧
      flSmoothOptimise sum pow sqrt (ce _) kind cfg (flRows sum kind cfg.parentsAll (forestDepth forest + 1)
        (costLeaves sum cfg.style cfg.allTrees (sources src) forest)) lamb = .ok (out.lamb1, out.lamb2, out.costs) ∧
      List.Forall₂ (fun t t' => LeafUpdate t t' fun r c => flSmoothValue sum
        (flLeafRow sum kind t cfg.parentsAll (t.distDepth cfg.style) (forestDepth forest + 1) r c) out.lamb1) forest out.rf1 ∧
      List.Forall₂ (fun t t' => LeafUpdate t t' fun r c => (((leafList forest)[r.val]?).elim 0 fun p => flSmoothValue sum
        (flLeafRow sum kind p.1 cfg.parentsAll (p.1.distDepth cfg.style) (forestDepth forest + 1) p.2 c) out.lamb2))
        forest out.rf2 := by
  unfold flSmooth at h
  obtain ⟨⟨kind', src'⟩, h1, h⟩ := bind_ok h
  obtain ⟨yw, h2, h⟩ := bind_ok h
  obtain ⟨lamb, h3, h⟩ := bind_ok h
  obtain ⟨⟨l1, l2, cs⟩, h4, h⟩ := bind_ok h
  obtain ⟨rf1, h5, h⟩ := bind_ok h
  obtain ⟨rf2, h6, h⟩ := bind_ok h
  cases h
  obtain ⟨rfl, hs', -⟩ := smoothCheck_ok.1 h1
  rw [hsrc] at hs'
  cases hs'
  rcases flTuneSummaries_eq sum (decide (kind' = .cls) && decide (src ≠ .given)) forest (sources src) with ⟨hy, -⟩ | ⟨hy, -⟩
  swap
  · rw [hy] at h2; cases h2
  rw [hy] at h2
  cases h2
  rw [flFlatRows] at h4 h5 h6
  rw [flValues, reshapeF_flat hC (leafList forest)] at h5 h6
  refine ⟨lamb, h3, h4, ?_, ?_⟩
  · obtain ⟨ts', h7, h8⟩ := writeBack1_spec (fun p c => flSmoothValue sum
      (flLeafRow sum kind' p.1 cfg.parentsAll (p.1.distDepth cfg.style) (forestDepth forest + 1) p.2 c) l1) forest hwf []
    rw [List.nil_append, List.length_nil, h5] at h7
    cases h7
    exact h8
  · obtain ⟨ts', h9, h10⟩ := writeBack2_spec ((leafList forest).map fun (p : (t : SkTree ℚ C) × Fin t.nLeaves) (c : Fin C) => flSmoothValue sum
      (flLeafRow sum kind' p.1 cfg.parentsAll (p.1.distDepth cfg.style) (forestDepth forest + 1) p.2 c) l2) forest hwf
      (fun t ht => by simpa using nLeaves_le_leafList ht)
    rw [h6] at h9
    cases h9
    refine forall2_imp_mem h10 fun t ht t' hu => ?_
    obtain ⟨v, e, hv, hw⟩ := hu
    refine ⟨v, e, fun r c => ?_, hw⟩
    rw [hv]
    simp only [List.getElem?_map]
    cases (leafList forest)[r.val]? <;> rfl

/-- What is assumed of the data: well-formed trees with whole sample sizes, leaf values and responses at most `M` in
absolute value (for a classifier, class counts at most `M` times the sample size), and a bound `N` on the number of
leaves plus levels of a tree and on the number of tuning rows. -/
structure FlInput (kind : Kind) (forest : List (SkTree ℚ C)) (tune : ℕ → List (TuneRow ℚ C)) (N : ℕ) (M : ℚ) : Prop where
  wf : ∀ t ∈ forest, t.WF
  whole : ∀ t ∈ forest, WholeCounts t
  pos : ∀ t ∈ forest, ∀ j : Fin t.nLeaves, 0 < t.nSamp (t.leafNode j)
  size : ∀ t ∈ forest, t.nLeaves + (forestDepth forest + 1) + 3 ≤ N
  bound : ∀ t ∈ forest, ∀ c, LeafBound kind t M c
  count : ∀ i, (tune i).length + 1 ≤ N
  resp : ∀ i, ∀ q ∈ tune i, ∀ c, |q.y c| ≤ M

/-- The tuning mean of a leaf in doubles. -/
theorem flLeafMean_approx {sum : List ℚ → ℚ} (hs : IsFlSum sum) (rows : List (TuneRow ℚ C)) (i : ℕ) (c : Fin C) {M : ℚ}
    (hM : 0 ≤ M) (hr : ∀ q ∈ rows, |q.y c| ≤ M) {N : ℕ} (hN : rows.length + 1 ≤ N) (hN' : N ≤ 2 ^ 52) :
    |flLeafMean sum rows i c - leafMean rows i c| ≤ 2 * N / 2 ^ 53 * M ∧ |leafMean rows i c| ≤ M := by
  have hlen : (rows.filter fun r => r.leaf == i).length ≤ rows.length := List.length_filter_le _ _
  have hsum := hs ((rows.filter fun r => r.leaf == i).map fun r => r.y c)
  rw [List.length_map] at hsum
  have hA := Approx.sum (E := 1) (w := fun _ => M) (f := fun r : TuneRow ℚ C => r.y c) (f' := fun r => r.y c)
    (l := rows.filter fun r => r.leaf == i)
    (fun r hrm => Approx.exact (hr r (List.mem_of_mem_filter hrm))) hsum
  rw [List.map_const', List.sum_replicate, nsmul_eq_mul, mul_one] at hA
  have hw : leafWeight rows i = ((rows.filter fun r => r.leaf == i).length : ℚ) := rfl
  unfold flLeafMean leafMean
  rw [hw]
  generalize rows.filter (fun r => r.leaf == i) = F at *
  by_cases h0 : (F.length : ℚ) = 0
  · have : F = [] := by simpa using h0
    subst this
    have e : sum (([] : List (TuneRow ℚ C)).map fun r => r.y c) = 0 := by
      have := hA.1
      simp at this
      simpa using this
    rw [e]
    simp only [List.map_nil, List.sum_nil, zero_div, fl_of_float isFloat_zero, sub_zero, abs_zero]
    exact ⟨by positivity, hM⟩
  · have hp : (0 : ℚ) < F.length := lt_of_le_of_ne (by positivity) (Ne.symm h0)
    rw [if_neg h0]
    have h1 : Approx ((1 + 1 / 2 ^ 53) ^ F.length) M ((F.map fun r => r.y c).sum / F.length)
        (sum (F.map fun r => r.y c) / F.length) := by
      have := hA.mul (a := 1 / (F.length : ℚ)) (by positivity)
      rw [mul_one_div, mul_one_div, mul_one_div, mul_comm (F.length : ℚ) M, mul_div_assoc, div_self h0, mul_one] at this
      exact this
    have h2 := h1.fl
    rw [← pow_succ'] at h2
    refine ⟨h2.1.trans (mul_le_mul_of_nonneg_right ?_ hM), h2.2⟩
    have h3 := pow_small (F.length + 1) (by omega)
    have h4 : ((F.length + 1 : ℕ) : ℚ) ≤ N := by exact_mod_cast (by omega)
    have : 2 * ((F.length + 1 : ℕ) : ℚ) * (1 / 2 ^ 53) ≤ 2 * N / 2 ^ 53 := by
      rw [mul_one_div]
      apply div_le_div_of_nonneg_right _ (by positivity)
      linarith
    linarith

theorem leafListI_mem {forest : List (SkTree ℚ C)} {q : ((t : SkTree ℚ C) × Fin t.nLeaves) × ℕ}
    (h : q ∈ leafListI forest) : q.1.1 ∈ forest := by
  have : q.1 ∈ leafList forest := by
    rw [← leafListI_fst]; exact List.mem_map_of_mem h
  unfold leafList at this
  obtain ⟨t, ht, h2⟩ := List.mem_flatMap.1 this
  obtain ⟨r, -, h3⟩ := List.mem_map.1 h2
  rw [← h3]
  exact ht

theorem FlInput.leaf_cols {kind : Kind} {forest : List (SkTree ℚ C)} {tune : ℕ → List (TuneRow ℚ C)} {N : ℕ} {M : ℚ}
    (H : FlInput kind forest tune N M) {t : SkTree ℚ C} (ht : t ∈ forest) (s : Style) :
    t.maxDist (t.distDepth s) + 1 ≤ forestDepth forest + 1 := by
  have a := t.maxDist_le_depth (H.wf t ht) s
  have b := forestDepth_ge forest t ht
  omega

theorem FlInput.leaves_ok {kind : Kind} {forest : List (SkTree ℚ C)} {tune : ℕ → List (TuneRow ℚ C)} {N : ℕ} {M : ℚ}
    (H : FlInput kind forest tune N M) (hM : 0 ≤ M) (hN : N ≤ 2 ^ 46) {sum : List ℚ → ℚ} (hs : IsFlSum sum)
    (s : Style) (al : Bool) : ∀ p ∈ costLeaves sum s al tune forest, p.2.OK kind (forestDepth forest + 1) N (9 / 8 * M) := by
  intro p hp
  obtain ⟨c, -, hp⟩ := List.mem_flatMap.1 hp
  obtain ⟨q, hq, rfl⟩ := List.mem_map.1 hp
  have ht := leafListI_mem hq
  have hM' : M ≤ 9 / 8 * M := by linarith
  refine ⟨H.whole _ ht, H.pos _ ht, H.leaf_cols ht s, H.size _ ht, ?_, ?_, ?_⟩
  · intro j
    have := H.bound _ ht c j
    cases kind
    · exact this.trans hM'
    · exact this.trans (mul_le_mul_of_nonneg_right hM' (H.pos _ ht j).le)
  · obtain ⟨h1, h2⟩ := flLeafMean_approx hs (tune q.2) q.1.2 c hM (fun r hr => H.resp _ r hr c) (H.count q.2)
      (hN.trans (by norm_num))
    show |flLeafMean sum (tune q.2) q.1.2 c| ≤ _
    have h3 : 2 * (N : ℚ) / 2 ^ 53 * M ≤ 1 / 8 * M := by
      apply mul_le_mul_of_nonneg_right _ hM
      have : (N : ℚ) ≤ 2 ^ 46 := by exact_mod_cast hN
      rw [div_le_iff₀ (by positivity)]
      linarith
    have h4 := abs_sub_abs_le_abs_sub (flLeafMean sum (tune q.2) q.1.2 c) (leafMean (tune q.2) q.1.2 c)
    linarith
  · show 0 ≤ leafWeight (tune q.2) q.1.2
    unfold leafWeight
    positivity

/-! ### the weights -/

theorem flNormaliseE_ok {l x : List ℚ} (hl : ∀ y ∈ l, 0 ≤ y) (h : flNormaliseE l = .ok x) :
    ∀ y ∈ x, IsFloat y ∧ 0 ≤ y := by
  unfold flNormaliseE at h
  split_ifs at h
  rw [← Except.ok.inj h]
  intro y hy
  obtain ⟨z, hz, rfl⟩ := List.mem_map.1 hy
  have h0 : 0 ≤ npSum l := by
    refine le_trans (mul_nonneg (pow_nonneg (by norm_num) _) (nonneg_sum hl)) (npSum_bounds l hl).1
  exact ⟨fl_isFloat _, fl_nonneg (div_nonneg (hl z hz) h0)⟩

theorem flBase_entries (k : ℕ) : ∀ y ∈ flBaseLamb k none, IsFloat y ∧ 0 ≤ y := by
  intro y hy
  simp only [flBaseLamb, List.mem_cons, List.mem_replicate] at hy
  rcases hy with rfl | ⟨-, rfl⟩
  · exact ⟨by simpa using isFloat_nat (m := 1) (by norm_num), by norm_num⟩
  · exact ⟨isFloat_zero, le_refl _⟩

theorem flInitLamb_ok {kind : Kind} {k : ℕ} {seed : Option (ℕ → ℚ)} {eps : ℚ} {l : List ℚ}
    (hu : ∀ u, seed = some u → ∀ i, 0 ≤ u i) (he : 0 ≤ eps) (h : flInitLamb kind k seed eps = .ok l) :
    ∀ y ∈ l, IsFloat y ∧ 0 ≤ y := by
  unfold flInitLamb at h
  obtain ⟨b, hb, h⟩ := bind_ok h
  have hb' : ∀ y ∈ b, IsFloat y ∧ 0 ≤ y := by
    cases seed with
    | none => rw [← Except.ok.inj hb]; exact flBase_entries k
    | some u =>
      refine flNormaliseE_ok ?_ hb
      intro y hy
      obtain ⟨i, -, rfl⟩ := List.mem_map.1 hy
      exact hu u rfl i
  cases kind with
  | reg => rw [← Except.ok.inj h]; exact hb'
  | cls =>
    obtain ⟨d, hd, h⟩ := bind_ok h
    refine flNormaliseE_ok (fun y hy => (flNormaliseE_ok ?_ hd y hy).2) h
    intro y hy
    obtain ⟨z, hz, rfl⟩ := List.mem_map.1 hy
    have := (hb' z hz).2
    refine fl_nonneg (add_nonneg this (fl_nonneg (div_nonneg (fl_nonneg (by linarith)) (by positivity))))

theorem flNormaliseE_pos {l : List ℚ} (hl : ∀ y ∈ l, 0 ≤ y) (hp : ∃ y ∈ l, 0 < y) :
    ∃ x, flNormaliseE l = .ok x ∧ (∀ y ∈ x, 0 ≤ y) ∧ (∃ y ∈ x, 0 < y) := by
  obtain ⟨z, hz, hz0⟩ := hp
  have hs : 0 < npSum l :=
    lt_of_lt_of_le (mul_pos (pow_pos (by norm_num) _) (lt_of_lt_of_le hz0 (List.single_le_sum hl z hz)))
      (npSum_bounds l hl).1
  refine ⟨flNormalise l, by unfold flNormaliseE; rw [if_neg hs.ne'], ?_, ?_⟩
  · intro y hy
    obtain ⟨w, hw, rfl⟩ := List.mem_map.1 hy
    exact fl_nonneg (div_nonneg (hl w hw) hs.le)
  · refine ⟨_, List.mem_map.2 ⟨z, hz, rfl⟩, ?_⟩
    have h0 := div_pos hz0 hs
    have := (fl_bounds h0.le).1
    have h1 : (0 : ℚ) < (1 - 1 / 2 ^ 53) * (z / npSum l) := mul_pos (by norm_num) h0
    linarith

/-- C199: the starting weights from a seed that is not negative are made exactly when some of its first entries is not 0 (all
zeros give NaN); without a seed always. -/
theorem C199_start (kind : Kind) (k : ℕ) {eps : ℚ} (he : 0 ≤ eps) :
    (0 < k → ∃ l, flInitLamb kind k none eps = .ok l) ∧
    ∀ u : ℕ → ℚ, (∀ i, 0 ≤ u i) →
      ((∃ l, flInitLamb kind k (some u) eps = .ok l) ↔ ∃ i < k, u i ≠ 0) ∧
      ((¬ ∃ i < k, u i ≠ 0) → flInitLamb kind k (some u) eps = .error .nonFinite) := by
  have step : ∀ b : List ℚ, (∀ y ∈ b, 0 ≤ y) → (∃ y ∈ b, 0 < y) → ∀ seed, flBaseLambE k seed = .ok b →
      ∃ l, flInitLamb kind k seed eps = .ok l := by
    intro b hb hb0 seed hs
    unfold flInitLamb
    rw [hs]
    cases kind with
    | reg => exact ⟨b, rfl⟩
    | cls =>
      have hc : 0 ≤ fl (fl (1 * eps) / (k : ℚ)) := fl_nonneg (div_nonneg (fl_nonneg (by linarith)) (by positivity))
      obtain ⟨x, hx, hx0, hxp⟩ := flNormaliseE_pos (l := b.map fun x => fl (x + fl (fl (1 * eps) / (k : ℚ))))
        (by
          intro y hy
          obtain ⟨z, hz, rfl⟩ := List.mem_map.1 hy
          exact fl_nonneg (add_nonneg (hb z hz) hc))
        (by
          obtain ⟨z, hz, hz0⟩ := hb0
          refine ⟨_, List.mem_map.2 ⟨z, hz, rfl⟩, ?_⟩
          have h0 : 0 < z + fl (fl (1 * eps) / (k : ℚ)) := by linarith
          have := (fl_bounds h0.le).1
          have h1 : (0 : ℚ) < (1 - 1 / 2 ^ 53) * (z + fl (fl (1 * eps) / (k : ℚ))) := mul_pos (by norm_num) h0
          linarith)
      obtain ⟨l, hl, -⟩ := flNormaliseE_pos hx0 hxp
      refine ⟨l, ?_⟩
      simp only [bind, Except.bind]
      rw [hx]
      exact hl
  have hzero : ∀ u : ℕ → ℚ, (¬ ∃ i < k, u i ≠ 0) → flInitLamb kind k (some u) eps = .error .nonFinite := by
    intro u hu
    have h0 : npSum ((List.range k).map u) = 0 := by
      have e : (List.range k).map u = (List.range k).map fun _ => (0 : ℚ) := by
        refine List.map_congr_left fun i hi => ?_
        by_contra h
        exact hu ⟨i, List.mem_range.1 hi, h⟩
      have hb := (npSum_rsum ((List.range k).map u)).bounds (by rw [e]; simp)
      rw [e] at hb ⊢
      simp only [List.map_const', List.sum_replicate, smul_zero, mul_zero] at hb ⊢
      exact le_antisymm hb.2 hb.1
    unfold flInitLamb flBaseLambE flNormaliseE
    simp only
    rw [if_pos h0]
    rfl
  refine ⟨fun hk => ?_, fun u hu => ⟨⟨fun ⟨l, hl⟩ => ?_, fun ⟨i, hi, hi0⟩ => ?_⟩, hzero u⟩⟩
  · exact step _ (fun y hy => (flBase_entries k y hy).2) ⟨1, by simp [flBaseLamb], by norm_num⟩ none rfl
  · by_contra h
    rw [hzero u h] at hl
    cases hl
  · obtain ⟨b, hb, hb0, hbp⟩ := flNormaliseE_pos (l := (List.range k).map u)
      (by
        intro y hy
        obtain ⟨j, -, rfl⟩ := List.mem_map.1 hy
        exact hu j)
      ⟨u i, List.mem_map.2 ⟨i, List.mem_range.2 hi, rfl⟩, lt_of_le_of_ne (hu i) (Ne.symm hi0)⟩
    exact step b hb0 hbp (some u) hb

example : (∀ i : ℕ, (0 : ℚ) ≤ if i = 1 then 3 else 0) ∧ (∃ i < 2, (if i = 1 then 3 else 0 : ℚ) ≠ 0) ∧
    (match flInitLamb .reg 2 (some fun i => if i = 1 then 3 else 0) (1 / 8) with | .ok l => some l | .error _ => none) =
      some [0, 1] ∧
    (match flInitLamb .reg 1 (some fun i => if i = 1 then 3 else 0) (1 / 8) with | .ok l => some l | .error _ => none) =
      none := by
  refine ⟨fun i => by split_ifs <;> norm_num, ⟨1, by norm_num⟩, by decide +kernel, by decide +kernel⟩

theorem toVec_entries {n : ℕ} {l : List ℚ} (h : ∀ y ∈ l, IsFloat y ∧ 0 ≤ y) (k : Fin n) :
    IsFloat (toVec n l k) ∧ 0 ≤ toVec n l k := by
  unfold toVec
  rw [List.getD_eq_getElem?_getD]
  rcases hk : l[k.val]? with _ | y
  · exact ⟨isFloat_zero, le_refl _⟩
  · exact h y (List.mem_of_getElem? hk)

theorem leafListI_sum (forest : List (SkTree ℚ C)) (f : ((t : SkTree ℚ C) × Fin t.nLeaves) × ℕ → ℚ) :
    ((leafListI forest).map f).sum = (forest.zipIdx.map fun tt => ∑ r : Fin tt.1.nLeaves, f (⟨tt.1, r⟩, tt.2)).sum := by
  rw [leafListI, List.map_flatMap, List.flatMap, List.sum_flatten, List.map_map]
  congr 1
  refine List.map_congr_left fun tt _ => ?_
  simp only [Function.comp, List.map_map]
  rw [Fin.sum_univ_def]
  rfl

theorem leafListI_nrows (forest : List (SkTree ℚ C)) :
    (leafListI forest).length = (forest.map fun t => t.nLeaves).sum := by
  have h : (leafListI forest).length = (leafList forest).length := by rw [← leafListI_fst, List.length_map]
  rw [h]
  unfold leafList
  rw [List.length_flatMap]
  simp

theorem costLeaves_length (sum : List ℚ → ℚ) (s : Style) (al : Bool) (tune : ℕ → List (TuneRow ℚ C))
    (forest : List (SkTree ℚ C)) :
    (costLeaves sum s al tune forest).length = C * (forest.map fun t => t.nLeaves).sum := by
  unfold costLeaves
  rw [flatMap_block_length (leafListI forest) (fun q c => (if al then 0 else q.2,
      ({ t := q.1.1, D := q.1.1.distDepth s, i := q.1.2, c := c
         y := flLeafMean sum (tune q.2) q.1.2 c, w := leafWeight (tune q.2) q.1.2 } : CostLeaf C))),
    List.length_finRange, leafListI_nrows]

/-- A sum over the rows of the optimiser, tree by tree. -/
theorem costLeaves_sum (sum : List ℚ → ℚ) (s : Style) (al : Bool) (tune : ℕ → List (TuneRow ℚ C))
    (forest : List (SkTree ℚ C)) (F : CostLeaf C → ℚ) :
    (((costLeaves sum s al tune forest).map (·.2)).map F).sum =
      (forest.zipIdx.map fun tt => ∑ r : Fin tt.1.nLeaves, ∑ c : Fin C,
        F { t := tt.1, D := tt.1.distDepth s, i := r, c := c
            y := flLeafMean sum (tune tt.2) r c, w := leafWeight (tune tt.2) r }).sum := by
  unfold costLeaves
  rw [List.map_map, List.map_flatMap, List.flatMap, List.sum_flatten, List.map_map]
  simp only [Function.comp_def, List.map_map]
  rw [← Fin.sum_univ_def, sum_list_finset', leafListI_sum]

variable {pow : ℚ → ℕ → ℚ} {sqrt : ℚ → ℚ}
  {ce : (n : ℕ) → SgdOpts ℚ → ℚ → List (Row ℚ n) → List ℚ → List ℕ →
    Except PyErr ((Fin n → ℚ) × (Fin n → ℚ) × List ℚ)}

/-- A successful constrained optimisation in doubles: either nothing is optimised, or the result is that of
`flSgdRun`. -/
theorem flOptimise_ok {n : ℕ} {sum : List ℚ → ℚ} {cfg : SmoothCfg ℚ} {kind : Kind}
    {ce : SgdOpts ℚ → ℚ → List (Row ℚ n) → List ℚ → List ℕ → Except PyErr ((Fin n → ℚ) × (Fin n → ℚ) × List ℚ)}
    (hk : cfg.sanityCheck = true ∨ kind = .reg ∨ cfg.lossL2 = true) {rows : List (Row ℚ n)} {lamb : List ℚ}
    {r : (Fin n → ℚ) × (Fin n → ℚ) × List ℚ} (h : flSmoothOptimise sum pow sqrt ce kind cfg rows lamb = .ok r) :
    r = (toVec n lamb, toVec n lamb, []) ∨ (rows ≠ [] ∧
      flSgdRun sum pow sqrt ⟨cfg.tFix, !cfg.noConstraint, cfg.adam⟩ rows (toVec n lamb) cfg.steps = .ok r) := by
  unfold flSmoothOptimise at h
  by_cases hsan : cfg.sanityCheck = true
  · rw [if_pos hsan] at h
    exact Or.inl (Except.ok.inj h).symm
  · rw [if_neg hsan] at h
    have hk' : kind = .reg ∨ cfg.lossL2 = true := by tauto
    simp only [if_pos hk'] at h
    obtain ⟨-, -, h⟩ := bind_ok h
    refine Or.inr ⟨?_, h⟩
    rintro rfl
    unfold flSgdRun at h
    obtain ⟨c0, -, h⟩ := bind_ok h
    simp at h

/-- C199: `smooth` in doubles changes leaf values only. In the first forest each leaf holds, up to rounding, the exact
smoothed value at the returned weights; the second forest repeats the values of the first leaves. Both weight vectors
are non-negative doubles. -/
theorem C199_forests {sum : List ℚ → ℚ} (hs : IsFlSum sum) (hC : 0 < C) {kind : Kind} {forest : List (SkTree ℚ C)}
    {cfg : SmoothCfg ℚ} {src : TuneSrc} (hsrc : tuneSource cfg.data = .ok src)
    {sources : TuneSrc → ℕ → List (TuneRow ℚ C)} {N : ℕ} {M : ℚ} (H : FlInput kind forest (sources src) N M) (hM : 0 ≤ M)
    (hN : N ≤ 2 ^ 46) (hR : C * (forest.map fun t => t.nLeaves).sum + 4 ≤ 2 ^ 49) (hnc : cfg.noConstraint = false)
    (hk : cfg.sanityCheck = true ∨ kind = .reg ∨ cfg.lossL2 = true)
    (hu : ∀ u, cfg.seed = some u → ∀ i, 0 ≤ u i) (he : 0 ≤ cfg.classEps) {out : SmoothOut ℚ C (forestDepth forest + 1)}
    (h : flSmooth sum pow sqrt ce (some kind) forest cfg sources = .ok out) :
    (∀ k, IsFloat (out.lamb1 k) ∧ 0 ≤ out.lamb1 k) ∧ (∀ k, IsFloat (out.lamb2 k) ∧ 0 ≤ out.lamb2 k) ∧
    List.Forall₂ (fun t t' => ∃ f, LeafUpdate t t' f ∧ ∀ r c,
      |f r c - smoothSpec kind t cfg.style cfg.parentsAll out.lamb1 r c| ≤ 8 * N * (1 / 2 ^ 53) * M) forest out.rf1 ∧
    List.Forall₂ (fun t t' => ∃ f, LeafUpdate t t' f ∧ ∀ r c,
      |f r c - (((leafList forest)[r.val]?).elim 0 fun p =>
        smoothSpec kind p.1 cfg.style cfg.parentsAll out.lamb2 p.2 c)| ≤ 8 * N * (1 / 2 ^ 53) * M) forest out.rf2 := by
  obtain ⟨lamb, h1, h2, h3, h4⟩ := flSmooth_ok hC H.wf hsrc h
  have hl := flInitLamb_ok hu he h1
  have hl' : ∀ k, IsFloat (toVec (forestDepth forest + 1) lamb k) ∧ 0 ≤ toVec (forestDepth forest + 1) lamb k :=
    toVec_entries hl
  have hw : (∀ k, IsFloat (out.lamb1 k) ∧ 0 ≤ out.lamb1 k) ∧ (∀ k, IsFloat (out.lamb2 k) ∧ 0 ≤ out.lamb2 k) := by
    rcases flOptimise_ok hk h2 with e | ⟨hne, hrun⟩
    · rw [Prod.mk.injEq, Prod.mk.injEq] at e
      rw [e.1, e.2.1]
      exact ⟨hl', hl'⟩
    · obtain ⟨vs, -, -, -, hb, hlast, hall, -⟩ := C198_best hs pow sqrt kind cfg.parentsAll _ N (9 / 8 * M) (by positivity) hN
        _ (H.leaves_ok hM hN hs cfg.style cfg.allTrees) (by rintro e; rw [e] at hne; exact hne rfl)
        (by rw [costLeaves_length]; exact hR) _ (by simp [hnc]) _ hl' _ hrun
      refine ⟨hall _ hb, hall _ ?_⟩
      rw [hlast]
      rcases hv : vs.getLast? with _ | x
      · simp
      · exact List.mem_cons_of_mem _ (List.mem_of_getLast? hv)
  refine ⟨hw.1, hw.2, ?_, ?_⟩
  · refine forall2_imp_mem h3 fun t ht t' hu => ⟨_, hu, fun r c => ?_⟩
    have hv := (C164_value hs kind t (H.whole t ht) cfg.parentsAll (t.distDepth cfg.style) (forestDepth forest + 1)
      (H.leaf_cols ht cfg.style) ((H.size t ht).trans (hN.trans (by norm_num))) r c out.lamb1 (fun k => (hw.1 k).2) hM
      (H.bound t ht c)).1
    refine le_trans hv ?_
    have : ((t.nLeaves + (forestDepth forest + 1) + 3 : ℕ) : ℚ) ≤ N := by exact_mod_cast H.size t ht
    gcongr
  · refine forall2_imp_mem h4 fun t ht t' hu => ⟨_, hu, fun r c => ?_⟩
    rcases hp : (leafList forest)[r.val]? with _ | p
    · simp only [Option.elim_none, sub_zero, abs_zero]; positivity
    · simp only [Option.elim_some]
      have hpt : p.1 ∈ forest := by
        have := List.mem_of_getElem? hp
        unfold leafList at this
        obtain ⟨t, ht, h2⟩ := List.mem_flatMap.1 this
        obtain ⟨r, -, h3⟩ := List.mem_map.1 h2
        rw [← h3]
        exact ht
      have hv := (C164_value hs kind p.1 (H.whole _ hpt) cfg.parentsAll (p.1.distDepth cfg.style) (forestDepth forest + 1)
        (H.leaf_cols hpt cfg.style) ((H.size _ hpt).trans (hN.trans (by norm_num))) p.2 c out.lamb2
        (fun k => (hw.2 k).2) hM (H.bound _ hpt c)).1
      refine le_trans hv ?_
      have : ((p.1.nLeaves + (forestDepth forest + 1) + 3 : ℕ) : ℚ) ≤ N := by exact_mod_cast H.size _ hpt
      gcongr

/-! ### the tuning error -/

/-- One leaf: what is lost by rounding the mean and the new value. -/
theorem loss_step {y y' v v' s M d : ℚ} (hy : |y| ≤ M) (hv : |v| ≤ M) (hs : |s| ≤ M) (h1 : |y' - y| ≤ 2 * d)
    (h2 : |v' - s| ≤ 8 * d) (hd : 0 ≤ d) (hdM : 128 * d ≤ M) :
    (y - v') ^ 2 - (y - v) ^ 2 ≤ (y' - s) ^ 2 - (y' - v) ^ 2 + 41 * (d * M) := by
  have e : (y - v') ^ 2 - (y - v) ^ 2 - ((y' - s) ^ 2 - (y' - v) ^ 2) =
      (v' - s) ^ 2 + 2 * (y' - y) * (v' - s) - 2 * (v' - s) * (y' - s) - 2 * (y' - y) * (v - s) := by ring
  have ha := _root_.abs_le.1 h1
  have hb := _root_.abs_le.1 h2
  have hM : 0 ≤ M := (abs_nonneg _).trans hy
  have t1 : (v' - s) ^ 2 ≤ 64 * (d * d) := by
    rw [← sq_abs]
    nlinarith [abs_nonneg (v' - s)]
  have t2 : |2 * (y' - y) * (v' - s)| ≤ 32 * (d * d) := by
    rw [abs_mul, abs_mul, abs_two]
    nlinarith [mul_le_mul h1 h2 (abs_nonneg _) (by linarith)]
  have hys : |y' - s| ≤ 2 * d + 2 * M := by
    have : y' - s = (y' - y) + (y - s) := by ring
    rw [this]
    refine (abs_add_le _ _).trans ?_
    have := abs_sub y s
    linarith
  have hvs : |v - s| ≤ 2 * M := (abs_sub v s).trans (by linarith)
  have t3 : |2 * (v' - s) * (y' - s)| ≤ 32 * (d * d) + 32 * (d * M) := by
    rw [abs_mul, abs_mul, abs_two]
    nlinarith [mul_le_mul h2 hys (abs_nonneg _) (by linarith)]
  have t4 : |2 * (y' - y) * (v - s)| ≤ 8 * (d * M) := by
    rw [abs_mul, abs_mul, abs_two]
    nlinarith [mul_le_mul h1 hvs (abs_nonneg _) (by linarith)]
  have t5 : 128 * (d * d) ≤ d * M := by nlinarith
  have := _root_.abs_le.1 t2
  have := _root_.abs_le.1 t3
  have := _root_.abs_le.1 t4
  linarith

theorem sum_leafWeight_le (rows : List (TuneRow ℚ C)) (n : ℕ) : ∑ r : Fin n, leafWeight rows r ≤ rows.length := by
  induction rows with
  | nil => simp [leafWeight]
  | cons q rows ih =>
    have h2 : ∀ r : Fin n, leafWeight (q :: rows) r = (if q.leaf = r.val then 1 else 0) + leafWeight rows r := by
      intro r
      unfold leafWeight
      rw [List.filter_cons]
      by_cases hi : q.leaf = r.val
      · simp [hi, add_comm]
      · have : (q.leaf == r.val) = false := by simpa using hi
        simp [this, hi]
    rw [Finset.sum_congr rfl fun r _ => h2 r, Finset.sum_add_distrib, List.length_cons]
    have h3 : ∑ r : Fin n, (if q.leaf = r.val then (1 : ℚ) else 0) ≤ 1 := by
      by_cases hq : q.leaf < n
      · rw [Finset.sum_eq_single (⟨q.leaf, hq⟩ : Fin n)]
        · simp
        · intro r _ hr
          rw [if_neg]
          intro e; exact hr (Fin.ext e.symm)
        · simp
      · rw [Finset.sum_eq_zero]
        · norm_num
        · intro r _
          rw [if_neg]
          intro e; exact hq (e ▸ r.2)
    push_cast
    linarith

/-- Sum over trees, leaves and classes. -/
def overLeaves (forest : List (SkTree ℚ C)) (F : (tt : SkTree ℚ C × ℕ) → Fin tt.1.nLeaves → Fin C → ℚ) : ℚ :=
  (forest.zipIdx.map fun tt => ∑ r, ∑ c, F tt r c).sum

theorem overLeaves_le {forest : List (SkTree ℚ C)} {F G : (tt : SkTree ℚ C × ℕ) → Fin tt.1.nLeaves → Fin C → ℚ}
    (h : ∀ tt ∈ forest.zipIdx, ∀ r c, F tt r c ≤ G tt r c) : overLeaves forest F ≤ overLeaves forest G := by
  unfold overLeaves
  apply List.sum_le_sum
  intro tt htt
  exact Finset.sum_le_sum fun r _ => Finset.sum_le_sum fun c _ => h tt htt r c

theorem overLeaves_add (forest : List (SkTree ℚ C)) (F G : (tt : SkTree ℚ C × ℕ) → Fin tt.1.nLeaves → Fin C → ℚ) :
    overLeaves forest (fun tt r c => F tt r c + G tt r c) = overLeaves forest F + overLeaves forest G := by
  unfold overLeaves
  rw [← List.sum_map_add]
  simp only [Finset.sum_add_distrib]

theorem overLeaves_mul (forest : List (SkTree ℚ C)) (F : (tt : SkTree ℚ C × ℕ) → Fin tt.1.nLeaves → Fin C → ℚ) (a : ℚ) :
    overLeaves forest (fun tt r c => a * F tt r c) = a * overLeaves forest F := by
  unfold overLeaves
  rw [← List.sum_map_mul_left]
  simp only [Finset.mul_sum]

theorem overLeaves_congr {forest : List (SkTree ℚ C)} {F G : (tt : SkTree ℚ C × ℕ) → Fin tt.1.nLeaves → Fin C → ℚ}
    (h : ∀ tt ∈ forest.zipIdx, ∀ r c, F tt r c = G tt r c) : overLeaves forest F = overLeaves forest G := by
  unfold overLeaves
  congr 1
  refine List.map_congr_left fun tt htt => ?_
  exact Finset.sum_congr rfl fun r _ => Finset.sum_congr rfl fun c _ => h tt htt r c

theorem overLeaves_weight (forest : List (SkTree ℚ C)) (tune : ℕ → List (TuneRow ℚ C)) :
    overLeaves forest (fun tt r _ => leafWeight (tune tt.2) r) ≤
      C * (forest.zipIdx.map fun tt => ((tune tt.2).length : ℚ)).sum := by
  unfold overLeaves
  rw [← List.sum_map_mul_left]
  apply List.sum_le_sum
  intro tt _
  simp only [Finset.sum_const, Finset.card_univ, Fintype.card_fin, nsmul_eq_mul]
  rw [← Finset.mul_sum]
  exact mul_le_mul_of_nonneg_left (sum_leafWeight_le _ _) (by positivity)

theorem mem_zipIdx_fst {forest : List (SkTree ℚ C)} {tt : SkTree ℚ C × ℕ} (h : tt ∈ forest.zipIdx) : tt.1 ∈ forest := by
  have := List.mem_map_of_mem (f := Prod.fst) h
  rwa [List.zipIdx_map_fst] at this

/-- The exact cost of the rows with the rounded tuning means. -/
theorem flCost_spec {kind : Kind} {forest : List (SkTree ℚ C)} {tune : ℕ → List (TuneRow ℚ C)} {N : ℕ} {M : ℚ}
    (H : FlInput kind forest tune N M) (hM : 0 ≤ M) (hN : N ≤ 2 ^ 46) {sum : List ℚ → ℚ} (hs : IsFlSum sum)
    (s : Style) (pa al : Bool) (lamb : Fin (forestDepth forest + 1) → ℚ) (hl : ∀ k, 0 ≤ lamb k) :
    calcCost (((costLeaves sum s al tune forest).map (·.2)).map fun q => q.row kind pa (forestDepth forest + 1)) lamb =
      .ok (overLeaves forest fun tt r c => (flLeafMean sum (tune tt.2) r c - smoothSpec kind tt.1 s pa lamb r c) ^ 2 *
        leafWeight (tune tt.2) r) := by
  have hL := H.leaves_ok hM hN hs s al
  have hL' : ∀ q ∈ (costLeaves sum s al tune forest).map (·.2), CostLeaf.OK kind (forestDepth forest + 1) N (9 / 8 * M) q :=
    fun q hq => by obtain ⟨p, hp, rfl⟩ := List.mem_map.1 hq; exact hL p hp
  rw [calcCost_rows pa _ hL' lamb hl]
  congr 1
  have e : (((costLeaves sum s al tune forest).map (·.2)).map fun l =>
      residual (l.row kind pa (forestDepth forest + 1)) lamb ^ 2 * l.w) =
      ((costLeaves sum s al tune forest).map (·.2)).map fun l =>
      (l.y - smoothValue (leafRow kind l.t pa l.D (forestDepth forest + 1) l.i l.c) lamb) ^ 2 * l.w :=
    List.map_congr_left fun l hlL => by rw [(hL' l hlL).residual_eq pa lamb hl]
  rw [e, costLeaves_sum]
  refine overLeaves_congr fun tt htt r c => ?_
  have ht := mem_zipIdx_fst htt
  rw [(C164_value hs kind tt.1 (H.whole _ ht) pa (tt.1.distDepth s) (forestDepth forest + 1)
    (H.leaf_cols ht s) ((H.size _ ht).trans (hN.trans (by norm_num))) r c lamb hl hM (H.bound _ ht c)).2]
  rfl

theorem forestSSE_split (forest : List (SkTree ℚ C)) (tune : ℕ → List (TuneRow ℚ C)) :
    forestSSE forest tune = (forest.zipIdx.map fun tt => withinSS tt.1.nLeaves (tune tt.2)).sum +
      overLeaves forest fun tt r c => (leafMean (tune tt.2) r c - tt.1.value (tt.1.leafNode r) c) ^ 2 *
        leafWeight (tune tt.2) r := by
  unfold forestSSE overLeaves
  rw [← List.sum_map_add]
  congr 1
  exact List.map_congr_left fun tt _ => treeSSE_split _ _

theorem toVec_base (n : ℕ) (i : Fin (n + 1)) : toVec (n + 1) (flBaseLamb (n + 1) none) i = if i = 0 then 1 else 0 := by
  unfold toVec flBaseLamb
  refine Fin.cases ?_ (fun j => ?_) i
  · simp
  · simp [List.getD_eq_getElem?_getD, Fin.succ_ne_zero]

/-- C199: for a regression forest and the default start, the squared error of the first returned forest on the tuning
rows exceeds that of the original forest by rounding at most, for any step size, number of steps, tree choices, with or
without Adam. -/
theorem C199_never_worse {sum : List ℚ → ℚ} (hs : IsFlSum sum) (hC : 0 < C) {forest : List (SkTree ℚ C)}
    {cfg : SmoothCfg ℚ} {src : TuneSrc} (hsrc : tuneSource cfg.data = .ok src)
    {sources : TuneSrc → ℕ → List (TuneRow ℚ C)} {N : ℕ} {M : ℚ} (H : FlInput .reg forest (sources src) N M) (hM : 0 ≤ M)
    (hN : N ≤ 2 ^ 46) (hR : C * (forest.map fun t => t.nLeaves).sum + 4 ≤ 2 ^ 49) (hnc : cfg.noConstraint = false)
    (hseed : cfg.seed = none) {out : SmoothOut ℚ C (forestDepth forest + 1)}
    (h : flSmooth sum pow sqrt ce (some .reg) forest cfg sources = .ok out) :
    forestSSE out.rf1 (sources src) ≤ forestSSE forest (sources src) +
      160 * (N + C * (forest.map fun t => t.nLeaves).sum + 4 : ℕ) / 2 ^ 53 * M ^ 2 *
        (C * (forest.zipIdx.map fun tt => ((sources src tt.2).length : ℚ)).sum) := by
  obtain ⟨lamb, h1, h2, h3, -⟩ := flSmooth_ok hC H.wf hsrc h
  have hlamb : lamb = flBaseLamb (forestDepth forest + 1) none := by
    rw [hseed] at h1; exact (Except.ok.inj h1).symm
  subst hlamb
  have he0 := toVec_base (forestDepth forest)
  have hl' : ∀ k, IsFloat (toVec (forestDepth forest + 1) (flBaseLamb (forestDepth forest + 1) none) k) ∧
      0 ≤ toVec (forestDepth forest + 1) (flBaseLamb (forestDepth forest + 1) none) k :=
    toVec_entries (flBase_entries _)
  have hopt := flOptimise_ok (Or.inr (Or.inl rfl)) h2
  generalize toVec (forestDepth forest + 1) (flBaseLamb (forestDepth forest + 1) none) = e0 at he0 hl' hopt
  let cost : (Fin (forestDepth forest + 1) → ℚ) → ℚ := fun lamb => overLeaves forest fun tt r c =>
    (flLeafMean sum (sources src tt.2) r c - smoothSpec .reg tt.1 cfg.style cfg.parentsAll lamb r c) ^ 2 *
      leafWeight (sources src tt.2) r
  have hWt := overLeaves_weight forest (sources src)
  have hWt0 : 0 ≤ overLeaves forest (fun tt r _ => leafWeight (sources src tt.2) r) := by
    have := overLeaves_le (forest := forest) (F := fun _ _ _ => 0)
      (G := fun tt r _ => leafWeight (sources src tt.2) r) (fun tt _ r c => by unfold leafWeight; positivity)
    simpa [overLeaves] using this
  -- the weights returned are no worse than the start
  have hcost : (∀ k, 0 ≤ out.lamb1 k) ∧ cost out.lamb1 ≤ cost e0 +
      88 * (N + (C * (forest.map fun t => t.nLeaves).sum : ℕ) + 4) / 2 ^ 53 * (9 / 8 * M) ^ 2 *
        overLeaves forest (fun tt r _ => leafWeight (sources src tt.2) r) := by
    rcases hopt with e | ⟨hne, hrun⟩
    · rw [Prod.mk.injEq] at e
      rw [e.1]
      refine ⟨fun k => (hl' k).2, ?_⟩
      have : 0 ≤ 88 * ((N : ℚ) + (C * (forest.map fun t => t.nLeaves).sum : ℕ) + 4) / 2 ^ 53 * (9 / 8 * M) ^ 2 *
        overLeaves forest (fun tt r _ => leafWeight (sources src tt.2) r) := by positivity
      linarith
    · obtain ⟨vs, -, -, -, hb, -, hall, hbest⟩ := C198_best hs pow sqrt .reg cfg.parentsAll _ N (9 / 8 * M)
        (by positivity) hN _ (H.leaves_ok hM hN hs cfg.style cfg.allTrees) (by rintro e; rw [e] at hne; exact hne rfl)
        (by rw [costLeaves_length]; exact hR) _ (by simp [hnc]) _ hl' _ hrun
      refine ⟨fun k => (hall _ hb k).2, ?_⟩
      obtain ⟨c0, c, e1, e2, e3⟩ := hbest e0 (List.mem_cons_self ..)
      rw [flCost_spec H hM hN hs cfg.style cfg.parentsAll cfg.allTrees _ fun k => (hall _ hb k).2] at e1
      rw [flCost_spec H hM hN hs cfg.style cfg.parentsAll cfg.allTrees _ fun k => (hl' k).2] at e2
      have ew := costLeaves_sum sum cfg.style cfg.allTrees (sources src) forest fun l => l.w
      rw [List.map_map] at ew
      rw [← Except.ok.inj e1, ← Except.ok.inj e2, costLeaves_length] at e3
      rw [show (overLeaves forest fun tt r _ => leafWeight (sources src tt.2) r) =
        ((costLeaves sum cfg.style cfg.allTrees (sources src) forest).map fun p => p.2.w).sum from ew.symm]
      exact e3
  have hnew : forestSSE out.rf1 (sources src) =
      (forest.zipIdx.map fun tt => withinSS tt.1.nLeaves (sources src tt.2)).sum +
      overLeaves forest fun tt r c => (leafMean (sources src tt.2) r c - flSmoothValue sum (flLeafRow sum .reg tt.1
        cfg.parentsAll (tt.1.distDepth cfg.style) (forestDepth forest + 1) r c) out.lamb1) ^ 2 *
        leafWeight (sources src tt.2) r := by
    unfold overLeaves
    rw [forestSSE, ← List.sum_map_add]
    refine forall2_zipIdx_sum h3 _ _ ?_ 0
    rintro t _ i ⟨v, rfl, hv, -⟩
    rw [treeSSE_split]
    congr 1
    refine Finset.sum_congr rfl fun r _ => Finset.sum_congr rfl fun c _ => ?_
    show (_ - v (t.leafNode r) c) ^ 2 * _ = _
    rw [hv r c]
  have hd0 : 0 ≤ (N : ℚ) / 2 ^ 53 * M := by positivity
  have hdM : 128 * ((N : ℚ) / 2 ^ 53 * M) ≤ M := by
    have : (N : ℚ) ≤ 2 ^ 46 := by exact_mod_cast hN
    have h5 : 128 * ((N : ℚ) / 2 ^ 53) ≤ 1 := by
      rw [← mul_div_assoc, div_le_iff₀ (by positivity)]; linarith
    nlinarith
  have step : overLeaves forest (fun tt r c => (leafMean (sources src tt.2) r c - flSmoothValue sum (flLeafRow sum .reg tt.1
        cfg.parentsAll (tt.1.distDepth cfg.style) (forestDepth forest + 1) r c) out.lamb1) ^ 2 *
        leafWeight (sources src tt.2) r + (flLeafMean sum (sources src tt.2) r c -
          smoothSpec .reg tt.1 cfg.style cfg.parentsAll e0 r c) ^ 2 * leafWeight (sources src tt.2) r) ≤
      overLeaves forest fun tt r c => (leafMean (sources src tt.2) r c - tt.1.value (tt.1.leafNode r) c) ^ 2 *
        leafWeight (sources src tt.2) r + ((flLeafMean sum (sources src tt.2) r c -
          smoothSpec .reg tt.1 cfg.style cfg.parentsAll out.lamb1 r c) ^ 2 * leafWeight (sources src tt.2) r +
          41 * ((N : ℚ) / 2 ^ 53 * M * M) * leafWeight (sources src tt.2) r) := by
    refine overLeaves_le fun tt htt r c => ?_
    have ht := mem_zipIdx_fst htt
    have hval : smoothSpec .reg tt.1 cfg.style cfg.parentsAll e0 r c = tt.1.value (tt.1.leafNode r) c := by
      have hn := (H.pos _ ht r).ne'
      rw [smoothSpec, smoothDen_e0 (H.wf _ ht) _ _ _ _ he0, smoothNum_e0 _ (H.wf _ ht) _ _ _ _ _ he0, if_neg hn]
      exact mul_div_cancel_left₀ _ hn
    rw [hval]
    obtain ⟨m1, m2⟩ := flLeafMean_approx hs (sources src tt.2) r c hM (fun q hq => H.resp _ q hq c) (H.count tt.2)
      (hN.trans (by norm_num))
    obtain ⟨v1, v2⟩ := C164_value hs .reg tt.1 (H.whole _ ht) cfg.parentsAll (tt.1.distDepth cfg.style)
      (forestDepth forest + 1) (H.leaf_cols ht cfg.style) ((H.size _ ht).trans (hN.trans (by norm_num))) r c out.lamb1
      hcost.1 hM (H.bound _ ht c)
    have v3 : |smoothSpec .reg tt.1 cfg.style cfg.parentsAll out.lamb1 r c| ≤ M := by
      have hok : CostLeaf.OK .reg (forestDepth forest + 1) N M
          { t := tt.1, D := tt.1.distDepth cfg.style, i := r, c := c, y := 0, w := 0 } :=
        ⟨H.whole _ ht, H.pos _ ht, H.leaf_cols ht cfg.style, H.size _ ht, H.bound _ ht c, by simpa using hM, le_refl _⟩
      have := smoothValue_le hok hM cfg.parentsAll out.lamb1 hcost.1
      rw [v2] at this
      exact this
    have v4 : |flSmoothValue sum (flLeafRow sum .reg tt.1 cfg.parentsAll (tt.1.distDepth cfg.style)
        (forestDepth forest + 1) r c) out.lamb1 - smoothSpec .reg tt.1 cfg.style cfg.parentsAll out.lamb1 r c| ≤
        8 * ((N : ℚ) / 2 ^ 53 * M) := by
      refine le_trans v1 ?_
      have : ((tt.1.nLeaves + (forestDepth forest + 1) + 3 : ℕ) : ℚ) ≤ N := by exact_mod_cast H.size _ ht
      rw [show 8 * ((N : ℚ) / 2 ^ 53 * M) = 8 * N * (1 / 2 ^ 53) * M by ring]
      gcongr
    have hw : 0 ≤ leafWeight (sources src tt.2) r := by unfold leafWeight; positivity
    have key := loss_step (y := leafMean (sources src tt.2) r c) (y' := flLeafMean sum (sources src tt.2) r c)
      m2 (H.bound _ ht c r) v3 (by rw [show 2 * ((N : ℚ) / 2 ^ 53 * M) = 2 * N / 2 ^ 53 * M by ring]; exact m1) v4 hd0 hdM
    have := mul_le_mul_of_nonneg_right key hw
    linarith
  rw [overLeaves_add, overLeaves_add, overLeaves_add, overLeaves_mul] at step
  rw [hnew, forestSSE_split forest]
  have hfin : 88 * ((N : ℚ) + (C * (forest.map fun t => t.nLeaves).sum : ℕ) + 4) / 2 ^ 53 * (9 / 8 * M) ^ 2 *
        overLeaves forest (fun tt r _ => leafWeight (sources src tt.2) r) +
      41 * ((N : ℚ) / 2 ^ 53 * M * M) * overLeaves forest (fun tt r _ => leafWeight (sources src tt.2) r) ≤
      160 * (N + C * (forest.map fun t => t.nLeaves).sum + 4 : ℕ) / 2 ^ 53 * M ^ 2 *
        (C * (forest.zipIdx.map fun tt => ((sources src tt.2).length : ℚ)).sum) := by
    refine le_trans ?_ (mul_le_mul_of_nonneg_left hWt (by positivity))
    rw [← add_mul]
    refine mul_le_mul_of_nonneg_right ?_ hWt0
    generalize C * (forest.map fun t => t.nLeaves).sum = R
    push_cast
    rw [show 88 * ((N : ℚ) + R + 4) / 2 ^ 53 * (9 / 8 * M) ^ 2 + 41 * ((N : ℚ) / 2 ^ 53 * M * M) =
      ((88 * 81 / 64) * ((N : ℚ) + R + 4) + 41 * N) / 2 ^ 53 * M ^ 2 by ring]
    apply mul_le_mul_of_nonneg_right _ (by positivity)
    apply div_le_div_of_nonneg_right _ (by positivity)
    have hr0 : (0 : ℚ) ≤ R := by positivity
    have hn0 : (0 : ℚ) ≤ N := by positivity
    linarith
  have hc2 := hcost.2
  simp only [cost] at hc2
  linarith

/-- C199: a constrained regression run in doubles without Adam fails only when a tree has no tuning rows, or inside
`prox_project` after a step to an entry of at least about `2 ^ 52`. -/
theorem C199_fails {sum : List ℚ → ℚ} (hs : IsFlSum sum) (hC : 0 < C) {forest : List (SkTree ℚ C)} (hne : forest ≠ [])
    {cfg : SmoothCfg ℚ} {src : TuneSrc} (hsrc : tuneSource cfg.data = .ok src)
    {sources : TuneSrc → ℕ → List (TuneRow ℚ C)} {N : ℕ} {M : ℚ} (H : FlInput .reg forest (sources src) N M) (hM : 0 ≤ M)
    (hN : N ≤ 2 ^ 46) (hR : C * (forest.map fun t => t.nLeaves).sum + 4 ≤ 2 ^ 49) (hnc : cfg.noConstraint = false)
    (hseed : cfg.seed = none) (ha : cfg.adam = none) {e : PyErr}
    (h : flSmooth sum pow sqrt ce (some .reg) forest cfg sources = .error e) :
    e = .valueError ∧ ((∃ i < forest.length, sources src i = []) ∨
      ∃ (i : ℕ) (lamb g : Fin (forestDepth forest + 1) → ℚ) (k : Fin (forestDepth forest + 1)),
        cfg.sanityCheck = false ∧ i ∈ cfg.steps ∧ (∀ k, 0 ≤ lamb k) ∧
        flTakeGradient sum ((ofTree (costLeaves sum cfg.style cfg.allTrees (sources src) forest) i).map fun l =>
          l.flRow sum .reg cfg.parentsAll (forestDepth forest + 1)) lamb = .ok g ∧
        2 ^ 52 ≤ ((forestDepth forest : ℚ) + 1) * (forestDepth forest + 3) * fl (lamb k - fl (cfg.tFix * g k))) := by
  have hcheck : smoothCheck (some .reg) cfg.data cfg.noConstraint = .ok (.reg, src) :=
    smoothCheck_ok.2 ⟨rfl, hsrc, by rintro ⟨h, -⟩; cases h⟩
  unfold flSmooth at h
  rw [hcheck] at h
  simp only [bind, Except.bind] at h
  rcases flTuneSummaries_eq sum (decide (Kind.reg = .cls) && decide (src ≠ .given)) forest (sources src) with
    ⟨hy, -⟩ | ⟨hy, tt, htt, hbad⟩
  swap
  · rw [hy] at h
    refine ⟨(Except.error.inj h).symm, Or.inl ⟨tt.2, ?_, ?_⟩⟩
    · have := (List.mem_zipIdx (x := tt.1) (i := tt.2) htt).2.1
      omega
    · rcases hbad with hb | ⟨hb, -⟩
      · exact hb
      · simp at hb
  rw [hy] at h
  simp only [hseed, flInitLamb, flBaseLambE, bind, Except.bind, pure, Except.pure] at h
  rw [flFlatRows] at h
  have hlen : costLeaves sum cfg.style cfg.allTrees (sources src) forest ≠ [] := by
    intro hnil
    have h0 := costLeaves_length sum cfg.style cfg.allTrees (sources src) forest
    rw [hnil, List.length_nil] at h0
    obtain ⟨t, ts, rfl⟩ := List.exists_cons_of_ne_nil hne
    have h1 : 0 < t.nLeaves := nLeaves_pos (H.wf t (by simp))
    rw [List.map_cons, List.sum_cons] at h0
    have := Nat.mul_pos hC (Nat.add_pos_left h1 (ts.map fun t => t.nLeaves).sum)
    omega
  -- write-back does not fail
  have hwb : ∀ l1 l2 : Fin (forestDepth forest + 1) → ℚ, ∃ r1 r2,
      writeBack1 (reshapeF C ((flRows sum .reg cfg.parentsAll (forestDepth forest + 1)
        (costLeaves sum cfg.style cfg.allTrees (sources src) forest)).map fun r => flSmoothValue sum r l1)) 0 forest =
        .ok r1 ∧
      writeBack2 (reshapeF C ((flRows sum .reg cfg.parentsAll (forestDepth forest + 1)
        (costLeaves sum cfg.style cfg.allTrees (sources src) forest)).map fun r => flSmoothValue sum r l2)) 0 forest =
        .ok r2 := by
    intro l1 l2
    rw [flValues, reshapeF_flat hC (leafList forest), flValues, reshapeF_flat hC (leafList forest)]
    obtain ⟨r1, h7, -⟩ := writeBack1_spec (fun p c => flSmoothValue sum
      (flLeafRow sum .reg p.1 cfg.parentsAll (p.1.distDepth cfg.style) (forestDepth forest + 1) p.2 c) l1) forest H.wf []
    obtain ⟨r2, h9, -⟩ := writeBack2_spec ((leafList forest).map fun (p : (t : SkTree ℚ C) × Fin t.nLeaves) (c : Fin C) =>
      flSmoothValue sum (flLeafRow sum .reg p.1 cfg.parentsAll (p.1.distDepth cfg.style) (forestDepth forest + 1) p.2 c) l2)
      forest H.wf (fun t ht => by simpa using nLeaves_le_leafList ht)
    exact ⟨r1, r2, h7, h9⟩
  rcases hopt : flSmoothOptimise sum pow sqrt (ce (forestDepth forest + 1)) .reg cfg
      (flRows sum .reg cfg.parentsAll (forestDepth forest + 1)
        (costLeaves sum cfg.style cfg.allTrees (sources src) forest)) (flBaseLamb (forestDepth forest + 1) none) with e' | r
  swap
  · rw [hopt] at h
    obtain ⟨r1, r2, e1, e2⟩ := hwb r.1 r.2.1
    simp only [e1, e2] at h
    cases h
  rw [hopt] at h
  cases h
  unfold flSmoothOptimise at hopt
  by_cases hsan : cfg.sanityCheck = true
  · rw [if_pos hsan] at hopt; cases hopt
  rw [if_neg hsan] at hopt
  simp only [true_or, if_true, C154_default, bind, Except.bind] at hopt
  have hN' : forestDepth forest ≤ 2 ^ 50 := by
    obtain ⟨t, ts, rfl⟩ := List.exists_cons_of_ne_nil hne
    have := H.size t (by simp)
    have : (2 : ℕ) ^ 46 ≤ 2 ^ 50 := Nat.pow_le_pow_right (by norm_num) (by norm_num)
    omega
  obtain ⟨h1, pre, i, post, vs, g, k, hsteps, hvis, hgrad, hbig⟩ := C198_returns hs pow sqrt .reg cfg.parentsAll
    (forestDepth forest) N (9 / 8 * M) (by positivity) hN hN' _ (H.leaves_ok hM hN hs cfg.style cfg.allTrees) hlen
    (by rw [costLeaves_length]; exact hR) ⟨cfg.tFix, !cfg.noConstraint, cfg.adam⟩ (by simp [hnc]) ha _
    (fun k => (toVec_entries (flBase_entries _) k).2) cfg.steps hopt
  refine ⟨h1, Or.inr ⟨i, _, g, k, by simpa using hsan, by rw [hsteps]; simp, ?_, hgrad, hbig⟩⟩
  obtain ⟨-, hvs⟩ := C198_visited (by simp [hnc]) hvis
  intro k
  rcases hv : vs.getLast? with _ | x
  · exact (toVec_entries (flBase_entries _) k).2
  · exact (hvs x (List.mem_of_getLast? hv) k).2

/-- C199: with `sanity_check=True` and leaf values that are rounded means, the first forest of a regression run in
doubles is the input, bit for bit. -/
theorem C199_sanity {sum : List ℚ → ℚ} (hs : IsFlSum sum) (hC : 0 < C) {forest : List (SkTree ℚ C)}
    {cfg : SmoothCfg ℚ} {src : TuneSrc} (hsrc : tuneSource cfg.data = .ok src)
    {sources : TuneSrc → ℕ → List (TuneRow ℚ C)} {N : ℕ} {M : ℚ} (H : FlInput .reg forest (sources src) N M)
    (hseed : cfg.seed = none) (hsan : cfg.sanityCheck = true)
    (hv : ∀ t ∈ forest, ∀ (i : Fin t.nLeaves) (c : Fin C), ∃ S, IsFloat S ∧
      t.value (t.leafNode i) c = fl (S / t.nSamp (t.leafNode i)))
    {out : SmoothOut ℚ C (forestDepth forest + 1)}
    (h : flSmooth sum pow sqrt ce (some .reg) forest cfg sources = .ok out) : out.rf1 = forest := by
  obtain ⟨lamb, h1, h2, h3, -⟩ := flSmooth_ok hC H.wf hsrc h
  have hlamb : lamb = flBaseLamb (forestDepth forest + 1) none := by
    rw [hseed] at h1; exact (Except.ok.inj h1).symm
  subst hlamb
  unfold flSmoothOptimise at h2
  rw [if_pos hsan] at h2
  have h4 : out.lamb1 = firstWeight (forestDepth forest + 1) := by
    have := (Prod.mk.inj (Except.ok.inj h2)).1
    rw [← this]
    funext i
    rw [toVec_base]
    unfold firstWeight
    simp only [Fin.ext_iff, Fin.val_zero]
  have : List.Forall₂ (fun t t' : SkTree ℚ C => t = t') forest out.rf1 := by
    refine forall2_imp_mem h3 fun t ht t' hu => ?_
    obtain ⟨v, rfl, hl, ho⟩ := hu
    have e : v = t.value := by
      funext i c
      by_cases hi : t.IsLeaf i
      · obtain ⟨r, rfl⟩ := exists_leafNode ((isLeaf_iff (H.wf t ht)).1 hi)
        rw [hl r c, h4]
        obtain ⟨S, hS, hval⟩ := hv t ht r c
        exact C165_bits hs t (H.wf t ht) (H.whole t ht) _ _ _ (H.leaf_cols ht cfg.style) r (H.pos t ht r).ne' c hS hval
      · exact ho i c hi
    rw [e]
  exact (List.forall₂_eq_eq_eq ▸ this : forest = out.rf1).symm

/-- Two tuning rows that the stump with three observations per leaf predicts exactly. -/
abbrev exTuneThirds : ℕ → List (TuneRow ℚ 1) := fun _ => [⟨0, fun _ => tenth⟩, ⟨1, fun _ => 1⟩]

theorem exThirds_input : FlInput .reg [exThirds] exTuneThirds 7 1 where
  wf := by simp; decide
  whole := by intro t ht; rw [List.mem_singleton.1 ht]; exact exThirds_counts
  pos := by intro t ht; rw [List.mem_singleton.1 ht]; decide +kernel
  size := by intro t ht; rw [List.mem_singleton.1 ht]; decide +kernel
  bound := by
    intro t ht c
    rw [List.mem_singleton.1 ht]
    show ∀ j, |exThirds.value (exThirds.leafNode j) c| ≤ 1
    revert c; decide +kernel
  count := by intro i; show (exTuneThirds 0).length + 1 ≤ 7; decide
  resp := by
    intro i
    show ∀ q ∈ exTuneThirds 0, ∀ c, |q.y c| ≤ 1
    decide +kernel

/-- C199: without the rounding term the inequality of `C199_never_worse` is false: a run without steps on a forest that
predicts the tuning rows exactly. -/
theorem C199_never_worse_refuted :
    ¬ ∀ (sum : List ℚ → ℚ) (pow : ℚ → ℕ → ℚ) (sqrt : ℚ → ℚ) (forest : List (SkTree ℚ 1)) (cfg : SmoothCfg ℚ)
      (src : TuneSrc) (sources : TuneSrc → ℕ → List (TuneRow ℚ 1)) (N : ℕ) (M : ℚ), IsFlSum sum →
      tuneSource cfg.data = .ok src → FlInput .reg forest (sources src) N M → cfg.noConstraint = false → cfg.seed = none →
      ∀ out, flSmooth sum pow sqrt noCe (some .reg) forest cfg sources = .ok out →
        forestSSE out.rf1 (sources src) ≤ forestSSE forest (sources src) := by
  intro h
  have key : (match flSmooth npSum (fun x _ => x) id noCe (some .reg) [exThirds]
      { exCfg with sanityCheck := false, steps := [] } (fun _ => exTuneThirds) with
    | .ok out => some (forestSSE out.rf1 exTuneThirds) | .error _ => none) = some (1 / 2 ^ 112) := by decide +kernel
  have hold : forestSSE [exThirds] exTuneThirds = 0 := by decide +kernel
  rcases hr : flSmooth npSum (fun x _ => x) id noCe (some .reg) [exThirds]
      { exCfg with sanityCheck := false, steps := [] } (fun _ => exTuneThirds) with e | out
  · rw [hr] at key; cases key
  · rw [hr] at key
    have h1 := h npSum (fun x _ => x) id [exThirds] { exCfg with sanityCheck := false, steps := [] } .given
      (fun _ => exTuneThirds) 7 1 npSum_rsum rfl exThirds_input rfl rfl out hr
    rw [Option.some.inj key, hold] at h1
    norm_num at h1

theorem exForest_input : FlInput .reg [exStump, exTree] exTune2 9 10 where
  wf := by simp; decide
  whole := by
    intro t ht
    simp only [List.mem_cons, List.not_mem_nil, or_false] at ht
    rcases ht with rfl | rfl
    · exact ⟨fun j => ⟨1, by revert j; decide +kernel⟩, by decide +kernel⟩
    · exact ⟨fun j => ⟨![1, 2, 3] j, by revert j; decide +kernel⟩, by decide +kernel⟩
  pos := by
    intro t ht
    simp only [List.mem_cons, List.not_mem_nil, or_false] at ht
    rcases ht with rfl | rfl <;> decide +kernel
  size := by
    intro t ht
    simp only [List.mem_cons, List.not_mem_nil, or_false] at ht
    rcases ht with rfl | rfl <;> decide +kernel
  bound := by
    intro t ht c
    simp only [List.mem_cons, List.not_mem_nil, or_false] at ht
    rcases ht with rfl | rfl
    · show ∀ j, |exStump.value (exStump.leafNode j) c| ≤ 10
      revert c; decide +kernel
    · show ∀ j, |exTree.value (exTree.leafNode j) c| ≤ 10
      revert c; decide +kernel
  count := by intro i; show (exTune2 0).length + 1 ≤ 9; decide
  resp := by
    intro i
    show ∀ q ∈ exTune2 0, ∀ c, |q.y c| ≤ 10
    decide +kernel

/-- A run in doubles on two trees that lowers the tuning error from 18 to 12. -/
example : (match flSmooth npSum (fun x _ => x) id noCe (some .reg) [exStump, exTree]
      { exCfg with sanityCheck := false, steps := [0], tFix := fl (1 / 10) } (fun _ => exTune2) with
    | .ok out => some (forestSSE out.rf1 exTune2, List.ofFn out.lamb1) | .error _ => none) =
      some (12, [0, 3 / 2, 0]) ∧ forestSSE [exStump, exTree] exTune2 = 18 := by
  constructor <;> decide +kernel

/-- A run that fails: the second tree has no tuning rows. -/
example : flSmooth npSum (fun x _ => x) id noCe (some .reg) [exStump, exTree] exCfg
    (fun _ i => if i = 0 then exTune2 0 else []) = .error .valueError := by
  have : (match flSmooth npSum (fun x _ => x) id noCe (some .reg) [exStump, exTree] exCfg
    (fun _ i => if i = 0 then exTune2 0 else []) with | .ok _ => none | .error e => some e) = some .valueError := by
    decide +kernel
  split at this
  · cases this
  · rename_i heq; rw [heq, Option.some.inj this]

/-- Leaf values that are rounded means, as `C199_sanity` asks. -/
example : ∀ t ∈ [exStump, exTree], ∀ (i : Fin t.nLeaves) (c : Fin 1), ∃ S, IsFloat S ∧
    t.value (t.leafNode i) c = fl (S / t.nSamp (t.leafNode i)) := by
  intro t ht
  simp only [List.mem_cons, List.not_mem_nil, or_false] at ht
  rcases ht with rfl | rfl
  · intro i c
    refine ⟨((![1, 4] i : ℕ) : ℚ), isFloat_nat ?_, ?_⟩ <;> revert i c <;> decide +kernel
  · intro i c
    refine ⟨((![1, 8, 30] i : ℕ) : ℚ), isFloat_nat ?_, ?_⟩ <;> revert i c <;> decide +kernel

end SmoothRF
