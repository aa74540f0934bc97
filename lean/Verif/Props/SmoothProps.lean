import Verif.Proofs.Smooth2

/-!
# C31, C35–C44, C73: smooth
-/

set_option linter.unusedSectionVars false

namespace SmoothRF
open SkTree Topo

variable {K : Type} [Field K] [LinearOrder K] {C : ℕ}
variable {sqrt : K → K}
  {ce : (n : ℕ) → SgdOpts K → K → List (Row K n) → List K → List ℕ →
    Except PyErr ((Fin n → K) × (Fin n → K) × List K)}

/-! ### examples -/

/-- Two tuning rows per tree. -/
abbrev exTune : ℕ → List (TuneRow ℚ 1) := fun _ => [⟨0, fun _ => 2⟩, ⟨1, fun _ => 5⟩, ⟨1, fun _ => 6⟩]

/-- Sanity-check configuration with supplied tuning data. -/
abbrev exCfg : SmoothCfg ℚ :=
  { data := ⟨false, false, true, true, false⟩, noConstraint := false, sanityCheck := true,
    steps := [], tFix := 1, allTrees := false, seed := none, parentsAll := false,
    style := .standard, classEps := 1 / 10, lossL2 := false, adam := none }

/-- A cross-entropy descent that is never reached. -/
abbrev noCe (n : ℕ) : SgdOpts ℚ → ℚ → List (Row ℚ n) → List ℚ → List ℕ →
    Except PyErr ((Fin n → ℚ) × (Fin n → ℚ) × List ℚ) := fun _ _ _ _ _ => .error .runtimeError

/-- A two-class stump with leaf counts (3,1) and (0,2). -/
abbrev exClsStump : SkTree ℚ 2 :=
  { toTopo := ⟨2, ![some 1, none, none], ![some 2, none, none]⟩
    value := fun i c => ![![3, 3], ![3, 1], ![0, 2]] i c
    nSamp := ![6, 4, 2]
    impurity := ![1 / 2, 3 / 8, 0] }

/-- One-hot tuning rows in which both classes occur. -/
abbrev exClsTune : ℕ → List (TuneRow ℚ 2) := fun _ => [⟨0, ![1, 0]⟩, ⟨1, ![0, 1]⟩]

/-- Value arrays of a forest, for display. -/
def valuesOf (forest : List (SkTree K C)) : List (List (List K)) :=
  forest.map fun t => List.ofFn fun i => List.ofFn (t.value i)

/-! ### write-back -/

/-- C38: in the first returned forest the `r`-th leaf of every tree holds the ratio computed from that
tree alone with the returned `lamb` (0 when the denominator is 0); nothing else changes. -/
theorem C38_first_forest_rows (hC : 0 < C) {kind : Kind} {forest : List (SkTree K C)}
    (hwf : ∀ t ∈ forest, t.WF) {cfg : SmoothCfg K} {sources : TuneSrc → ℕ → List (TuneRow K C)}
    {out : SmoothOut K C (forestDepth forest + 1)}
    (h : smooth sqrt ce (some kind) forest cfg sources = .ok out) :
    List.Forall₂ (fun t t' => LeafUpdate t t'
      fun r => smoothSpec kind t cfg.style cfg.parentsAll out.lamb1 r) forest out.rf1 :=
  (smooth_forests hC hwf h).1

/-- Instance with two trees and seeded weights `(1/2, 1/4, 1/4)`. -/
example : (match smooth (fun x => x) noCe (some .reg) [exStump, exTree]
      { exCfg with seed := some fun i => if i = 0 then 2 else 1 } (fun _ => exTune) with
    | .ok out => some (valuesOf out.rf1, List.ofFn out.lamb1)
    | .error _ => none) =
      some ([[[5/2], [2], [3]], [[13/2], [3], [40/7], [47/8], [23/3]]] , [1/2, 1/4, 1/4]) := by
  decide +kernel

/-- C38, the data handed to the optimiser: one row per class and leaf, class-major; each row carries
the leaf's level sums, its tuning mean and count, and its tree number (0 with `all_trees`); the two
returned weight vectors are the optimiser's. -/
theorem C38_optimiser_rows [IsStrictOrderedRing K] {kind : Kind} {forest : List (SkTree K C)}
    (hwf : ∀ t ∈ forest, t.WF) {cfg : SmoothCfg K} {sources : TuneSrc → ℕ → List (TuneRow K C)}
    {out : SmoothOut K C (forestDepth forest + 1)}
    (h : smooth sqrt ce (some kind) forest cfg sources = .ok out) :
    ∃ (src : TuneSrc) (rows : List (Row K (forestDepth forest + 1)))
      (lamb : Fin (forestDepth forest + 1) → K),
      tuneSource cfg.data = .ok src ∧
      (rows = (List.finRange C).flatMap fun c => forest.zipIdx.flatMap fun tt =>
        (List.finRange tt.1.nLeaves).map fun r =>
          ({ y := (((sources src tt.2).filter fun q => q.leaf == r.val).map fun q => q.y c).sum /
                (if ((sources src tt.2).filter fun q => q.leaf == r.val).length = 0 then 1
                  else (((sources src tt.2).filter fun q => q.leaf == r.val).length : K))
             w := (((sources src tt.2).filter fun q => q.leaf == r.val).length : K)
             gam := fun k => levelSum cfg.parentsAll (tt.1.distDepth cfg.style)
               (fun j => tt.1.mass kind (tt.1.leafNode j) c) r k
             eta := fun k => levelSum cfg.parentsAll (tt.1.distDepth cfg.style)
               (fun j => tt.1.nSamp (tt.1.leafNode j)) r k
             tree := if cfg.allTrees then 0 else tt.2 } : Row K (forestDepth forest + 1))) ∧
      initLamb kind cfg.seed cfg.classEps = .ok lamb ∧
      smoothOptimise sqrt (ce _) kind cfg rows lamb = .ok (out.lamb1, out.lamb2, out.costs) := by
  obtain ⟨kind', src, yw, lamb, h0, h1, h2, h3, h4, -, -⟩ := smooth_ok h
  cases h0
  rw [tuneSummaries_eq] at h2
  split_ifs at h2 with hd
  cases h2
  rw [flatRows_eq kind forest hwf] at h4
  refine ⟨src, _, lamb, (smoothCheck_ok.1 h1).2.1, ?_, h3, h4⟩
  congr 1
  funext c
  symm
  apply leafListI_map
  intro tt _
  refine List.map_congr_left fun r _ => ?_
  simp only [specRow, leafMean, leafWeight, Nat.cast_eq_zero]

/-- C37: both returned forests have the input's child arrays, node weights, impurities and
internal-node values; only leaf values differ. -/
theorem C37_only_leaf_values (hC : 0 < C) {kind : Kind} {forest : List (SkTree K C)}
    (hwf : ∀ t ∈ forest, t.WF) {cfg : SmoothCfg K} {sources : TuneSrc → ℕ → List (TuneRow K C)}
    {out : SmoothOut K C (forestDepth forest + 1)}
    (h : smooth sqrt ce (some kind) forest cfg sources = .ok out) :
    List.Forall₂ (fun t t' => ∃ v, t' = { t with value := v } ∧
      ∀ i c, ¬ t.IsLeaf i → v i c = t.value i c) forest out.rf1 ∧
    List.Forall₂ (fun t t' => ∃ v, t' = { t with value := v } ∧
      ∀ i c, ¬ t.IsLeaf i → v i c = t.value i c) forest out.rf2 := by
  obtain ⟨h1, h2⟩ := smooth_forests hC hwf h
  exact ⟨forall2_imp_mem h1 fun t _ t' ⟨v, e, _, hw⟩ => ⟨v, e, hw⟩,
    forall2_imp_mem h2 fun t _ t' ⟨v, e, _, hw⟩ => ⟨v, e, hw⟩⟩

/-- C39 (what holds): in the second returned forest the first tree is right; every tree's `r`-th leaf
holds the `r`-th value of the whole forest's list (rows of tree 0, tree 1, …), computed with
`lamb_last`; hence the second forest is right when there is one tree.
Missing: trees after the first get another tree's rows (`C39_refuted`). -/
theorem C39_second_forest_partial (hC : 0 < C) {kind : Kind} {forest : List (SkTree K C)}
    (hwf : ∀ t ∈ forest, t.WF) {cfg : SmoothCfg K} {sources : TuneSrc → ℕ → List (TuneRow K C)}
    {out : SmoothOut K C (forestDepth forest + 1)}
    (h : smooth sqrt ce (some kind) forest cfg sources = .ok out) :
    List.Forall₂ (fun t t' => ∃ f, LeafUpdate t t' f ∧ ∀ (r : Fin t.nLeaves),
      (forest.flatMap fun u => (List.finRange u.nLeaves).map
        (smoothSpec kind u cfg.style cfg.parentsAll out.lamb2))[r.val]? = some (f r)) forest out.rf2 ∧
    (∀ t ts, forest = t :: ts → ∃ t' ts', out.rf2 = t' :: ts' ∧
      LeafUpdate t t' fun r => smoothSpec kind t cfg.style cfg.parentsAll out.lamb2 r) := by
  have h2 := (smooth_forests hC hwf h).2
  constructor
  · refine forall2_imp_mem h2 fun t ht t' hu => ⟨_, hu, fun r => ?_⟩
    rw [← leafList_map, List.getElem?_map]
    have hr : r.val < (leafList forest).length := lt_of_lt_of_le r.2 (nLeaves_le_leafList ht)
    rw [List.getElem?_eq_getElem hr]
    rfl
  · rintro t ts e
    subst e
    revert h2
    generalize out.rf2 = l
    intro h2
    have hl : ∀ r : Fin t.nLeaves, (leafList (t :: ts))[r.val]? = some ⟨t, r⟩ := by
      intro r
      rw [leafList_cons, List.getElem?_append_left (by simp), List.getElem?_map, finRange_getElem?]
      rfl
    cases h2 with
    | cons hu _ =>
      obtain ⟨v, e', hv, hw⟩ := hu
      refine ⟨_, _, rfl, v, e', fun r c => ?_, hw⟩
      rw [hv]
      simp only [hl, Option.elim_some]

/-- C39 (refuted): with two trees the second tree of the second forest holds other rows; even with
`sanity_check=True` the returned forest differs from the input. -/
theorem C39_refuted :
    ¬ ∀ (forest : List (SkTree ℚ 1)), (∀ t ∈ forest, t.WF) → ∀ (cfg : SmoothCfg ℚ)
      (sources : TuneSrc → ℕ → List (TuneRow ℚ 1)) (out : SmoothOut ℚ 1 (forestDepth forest + 1)),
      smooth (fun x => x) noCe (some .reg) forest cfg sources = .ok out →
      List.Forall₂ (fun t t' => LeafUpdate t t'
        fun r => smoothSpec .reg t cfg.style cfg.parentsAll out.lamb2 r) forest out.rf2 := by
  intro hall
  have key : (match smooth (fun x => x) noCe (some .reg) [exStump, exTree] exCfg (fun _ => exTune) with
    | .ok out => some (valuesOf out.rf2, List.ofFn out.lamb2)
    | .error _ => none) =
      some ([[[5/2], [1], [4]], [[13/2], [3], [1], [4], [1]]], [1, 0, 0]) := by decide +kernel
  have hwf : ∀ t ∈ [exStump, exTree], t.WF := by simp; decide
  have h := hall [exStump, exTree] hwf exCfg (fun _ => exTune)
  generalize smooth (fun x => x) noCe (some .reg) [exStump, exTree] exCfg (fun _ => exTune) = r at key h
  rcases r with e | out
  · cases key
  · have h := h out rfl
    simp only [Option.some.injEq, Prod.mk.injEq] at key
    obtain ⟨k1, k2⟩ := key
    have hl : ∀ i, out.lamb2 i = if i = 0 then 1 else 0 := by
      have e : out.lamb2 = fun i : Fin (forestDepth [exStump, exTree] + 1) =>
          ([1, 0, 0] : List ℚ).getD i.val 0 := by
        funext i
        have := congrArg (fun l => l.getD i.val 0) k2
        simp only [List.getD_eq_getElem?_getD, List.getElem?_ofFn, i.isLt, dite_true,
          Option.getD_some] at this
        exact this
      rw [e]; decide
    have : out.rf2 = [exStump, exTree] := forall2_eq (forall2_imp_mem h fun t ht t' hu => by
      refine leafUpdate_same (hwf t ht) hu fun r c => ?_
      have hp : ∀ r, t.nSamp (t.leafNode r) ≠ 0 := by
        simp only [List.mem_cons, List.not_mem_nil, or_false] at ht
        rcases ht with rfl | rfl <;> decide +kernel
      rw [smoothSpec, smoothDen_e0 (hwf t ht) _ _ _ _ hl, smoothNum_e0 _ (hwf t ht) _ _ _ _ _ hl,
        if_neg (hp r)]
      exact mul_div_cancel_left₀ _ (hp r))
    rw [this] at k1
    revert k1
    decide +kernel

/-! ### range of the values -/

/-- C35: with non-negative `lamb` and a non-zero denominator, a smoothed regression value lies between
two leaf values of its own tree. -/
theorem C35_values_between_leaves [IsStrictOrderedRing K] (hC : 0 < C) {forest : List (SkTree K C)}
    (hwf : ∀ t ∈ forest, t.WF) (hn : ∀ t ∈ forest, ∀ r, 0 ≤ t.nSamp (t.leafNode r))
    {cfg : SmoothCfg K} {sources : TuneSrc → ℕ → List (TuneRow K C)}
    {out : SmoothOut K C (forestDepth forest + 1)}
    (h : smooth sqrt ce (some .reg) forest cfg sources = .ok out) (hl : ∀ k, 0 ≤ out.lamb1 k) :
    List.Forall₂ (fun t t' => ∃ v, t' = { t with value := v } ∧ ∀ (r : Fin t.nLeaves) (c : Fin C),
      smoothDen t cfg.style cfg.parentsAll out.lamb1 r ≠ 0 →
      ∃ j k : Fin t.nLeaves, t.value (t.leafNode j) c ≤ v (t.leafNode r) c ∧
        v (t.leafNode r) c ≤ t.value (t.leafNode k) c) forest out.rf1 := by
  refine forall2_imp_mem (smooth_forests hC hwf h).1 fun t ht t' ⟨v, e, hv, _⟩ => ⟨v, e, ?_⟩
  intro r c hd
  have : Nonempty (Fin t.nLeaves) := ⟨r⟩
  obtain ⟨j, -, hj⟩ := Finset.exists_min_image Finset.univ (fun j => t.value (t.leafNode j) c)
    Finset.univ_nonempty
  obtain ⟨k, -, hk⟩ := Finset.exists_max_image Finset.univ (fun j => t.value (t.leafNode j) c)
    Finset.univ_nonempty
  have hpos : 0 < smoothDen t cfg.style cfg.parentsAll out.lamb1 r :=
    lt_of_le_of_ne (smoothDen_nonneg t _ _ _ hl (hn t ht) r) (Ne.symm hd)
  refine ⟨j, k, ?_, ?_⟩ <;> simp only [hv, smoothSpec, if_neg hd]
  · rw [le_div_iff₀ hpos, mul_comm, smoothDen, Finset.sum_mul]
    refine Finset.sum_le_sum fun q _ => ?_
    rw [mul_right_comm, ← levelSum_smul]
    refine mul_le_mul_of_nonneg_right (levelSum_mono _ _ _ _ (fun l => ?_) _ _) (hl q)
    exact mul_le_mul_of_nonneg_left (hj l (Finset.mem_univ _)) (hn t ht l)
  · rw [div_le_iff₀ hpos, mul_comm, smoothDen, Finset.sum_mul]
    refine Finset.sum_le_sum fun q _ => ?_
    rw [mul_right_comm _ (out.lamb1 q), ← levelSum_smul (a := t.value (t.leafNode k) c)]
    refine mul_le_mul_of_nonneg_right (levelSum_mono _ _ _ _ (fun l => ?_) _ _) (hl q)
    exact mul_le_mul_of_nonneg_left (hk l (Finset.mem_univ _)) (hn t ht l)

/-- C35, the hypothesis on `lamb`: it holds for every run of `smooth` with the constraint on (l2 loss
or sanity check, non-negative seeds and `class_eps`). -/
theorem C35_constrained_lamb_nonneg [IsStrictOrderedRing K] {kind : Kind} {forest : List (SkTree K C)}
    {cfg : SmoothCfg K} {sources : TuneSrc → ℕ → List (TuneRow K C)}
    {out : SmoothOut K C (forestDepth forest + 1)}
    (h : smooth sqrt ce (some kind) forest cfg sources = .ok out) (hc : cfg.noConstraint = false)
    (hk : kind = .reg ∨ cfg.lossL2 = true ∨ cfg.sanityCheck = true)
    (hs : ∀ u, cfg.seed = some u → ∀ i, 0 ≤ u i) (he : 0 ≤ cfg.classEps) :
    (∀ k, 0 ≤ out.lamb1 k) ∧ (∀ k, 0 ≤ out.lamb2 k) := by
  obtain ⟨kind', src, yw, lamb, h0, -, -, h3, h4, -, -⟩ := smooth_ok h
  cases h0
  have hf := initLamb_feasible kind cfg.seed cfg.classEps hs he h3
  unfold smoothOptimise at h4
  by_cases hsan : cfg.sanityCheck = true
  · rw [if_pos hsan] at h4
    simp only [Except.ok.injEq, Prod.mk.injEq] at h4
    rw [← h4.1, ← h4.2.1]
    exact ⟨hf.2, hf.2⟩
  · rw [if_neg hsan] at h4
    have hk' : kind = .reg ∨ cfg.lossL2 = true := by tauto
    rw [if_pos hk'] at h4
    obtain ⟨_, -, -, hb, hl⟩ := C28_iterates_nonneg_partial sqrt _ (by simp [hc]) _ _ _ _ _ _ h4
    exact ⟨hb, hl⟩

/-- C40: with non-negative `lamb`, a non-zero denominator and class counts that add up to the leaf
weight, every smoothed leaf vector is a probability vector. -/
theorem C40_probability_vectors [IsStrictOrderedRing K] (hC : 0 < C) {forest : List (SkTree K C)}
    (hwf : ∀ t ∈ forest, t.WF) (hv0 : ∀ t ∈ forest, ∀ r c, 0 ≤ t.value (t.leafNode r) c)
    (hsum : ∀ t ∈ forest, ∀ r, ∑ c, t.value (t.leafNode r) c = t.nSamp (t.leafNode r))
    {cfg : SmoothCfg K} {sources : TuneSrc → ℕ → List (TuneRow K C)}
    {out : SmoothOut K C (forestDepth forest + 1)}
    (h : smooth sqrt ce (some .cls) forest cfg sources = .ok out) (hl : ∀ k, 0 ≤ out.lamb1 k) :
    List.Forall₂ (fun t t' => ∃ v, t' = { t with value := v } ∧ ∀ (r : Fin t.nLeaves),
      smoothDen t cfg.style cfg.parentsAll out.lamb1 r ≠ 0 →
      (∀ c, 0 ≤ v (t.leafNode r) c) ∧ ∑ c, v (t.leafNode r) c = 1) forest out.rf1 := by
  refine forall2_imp_mem (smooth_forests hC hwf h).1 fun t ht t' ⟨v, e, hv, _⟩ => ⟨v, e, ?_⟩
  intro r hd
  have hn : ∀ r, 0 ≤ t.nSamp (t.leafNode r) := fun r => by
    rw [← hsum t ht]; exact Finset.sum_nonneg fun c _ => hv0 t ht r c
  have hpos : 0 < smoothDen t cfg.style cfg.parentsAll out.lamb1 r :=
    lt_of_le_of_ne (smoothDen_nonneg t _ _ _ hl hn r) (Ne.symm hd)
  constructor
  · intro c
    simp only [hv, smoothSpec, if_neg hd]
    exact div_nonneg (Finset.sum_nonneg fun q _ =>
      mul_nonneg (levelSum_nonneg _ _ _ (fun j => hv0 t ht j c) _ _) (hl q)) hpos.le
  · have : ∀ c, v (t.leafNode r) c = smoothNum .cls t cfg.style cfg.parentsAll out.lamb1 r c /
        smoothDen t cfg.style cfg.parentsAll out.lamb1 r := fun c => by
      simp only [hv, smoothSpec, if_neg hd]
    rw [Finset.sum_congr rfl fun c _ => this c, ← Finset.sum_div, div_eq_one_iff_eq hd]
    unfold smoothNum smoothDen
    rw [Finset.sum_comm]
    refine Finset.sum_congr rfl fun q _ => ?_
    rw [← Finset.sum_mul, levelSum_sum]
    simp only [mass, reduceCtorEq, if_false, hsum t ht]

/-- Instance of C35's and C40's hypotheses and a non-trivial result. -/
example : (∀ c, 0 ≤ exClsStump.value (1 : Fin 3) c) ∧
    (∀ r, ∑ c, exClsStump.value (exClsStump.leafNode r) c = exClsStump.nSamp (exClsStump.leafNode r)) ∧
    (match smooth (fun x => x) noCe (some .cls) [exClsStump] exCfg (fun _ => exClsTune) with
    | .ok out => some (valuesOf out.rf1, List.ofFn out.lamb1)
    | .error _ => none) =
      some ([[[3, 3], [63 / 86, 23 / 86], [3 / 46, 43 / 46]]], [21 / 22, 1 / 22]) :=
  ⟨by decide +kernel, by decide +kernel, by decide +kernel⟩

/-! ### sanity check -/

/-- C36: `smooth(regressor, sanity_check=True)` without a seed returns (as first forest) exactly the
input forest, for every style and both `parents_all` values, when leaf weights are non-zero and every
tree has a tuning row. -/
theorem C36_sanity_identity (hC : 0 < C) {forest : List (SkTree K C)} (hwf : ∀ t ∈ forest, t.WF)
    (hn : ∀ t ∈ forest, ∀ r, t.nSamp (t.leafNode r) ≠ 0) (cfg : SmoothCfg K)
    (hs : cfg.sanityCheck = true) (hseed : cfg.seed = none) {src : TuneSrc}
    (hsrc : tuneSource cfg.data = .ok src) (sources : TuneSrc → ℕ → List (TuneRow K C))
    (hrows : ∀ tt ∈ forest.zipIdx, sources src tt.2 ≠ []) :
    ∃ out, smooth sqrt ce (some .reg) forest cfg sources = .ok out ∧ out.rf1 = forest ∧
      out.costs = [] ∧ out.lamb2 = out.lamb1 := by
  have h2 : tuneSummaries (decide (Kind.reg = .cls) && decide (src ≠ .given)) forest (sources src) =
      .ok (forest.zipIdx.flatMap (summaryBlock (sources src))) := by
    rw [tuneSummaries_eq, if_neg]
    simpa using fun t k hk => hrows (t, k) hk
  have h3 : initLamb (n := forestDepth forest) .reg cfg.seed cfg.classEps =
      .ok fun i => if i = 0 then 1 else 0 := by rw [hseed]; rfl
  obtain ⟨out, ho, e1, e2, e3⟩ := smooth_returns (sqrt := sqrt) (ce := ce) hC hwf (sources := sources)
    (smoothCheck_ok.2 ⟨rfl, hsrc, by simp⟩) h2 h3 (by unfold smoothOptimise; rw [if_pos hs])
  refine ⟨out, ho, ?_, e3, by rw [e1, e2]⟩
  refine forall2_eq (forall2_imp_mem (smooth_forests hC hwf ho).1 fun t ht t' hu => ?_)
  refine leafUpdate_same (hwf t ht) hu fun r c => ?_
  have hl : ∀ i, out.lamb1 i = if i = 0 then 1 else 0 := fun i => by rw [e1]
  rw [smoothSpec, smoothDen_e0 (hwf t ht) _ _ _ _ hl, smoothNum_e0 _ (hwf t ht) _ _ _ _ _ hl,
    if_neg (hn t ht r)]
  exact mul_div_cancel_left₀ _ (hn t ht r)

example : (∀ t ∈ [exStump, exTree], t.WF) ∧
    (∀ t ∈ [exStump, exTree], ∀ r, t.nSamp (t.leafNode r) ≠ 0) ∧
    tuneSource exCfg.data = .ok .given := by
  refine ⟨by simp; decide, ?_, rfl⟩
  intro t ht
  simp only [List.mem_cons, List.not_mem_nil, or_false] at ht
  rcases ht with rfl | rfl <;> decide +kernel

/-- C41 (what holds): with `sanity_check=True` and no seed, the weights used for a classifier are
`((1,0,…,0) + class_eps/n) / (1 + class_eps)`; they are `(1,0,…,0)`, and each leaf gets its own class
proportions, when `class_eps = 0`.
Missing: for `class_eps ≠ 0` weights and predictions change (`C41_refuted`). -/
theorem C41_sanity_class_partial [IsStrictOrderedRing K] (hC : 0 < C) {forest : List (SkTree K C)}
    (hwf : ∀ t ∈ forest, t.WF) {cfg : SmoothCfg K} (hs : cfg.sanityCheck = true)
    (hseed : cfg.seed = none) (he : 1 + cfg.classEps ≠ 0)
    {sources : TuneSrc → ℕ → List (TuneRow K C)} {out : SmoothOut K C (forestDepth forest + 1)}
    (h : smooth sqrt ce (some .cls) forest cfg sources = .ok out) :
    out.lamb2 = out.lamb1 ∧
    (∀ i, out.lamb1 i = ((if i = 0 then 1 else 0) +
      cfg.classEps / ((forestDepth forest + 1 : ℕ) : K)) / (1 + cfg.classEps)) ∧
    (cfg.classEps = 0 → List.Forall₂ (fun t t' => LeafUpdate t t' fun r c =>
      t.value (t.leafNode r) c / t.nSamp (t.leafNode r)) forest out.rf1) := by
  obtain ⟨kind', src, yw, lamb, h0, h1, h2, h3, h4, -, -⟩ := smooth_ok h
  cases h0
  rw [hseed, initLamb_cls_none _ he] at h3
  unfold smoothOptimise at h4
  rw [if_pos hs] at h4
  simp only [Except.ok.injEq, Prod.mk.injEq] at h3 h4
  have hl : ∀ i, out.lamb1 i = ((if i = 0 then 1 else 0) +
      cfg.classEps / ((forestDepth forest + 1 : ℕ) : K)) / (1 + cfg.classEps) := fun i => by
    rw [← h4.1, ← h3]
  refine ⟨by rw [← h4.1, ← h4.2.1], hl, fun h0 => ?_⟩
  have hl0 : ∀ i, out.lamb1 i = if i = 0 then 1 else 0 := fun i => by
    rw [hl, h0]; simp
  refine forall2_imp_mem (smooth_forests hC hwf h).1 fun t ht t' ⟨v, e, hv, hw⟩ =>
    ⟨v, e, fun r c => ?_, hw⟩
  rw [hv]
  show smoothSpec .cls t cfg.style cfg.parentsAll out.lamb1 r c = _
  rw [smoothSpec, smoothDen_e0 (hwf t ht) _ _ _ _ hl0, smoothNum_e0 _ (hwf t ht) _ _ _ _ _ hl0]
  split_ifs with h00
  · simp only [h00, div_zero]
  · rfl

/-- C41 (refuted): on the two-class stump with `class_eps = 1/10` the sanity check returns weights
`(21/22, 1/22)` and turns the pure leaf `(0, 2)` into `(3/46, 43/46)`. -/
theorem C41_refuted :
    ¬ ∀ (forest : List (SkTree ℚ 2)), (∀ t ∈ forest, t.WF) →
      (∀ t ∈ forest, ∀ r, 0 < t.nSamp (t.leafNode r)) → ∀ (cfg : SmoothCfg ℚ),
      cfg.sanityCheck = true → cfg.seed = none →
      ∀ (sources : TuneSrc → ℕ → List (TuneRow ℚ 2)) (out : SmoothOut ℚ 2 (forestDepth forest + 1)),
      smooth (fun x => x) noCe (some .cls) forest cfg sources = .ok out →
      List.Forall₂ (fun t t' => ∃ v, t' = { t with value := v } ∧ ∀ r c,
        v (t.leafNode r) c = t.value (t.leafNode r) c / t.nSamp (t.leafNode r)) forest out.rf1 := by
  intro hall
  have key : (match smooth (fun x => x) noCe (some .cls) [exClsStump] exCfg (fun _ => exClsTune) with
    | .ok out => some (valuesOf out.rf1)
    | .error _ => none) =
      some [[[3, 3], [63 / 86, 23 / 86], [3 / 46, 43 / 46]]] := by decide +kernel
  have h := hall [exClsStump] (by simp; decide) (by simp; decide +kernel) exCfg rfl rfl
    (fun _ => exClsTune)
  generalize smooth (fun x => x) noCe (some .cls) [exClsStump] exCfg (fun _ => exClsTune) = r at key h
  rcases r with e | out
  · cases key
  · have h := h out rfl
    simp only [Option.some.injEq] at key
    generalize out.rf1 = l at key h
    cases h with
    | cons hu hr =>
      cases hr
      obtain ⟨v, rfl, hv⟩ := hu
      have hv := hv ⟨1, by decide⟩ 0
      have e1 : exClsStump.leafNode ⟨1, by decide⟩ = (2 : Fin 3) := by decide
      rw [e1] at hv
      have k : v (2 : Fin 3) (0 : Fin 2) = 3 / 46 := by
        have := congrArg (fun l => (((l.getD 0 []).getD 2 []).getD 0 0)) key
        simpa [valuesOf] using this
      rw [k] at hv
      revert hv
      decide +kernel

/-! ### flattening -/

/-- C42: for every array indexed by (leaf, class), flattening it class-major (as `Gamma.reshape`,
`np.tile`, `y_all.T.reshape` do) and applying the order='F' reshape gives it back; and the rows handed
to the optimiser are read from the same positions. -/
theorem C42_ravel_inverse (hC : 0 < C) :
    (∀ A : List (Fin C → K),
      reshapeF C ((List.finRange C).flatMap fun c => A.map fun v => v c) = A) ∧
    (∀ (n : ℕ) (allTrees : Bool) (ge : GE K C) (yw : List ((Fin C → K) × K)) (c : Fin C) (i : ℕ),
      i < ge.eta.length →
      ∃ r, (flatRows n allTrees ge yw)[c.val * ge.eta.length + i]? = some r ∧
        (∀ j, r.gam j = ((ge.gamma c).getD i []).getD j 0) ∧
        (∀ j, r.eta j = (ge.eta.getD i []).getD j 0) ∧
        (∀ p, yw[i]? = some p → r.y = p.1 c ∧ r.w = p.2) ∧
        r.tree = if allTrees then 0 else ge.tIdx.getD i 0) := by
  constructor
  · intro A
    have := reshapeF_flat hC A fun v => v
    rw [this, List.map_id']
  · intro n allTrees ge yw c i hi
    have := flatMap_block (List.range ge.eta.length) (fun i c =>
      ({ y := (yw[i]?).elim 0 fun p => p.1 c
         w := (yw[i]?).elim 0 fun p => p.2
         gam := toVec n ((ge.gamma c).getD i [])
         eta := toVec n (ge.eta.getD i [])
         tree := if allTrees then 0 else ge.tIdx.getD i 0 } : Row K n)) (List.finRange C) c.val i
         (by simpa using hi)
    simp only [List.length_range, finRange_getElem?, List.getElem_range, Option.map_some] at this
    refine ⟨_, this, ?_⟩
    refine ⟨fun _ => rfl, fun _ => rfl, ?_, rfl⟩
    intro p hp
    simp only [hp]
    exact ⟨rfl, rfl⟩

example : reshapeF 2 ([1, 2, 3, 4, 5, 6] : List ℚ) = [![1, 4], ![2, 5], ![3, 6]] := by decide +kernel

/-! ### arguments -/

/-- C43: the argument checks. The source of tuning rows is: resampled rows iff `resample_tune`;
out-of-bag rows iff `X_tune` or `y_tune` is missing and not `resample_tune`; the given rows otherwise.
TypeError iff training data is needed and missing. -/
theorem C43_tuning_source (a : DataArgs) :
    (tuneSource a = .error .typeError ↔
      (a.resample = true ∨ a.xTune = false ∨ a.yTune = false) ∧
        (a.xTrained = false ∨ a.yTrained = false)) ∧
    (∀ e, tuneSource a = .error e → e = .typeError) ∧
    (∀ src, tuneSource a = .ok src →
      (src = .resample ↔ a.resample = true) ∧
      (src = .oob ↔ a.resample = false ∧ (a.xTune = false ∨ a.yTune = false)) ∧
      (src = .given ↔ a.resample = false ∧ a.xTune = true ∧ a.yTune = true)) := by
  obtain ⟨a1, a2, a3, a4, a5⟩ := a
  cases a1 <;> cases a2 <;> cases a3 <;> cases a4 <;> cases a5 <;>
    simp [tuneSource]

/-- C43: `smooth` raises ValueError for an object that is not a forest, TypeError when training data is
needed and missing, ValueError for a classifier without the constraint; in all other cases the checks
pass. Checks are made in this order. -/
theorem C43_argument_checks (rf : Option Kind) (forest : List (SkTree K C)) (cfg : SmoothCfg K)
    (sources : TuneSrc → ℕ → List (TuneRow K C)) :
    (rf = none → smooth sqrt ce rf forest cfg sources = .error .valueError) ∧
    (∀ kind, rf = some kind → tuneSource cfg.data = .error .typeError →
      smooth sqrt ce rf forest cfg sources = .error .typeError) ∧
    (∀ src, rf = some .cls → tuneSource cfg.data = .ok src → cfg.noConstraint = true →
      smooth sqrt ce rf forest cfg sources = .error .valueError) ∧
    (∀ kind src, rf = some kind → tuneSource cfg.data = .ok src →
      ¬ (kind = .cls ∧ cfg.noConstraint = true) →
      smoothCheck rf cfg.data cfg.noConstraint = .ok (kind, src)) := by
  refine ⟨?_, ?_, ?_, ?_⟩
  · rintro rfl; rfl
  · rintro kind rfl h
    unfold smooth smoothCheck
    rw [h]; rfl
  · rintro src rfl h hn
    unfold smooth smoothCheck
    rw [h, hn]; rfl
  · rintro kind src rfl h hn
    exact smoothCheck_ok.2 ⟨rfl, h, hn⟩

/-! ### tuning summaries -/

/-- C44: per-leaf tuning summaries, in row order; the weight is the number of tuning rows reaching the
leaf, the response their mean (0 if there are none), and the weights of a tree add up to its number of
tuning rows. -/
theorem C44_tuning_summaries [IsStrictOrderedRing K] (d : Bool) (forest : List (SkTree K C))
    (tune : ℕ → List (TuneRow K C)) (yw : List ((Fin C → K) × K))
    (h : tuneSummaries d forest tune = .ok yw) :
    ∃ S : SkTree K C × ℕ → ℕ → (Fin C → K) × K,
      yw = (forest.zipIdx.flatMap fun tt => (List.range tt.1.nLeaves).map (S tt)) ∧
      ∀ tt ∈ forest.zipIdx, (∀ i,
        (S tt i).2 = ((tune tt.2).countP fun r => r.leaf == i : ℕ) ∧
        ((S tt i).2 = 0 → (S tt i).1 = 0) ∧
        (∀ c, (S tt i).1 c * (S tt i).2 =
          (((tune tt.2).filter fun r => r.leaf == i).map fun r => r.y c).sum)) ∧
        ((∀ r ∈ tune tt.2, r.leaf < tt.1.nLeaves) →
          ((List.range tt.1.nLeaves).map fun i => (S tt i).2).sum = ((tune tt.2).length : K)) := by
  rw [tuneSummaries_eq] at h
  split_ifs at h with hd
  cases h
  refine ⟨fun tt i => ((fun c => leafMean (tune tt.2) i c), leafWeight (tune tt.2) i), rfl, ?_⟩
  intro tt _
  have hz : ∀ i, leafWeight (tune tt.2) i = 0 → ((tune tt.2).filter fun r => r.leaf == i) = [] := by
    intro i h0
    unfold leafWeight at h0
    rwa [Nat.cast_eq_zero, List.length_eq_zero_iff] at h0
  refine ⟨fun i => ⟨?_, ?_, ?_⟩, fun hr => sum_leafWeight _ _ hr⟩
  · simp only [leafWeight, List.countP_eq_length_filter]
  · intro h0
    funext c
    simp only [leafMean, hz i h0, List.map_nil, List.sum_nil, zero_div, Pi.zero_apply]
  · intro c
    simp only [leafMean]
    split_ifs with h0
    · rw [h0, hz i h0]; simp
    · rw [div_mul_cancel₀ _ h0]

example : (match tuneSummaries false [exStump] exTune with
    | .ok l => some (l.map fun p => (p.1 0, p.2))
    | .error _ => none) = some [(2, 1), (11 / 2, 2)] := by decide +kernel

/-- C73: for a classifier tuned on out-of-bag or resampled rows, `smooth` raises ValueError as soon as
some tree's tuning rows miss a class; the same data passed as `X_tune`, `y_tune` is accepted if there
are rows. -/
theorem C73_missing_class_raises (forest : List (SkTree K C)) (cfg : SmoothCfg K) {src : TuneSrc}
    (hsrc : tuneSource cfg.data = .ok src) (hc : cfg.noConstraint = false)
    (sources : TuneSrc → ℕ → List (TuneRow K C)) :
    (src ≠ .given → (∃ tt ∈ forest.zipIdx, ∃ c, ∀ r ∈ sources src tt.2, r.y c = 0) →
      smooth sqrt ce (some .cls) forest cfg sources = .error .valueError) ∧
    ((∀ tt ∈ forest.zipIdx, sources src tt.2 ≠ []) →
      (src = .given ∨ ∀ tt ∈ forest.zipIdx, ∀ c, ∃ r ∈ sources src tt.2, r.y c ≠ 0) →
      ∃ yw, tuneSummaries (decide (Kind.cls = .cls) && decide (src ≠ .given)) forest (sources src) =
        .ok yw) := by
  constructor
  · intro hs hm
    unfold smooth
    have h1 : smoothCheck (some .cls) cfg.data cfg.noConstraint = .ok (.cls, src) :=
      smoothCheck_ok.2 ⟨rfl, hsrc, by simp [hc]⟩
    have h2 : tuneSummaries (decide (Kind.cls = .cls) && decide (src ≠ .given)) forest (sources src) =
        .error .valueError := by
      rw [tuneSummaries_eq, if_pos (Or.inr ⟨by simp [hs], hm⟩)]
    rw [h1]
    show (tuneSummaries (decide (Kind.cls = .cls) && decide (src ≠ .given)) forest (sources src) >>= _) = _
    rw [h2]
    rfl
  · intro hne h
    rw [tuneSummaries_eq, if_neg]
    · exact ⟨_, rfl⟩
    · rintro (⟨tt, htt, e⟩ | ⟨h1, tt, htt, c, hr⟩)
      · exact hne tt htt e
      rcases h with h | h
      · simp [h] at h1
      · obtain ⟨r, hr1, hr2⟩ := h tt htt c
        exact hr2 (hr r hr1)

example : (match smooth (fun x => x) noCe (some .cls) [exClsStump]
      { exCfg with data := ⟨true, true, false, false, false⟩ } (fun _ _ => [⟨0, ![1, 0]⟩]) with
    | .ok _ => none
    | .error e => some e) = some .valueError := by decide +kernel

/-! ### classifier with the default loss -/

theorem sgdCe_raises {k : ℕ} (sq : ℝ → ℝ) (approxOne : ℝ → Bool) (o : SgdOpts ℝ) (classEps : ℝ)
    (rows : List (Row ℝ k)) (l : List ℝ) (choices : List ℕ) (hc : o.constrained = true)
    (hs : choices ≠ []) : ∀ r, sgdCe sq approxOne o classEps rows l choices ≠ .ok r := by
  intro r h
  unfold sgdCe at h
  split_ifs at h with h1 h2
  unfold sgdRun at h
  obtain ⟨c0, -, h⟩ := bind_ok h
  split_ifs at h with h3
  obtain ⟨s, h4, -⟩ := bind_ok h
  cases choices with
  | nil => exact hs rfl
  | cons c cs =>
    rw [List.foldlM_cons] at h4
    obtain ⟨s1, h5, -⟩ := bind_ok h4
    unfold sgdStep sgdMove at h5
    obtain ⟨p, h6, -⟩ := bind_ok h5
    obtain ⟨q, -, h8⟩ := bind_ok h6
    rw [if_pos hc] at h8
    obtain ⟨l2, h9, -⟩ := bind_ok h8
    cases h9

/-- C31 (refuted, for every input): with the cross-entropy loss, at least one step and no sanity
check, `smooth` on a classifier never returns. -/
theorem C31_refuted {C : ℕ} (sq : ℝ → ℝ) (approxOne : ℝ → Bool) (forest : List (SkTree ℝ C))
    (cfg : SmoothCfg ℝ) (hs : cfg.sanityCheck = false) (hl : cfg.lossL2 = false)
    (hsteps : cfg.steps ≠ []) (sources : TuneSrc → ℕ → List (TuneRow ℝ C)) :
    ¬ ∃ out, smooth sq (fun _ => sgdCe sq approxOne) (some .cls) forest cfg sources = .ok out := by
  rintro ⟨out, h⟩
  obtain ⟨kind', src, yw, lamb, h0, h1, -, -, h4, -, -⟩ := smooth_ok h
  cases h0
  have hc := (smoothCheck_ok.1 h1).2.2
  unfold smoothOptimise at h4
  rw [if_neg (by simp [hs]), if_neg (by simp [hl])] at h4
  exact sgdCe_raises _ _ _ _ _ _ _ (by simpa using hc) hsteps _ h4

/-- A start exists if the draws are non-negative and not all zero. -/
theorem initLamb_exists [IsStrictOrderedRing K] (kind : Kind) {n : ℕ} {seed : Option (ℕ → K)} {classEps : K}
    (hs : ∀ u, seed = some u → (∀ i, 0 ≤ u i) ∧ ∃ i ≤ n, 0 < u i) (he : 0 ≤ classEps) :
    ∃ l : Fin (n + 1) → K, initLamb kind seed classEps = .ok l := by
  have hb : ∃ l : Fin (n + 1) → K, baseLamb seed = .ok l ∧ ∑ i, l i = 1 := by
    cases seed with
    | none => exact ⟨_, rfl, by simp⟩
    | some u =>
      obtain ⟨h1, i, hi, h2⟩ := hs u rfl
      have hpos : 0 < ∑ j : Fin (n + 1), u j :=
        Finset.sum_pos' (fun j _ => h1 j) ⟨⟨i, by omega⟩, Finset.mem_univ _, h2⟩
      refine ⟨fun i => u i / ∑ j : Fin (n + 1), u j, ?_, ?_⟩
      · show normalise _ = _
        unfold normalise
        rw [if_neg hpos.ne']
      · rw [← Finset.sum_div, div_self hpos.ne']
  obtain ⟨l, h1, h2⟩ := hb
  unfold initLamb
  rw [h1]
  cases kind
  · exact ⟨l, rfl⟩
  · have hn : ((n + 1 : ℕ) : K) ≠ 0 := Nat.cast_ne_zero.2 (by omega)
    have s0 : ∑ i : Fin (n + 1), (l i + 1 * classEps / ((n + 1 : ℕ) : K)) = 1 + classEps := by
      rw [Finset.sum_add_distrib, h2, Finset.sum_const, Finset.card_univ, Fintype.card_fin, nsmul_eq_mul, one_mul,
        mul_div_cancel₀ _ hn]
    have hp : (1 : K) + classEps ≠ 0 := by positivity
    simp only [bind, Except.bind]
    unfold normalise
    rw [if_neg (by rw [s0]; exact hp)]
    dsimp only
    rw [if_neg]
    · exact ⟨_, rfl⟩
    · rw [← Finset.sum_div, s0, div_self hp]
      exact one_ne_zero

/-- C31 (what holds): with `class_loss="l2"` (or for a regressor) plain constrained SGD, from the
default start or non-negative draws that are not all zero, `smooth` returns for every number of steps and every tree choice.
Missing: the default cross-entropy loss (`C31_refuted`). -/
theorem C31_l2_returns_partial [IsStrictOrderedRing K] (hC : 0 < C) (kind : Kind)
    {forest : List (SkTree K C)} (hne : forest ≠ []) (hwf : ∀ t ∈ forest, t.WF)
    (hpos : ∀ t ∈ forest, ∀ r, 0 < t.nSamp (t.leafNode r)) (cfg : SmoothCfg K)
    (hl2 : kind = .reg ∨ cfg.lossL2 = true) (hsan : cfg.sanityCheck = false) (ha : cfg.adam = none)
    (hc : cfg.noConstraint = false)
    (hseed : ∀ u, cfg.seed = some u → (∀ i, 0 ≤ u i) ∧ ∃ i ≤ forestDepth forest, 0 < u i) (he : 0 ≤ cfg.classEps)
    {src : TuneSrc} (hsrc : tuneSource cfg.data = .ok src)
    (sources : TuneSrc → ℕ → List (TuneRow K C))
    (hrows : ∀ tt ∈ forest.zipIdx, sources src tt.2 ≠ [])
    (hcls : kind = .cls → src ≠ .given →
      ∀ tt ∈ forest.zipIdx, ∀ c, ∃ r ∈ sources src tt.2, r.y c ≠ 0) :
    ∃ out, smooth sqrt ce (some kind) forest cfg sources = .ok out := by
  have h2 : tuneSummaries (decide (kind = .cls) && decide (src ≠ .given)) forest (sources src) =
      .ok (forest.zipIdx.flatMap (summaryBlock (sources src))) := by
    rw [tuneSummaries_eq, if_neg]
    rintro (⟨tt, htt, e⟩ | ⟨h1, tt, htt, c, hr⟩)
    · exact hrows tt htt e
    simp only [Bool.and_eq_true, decide_eq_true_eq] at h1
    obtain ⟨r, hr1, hr2⟩ := hcls h1.1 h1.2 tt htt c
    exact hr2 (hr r hr1)
  obtain ⟨lamb, h3⟩ := initLamb_exists (n := forestDepth forest) kind hseed he
  have hf := initLamb_feasible kind cfg.seed cfg.classEps (fun u hu => (hseed u hu).1) he h3
  have hmem : ∀ q ∈ leafListI forest, q.1.1 ∈ forest := by
    intro q hq
    have : q.1 ∈ leafList forest := by rw [← leafListI_fst]; exact List.mem_map_of_mem hq
    simp only [leafList, List.mem_flatMap, List.mem_map] at this
    obtain ⟨t, ht, r, -, e⟩ := this
    rw [← e]; exact ht
  have h4 : ∃ r, sgd sqrt ⟨cfg.tFix, !cfg.noConstraint, cfg.adam⟩
      ((List.finRange C).flatMap fun c => (leafListI forest).map
        (specRow kind cfg.style cfg.parentsAll cfg.allTrees (sources src) (forestDepth forest + 1) c))
      (List.ofFn lamb) cfg.steps = .ok r := by
    apply C27_plain_constrained_returns
    · exact ha
    · simp [hc]
    · intro hnil
      rw [List.flatMap_eq_nil_iff] at hnil
      have := hnil ⟨0, hC⟩ (List.mem_finRange _)
      rw [List.map_eq_nil_iff] at this
      have e := leafListI_fst forest
      rw [this] at e
      obtain ⟨t, ht⟩ := List.exists_mem_of_ne_nil _ hne
      have := nLeaves_le_leafList ht
      rw [← e] at this
      have := nLeaves_pos (hwf t ht)
      simp at *
      omega
    · intro row hrow j
      simp only [List.mem_flatMap, List.mem_map] at hrow
      obtain ⟨c, -, q, hq, rfl⟩ := hrow
      have hp := hpos _ (hmem q hq)
      constructor
      · exact levelSum_nonneg _ _ _ (fun l => (hp l).le) _ _
      · intro h0
        simp only [specRow] at h0 ⊢
        unfold levelSum at h0 ⊢
        split_ifs at h0 ⊢ <;>
        · have hemp := (Finset.sum_eq_zero_iff_of_nonneg fun l _ => (hp l).le).1 h0
          exact Finset.sum_eq_zero fun l hl => absurd (hemp l hl) (hp l).ne'
    · simp
    · rw [List.sum_ofFn]; exact hf.1
    · intro x hx
      obtain ⟨i, rfl⟩ := (List.mem_ofFn' _ _).1 hx
      exact hf.2 i
  obtain ⟨⟨l1, l2, cs⟩, h4⟩ := h4
  rw [← flatRows_eq kind forest hwf] at h4
  obtain ⟨out, ho, -⟩ := smooth_returns (sqrt := sqrt) (ce := ce) hC hwf (sources := sources)
    (smoothCheck_ok.2 ⟨rfl, hsrc, by simp [hc]⟩) h2 h3
    (l1 := l1) (l2 := l2) (cs := cs) (by
      unfold smoothOptimise
      rw [if_neg (by simp [hsan]), if_pos hl2]; exact h4)
  exact ⟨out, ho⟩

/-- Instance: one l2 step on the two-class stump. -/
example : (match smooth (fun x => x) noCe (some .cls) [exClsStump]
      { exCfg with sanityCheck := false, lossL2 := true, steps := [0], tFix := 1 / 10 }
      (fun _ => exClsTune) with
    | .ok out => some (valuesOf out.rf1)
    | .error _ => none) = some [[[3, 3], [3 / 4, 1 / 4], [0, 1]]] := by decide +kernel

end SmoothRF
