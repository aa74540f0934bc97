import Verif.Props.AllExactProps
import Verif.Props.DepthTwiceProps
import Verif.Props.TruncProps

/-! `smooth_all` against `depth_tune` on the tuning rows (C191). -/

set_option linter.unusedSectionVars false

namespace SmoothRF
open SkTree Topo

variable {K : Type} [Field K] [LinearOrder K] [IsStrictOrderedRing K]
variable {o : AllOracles K} {forest : List (SkTree K 1)} {c : AllCfg}
  {sources : TuneSrc → ℕ → List (TuneRow K 1)} {rf : List (SkTree K 1)}
  {lamb : Fin (forestDepth forest + 1) → K}

theorem sum_unitWeights {n k : ℕ} (hk : k < n) (v : Fin n → K) :
    ∑ j, unitWeights K n k j * v j = v ⟨k, hk⟩ := by
  rw [Finset.sum_eq_single (⟨k, hk⟩ : Fin n)]
  · simp [unitWeights]
  · intro j _ hj
    have : j.val ≠ k := fun e => hj (Fin.ext e)
    simp [unitWeights, this]
  · simp

theorem unitWeights_simplex {n k : ℕ} (hk : k < n) : InSimplex (unitWeights K n k) := by
  refine ⟨fun i => ?_, ?_⟩
  · unfold unitWeights
    split_ifs
    exacts [zero_le_one, le_rfl]
  · have := sum_unitWeights hk (fun _ : Fin n => (1 : K))
    simpa using this

theorem unitWeights_sq {n k : ℕ} (hk : k < n) : ∑ i, unitWeights K n k i ^ 2 = 1 := by
  have := sum_unitWeights hk (unitWeights K n k)
  simp only [← sq] at this
  rw [this]
  simp [unitWeights]

/-- Smoothing with all weight on one level gives the mean of that level. -/
theorem smoothSpec_unit_ratio (t : SkTree K 1) (pa : Bool) {n k : ℕ} (hk : k < n) (r : Fin t.nLeaves) (c : Fin 1) :
    smoothSpec .reg t .standard pa (unitWeights K n k) r c =
      ∑ j : Fin n, unitWeights K n k j * levelRatio t pa r j := by
  rw [sum_unitWeights hk fun j : Fin n => levelRatio t pa r j]
  have hs : ∀ v : Fin n → K, (∑ j : Fin n, v j * unitWeights K n k j) = v ⟨k, hk⟩ := fun v => by
    rw [← sum_unitWeights hk v]
    exact Finset.sum_congr rfl fun j _ => mul_comm _ _
  have hc : c = 0 := Subsingleton.elim _ _
  subst hc
  unfold smoothSpec smoothDen smoothNum levelRatio
  rw [hs fun k : Fin n => levelSum pa (t.distDepth .standard) (fun j => t.nSamp (t.leafNode j)) r k,
    hs fun k : Fin n => levelSum pa (t.distDepth .standard) (fun j => t.mass .reg (t.leafNode j) 0) r k]
  rfl

theorem mse_unit (pa : Bool) {n k : ℕ} (hk : k < n) {out : List (SkTree K 1)}
    (h : List.Forall₂ (fun t t' => LeafUpdate t t' (smoothSpec .reg t .standard pa (unitWeights K n k))) forest out)
    (tune : ℕ → List (TuneRow K 1))
    (hr : ∀ tt ∈ forest.zipIdx, ∀ q ∈ tune tt.2, q.leaf < tt.1.nLeaves) :
    forestMSE out tune = 2 * tuneLoss forest pa tune (unitWeights K n k) := by
  refine mse_eq pa _ (h.imp fun t t' hu => ?_) tune hr
  obtain ⟨v, e, hv, hi⟩ := hu
  exact ⟨v, e, fun r c => by rw [hv, smoothSpec_unit_ratio t pa hk], hi⟩

/-- Exact `smooth_all` against any one level. -/
theorem ridge_unit (ho : ExactLib o) (hwf : ∀ t ∈ forest, t.WF)
    {tp : Option ℤ} (hs : readSanity c.sanity = .ok (false, tp))
    (hr : ∀ tt ∈ forest.zipIdx, ∀ q ∈ sources (allSource c) tt.2, q.leaf < tt.1.nLeaves)
    {fuel : ℕ} (hf : 2 ≤ fuel) (h : smoothAll o fuel forest c sources = .ok (some (rf, lamb)))
    {k : ℕ} (hk : k < forestDepth forest + 1) {out : List (SkTree K 1)}
    (hout : List.Forall₂ (fun t t' => LeafUpdate t t' (smoothSpec .reg t .standard c.parentsAll
      (unitWeights K (forestDepth forest + 1) k))) forest out) :
    forestMSE rf (sources (allSource c)) ≤
        forestMSE out (sources (allSource c)) + max 0 (o.unit * (1 - ∑ i, lamb i ^ 2)) ∧
      ((∀ x : Fin (forestDepth forest + 1) → K, x ≠ 0 → ∃ tt ∈ forest.zipIdx,
          ∃ q ∈ sources (allSource c) tt.2, leafPred tt.1 c.parentsAll x q.leaf ≠ 0) →
        forestMSE rf (sources (allSource c)) ≤ forestMSE out (sources (allSource c))) := by
  obtain ⟨-, w, hw, hmin⟩ := C116_ridge ho hwf hs hr hf h
  have := hmin (unitWeights K _ k) fun _ => unitWeights_simplex hk
  rw [mse_eq c.parentsAll lamb (C64_values hwf h) _ hr, mse_unit c.parentsAll hk hout _ hr]
  rw [unitWeights_sq hk] at this
  rcases hw with ⟨e, -⟩ | ⟨e, x, hx, hz⟩
  · rw [e] at this
    have h0 := le_max_left 0 (o.unit * (1 - ∑ i, lamb i ^ 2))
    exact ⟨by linarith, fun _ => by linarith⟩
  · rw [e] at this
    have h0 := le_max_right 0 (o.unit * (1 - ∑ i, lamb i ^ 2))
    refine ⟨by linarith, fun hind => ?_⟩
    obtain ⟨tt, ht, q, hq, hne⟩ := hind x hx
    exact absurd (hz tt ht q hq) hne

/-- C191: the full claim. For a regression forest with consistent statistics, `smooth_all` with exact routines
and `parents_all` has, whenever no non-zero weights predict 0 at every tuning row, on its tuning rows no
larger error than the forest `depth_tune` returns. -/
def C191Claim : Prop :=
  ∀ (o : AllOracles ℝ) (forest : List (SkTree ℝ 1)) (c : AllCfg) (sources : TuneSrc → ℕ → List (TuneRow ℝ 1))
    (data : DataArgs) (lrows : TuneSrc → ℕ → List (LossRow ℝ)) (fuel : ℕ) (rf out : List (SkTree ℝ 1))
    (lamb : Fin (forestDepth forest + 1) → ℝ) (loss : List ℝ) (tp : Option ℤ),
    ExactLib o → (∀ t ∈ forest, t.WF ∧ t.Consistent .reg ∧ ∀ i, 0 < t.nSamp i) → c.parentsAll = true →
    readSanity c.sanity = .ok (false, tp) → 2 ≤ fuel →
    (∀ tt ∈ forest.zipIdx, ∀ q ∈ sources (allSource c) tt.2, q.leaf < tt.1.nLeaves) →
    (∀ x : Fin (forestDepth forest + 1) → ℝ, x ≠ 0 → ∃ tt ∈ forest.zipIdx,
      ∃ q ∈ sources (allSource c) tt.2, leafPred tt.1 c.parentsAll x q.leaf ≠ 0) →
    smoothAll o fuel forest c sources = .ok (some (rf, lamb)) →
    depthTune (some .reg) forest data lrows = .ok (out, loss) →
    forestMSE rf (sources (allSource c)) ≤ forestMSE out (sources (allSource c))

theorem forestDepth_level (hne : forest ≠ []) (hwf : ∀ t ∈ forest, t.WF) {D : ℕ}
    (hD : ∀ t ∈ forest, ∀ r : Fin t.nLeaves, t.DepthIs (t.leafNode r) D) : forestDepth forest = D := by
  have hdep : ∀ t ∈ forest, t.IsTreeDepth D := by
    intro t ht
    have h := hwf t ht
    obtain ⟨r, _⟩ := exists_leaf_below h 0
    refine ⟨⟨_, hD t ht r⟩, fun i d hi => ?_⟩
    obtain ⟨q, hq⟩ := exists_leaf_below h i
    have := anc_depth_le h hq
    rwa [(depthIs_iff h _ _).1 hi, (depthIs_iff h _ _).1 (hD t ht q)] at this
  obtain ⟨t0, ht0⟩ := List.exists_mem_of_ne_nil forest hne
  obtain ⟨-, -, h3, h4⟩ := C02_calc_depth_for_forest (forest.map SkTree.toTopo) (by
      intro e; rw [List.map_eq_nil_iff] at e; exact hne e) (by
    intro t ht
    obtain ⟨s, hs, rfl⟩ := List.mem_map.1 ht
    exact hwf s hs)
  apply le_antisymm
  · obtain ⟨t, ht, i, hi⟩ := h4
    obtain ⟨s, hs, rfl⟩ := List.mem_map.1 ht
    exact (hdep s hs).2 i _ hi
  · obtain ⟨i, hi⟩ := (hdep t0 ht0).1
    exact h3 t0.toTopo (List.mem_map.2 ⟨t0, ht0, rfl⟩) i _ hi

/-- C191 (what holds): when all leaves of all trees have the same depth, the claim holds, whatever rows
`depth_tune` was given. In general the error exceeds that of the tuned forest by at most the ridge term. -/
theorem C191_never_worse_partial (ho : ExactLib o) (hne : forest ≠ []) (hwf : ∀ t ∈ forest, t.WF)
    (hc : ∀ t ∈ forest, t.Consistent .reg) (hn : ∀ t ∈ forest, ∀ i, t.nSamp i ≠ 0) {D : ℕ} (hD0 : 0 < D)
    (hD : ∀ t ∈ forest, ∀ r : Fin t.nLeaves, t.DepthIs (t.leafNode r) D) (hpa : c.parentsAll = true)
    {tp : Option ℤ} (hs : readSanity c.sanity = .ok (false, tp))
    (hr : ∀ tt ∈ forest.zipIdx, ∀ q ∈ sources (allSource c) tt.2, q.leaf < tt.1.nLeaves)
    {data : DataArgs} {src : TuneSrc} (hsrc : tuneSource data = .ok src) {lrows : TuneSrc → ℕ → List (LossRow K)}
    (hrows : ∀ tt ∈ forest.zipIdx, (∀ r ∈ lrows src tt.2, r.leaf < tt.1.nLeaves) ∧ lrows src tt.2 ≠ [])
    {fuel : ℕ} (hf : 2 ≤ fuel) (h : smoothAll o fuel forest c sources = .ok (some (rf, lamb)))
    {out : List (SkTree K 1)} {loss : List K} (hdt : depthTune (some .reg) forest data lrows = .ok (out, loss)) :
    forestMSE rf (sources (allSource c)) ≤
        forestMSE out (sources (allSource c)) + max 0 (o.unit * (1 - ∑ i, lamb i ^ 2)) ∧
      ((∀ x : Fin (forestDepth forest + 1) → K, x ≠ 0 → ∃ tt ∈ forest.zipIdx,
          ∃ q ∈ sources (allSource c) tt.2, leafPred tt.1 c.parentsAll x q.leaf ≠ 0) →
        forestMSE rf (sources (allSource c)) ≤ forestMSE out (sources (allSource c))) := by
  obtain ⟨out', loss', k, e, -, hk, -, hF⟩ := C166_depth_tune_partial hne hwf hc hn hD0 hD hsrc hrows
  rw [hdt] at e
  cases e
  have hfd := forestDepth_level hne hwf hD
  rw [← hpa, ← hfd] at hF
  exact ridge_unit ho hwf hs hr hf h (by omega) hF

/-- C191: it also holds against truncation at any other depth, the whole tree included. -/
theorem C191_every_depth (ho : ExactLib o) (hne : forest ≠ []) (hwf : ∀ t ∈ forest, t.WF)
    (hc : ∀ t ∈ forest, t.Consistent .reg) (hn : ∀ t ∈ forest, ∀ i, t.nSamp i ≠ 0) {D : ℕ}
    (hD : ∀ t ∈ forest, ∀ r : Fin t.nLeaves, t.DepthIs (t.leafNode r) D) (hpa : c.parentsAll = true)
    {tp : Option ℤ} (hs : readSanity c.sanity = .ok (false, tp))
    (hr : ∀ tt ∈ forest.zipIdx, ∀ q ∈ sources (allSource c) tt.2, q.leaf < tt.1.nLeaves)
    (hind : ∀ x : Fin (forestDepth forest + 1) → K, x ≠ 0 → ∃ tt ∈ forest.zipIdx,
      ∃ q ∈ sources (allSource c) tt.2, leafPred tt.1 c.parentsAll x q.leaf ≠ 0)
    {fuel : ℕ} (hf : 2 ≤ fuel) (h : smoothAll o fuel forest c sources = .ok (some (rf, lamb)))
    {d : ℕ} (hd : d ≤ D) {tr : (t : SkTree K 1) → t.Node → t.Node}
    (htr : ∀ t ∈ forest, ∀ i, t.Deepest d i (tr t i)) {out : List (SkTree K 1)}
    (hout : List.Forall₂ (fun t t' => LeafUpdate t t' fun r => t.value (tr t (t.leafNode r))) forest out) :
    forestMSE rf (sources (allSource c)) ≤ forestMSE out (sources (allSource c)) := by
  have hfd := forestDepth_level hne hwf hD
  refine (ridge_unit ho hwf hs hr hf h (k := D - d) (by omega) (forall2_imp_mem hout fun t ht t' hu => ?_)).2 hind
  obtain ⟨v, e, hv, hi⟩ := hu
  refine ⟨v, e, fun r c' => ?_, hi⟩
  rw [hv, hpa, C166_truncation_partial .reg t (hwf t ht) (hc t ht) (hn t ht) (hD t ht) hd (by omega) r _
    (htr t ht _) c']
  rfl

/-! ### leaves at different depths -/

/-- A tree with rational statistics, over the reals. -/
noncomputable def realTree {C : ℕ} (t : SkTree ℚ C) : SkTree ℝ C :=
  { toTopo := t.toTopo
    value := fun i c => ((t.value i c : ℚ) : ℝ)
    nSamp := fun i => ((t.nSamp i : ℚ) : ℝ)
    impurity := fun i => ((t.impurity i : ℚ) : ℝ) }

theorem realTree_ratio (t : SkTree ℚ 1) (pa : Bool) (r : Fin t.nLeaves) (k : ℕ) :
    levelRatio (realTree t) pa r k = ((levelRatio t pa r k : ℚ) : ℝ) := by
  have hl : ∀ f : Fin t.nLeaves → ℚ, levelSum pa ((realTree t).distDepth .standard) (fun j => ((f j : ℚ) : ℝ)) r k =
      ((levelSum pa (t.distDepth .standard) f r k : ℚ) : ℝ) := by
    intro f
    unfold levelSum
    cases pa
    · simp only [Bool.false_eq_true, if_false]
      push_cast
      rfl
    · simp only [if_true]
      push_cast
      rfl
  have h1 := hl fun j => t.nSamp (t.leafNode j)
  have h2 := hl fun j => t.nSamp (t.leafNode j) * t.value (t.leafNode j) 0
  push_cast at h2
  unfold levelRatio
  show (if levelSum pa ((realTree t).distDepth .standard) (fun j => ((t.nSamp (t.leafNode j) : ℚ) : ℝ)) r k = 0 then 0
    else levelSum pa ((realTree t).distDepth .standard)
        (fun j => ((t.nSamp (t.leafNode j) : ℚ) : ℝ) * ((t.value (t.leafNode j) 0 : ℚ) : ℝ)) r k /
      levelSum pa ((realTree t).distDepth .standard) (fun j => ((t.nSamp (t.leafNode j) : ℚ) : ℝ)) r k) = _
  rw [h1, h2]
  split_ifs with a b b
  · simp
  · exact absurd (by exact_mod_cast a) b
  · exact absurd (by exact_mod_cast b) a
  · push_cast; rfl

theorem realTree_consistent {t : SkTree ℚ 1} (h : t.Consistent .reg) : (realTree t).Consistent .reg := by
  intro p l r hl hr
  obtain ⟨h1, h2⟩ := h p l r hl hr
  refine ⟨?_, fun c => ?_⟩
  · show ((t.nSamp p : ℚ) : ℝ) = t.nSamp l + t.nSamp r
    exact_mod_cast h1
  · have := h2 c
    simp only [mass, if_true] at this ⊢
    show ((t.nSamp p : ℚ) : ℝ) * ((t.value p c : ℚ) : ℝ) = t.nSamp l * t.value l c + t.nSamp r * t.value r c
    exact_mod_cast this

/-- The example tree with leaves at depths 2, 2 and 1. -/
noncomputable abbrev exTreeR : SkTree ℝ 1 := realTree exTree

/-- One row in each leaf, equal to what truncation at depth 1 predicts. -/
noncomputable abbrev exCutRows : TuneSrc → ℕ → List (TuneRow ℝ 1) :=
  fun _ _ => [⟨0, fun _ => 3⟩, ⟨1, fun _ => 3⟩, ⟨2, fun _ => 10⟩]

/-- The same rows for `depth_tune`. -/
noncomputable abbrev exCutLoss : TuneSrc → ℕ → List (LossRow ℝ) := fun _ _ => [⟨0, 3⟩, ⟨1, 3⟩, ⟨2, 10⟩]

theorem exTreeR_pred (x : Fin 3 → ℝ) :
    leafPred exTreeR true x 0 = x 0 + 3 * x 1 + 13 / 2 * x 2 ∧
    leafPred exTreeR true x 1 = 4 * x 0 + 3 * x 1 + 13 / 2 * x 2 ∧
    leafPred exTreeR true x 2 = 10 * x 0 + 13 / 2 * x 1 + 13 / 2 * x 2 := by
  have hq : ∀ (r : Fin exTree.nLeaves) (k : Fin 3), levelRatio exTree true r k =
      ![![1, 3, 13 / 2], ![4, 3, 13 / 2], ![10, 13 / 2, 13 / 2]] (Fin.cast (by decide) r : Fin 3) k := by
    decide +kernel
  have h0 : (0 : ℕ) < exTree.nLeaves := by decide
  have h1 : (1 : ℕ) < exTree.nLeaves := by decide
  have h2 : (2 : ℕ) < exTree.nLeaves := by decide
  have e : ∀ i (hi : i < exTree.nLeaves), leafPred exTreeR true x i =
      ∑ k : Fin 3, x k * ((levelRatio exTree true ⟨i, hi⟩ k : ℚ) : ℝ) := by
    intro i hi
    unfold leafPred
    rw [dif_pos (show i < exTreeR.nLeaves from hi)]
    exact Finset.sum_congr rfl fun k _ => by rw [← realTree_ratio]; rfl
  rw [e 0 h0, e 1 h1, e 2 h2]
  simp only [hq, Fin.sum_univ_three]
  simp [Fin.cast]
  refine ⟨?_, ?_, ?_⟩ <;> ring

theorem exTree_cut (d : ℕ) (hd : d < 2) (r : Fin exTree.nLeaves) :
    exTree.value (deepestOf exTree.toTopo d (exTree.leafNode r)) 0 =
      (![![13 / 2, 13 / 2, 13 / 2], ![3, 3, 10]] ⟨d, hd⟩ : Fin 3 → ℚ) (Fin.cast (by decide) r) := by
  have h : exTree.WF := by decide
  have hD : exTree.IsTreeDepth 2 := by
    have := isTreeDepth_npMax h
    rwa [show npMax exTree.depthPerNode = 2 by decide +kernel] at this
  obtain ⟨L, h1, -, h3⟩ := C50_leaf_predicted_values h hD
  obtain ⟨row, r1, -, r3⟩ := h3 d hd
  obtain ⟨a, -, hu, ha⟩ := r3 r
  rw [hu _ (deepestOf_spec h d _)]
  have hv : (match leafPredictedValues exTree with
    | .ok L => some (L.map fun row => row.map fun v => v 0)
    | .error _ => none) = some [[13 / 2, 13 / 2, 13 / 2], [3, 3, 10]] := by decide +kernel
  rw [h1] at hv
  simp only [Option.some.injEq] at hv
  have k1 : (L.map fun row => row.map fun v => v 0)[d]? = some (row.map fun v => v 0) := by
    rw [List.getElem?_map, r1]; rfl
  have k2 : (row.map fun v => v 0)[r.val]? = some (exTree.value a 0) := by
    rw [List.getElem?_map, ha]; rfl
  rw [hv] at k1
  generalize (row.map fun v => v 0) = rw0 at k1 k2
  generalize exTree.value a 0 = x at k2
  have hr3 : r.val < 3 := r.isLt
  clear h3 r3 r1 h1 hv hu ha
  interval_cases d <;> simp at k1 <;> subst k1 <;> obtain ⟨i, hi⟩ := r <;> simp at hr3 k2 ⊢ <;>
    interval_cases i <;> simp at k2 ⊢ <;> exact k2.symm

theorem exLeaf (i : ℕ) (hi : i < 3) : i < exTreeR.nLeaves := by
  show i < exTree.nLeaves
  rwa [show exTree.nLeaves = 3 by decide]

theorem exTreeR_cut {d : ℕ} (hd : d < 2) (i : ℕ) (hi : i < exTreeR.nLeaves) :
    exTreeR.value (deepestOf exTreeR.toTopo d (exTreeR.leafNode ⟨i, hi⟩)) 0 =
      if d = 0 then 13 / 2 else if i = 2 then 10 else 3 := by
  have hi3 : i < 3 := hi
  have e := exTree_cut d hd ⟨i, hi⟩
  show ((exTree.value (deepestOf exTree.toTopo d (exTree.leafNode ⟨i, hi⟩)) 0 : ℚ) : ℝ) = _
  rw [e]
  interval_cases d <;> interval_cases i <;> simp [Fin.cast]

theorem exTreeR_depth : npMax exTreeR.depthPerNode = 2 := by decide +kernel

theorem exCut_loss {d : ℕ} (hd : d < 2) : cutLoss .reg [exTreeR] (exCutLoss .given) d =
    if d = 0 then 147 / 4 else 0 := by
  have hm : min d (npMax exTreeR.depthPerNode - 1) = d := by rw [exTreeR_depth]; omega
  simp only [cutLoss, truncLoss, List.zipIdx_singleton, List.map_cons, List.map_nil, List.sum_cons, List.sum_nil,
    dif_pos (exLeaf 0 (by omega)), dif_pos (exLeaf 1 (by omega)), dif_pos (exLeaf 2 (by omega)), pointLoss, hm,
    exTreeR_cut hd]
  interval_cases d <;> norm_num

theorem exCut_mse {out : List (SkTree ℝ 1)} (hF : List.Forall₂ (CutAt 1) [exTreeR] out) :
    forestMSE out (exCutRows .given) = 0 := by
  cases hF with
  | cons hl htl =>
    cases htl
    obtain ⟨v, rfl, hv, -⟩ := hl
    have hm : min 1 (npMax exTreeR.depthPerNode - 1) = 1 := by rw [exTreeR_depth]; rfl
    have hv' : ∀ i (hi : i < exTreeR.nLeaves), v (exTreeR.leafNode ⟨i, hi⟩) 0 = if i = 2 then 10 else 3 := fun i hi => by
      rw [hv]
      dsimp only
      rw [hm, exTreeR_cut (by omega) i hi, if_neg (by omega)]
    have hz : treeSSE { exTreeR with value := v } (exCutRows .given 0) = 0 := by
      unfold treeSSE
      simp only [List.map_cons, List.map_nil, List.sum_cons, List.sum_nil, Fin.sum_univ_one]
      rw [dif_pos (exLeaf 0 (by omega)), dif_pos (exLeaf 1 (by omega)), dif_pos (exLeaf 2 (by omega))]
      have e0 := hv' 0 (exLeaf 0 (by omega))
      have e1 := hv' 1 (exLeaf 1 (by omega))
      have e2 := hv' 2 (exLeaf 2 (by omega))
      norm_num at e0 e1 e2
      show (3 - v (exTreeR.leafNode ⟨0, _⟩) 0) ^ 2 + ((3 - v (exTreeR.leafNode ⟨1, _⟩) 0) ^ 2 +
        ((10 - v (exTreeR.leafNode ⟨2, _⟩) 0) ^ 2 + 0)) = 0
      rw [e0, e1, e2]
      norm_num
    unfold forestMSE
    simp only [List.zipIdx_singleton, List.map_cons, List.map_nil, List.sum_cons, List.sum_nil]
    rw [hz]
    simp

theorem exCut_pos (x : Fin 3 → ℝ) (hs : x 0 + x 1 + x 2 = 1) :
    0 < 2 * tuneLoss [exTreeR] true (exCutRows .given) x := by
  unfold tuneLoss
  simp only [List.zipIdx_singleton, List.map_cons, List.map_nil, List.sum_cons, List.sum_nil, List.length_cons,
    List.length_nil, (exTreeR_pred x).1, (exTreeR_pred x).2.1, (exTreeR_pred x).2.2]
  have q0 := sq_nonneg (x 0 + 3 * x 1 + 13 / 2 * x 2 - 3)
  have q1 := sq_nonneg (4 * x 0 + 3 * x 1 + 13 / 2 * x 2 - 3)
  have q2 := sq_nonneg (10 * x 0 + 13 / 2 * x 1 + 13 / 2 * x 2 - 10)
  by_contra hle
  norm_num at hle
  have z0 : x 0 + 3 * x 1 + 13 / 2 * x 2 - 3 = 0 := pow_eq_zero_iff two_ne_zero |>.1 (by linarith)
  have z1 : 4 * x 0 + 3 * x 1 + 13 / 2 * x 2 - 3 = 0 := pow_eq_zero_iff two_ne_zero |>.1 (by linarith)
  have z2 : 10 * x 0 + 13 / 2 * x 1 + 13 / 2 * x 2 - 10 = 0 := pow_eq_zero_iff two_ne_zero |>.1 (by linarith)
  linarith

theorem exCut_ind (x : Fin 3 → ℝ) (hx : x ≠ 0) : ∃ tt ∈ [exTreeR].zipIdx,
    ∃ q ∈ exCutRows .given tt.2, leafPred tt.1 true x q.leaf ≠ 0 := by
  by_contra hcon
  push Not at hcon
  have h := hcon (exTreeR, 0) (by simp)
  have h0 := (exTreeR_pred x).1.symm.trans (h ⟨0, fun _ => 3⟩ (by simp))
  have h1 := (exTreeR_pred x).2.1.symm.trans (h ⟨1, fun _ => 3⟩ (by simp))
  have h2 := (exTreeR_pred x).2.2.symm.trans (h ⟨2, fun _ => 10⟩ (by simp))
  apply hx
  funext i
  fin_cases i
  · show x 0 = 0
    linarith
  · show x 1 = 0
    linarith
  · show x 2 = 0
    linarith

/-- C191 as stated is false when leaves lie at different depths: in the example tree `depth_tune` fits the
rows without error, `smooth_all` cannot. -/
theorem C191_refuted : ¬ C191Claim := by
  intro H
  have hwf : ∀ t ∈ [exTreeR], t.WF := by simp; decide
  have hn0 : ∀ i, 0 < exTreeR.nSamp i := by
    have : ∀ i, 0 < exTree.nSamp i := by decide +kernel
    intro i
    show (0 : ℝ) < ((exTree.nSamp i : ℚ) : ℝ)
    exact_mod_cast this i
  have hn : ∀ t ∈ [exTreeR], ∀ r, 0 < t.nSamp (t.leafNode r) := by
    intro t ht r
    rw [List.mem_singleton] at ht
    subst ht
    exact hn0 _
  have hr : ∀ tt ∈ [exTreeR].zipIdx, ∀ q ∈ exCutRows .given tt.2, q.leaf < tt.1.nLeaves := by
    simp; decide
  obtain ⟨rf, lamb, hrun⟩ := C116_returns (c := exAllCfg true (.bool false)) (sources := exCutRows) exact_lib hwf hn
    (by decide) rfl (flag := false) (tp := none) rfl (by simp) (by simp) hr
  have hT : Tunable [exTreeR] (exCutLoss .given) := by
    refine ⟨by simp, hwf, ?_, ?_⟩
    · intro t ht h0
      rw [List.mem_singleton] at ht
      subst ht
      have h2 := isTreeDepth_npMax (t := exTreeR.toTopo) (by decide)
      rw [show npMax exTreeR.depthPerNode = 2 by decide +kernel] at h2
      obtain ⟨i, hi⟩ := h2.1
      have := h0.2 i 2 hi
      omega
    · intro i t hi
      have : t = exTreeR := by
        cases i with
        | zero => simpa using hi.symm
        | succ i => simp at hi
      subst this
      refine ⟨by simp, ?_⟩
      show ∀ r ∈ ([⟨0, 3⟩, ⟨1, 3⟩, ⟨2, 10⟩] : List (LossRow ℝ)), r.leaf < exTree.nLeaves
      simp; decide
  obtain ⟨out, best, D, hdt, hDx, hDm, hb, hmin, hF⟩ := tunable_run (kind := .reg) (data := exData) (src := .given) rfl hT
  have hDe : D = 2 := by
    obtain ⟨t, ht, e⟩ := hDx
    rw [List.mem_singleton] at ht
    subst ht
    rw [← e, exTreeR_depth]
  subst hDe
  have hbest : best = 1 := by
    obtain ⟨x, b1, b2, -⟩ := hmin
    by_contra hne
    have hb0 : best = 0 := by omega
    subst hb0
    have e1 := b2 (cutLoss .reg [exTreeR] (exCutLoss .given) 1) (List.mem_map.2 ⟨1, by simp, rfl⟩)
    rw [List.getElem?_map, List.getElem?_range (by omega)] at b1
    simp only [Option.map_some, Option.some.injEq] at b1
    rw [← b1, exCut_loss (by omega), exCut_loss (by omega)] at e1
    norm_num at e1
  subst hbest
  have hle := H exactOracles [exTreeR] (exAllCfg true (.bool false)) exCutRows exData exCutLoss 2 rf out lamb _ none
    exact_lib (by
      intro t ht
      rw [List.mem_singleton] at ht
      subst ht
      exact ⟨by decide, realTree_consistent exTree_consistent, hn0⟩) rfl rfl le_rfl hr exCut_ind (hrun 2 le_rfl) hdt
  have hsx := (C116_ridge exact_lib hwf (tp := none) rfl hr le_rfl (hrun 2 le_rfl)).1 rfl
  rw [mse_eq true lamb (C64_values hwf (hrun 2 le_rfl)) _ hr] at hle
  have key : ∀ x : Fin 3 → ℝ, InSimplex x → 0 < 2 * tuneLoss [exTreeR] true (exCutRows .given) x := fun x hx =>
    exCut_pos x (by rw [← hx.2, Fin.sum_univ_three])
  exact absurd (hle.trans (exCut_mse hF).le) (not_le.2 (key lamb hsx))

/-- The hypotheses of C191 hold for the stump with one row in each leaf; both leaves have depth one. -/
example : exStumpR.WF ∧ exStumpR.Consistent .reg ∧ (∀ i, exStumpR.nSamp i ≠ 0) ∧
    (∀ r : Fin exStumpR.nLeaves, exStumpR.DepthIs (exStumpR.leafNode r) 1) ∧
    ∀ x : Fin 2 → ℝ, x ≠ 0 → ∃ tt ∈ [exStumpR].zipIdx, ∃ q ∈ exRowsR .given tt.2, leafPred tt.1 true x q.leaf ≠ 0 := by
  have h : exStumpR.WF := by decide
  have hr : realTree exStump = exStumpR := by
    have e1 : (fun (i : Fin 3) (c : Fin 1) => ((exStump.value i c : ℚ) : ℝ)) = fun i _ => ![5 / 2, 1, 4] i := by
      funext i c; fin_cases i <;> simp
    have e2 : (fun i : Fin 3 => ((exStump.nSamp i : ℚ) : ℝ)) = ![2, 1, 1] := by
      funext i; fin_cases i <;> simp
    have e3 : (fun i : Fin 3 => ((exStump.impurity i : ℚ) : ℝ)) = ![7, 0, 5] := by
      funext i; fin_cases i <;> simp
    show SkTree.mk _ _ _ _ = SkTree.mk _ _ _ _
    rw [← e1, ← e2, ← e3]
  have hc : exStump.Consistent .reg := by
    intro p l r hl hr
    revert p l r; decide +kernel
  refine ⟨h, hr ▸ realTree_consistent hc, fun i => ?_, fun r => ?_, fun x hx => ?_⟩
  · fin_cases i <;> simp
  · rw [depthIs_iff h]
    revert r; decide +kernel
  · by_contra hcon
    push Not at hcon
    have hq : ∀ (r : Fin exStump.nLeaves) (k : Fin 2), levelRatio exStump true r k =
        ![![1, 5 / 2], ![4, 5 / 2]] (Fin.cast (by decide) r : Fin 2) k := by decide +kernel
    have e : ∀ i (hi : i < exStump.nLeaves), leafPred exStumpR true x i =
        ∑ k : Fin 2, x k * ((levelRatio exStump true ⟨i, hi⟩ k : ℚ) : ℝ) := by
      intro i hi
      rw [← hr]
      unfold leafPred
      rw [dif_pos (show i < (realTree exStump).nLeaves from hi)]
      exact Finset.sum_congr rfl fun k _ => by rw [← realTree_ratio]; rfl
    have h0 := (e 0 (by decide)).symm.trans (hcon (exStumpR, 0) (by simp) ⟨0, fun _ => 2⟩ (by simp))
    have h1 := (e 1 (by decide)).symm.trans (hcon (exStumpR, 0) (by simp) ⟨1, fun _ => 3⟩ (by simp))
    simp only [hq, Fin.sum_univ_two] at h0 h1
    simp [Fin.cast] at h0 h1
    apply hx
    funext i
    fin_cases i
    · show x 0 = 0
      linarith
    · show x 1 = 0
      linarith

end SmoothRF
