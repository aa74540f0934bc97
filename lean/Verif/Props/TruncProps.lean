import Verif.Props.DepthTuneProps
import Verif.Props.SmoothProps

/-! Smoothing with `parents_all` against truncation at a depth (C166). -/

set_option linter.unusedSectionVars false

namespace SmoothRF
open SkTree Topo

variable {K : Type} [Field K] [LinearOrder K] {C : ℕ}

/-- The weight vector that is one at level `k` and zero elsewhere. -/
def unitWeights (K : Type) [Field K] (n k : ℕ) : Fin n → K := fun j => if j.val = k then 1 else 0

/-- The prediction a node would make as a leaf: its mean, or its class proportions. -/
def nodeRate (kind : Kind) (t : SkTree K C) (a : t.Node) (c : Fin C) : K :=
  match kind with
  | .reg => t.value a c
  | .cls => t.value a c / t.nSamp a

theorem levelSum_ancestor (t : SkTree K C) (h : t.WF) (f : t.Node → K)
    (hf : ∀ p l r : t.Node, t.left p = some l → t.right p = some r → f p = f l + f r)
    (i : Fin t.nLeaves) (k : ℕ) (a : t.Node) (ha : t.UpBy k (t.leafNode i) a) :
    levelSum true (t.distDepth .standard) (fun j => f (t.leafNode j)) i k = f a := by
  classical
  rw [← sum_leaves_below t.toTopo h f hf a]
  simp only [levelSum, if_true]
  congr 1
  ext j
  simp only [Finset.mem_filter, Finset.mem_univ, true_and]
  exact distStandard_le_iff t.toTopo h i j k a (Or.inl ha)

theorem smoothSpec_unit (kind : Kind) (t : SkTree K C) (h : t.WF) (hc : t.Consistent kind)
    (i : Fin t.nLeaves) (c : Fin C) {n k : ℕ} (hk : k < n) (a : t.Node)
    (ha : t.UpBy k (t.leafNode i) a) (hn : t.nSamp a ≠ 0) :
    smoothSpec kind t .standard true (unitWeights K n k) i c = nodeRate kind t a c := by
  have hs : ∀ v : Fin n → K, (∑ j : Fin n, v j * unitWeights K n k j) = v ⟨k, hk⟩ := by
    intro v
    rw [Finset.sum_eq_single (⟨k, hk⟩ : Fin n)]
    · simp [unitWeights]
    · intro j _ hj
      have : j.val ≠ k := fun e => hj (Fin.ext e)
      simp [unitWeights, this]
    · simp
  have e1 : smoothDen t .standard true (unitWeights K n k) i = t.nSamp a := by
    unfold smoothDen
    rw [hs fun k : Fin n => levelSum true (t.distDepth .standard) (fun j => t.nSamp (t.leafNode j)) i k]
    exact levelSum_ancestor t h t.nSamp (fun p l r hl hr => (hc p l r hl hr).1) i k a ha
  have e2 : smoothNum kind t .standard true (unitWeights K n k) i c = t.mass kind a c := by
    unfold smoothNum
    rw [hs fun k : Fin n => levelSum true (t.distDepth .standard)
      (fun j => t.mass kind (t.leafNode j) c) i k]
    exact levelSum_ancestor t h (fun x => t.mass kind x c)
      (fun p l r hl hr => (hc p l r hl hr).2 c) i k a ha
  unfold smoothSpec
  rw [e1, if_neg hn, e2]
  cases kind
  · simp only [mass, if_true, nodeRate]; field_simp
  · rfl

/-- C166 (what holds): on a tree with consistent statistics whose leaves all have depth `D`,
smoothing with all weight on level `D - d` predicts in every leaf what truncating the tree at depth `d`
predicts there. -/
theorem C166_truncation_partial (kind : Kind) (t : SkTree K C) (h : t.WF) (hc : t.Consistent kind)
    (hn : ∀ i, t.nSamp i ≠ 0) {D d n : ℕ} (hD : ∀ r : Fin t.nLeaves, t.DepthIs (t.leafNode r) D)
    (hd : d ≤ D) (hk : D < n) (r : Fin t.nLeaves) (a : t.Node) (ha : t.Deepest d (t.leafNode r) a)
    (c : Fin C) :
    smoothSpec kind t .standard true (unitWeights K n (D - d)) r c = nodeRate kind t a c := by
  have e := (depthIs_iff h _ _).1 (hD r)
  obtain ⟨b, hb⟩ := exists_upBy h (t.leafNode r) (t.depthPerNode (t.leafNode r) - d) (by omega)
  have := deepest_unique h ha (deepest_of_upBy h hb)
  subst this
  rw [e] at hb
  exact smoothSpec_unit kind t h hc r c (by omega) a hb (hn a)

/-- C166: for a regression forest with consistent statistics whose leaves all have depth `D > 0`,
the forest `depth_tune` returns is the one that smoothing (standard distance, `parents_all`) with all
weight on one level gives; that level is at least 1. -/
theorem C166_depth_tune_partial [IsStrictOrderedRing K] [NeZero C] {forest : List (SkTree K C)}
    (hne : forest ≠ []) (hwf : ∀ t ∈ forest, t.WF) (hc : ∀ t ∈ forest, t.Consistent .reg)
    (hn : ∀ t ∈ forest, ∀ i, t.nSamp i ≠ 0) {D : ℕ} (hD0 : 0 < D)
    (hD : ∀ t ∈ forest, ∀ r : Fin t.nLeaves, t.DepthIs (t.leafNode r) D)
    {data : DataArgs} {src : TuneSrc}
    (hsrc : tuneSource data = .ok src) {sources : TuneSrc → ℕ → List (LossRow K)}
    (hrows : ∀ tt ∈ forest.zipIdx, (∀ r ∈ sources src tt.2, r.leaf < tt.1.nLeaves) ∧
      sources src tt.2 ≠ []) :
    ∃ out loss k, depthTune (some .reg) forest data sources = .ok (out, loss) ∧ 0 < k ∧ k ≤ D ∧
      loss[D - k]?.any (fun m => loss.all fun x => decide (m ≤ x)) = true ∧
      List.Forall₂ (fun t t' => LeafUpdate t t'
        (smoothSpec .reg t .standard true (unitWeights K (D + 1) k))) forest out := by
  classical
  have hdep : ∀ t ∈ forest, t.IsTreeDepth D := by
    intro t ht
    have h := hwf t ht
    obtain ⟨r, _⟩ := exists_leaf_below h 0
    refine ⟨⟨_, hD t ht r⟩, fun i d hi => ?_⟩
    obtain ⟨q, hq⟩ := exists_leaf_below h i
    have := anc_depth_le h hq
    rwa [(depthIs_iff h _ _).1 hi, (depthIs_iff h _ _).1 (hD t ht q)] at this
  let tr : (t : SkTree K C) → ℕ → t.Node → t.Node := fun t d i =>
    if h : t.WF then (exists_deepest h d i).choose else i
  have htr : ∀ t ∈ forest, ∀ d i, t.Deepest d i (tr t d i) := by
    intro t ht d i
    simp only [tr, dif_pos (hwf t ht)]
    exact (exists_deepest (hwf t ht) d i).choose_spec
  obtain ⟨t0, ht0⟩ := List.exists_mem_of_ne_nil forest hne
  obtain ⟨out, best, h1, h2, h3, -, h5⟩ := C51_depth_tune (kind := .reg) hwf (dep := fun _ => D) hdep
    (fun _ _ => hD0) ⟨t0, ht0, rfl⟩ (fun _ _ => le_rfl) htr hsrc hrows
  refine ⟨out, _, D - best, h1, by omega, by omega, ?_, ?_⟩
  · rw [show D - (D - best) = best by omega, List.getElem?_map, List.getElem?_range h2]
    simp only [Option.map_some, Option.any_some, List.all_eq_true, List.mem_map, List.mem_range,
      decide_eq_true_eq]
    rintro x ⟨d, hd, rfl⟩
    exact h3 d hd
  · refine forall2_imp_mem h5 (fun t ht t' hu => ?_)
    obtain ⟨v, rfl, hv, hi⟩ := hu
    refine ⟨v, rfl, fun r c => ?_, hi⟩
    rw [hv, C166_truncation_partial .reg t (hwf t ht) (hc t ht) (hn t ht) (hD t ht)
      (d := best) (by omega) (by omega) r _ (htr t ht best _) c]
    simp only [nodeRate]
    rw [min_eq_left (by omega)]

/-- The level sums of the example tree: sample weights. -/
theorem exTree_den (pa : Bool) (lamb : Fin 3 → ℚ) (r : Fin exTree.nLeaves) :
    smoothDen exTree .standard pa lamb r =
      (if pa then ![![1, 3, 6], ![2, 3, 6], ![3, 6, 6]] else ![![1, 2, 3], ![2, 1, 3], ![3, 3, 0]])
        (Fin.cast (by decide) r : Fin 3) ⬝ᵥ lamb := by
  have : ∀ (pa : Bool) (r : Fin exTree.nLeaves) (k : Fin 3),
      levelSum pa (exTree.distDepth .standard) (fun j => exTree.nSamp (exTree.leafNode j)) r k =
      (if pa then ![![1, 3, 6], ![2, 3, 6], ![3, 6, 6]] else ![![1, 2, 3], ![2, 1, 3], ![3, 3, 0]])
        (Fin.cast (by decide) r : Fin 3) k := by decide +kernel
  simp only [smoothDen, this, dotProduct]

theorem exTree_num (pa : Bool) (lamb : Fin 3 → ℚ) (r : Fin exTree.nLeaves) :
    smoothNum .reg exTree .standard pa lamb r 0 =
      (if pa then ![![1, 9, 39], ![8, 9, 39], ![30, 39, 39]]
        else ![![1, 8, 30], ![8, 1, 30], ![30, 9, 0]])
        (Fin.cast (by decide) r : Fin 3) ⬝ᵥ lamb := by
  have : ∀ (pa : Bool) (r : Fin exTree.nLeaves) (k : Fin 3),
      levelSum pa (exTree.distDepth .standard) (fun j => exTree.mass .reg (exTree.leafNode j) 0) r k =
      (if pa then ![![1, 9, 39], ![8, 9, 39], ![30, 39, 39]]
        else ![![1, 8, 30], ![8, 1, 30], ![30, 9, 0]])
        (Fin.cast (by decide) r : Fin 3) k := by decide +kernel
  simp only [smoothNum, this, dotProduct]

theorem exTree_not_smooth (pa : Bool) (lamb : Fin 3 → ℚ)
    (h : ∀ r : Fin exTree.nLeaves, smoothSpec .reg exTree .standard pa lamb r 0 =
      ![3, 3, 10] (Fin.cast (by decide) r : Fin 3)) : False := by
  have h0 := h ⟨0, by decide⟩
  have h1 := h ⟨1, by decide⟩
  have h2 := h ⟨2, by decide⟩
  have key : ∀ n d v : ℚ, (if d = 0 then 0 else n / d) = v → v ≠ 0 → n = v * d ∧ d ≠ 0 := by
    intro n d v e hv
    split_ifs at e with hd
    · exact absurd e.symm hv
    · exact ⟨by rw [← e]; field_simp, hd⟩
  have k0 := key _ _ _ h0 (by simp)
  have k1 := key _ _ _ h1 (by simp)
  have k2 := key _ _ _ h2 (by simp)
  rw [exTree_den, exTree_num] at k0 k1 k2
  cases pa <;> simp [dotProduct, Fin.sum_univ_three, Fin.cast] at k0 k1 k2 <;>
    exact k0.2 (by linarith [k0.1, k1.1, k2.1])

/-- The full claim of C166: whatever `depth_tune` returns for a regression forest with consistent
statistics, some weight vector smooths the forest to it. -/
def C166Claim : Prop :=
  ∀ (forest : List (SkTree ℚ 1)) (data : DataArgs) (sources : TuneSrc → ℕ → List (LossRow ℚ))
    (out : List (SkTree ℚ 1)) (loss : List ℚ) (D : ℕ),
    (∀ t ∈ forest, t.WF ∧ t.Consistent .reg ∧ (∀ i, 0 < t.nSamp i) ∧ t.IsTreeDepth D) →
    depthTune (some .reg) forest data sources = .ok (out, loss) →
    ∃ (pa : Bool) (lamb : Fin (D + 1) → ℚ),
      List.Forall₂ (fun t t' => LeafUpdate t t' (smoothSpec .reg t .standard pa lamb)) forest out

/-- C166 as stated is false: in the example tree one leaf lies at depth 1 and two at depth 2. Tuning
prefers depth 1, which keeps the first and merges the other two; no weights, of whatever sign, with or
without `parents_all`, do that. -/
theorem C166_refuted : ¬ C166Claim := by
  intro H
  have hwf : exTree.WF := by decide
  have hD : exTree.IsTreeDepth 2 := by
    have := isTreeDepth_npMax hwf
    rwa [show npMax exTree.depthPerNode = 2 by decide +kernel] at this
  have hdt : ∃ out loss, depthTune (some .reg) [exTree] exData (fun _ _ => [⟨0, 3⟩, ⟨2, 10⟩]) =
      .ok (out, loss) ∧ valuesOf out = [[[13 / 2], [3], [3], [3], [10]]] := by
    have : (match depthTune (some .reg) [exTree] exData (fun _ _ => [⟨0, 3⟩, ⟨2, 10⟩]) with
      | .ok (out, _) => some (valuesOf out)
      | .error _ => none) = some [[[13 / 2], [3], [3], [3], [10]]] := by decide +kernel
    revert this
    generalize depthTune (some .reg) [exTree] exData (fun _ _ => [⟨0, 3⟩, ⟨2, 10⟩]) = x
    intro hx
    match x, hx with
    | .ok (out, loss), hx => exact ⟨out, loss, rfl, by simpa using hx⟩
  obtain ⟨out, loss, e, hv⟩ := hdt
  obtain ⟨pa, lamb, hF⟩ := H [exTree] exData _ out loss 2 (by
    intro t ht
    rw [List.mem_singleton] at ht
    subst ht
    exact ⟨hwf, exTree_consistent, by decide +kernel, hD⟩) e
  cases hF with
  | cons hl htl =>
    cases htl
    obtain ⟨v, rfl, h1, h2⟩ := hl
    refine exTree_not_smooth pa lamb fun r => ?_
    rw [← h1 r 0]
    have hv2 : ∀ i : Fin 5, v i 0 = ![13 / 2, 3, 3, 3, 10] i := by
      simp [valuesOf, List.ofFn_succ] at hv
      obtain ⟨a, b, c, d, e⟩ := hv
      intro i
      fin_cases i <;> simp <;> assumption
    rw [hv2]
    revert r
    decide +kernel

/-- A tree with both leaves at depth 1: truncating at the root is all weight on level 1. -/
example : exStump.WF ∧ exStump.Consistent .reg ∧ (∀ r : Fin exStump.nLeaves,
      exStump.DepthIs (exStump.leafNode r) 1) ∧
    ∀ r, smoothSpec .reg exStump .standard true (unitWeights ℚ 2 1) r 0 = 5 / 2 := by
  have h : exStump.WF := by decide
  refine ⟨h, ?_, ?_, by decide +kernel⟩
  · intro p l r hl hr
    revert p l r; decide +kernel
  · intro r
    rw [depthIs_iff h]
    revert r; decide +kernel

/-! ### C167 -/

/-- Weight per sample of a leaf at level `l` when `parents_all` is used with weights `lamb`. -/
def tailSum {n : ℕ} (lamb : Fin n → K) (l : ℕ) : K := ∑ k : Fin n, if l ≤ k.val then lamb k else 0

theorem sum_levelSum_true (t : SkTree K C) (h : t.WF) (s : Style) {n : ℕ} (lamb : Fin n → K)
    (v : Fin t.nLeaves → K) (r : Fin t.nLeaves) :
    ∑ k : Fin n, levelSum true (t.distDepth s) v r k * lamb k =
      ∑ j, v j * tailSum lamb (t.distDepth s r j).toNat := by
  simp only [tailSum, Finset.mul_sum, levelSum, if_true, Finset.sum_mul]
  rw [Finset.sum_comm]
  refine Finset.sum_congr rfl fun k _ => ?_
  rw [Finset.sum_filter]
  refine Finset.sum_congr rfl fun j _ => ?_
  have := distDepth_nonneg h s r j
  by_cases hk : t.distDepth s r j ≤ (k.val : ℤ)
  · rw [if_pos hk, if_pos (by omega)]
  · rw [if_neg hk, if_neg (by omega), mul_zero]

theorem sum_levelSum_false (t : SkTree K C) (h : t.WF) (s : Style) {n : ℕ} (w : ℕ → K)
    (hw : ∀ l, n ≤ l → w l = 0) (v : Fin t.nLeaves → K) (r : Fin t.nLeaves) :
    ∑ k : Fin n, levelSum false (t.distDepth s) v r k * w k =
      ∑ j, v j * w (t.distDepth s r j).toNat := by
  simp only [levelSum, Bool.false_eq_true, if_false, Finset.sum_mul, Finset.sum_filter]
  rw [Finset.sum_comm]
  refine Finset.sum_congr rfl fun j _ => ?_
  have h0 := distDepth_nonneg h s r j
  by_cases hn : (t.distDepth s r j).toNat < n
  · rw [Finset.sum_eq_single (⟨(t.distDepth s r j).toNat, hn⟩ : Fin n)]
    · rw [if_pos (by simp; omega)]
    · intro k _ hk
      rw [if_neg, zero_mul]
      intro e
      exact hk (Fin.ext (by simp [e]))
    · simp
  · rw [hw _ (by omega), mul_zero]
    refine Finset.sum_eq_zero fun k _ => ?_
    rw [if_neg, zero_mul]
    intro e
    have := k.isLt
    omega

/-- The average of the tree's leaves in which a leaf at distance `l` from `r` counts `w l` per
sample. -/
def distanceAverage (kind : Kind) (t : SkTree K C) (s : Style) (w : ℕ → K) (r : Fin t.nLeaves)
    (c : Fin C) : K :=
  let den := ∑ j, t.nSamp (t.leafNode j) * w (t.distDepth s r j).toNat
  if den = 0 then 0 else
    (∑ j, t.mass kind (t.leafNode j) c * w (t.distDepth s r j).toNat) / den

theorem tailSum_zero {n : ℕ} (lamb : Fin n → K) : tailSum lamb 0 = ∑ k, lamb k := by
  simp [tailSum]

theorem tailSum_beyond {n : ℕ} (lamb : Fin n → K) (l : ℕ) (hl : n ≤ l) : tailSum lamb l = 0 := by
  refine Finset.sum_eq_zero fun k _ => ?_
  have := k.isLt
  rw [if_neg (by omega)]

theorem tailSum_succ {n : ℕ} (lamb : Fin n → K) (k : Fin n) :
    tailSum lamb k = lamb k + tailSum lamb (k + 1) := by
  unfold tailSum
  rw [← Finset.sum_erase_add _ _ (Finset.mem_univ k), ← Finset.sum_erase_add (a := k) Finset.univ
    (fun j : Fin n => if k.val + 1 ≤ j.val then lamb j else 0) (Finset.mem_univ k)]
  rw [if_pos le_rfl, if_neg (by omega), add_zero, add_comm]
  congr 1
  refine Finset.sum_congr rfl fun j hj => ?_
  have : j.val ≠ k.val := fun e => (Finset.ne_of_mem_erase hj) (Fin.ext e)
  by_cases hk : k.val ≤ j.val
  · rw [if_pos hk, if_pos (by omega)]
  · rw [if_neg hk, if_neg (by omega)]

theorem smoothSpec_true (kind : Kind) (t : SkTree K C) (h : t.WF) (s : Style) {n : ℕ}
    (lamb : Fin n → K) (r : Fin t.nLeaves) (c : Fin C) :
    smoothSpec kind t s true lamb r c = distanceAverage kind t s (tailSum lamb) r c := by
  unfold smoothSpec distanceAverage smoothDen smoothNum
  rw [sum_levelSum_true t h, sum_levelSum_true t h]

theorem smoothSpec_false (kind : Kind) (t : SkTree K C) (h : t.WF) (s : Style) {n : ℕ}
    (w : ℕ → K) (hw : ∀ l, n ≤ l → w l = 0) (r : Fin t.nLeaves) (c : Fin C) :
    smoothSpec kind t s false (fun k : Fin n => w k) r c = distanceAverage kind t s w r c := by
  unfold smoothSpec distanceAverage smoothDen smoothNum
  rw [sum_levelSum_false t h s w hw, sum_levelSum_false t h s w hw]

/-- C167: with `parents_all` and non-negative weights, every smoothed value is an average of the tree's
leaves in which a leaf further away never counts more per sample than a nearer one; the leaf itself
counts the sum of all weights. -/
theorem C167_parents_all [IsStrictOrderedRing K] (kind : Kind) (s : Style) {n : ℕ} (lamb : Fin n → K)
    (hl : ∀ k, 0 ≤ lamb k) :
    ∃ w : ℕ → K, Antitone w ∧ (∀ l, 0 ≤ w l) ∧ (∀ l, n ≤ l → w l = 0) ∧ w 0 = ∑ k, lamb k ∧
      ∀ (t : SkTree K C), t.WF → ∀ r c,
        smoothSpec kind t s true lamb r c = distanceAverage kind t s w r c := by
  refine ⟨tailSum lamb, ?_, ?_, tailSum_beyond lamb, tailSum_zero lamb,
    fun t h r c => smoothSpec_true kind t h s lamb r c⟩
  · intro a b hab
    refine Finset.sum_le_sum fun k _ => ?_
    by_cases hb : b ≤ k.val
    · rw [if_pos hb, if_pos (hab.trans hb)]
    · rw [if_neg hb]
      split_ifs
      exacts [hl k, le_rfl]
  · intro l
    refine Finset.sum_nonneg fun k _ => ?_
    split_ifs
    exacts [hl k, le_rfl]

/-- C167, converse: every such average is reached with `parents_all` by non-negative weights, and every
average, decreasing or not, is reached without. -/
theorem C167_converse [IsStrictOrderedRing K] (kind : Kind) (s : Style) {n : ℕ} (w : ℕ → K)
    (hw : ∀ l, n ≤ l → w l = 0) :
    (Antitone w → ∃ lamb : Fin n → K, (∀ k, 0 ≤ lamb k) ∧ ∀ (t : SkTree K C), t.WF → ∀ r c,
      smoothSpec kind t s true lamb r c = distanceAverage kind t s w r c) ∧
    ∃ lamb : Fin n → K, (∀ k, lamb k = w k) ∧ ∀ (t : SkTree K C), t.WF → ∀ r c,
      smoothSpec kind t s false lamb r c = distanceAverage kind t s w r c := by
  refine ⟨fun ha => ?_, fun k => w k, fun _ => rfl, fun t h r c => smoothSpec_false kind t h s w hw r c⟩
  refine ⟨fun k => w k - w (k + 1), fun k => sub_nonneg.2 (ha (Nat.le_succ _)), fun t h r c => ?_⟩
  rw [smoothSpec_true kind t h]
  have key : ∀ d l, n ≤ l + d → tailSum (fun k : Fin n => w k - w (k + 1)) l = w l := by
    intro d
    induction d with
    | zero => intro l hl; rw [tailSum_beyond _ l (by omega), hw l (by omega)]
    | succ d ih =>
      intro l hl
      by_cases hn : n ≤ l
      · rw [tailSum_beyond _ l hn, hw l hn]
      · have := tailSum_succ (fun k : Fin n => w k - w (k + 1)) ⟨l, by omega⟩
        rw [this, ih (l + 1) (by omega)]
        simp
  rw [show tailSum (fun k : Fin n => w k - w (k + 1)) = w from funext fun l => key n l (by omega)]

/-- C167: without `parents_all` more can happen. All weight on level 1 swaps the two leaves of a stump;
with `parents_all` no non-negative weights do that. -/
theorem C167_plain_is_richer :
    ∃ t : SkTree ℚ 1, t.WF ∧ (∀ i, 0 < t.nSamp i) ∧ ∃ lamb : Fin 2 → ℚ, (∀ k, 0 ≤ lamb k) ∧
      ∀ lamb' : Fin 2 → ℚ, (∀ k, 0 ≤ lamb' k) →
        ∃ r, smoothSpec .reg t .standard true lamb' r 0 ≠ smoothSpec .reg t .standard false lamb r 0 := by
  refine ⟨exStump, by decide, by decide +kernel, ![0, 1], by decide +kernel, fun l hl => ?_⟩
  refine ⟨⟨0, by decide⟩, fun e => ?_⟩
  have h4 : smoothSpec .reg exStump .standard false ![0, 1] ⟨0, by decide⟩ 0 = 4 := by decide +kernel
  rw [h4] at e
  have d : ∀ k : Fin 2, levelSum true (exStump.distDepth .standard)
      (fun j => exStump.nSamp (exStump.leafNode j)) ⟨0, by decide⟩ k = ![1, 2] k := by decide +kernel
  have m : ∀ k : Fin 2, levelSum true (exStump.distDepth .standard)
      (fun j => exStump.mass .reg (exStump.leafNode j) 0) ⟨0, by decide⟩ k = ![1, 5] k := by
    decide +kernel
  simp only [smoothSpec, smoothDen, smoothNum, d, m, Fin.sum_univ_two] at e
  have h0 := hl 0
  have h1 := hl 1
  split_ifs at e with hd
  · exact absurd e (by norm_num)
  · rw [div_eq_iff hd] at e
    simp at e hd
    exact hd (by linarith)

example : distanceAverage .reg exTree .standard (fun l => if l = 0 then 2 else if l = 1 then 1 else 0)
    ⟨0, by decide⟩ 0 = (2 * 1 * 1 + 1 * 2 * 4) / (2 * 1 + 1 * 2) := by decide +kernel

/-- C167 for `smooth`: constrained smoothing with `parents_all` (and the squared loss for classifiers)
writes into the first returned forest averages in which further leaves never count more per sample. -/
theorem C167_smooth [IsStrictOrderedRing K] {sqrt : K → K}
    {ce : (n : ℕ) → SgdOpts K → K → List (Row K n) → List K → List ℕ →
      Except PyErr ((Fin n → K) × (Fin n → K) × List K)} (hC : 0 < C)
    {kind : Kind} {forest : List (SkTree K C)}
    (hwf : ∀ t ∈ forest, t.WF) {cfg : SmoothCfg K} {sources : TuneSrc → ℕ → List (TuneRow K C)}
    {out : SmoothOut K C (forestDepth forest + 1)}
    (h : smooth sqrt ce (some kind) forest cfg sources = .ok out) (hpa : cfg.parentsAll = true)
    (hc : cfg.noConstraint = false)
    (hk : kind = .reg ∨ cfg.lossL2 = true ∨ cfg.sanityCheck = true)
    (hs : ∀ u, cfg.seed = some u → ∀ i, 0 ≤ u i) (he : 0 ≤ cfg.classEps) :
    ∃ w : ℕ → K, Antitone w ∧ (∀ l, 0 ≤ w l) ∧ w 0 = ∑ k, out.lamb1 k ∧
      List.Forall₂ (fun t t' => LeafUpdate t t' (distanceAverage kind t cfg.style w)) forest out.rf1 := by
  have hl := (C35_constrained_lamb_nonneg h hc hk hs he).1
  obtain ⟨w, h1, h2, -, h4, h5⟩ := C167_parents_all (C := C) kind cfg.style out.lamb1 hl
  refine ⟨w, h1, h2, h4, forall2_imp_mem (C38_first_forest_rows hC hwf h) fun t ht t' hu => ?_⟩
  obtain ⟨v, e, hv, hi⟩ := hu
  refine ⟨v, e, fun r c => ?_, hi⟩
  rw [hv, hpa]
  exact h5 t (hwf t ht) r c

/-- Weights 1/2, 1/4, 1/4 with `parents_all`: in the second tree a leaf counts itself 1 per sample, level
1 counts 1/2 and level 2 counts 1/4. -/
example : (match smooth (fun x => x) noCe (some .reg) [exStump, exTree]
      { exCfg with parentsAll := true, seed := some fun i => if i = 0 then 2 else 1 }
      (fun _ => exTune) with
    | .ok out => some (valuesOf out.rf1, List.ofFn out.lamb1)
    | .error _ => none) =
      some ([[[5/2], [2], [3]], [[13/2], [3], [50/11], [64/13], [23/3]]], [1/2, 1/4, 1/4]) ∧
    (1 * (1 * 1) + 1/2 * (2 * 4) + 1/4 * (3 * 10) : ℚ) / (1 * 1 + 1/2 * 2 + 1/4 * 3) = 50/11 := by
  decide +kernel

/-! ### C168 -/

/-- The full claim of C168: smoothing with non-negative weights keeps the mean of a tree's predictions
over its training sample. -/
def C168Claim : Prop :=
  ∀ (t : SkTree ℚ 1) (pa : Bool) (n : ℕ) (lamb : Fin n → ℚ), t.WF → t.Consistent .reg →
    (∀ i, 0 < t.nSamp i) → (∀ k, 0 ≤ lamb k) → (∀ r, 0 < smoothDen t .standard pa lamb r) →
    ∑ r, t.nSamp (t.leafNode r) * smoothSpec .reg t .standard pa lamb r 0 =
      ∑ r, t.nSamp (t.leafNode r) * t.value (t.leafNode r) 0

/-- A stump whose leaves hold one and three observations. -/
abbrev exUneven : SkTree ℚ 1 :=
  { toTopo := ⟨2, ![some 1, none, none], ![some 2, none, none]⟩
    value := fun i _ => ![3 / 2, 0, 2] i
    nSamp := ![4, 1, 3]
    impurity := ![7, 0, 5] }

theorem exUneven_consistent : exUneven.Consistent .reg := by
  intro p l r hl hr
  revert p l r; decide +kernel

/-- C168 as stated is false, with and without `parents_all`, already for a stump with equal weights. -/
theorem C168_refuted : ¬ C168Claim ∧ ∀ pa : Bool, ∃ (t : SkTree ℚ 1) (lamb : Fin 2 → ℚ),
    t.WF ∧ t.Consistent .reg ∧ (∀ i, 0 < t.nSamp i) ∧ (∀ k, 0 < lamb k) ∧
    (∀ r, 0 < smoothDen t .standard pa lamb r) ∧
    ∑ r, t.nSamp (t.leafNode r) * smoothSpec .reg t .standard pa lamb r 0 ≠
      ∑ r, t.nSamp (t.leafNode r) * t.value (t.leafNode r) 0 := by
  have key : ∀ pa : Bool, ∃ (t : SkTree ℚ 1) (lamb : Fin 2 → ℚ),
    t.WF ∧ t.Consistent .reg ∧ (∀ i, 0 < t.nSamp i) ∧ (∀ k, 0 < lamb k) ∧
    (∀ r, 0 < smoothDen t .standard pa lamb r) ∧
    ∑ r, t.nSamp (t.leafNode r) * smoothSpec .reg t .standard pa lamb r 0 ≠
      ∑ r, t.nSamp (t.leafNode r) * t.value (t.leafNode r) 0 := by
    intro pa
    refine ⟨exUneven, if pa then ![1, 1] else ![1, 2], by decide, exUneven_consistent,
      by decide +kernel, ?_, ?_, ?_⟩ <;> revert pa <;> decide +kernel
  refine ⟨fun H => ?_, key⟩
  obtain ⟨t, l, a, b, c, d, e, f⟩ := key true
  exact f (H t true 2 l a b c (fun k => (d k).le) e)

/-- C168 (what holds): with `parents_all` and all weight on one level, on a tree whose leaves all have the
same depth, the weighted total of the predictions is kept. -/
theorem C168_one_level_partial [IsStrictOrderedRing K] (t : SkTree K C) (h : t.WF)
    (hn : ∀ r, 0 < t.nSamp (t.leafNode r)) {D k n : ℕ}
    (hD : ∀ r : Fin t.nLeaves, t.DepthIs (t.leafNode r) D) (hk : k ≤ D) (hkn : k < n) (c : Fin C) :
    ∑ r, t.nSamp (t.leafNode r) * smoothSpec .reg t .standard true (unitWeights K n k) r c =
      ∑ r, t.nSamp (t.leafNode r) * t.value (t.leafNode r) c := by
  classical
  choose up hup using fun r : Fin t.nLeaves => exists_upBy h (t.leafNode r) k
    (by rw [(depthIs_iff h _ _).1 (hD r)]; exact hk)
  have hdep : ∀ r, t.depthPerNode (up r) + k = D := fun r => by
    rw [(upBy_depth h (hup r)).1, (depthIs_iff h _ _).1 (hD r)]
  have hrel : ∀ i j, t.distDepth .standard i j ≤ (k : ℤ) ↔ up i = up j := by
    intro i j
    have := distStandard_le_iff t.toTopo h i j k (up i) (Or.inl (hup i))
    refine Iff.trans this ⟨fun ha => ?_, fun e => e ▸ (upBy_depth h (hup j)).2⟩
    have hb := (upBy_depth h (hup j)).2
    have e1 := hdep i
    have e2 := hdep j
    rcases anc_chain h ha hb with h3 | h3
    · exact anc_eq_of_depth h h3 (by omega)
    · exact (anc_eq_of_depth h h3 (by omega)).symm
  let n' : Fin t.nLeaves → K := fun r => t.nSamp (t.leafNode r)
  let m : Fin t.nLeaves → K := fun r => t.nSamp (t.leafNode r) * t.value (t.leafNode r) c
  let N : Fin t.nLeaves → K := fun r => ∑ j, if up r = up j then n' j else 0
  have hN : ∀ r, 0 < N r := fun r =>
    Finset.sum_pos' (fun j _ => by dsimp only [n']; split_ifs; exacts [(hn j).le, le_rfl])
      ⟨r, Finset.mem_univ _, by rw [if_pos rfl]; exact hn r⟩
  have hval : ∀ r, smoothSpec .reg t .standard true (unitWeights K n k) r c =
      (∑ j, if up r = up j then m j else 0) / N r := by
    intro r
    have hs : ∀ v : Fin n → K, (∑ j : Fin n, v j * unitWeights K n k j) = v ⟨k, hkn⟩ := by
      intro v
      rw [Finset.sum_eq_single (⟨k, hkn⟩ : Fin n)]
      · simp [unitWeights]
      · intro j _ hj
        have : j.val ≠ k := fun e => hj (Fin.ext e)
        simp [unitWeights, this]
      · simp
    have e1 : smoothDen t .standard true (unitWeights K n k) r = N r := by
      unfold smoothDen
      rw [hs fun k : Fin n => levelSum true (t.distDepth .standard)
        (fun j => t.nSamp (t.leafNode j)) r k]
      simp only [levelSum, if_true, Finset.sum_filter, N, n', hrel]
    have e2 : smoothNum .reg t .standard true (unitWeights K n k) r c =
        ∑ j, if up r = up j then m j else 0 := by
      unfold smoothNum
      rw [hs fun k : Fin n => levelSum true (t.distDepth .standard)
        (fun j => t.mass .reg (t.leafNode j) c) r k]
      simp only [levelSum, if_true, Finset.sum_filter, m, hrel, mass]
    unfold smoothSpec
    rw [e1, if_neg (hN r).ne', e2]
  simp only [hval]
  show ∑ r, n' r * ((∑ j, if up r = up j then m j else 0) / N r) = ∑ r, m r
  have e3 : ∀ r, n' r * ((∑ j, if up r = up j then m j else 0) / N r) =
      ∑ j, (if up j = up r then n' r else 0) * (m j / N j) := by
    intro r
    rw [Finset.sum_div, Finset.mul_sum]
    refine Finset.sum_congr rfl fun j _ => ?_
    by_cases e : up r = up j
    · rw [if_pos e, if_pos e.symm, show N r = N j by simp only [N, e]]
    · rw [if_neg e, if_neg (Ne.symm e)]; simp
  simp only [e3]
  rw [Finset.sum_comm]
  refine Finset.sum_congr rfl fun j _ => ?_
  rw [← Finset.sum_mul]
  show N j * (m j / N j) = m j
  field_simp [(hN j).ne']

/-- All weight on level 1 of the uneven stump: both leaves predict 3/2, and 4 · 3/2 = 0 + 3 · 2. -/
example : (∀ r : Fin exUneven.nLeaves, exUneven.depthPerNode (exUneven.leafNode r) = 1) ∧
    (∑ r, exUneven.nSamp (exUneven.leafNode r) *
      smoothSpec .reg exUneven .standard true (unitWeights ℚ 2 1) r 0) = 6 := by
  decide +kernel

end SmoothRF
