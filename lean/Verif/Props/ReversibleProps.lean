import Verif.Props.TruncProps
import Verif.Props.TreeProps

/-! Smoothing as a reversible average (C175). -/

set_option linter.unusedSectionVars false

namespace SmoothRF
open SkTree Topo

variable {K : Type} [Field K] [LinearOrder K] [IsStrictOrderedRing K] {C : ℕ}

/-- A weight per distance that gives the smoothed values, non-negative when the level weights are. -/
theorem exists_distance_weight {n : ℕ} (pa : Bool) (lamb : Fin n → K) (hl : ∀ k, 0 ≤ lamb k) :
    ∃ w : ℕ → K, (∀ l, 0 ≤ w l) ∧ ∀ (t : SkTree K C), t.WF → ∀ (s : Style) (r : Fin t.nLeaves),
      smoothDen t s pa lamb r = ∑ j, t.nSamp (t.leafNode j) * w (t.distDepth s r j).toNat ∧
      ∀ (kind : Kind) (c : Fin C), smoothNum kind t s pa lamb r c =
        ∑ j, t.mass kind (t.leafNode j) c * w (t.distDepth s r j).toNat := by
  cases pa
  · refine ⟨fun l => if h : l < n then lamb ⟨l, h⟩ else 0, fun l => ?_, fun t h s r => ?_⟩
    · dsimp only
      split
      · exact hl _
      · exact le_rfl
    · have e : (fun k : Fin n => (fun l => if h : l < n then lamb ⟨l, h⟩ else 0) k.val) = lamb := by
        funext k; simp
      have hw : ∀ l, n ≤ l → (fun l => if h : l < n then lamb ⟨l, h⟩ else 0) l = 0 := fun l hl => by
        simp [not_lt.mpr hl]
      constructor
      · rw [← sum_levelSum_false t h s _ hw]
        unfold smoothDen
        exact Finset.sum_congr rfl fun k _ => by rw [← congrFun e k]
      · intro kind c
        rw [← sum_levelSum_false t h s _ hw]
        unfold smoothNum
        exact Finset.sum_congr rfl fun k _ => by rw [← congrFun e k]
  · refine ⟨tailSum lamb, fun l => Finset.sum_nonneg fun k _ => ?_, fun t h s r => ⟨?_, fun kind c => ?_⟩⟩
    · split
      · exact hl _
      · exact le_rfl
    · exact sum_levelSum_true t h s lamb _ r
    · exact sum_levelSum_true t h s lamb _ r

/-- Jensen's inequality for the square, about any centre. -/
theorem weighted_square_le {ι : Type*} (S : Finset ι) (u x : ι → K) (hu : ∀ j ∈ S, 0 ≤ u j) (a m : K)
    (hm : (∑ j ∈ S, u j) * m = ∑ j ∈ S, u j * x j) :
    (∑ j ∈ S, u j) * (m - a) ^ 2 ≤ ∑ j ∈ S, u j * (x j - a) ^ 2 := by
  have h0 : 0 ≤ ∑ j ∈ S, u j * (x j - m) ^ 2 :=
    Finset.sum_nonneg fun j hj => mul_nonneg (hu j hj) (sq_nonneg _)
  have e : ∑ j ∈ S, u j * (x j - a) ^ 2 =
      ∑ j ∈ S, u j * (x j - m) ^ 2 + 2 * (m - a) * ∑ j ∈ S, u j * x j
        + (∑ j ∈ S, u j) * (a ^ 2 - m ^ 2) := by
    rw [Finset.mul_sum, Finset.sum_mul, ← Finset.sum_add_distrib, ← Finset.sum_add_distrib]
    exact Finset.sum_congr rfl fun j _ => by ring
  rw [e, ← hm]
  nlinarith [h0]

/-- A leaf's mass is its sample size times its rate. -/
theorem mass_eq_rate (kind : Kind) (t : SkTree K C) {a : t.Node} (ha : 0 < t.nSamp a) (c : Fin C) :
    t.mass kind a c = t.nSamp a * nodeRate kind t a c := by
  cases kind
  · simp [SkTree.mass, nodeRate]
  · simp only [SkTree.mass, nodeRate, reduceCtorEq, if_false]
    field_simp

/-- The numerator is the denominator times the smoothed value, also where the latter is zero. -/
theorem den_mul_smoothSpec (kind : Kind) (t : SkTree K C) (h : t.WF) (hn : ∀ j, 0 < t.nSamp (t.leafNode j))
    (s : Style) (pa : Bool) {n : ℕ} (lamb : Fin n → K) (hl : ∀ k, 0 ≤ lamb k) (r : Fin t.nLeaves)
    (c : Fin C) :
    smoothDen t s pa lamb r * smoothSpec kind t s pa lamb r c = smoothNum kind t s pa lamb r c := by
  unfold smoothSpec
  split
  · rename_i h0
    obtain ⟨w, hw, he⟩ := exists_distance_weight (C := C) pa lamb hl
    obtain ⟨e1, e2⟩ := he t h s r
    rw [e1] at h0
    have hz := (Finset.sum_eq_zero_iff_of_nonneg fun j _ => mul_nonneg (hn j).le (hw _)).mp h0
    rw [mul_zero, e2]
    refine (Finset.sum_eq_zero fun j hj => ?_).symm
    rcases mul_eq_zero.mp (hz j hj) with hz | hz
    · exact absurd hz (hn j).ne'
    · rw [hz, mul_zero]
  · rename_i h0
    exact mul_div_cancel₀ _ h0

/-- The distances of the style `s` between leaves of `t` do not depend on the direction. -/
def SymmetricStyle (t : SkTree K C) (s : Style) : Prop :=
  ∀ i j, t.distDepth s i j = t.distDepth s j i

/-- C175: the styles `max` and `min` are symmetric on every tree, the style `standard` exactly on the
trees whose leaves all have the same depth. -/
theorem C175_symmetric (t : SkTree K C) (h : t.WF) :
    SymmetricStyle t .max ∧ SymmetricStyle t .min ∧
    (SymmetricStyle t .standard ↔ ∃ d, ∀ i, t.DepthIs (t.leafNode i) d) := by
  refine ⟨fun i j => (C08_distance_max_min _ h i j).2.2.1, fun i j => (C08_distance_max_min _ h i j).2.2.2.1, ?_⟩
  have key : ∀ i j : Fin t.nLeaves, t.distDepth .standard i j = t.distDepth .standard j i ↔
      t.depthPerNode (t.leafNode i) = t.depthPerNode (t.leafNode j) := by
    intro i j
    obtain ⟨a, ha⟩ := exists_lca h (t.leafNode i) (t.leafNode j)
    have ha' : t.IsLCA (t.leafNode j) (t.leafNode i) a := ⟨ha.2.1, ha.1, fun b h1 h2 => ha.2.2 b h2 h1⟩
    have e1 : t.distDepth .standard i j = _ := distStandard_eq h i j ha
    have e2 : t.distDepth .standard j i = _ := distStandard_eq h j i ha'
    rw [e1, e2]
    omega
  constructor
  · intro hs
    by_cases h0 : 0 < t.nLeaves
    · exact ⟨t.depthPerNode (t.leafNode ⟨0, h0⟩), fun i =>
        (depthIs_iff h _ _).2 ((key i ⟨0, h0⟩).1 (hs _ _))⟩
    · exact ⟨0, fun i => absurd i.pos h0⟩
  · rintro ⟨d, hd⟩ i j
    rw [key, (depthIs_iff h _ _).1 (hd i), (depthIs_iff h _ _).1 (hd j)]

example : SymmetricStyle exTree .max ∧ ¬ SymmetricStyle exTree .standard ∧
    SymmetricStyle exStump .standard := by
  unfold SymmetricStyle
  decide +kernel

/-- C175: with a symmetric style and non-negative weights, smoothing a tree keeps the average of its leaf
predictions in which a leaf counts its sample size times its denominator, and never increases their
second moment about any centre in the same weights. -/
theorem C175_reversible (kind : Kind) (t : SkTree K C) (h : t.WF) (hn : ∀ j, 0 < t.nSamp (t.leafNode j))
    {s : Style} (hs : SymmetricStyle t s) (pa : Bool) {n : ℕ} (lamb : Fin n → K)
    (hl : ∀ k, 0 ≤ lamb k) (c : Fin C) :
    (∑ r, t.nSamp (t.leafNode r) * smoothDen t s pa lamb r * smoothSpec kind t s pa lamb r c =
      ∑ r, t.nSamp (t.leafNode r) * smoothDen t s pa lamb r * nodeRate kind t (t.leafNode r) c) ∧
    ∀ a : K,
      ∑ r, t.nSamp (t.leafNode r) * smoothDen t s pa lamb r * (smoothSpec kind t s pa lamb r c - a) ^ 2 ≤
      ∑ r, t.nSamp (t.leafNode r) * smoothDen t s pa lamb r *
        (nodeRate kind t (t.leafNode r) c - a) ^ 2 := by
  obtain ⟨w, hw, he⟩ := exists_distance_weight (C := C) pa lamb hl
  have hmul : ∀ r, smoothDen t s pa lamb r * smoothSpec kind t s pa lamb r c =
      ∑ j, t.nSamp (t.leafNode j) * w (t.distDepth s r j).toNat * nodeRate kind t (t.leafNode j) c := by
    intro r
    rw [den_mul_smoothSpec kind t h hn s pa lamb hl, (he t h s r).2]
    refine Finset.sum_congr rfl fun j _ => ?_
    rw [mass_eq_rate kind t (hn j)]
    ring
  have swap : ∀ f : Fin t.nLeaves → K,
      ∑ r, t.nSamp (t.leafNode r) * (∑ j, t.nSamp (t.leafNode j) * w (t.distDepth s r j).toNat * f j) =
      ∑ r, t.nSamp (t.leafNode r) * smoothDen t s pa lamb r * f r := by
    intro f
    simp only [Finset.mul_sum]
    rw [Finset.sum_comm]
    refine Finset.sum_congr rfl fun j _ => ?_
    rw [(he t h s j).1, Finset.mul_sum, Finset.sum_mul]
    refine Finset.sum_congr rfl fun r _ => ?_
    rw [hs r j]
    ring
  constructor
  · rw [← swap fun j => nodeRate kind t (t.leafNode j) c]
    refine Finset.sum_congr rfl fun r _ => ?_
    rw [mul_assoc, hmul]
  · intro a
    rw [← swap fun j => (nodeRate kind t (t.leafNode j) c - a) ^ 2]
    refine Finset.sum_le_sum fun r _ => ?_
    rw [mul_assoc]
    refine mul_le_mul_of_nonneg_left ?_ (hn r).le
    have hm := hmul r
    rw [(he t h s r).1] at hm ⊢
    exact weighted_square_le _ _ _ (fun j _ => mul_nonneg (hn j).le (hw _)) a _ hm

/-- The weights 2, 1, 1 with `max` on an example tree: all leaf values change, and the second moment about
6 falls. -/
example : (∀ j : Fin exTree.nLeaves, 0 < exTree.nSamp (exTree.leafNode j)) ∧
    (∀ r, smoothSpec .reg exTree .max false ![2, 1, 1] r 0 ≠ exTree.value (exTree.leafNode r) 0) ∧
    ∑ r, exTree.nSamp (exTree.leafNode r) * smoothDen exTree .max false ![2, 1, 1] r *
      (smoothSpec .reg exTree .max false ![2, 1, 1] r 0 - 6) ^ 2 <
    ∑ r, exTree.nSamp (exTree.leafNode r) * smoothDen exTree .max false ![2, 1, 1] r *
      (exTree.value (exTree.leafNode r) 0 - 6) ^ 2 := by
  decide +kernel

/-- C175: leaf predictions that differ by at most `ε` are smoothed to values that differ by at most
`ε`, in every style. -/
theorem C175_stable (kind : Kind) (t : SkTree K C) (h : t.WF) (hn : ∀ j, 0 < t.nSamp (t.leafNode j))
    (s : Style) (pa : Bool) {n : ℕ} (lamb : Fin n → K) (hl : ∀ k, 0 ≤ lamb k) (c : Fin C)
    (v : t.Node → Fin C → K) {ε : K} (hε : 0 ≤ ε)
    (hv : ∀ j, |nodeRate kind t (t.leafNode j) c -
      nodeRate kind { t with value := v } (t.leafNode j) c| ≤ ε) (r : Fin t.nLeaves) :
    |smoothSpec kind t s pa lamb r c - smoothSpec kind { t with value := v } s pa lamb r c| ≤ ε := by
  have hd : smoothDen { t with value := v } s pa lamb r = smoothDen t s pa lamb r := rfl
  obtain ⟨w, hw, he⟩ := exists_distance_weight (C := C) pa lamb hl
  unfold smoothSpec
  rw [hd]
  by_cases h0 : smoothDen t s pa lamb r = 0
  · rw [if_pos h0, if_pos h0, sub_zero, abs_zero]; exact hε
  · have hp : 0 < smoothDen t s pa lamb r := by
      refine lt_of_le_of_ne ?_ (Ne.symm h0)
      rw [(he t h s r).1]
      exact Finset.sum_nonneg fun j _ => mul_nonneg (hn j).le (hw _)
    rw [if_neg h0, if_neg h0, ← sub_div, abs_div, abs_of_pos hp, div_le_iff₀ hp]
    have e2 : smoothNum kind { t with value := v } s pa lamb r c =
        ∑ j, SkTree.mass kind { t with value := v } (t.leafNode j) c * w (t.distDepth s r j).toNat :=
      (he { t with value := v } h s r).2 kind c
    rw [(he t h s r).2 kind c, e2, (he t h s r).1, Finset.mul_sum, ← Finset.sum_sub_distrib]
    refine (Finset.abs_sum_le_sum_abs _ _).trans (Finset.sum_le_sum fun j _ => ?_)
    have e3 : SkTree.mass kind { t with value := v } (t.leafNode j) c =
        t.nSamp (t.leafNode j) * nodeRate kind { t with value := v } (t.leafNode j) c :=
      mass_eq_rate kind { t with value := v } (hn j) c
    rw [mass_eq_rate kind t (hn j), e3]
    have e4 : ∀ x y z u : K, x * y * z - x * u * z = x * z * (y - u) := fun x y z u => by ring
    rw [e4, abs_mul, abs_of_nonneg (mul_nonneg (hn j).le (hw _)), mul_comm ε]
    exact mul_le_mul_of_nonneg_left (hv j) (mul_nonneg (hn j).le (hw _))

/-- The example tree with its first leaf's value moved from 1 to 3. -/
abbrev exTreeMoved : SkTree ℚ 1 :=
  { exTree with value := fun i _ => ![13 / 2, 3, 3, 4, 10] i }

/-- Moving the first leaf's value from 1 to 3 moves every smoothed value by at most 2. -/
example : (∀ j, |nodeRate .reg exTree (exTree.leafNode j) 0 -
      nodeRate .reg exTreeMoved (exTree.leafNode j) 0| ≤ 2) ∧
    (List.finRange exTree.nLeaves).map (fun r =>
      smoothSpec .reg exTreeMoved .standard true ![2, 1, 1] r 0 -
        smoothSpec .reg exTree .standard true ![2, 1, 1] r 0) = [8 / 11, 4 / 13, 2 / 9] := by
  decide +kernel

/-- C175 for the whole procedure: the first forest `smooth` returns, with constrained weights. -/
theorem C175_smooth {sqrt : K → K}
    {ce : (n : ℕ) → SgdOpts K → K → List (Row K n) → List K → List ℕ →
      Except PyErr ((Fin n → K) × (Fin n → K) × List K)} (hC : 0 < C)
    {kind : Kind} {forest : List (SkTree K C)}
    (hwf : ∀ t ∈ forest, t.WF) (hn : ∀ t ∈ forest, ∀ j, 0 < t.nSamp (t.leafNode j))
    {cfg : SmoothCfg K} {sources : TuneSrc → ℕ → List (TuneRow K C)}
    {out : SmoothOut K C (forestDepth forest + 1)}
    (h : smooth sqrt ce (some kind) forest cfg sources = .ok out)
    (hc : cfg.noConstraint = false)
    (hk : kind = .reg ∨ cfg.lossL2 = true ∨ cfg.sanityCheck = true)
    (hs : ∀ u, cfg.seed = some u → ∀ i, 0 ≤ u i) (he : 0 ≤ cfg.classEps)
    (hst : cfg.style = .max ∨ cfg.style = .min) :
    List.Forall₂ (fun t t' => ∃ (v : t.Node → Fin C → K) (p : Fin t.nLeaves → K),
      t' = { t with value := v } ∧
      (∀ r, p r = t.nSamp (t.leafNode r) * smoothDen t cfg.style cfg.parentsAll out.lamb1 r) ∧
      (∀ r, 0 ≤ p r) ∧
      ∀ c, ∑ r, p r * v (t.leafNode r) c = ∑ r, p r * nodeRate kind t (t.leafNode r) c ∧
        ∀ a, ∑ r, p r * (v (t.leafNode r) c - a) ^ 2 ≤
          ∑ r, p r * (nodeRate kind t (t.leafNode r) c - a) ^ 2) forest out.rf1 := by
  have hl := (C35_constrained_lamb_nonneg h hc hk hs he).1
  refine forall2_imp_mem (C38_first_forest_rows hC hwf h) fun t ht t' hu => ?_
  obtain ⟨v, e, hv, -⟩ := hu
  have hsym : SymmetricStyle t cfg.style := by
    rcases hst with h | h <;> rw [h]
    exacts [(C175_symmetric t (hwf t ht)).1, (C175_symmetric t (hwf t ht)).2.1]
  refine ⟨v, _, e, fun _ => rfl, fun r => mul_nonneg (hn t ht r).le ?_, fun c => ?_⟩
  · obtain ⟨w, hw, he⟩ := exists_distance_weight (C := C) cfg.parentsAll out.lamb1 hl
    rw [(he t (hwf t ht) cfg.style r).1]
    exact Finset.sum_nonneg fun j _ => mul_nonneg (hn t ht j).le (hw _)
  · simp only [hv]
    exact C175_reversible kind t (hwf t ht) (hn t ht) hsym cfg.parentsAll out.lamb1 hl c

/-- Weights 1/2, 1/4, 1/4 and the style `max`: in the second tree the denominators are 7/4, 2, 9/4, so
the leaves count 7/4, 4 and 27/4, and the sums before and after agree. -/
example : (match smooth (fun x => x) noCe (some .reg) [exStump, exTree]
      { exCfg with style := .max, seed := some fun i => if i = 0 then 2 else 1 }
      (fun _ => exTune) with
    | .ok out => some (valuesOf out.rf1, List.ofFn out.lamb1)
    | .error _ => none) =
      some ([[[5/2], [2], [3]], [[13/2], [3], [40/7], [47/8], [23/3]]], [1/2, 1/4, 1/4]) ∧
    (7/4 * (40/7) + 4 * (47/8) + 27/4 * (23/3) : ℚ) = 7/4 * 1 + 4 * 4 + 27/4 * 10 := by
  decide +kernel

/-- With the default style the average in these weights changes, and the second moment can grow. -/
theorem C175_refuted :
    ∃ (t : SkTree ℚ 1) (lamb : Fin 3 → ℚ), t.WF ∧ (∀ j, 0 < t.nSamp (t.leafNode j)) ∧
      (∀ k, 0 ≤ lamb k) ∧ (∀ r, 0 < smoothDen t .standard false lamb r) ∧
      ∑ r, t.nSamp (t.leafNode r) * smoothDen t .standard false lamb r *
          smoothSpec .reg t .standard false lamb r 0 ≠
        ∑ r, t.nSamp (t.leafNode r) * smoothDen t .standard false lamb r * t.value (t.leafNode r) 0 ∧
      ∑ r, t.nSamp (t.leafNode r) * smoothDen t .standard false lamb r * (t.value (t.leafNode r) 0 - 4) ^ 2 <
        ∑ r, t.nSamp (t.leafNode r) * smoothDen t .standard false lamb r *
          (smoothSpec .reg t .standard false lamb r 0 - 4) ^ 2 :=
  ⟨exTree, ![0, 1, 2], by decide +kernel⟩

end SmoothRF
