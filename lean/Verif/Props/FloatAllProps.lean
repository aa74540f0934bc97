import Verif.Model.FloatAll
import Verif.Props.FloatSanityProps

/-! The leaf values of `smooth_all` in double precision (C177). -/

set_option linter.unusedSectionVars false

namespace SmoothRF
open Topo SkTree

variable {C : ℕ}

theorem Approx.mul_abs {E w x x' : ℚ} (h : Approx E w x x') (a : ℚ) :
    Approx E (w * |a|) (x * a) (x' * a) := by
  constructor
  · rw [← sub_mul, abs_mul, ← mul_assoc]
    exact mul_le_mul_of_nonneg_right h.1 (abs_nonneg a)
  · rw [abs_mul]
    exact mul_le_mul_of_nonneg_right h.2 (abs_nonneg a)

/-- Entries of the stored rows. -/
theorem flLeafRow_approx {sum : List ℚ → ℚ} (hs : IsFlSum sum) (kind : Kind) (t : SkTree ℚ C)
    (hc : WholeCounts t) (pa : Bool) (D : Fin t.nLeaves → Fin t.nLeaves → ℤ) (n : ℕ)
    (hn : t.maxDist D + 1 ≤ n) (i : Fin t.nLeaves) (c : Fin C) {M : ℚ} (hb : LeafBound kind t M c)
    (k : Fin n) :
    (flLeafRow sum kind t pa D n i c).eta k = levelSum pa D (fun j => t.nSamp (t.leafNode j)) i k ∧
    0 ≤ levelSum pa D (fun j => t.nSamp (t.leafNode j)) i k ∧
    Approx ((1 + 1 / 2 ^ 53) ^ (t.nLeaves + 1))
      (M * levelSum pa D (fun j => t.nSamp (t.leafNode j)) i k)
      (levelSum pa D (fun j => t.ny kind (t.leafNode j) c) i k)
      ((flLeafRow sum kind t pa D n i c).gam k) := by
  have h0 : ∀ j : Fin t.nLeaves, 0 ≤ t.nSamp (t.leafNode j) := fun j => by
    obtain ⟨m, hm⟩ := hc.whole j; rw [hm]; positivity
  refine ⟨?_, ?_, ?_⟩
  · rw [flLeafRow_eta hs kind t pa D n hn i c k, flEta_exact hs t hc pa D i k.val, levelSel_sum]
  · rw [← levelSel_sum]
    apply List.sum_nonneg
    intro x hx
    obtain ⟨j, _, rfl⟩ := List.mem_map.1 hx
    exact h0 j
  · have := Approx.sum (l := levelSel pa D i k) (fun j _ => flNy_approx kind t hc hb j) (hs _)
    rw [← flLeafRow_gam hs kind t pa D n hn i c k, List.length_map, List.sum_map_mul_left, levelSel_sum,
      levelSel_sum, ← pow_succ] at this
    exact this.mono (pow_le_pow_right₀ (by norm_num) (by have := levelSel_length pa D i k; omega))

/-- C177: the assertion on `ga[et == 0]` holds for every row in doubles. -/
theorem C177_assertion {sum : List ℚ → ℚ} (hs : IsFlSum sum) (kind : Kind) (t : SkTree ℚ C)
    (hc : WholeCounts t) (pos : ∀ j : Fin t.nLeaves, 0 < t.nSamp (t.leafNode j)) (pa : Bool)
    (D : Fin t.nLeaves → Fin t.nLeaves → ℤ) (n : ℕ) (hn : t.maxDist D + 1 ≤ n) (i : Fin t.nLeaves)
    (c : Fin C) : flAllAssert (flLeafRow sum kind t pa D n i c) = true := by
  unfold flAllAssert
  rw [decide_eq_true_eq]
  intro k hk
  rw [flLeafRow_eta hs kind t pa D n hn i c k, flEta_exact hs t hc pa D i k.val] at hk
  have hnil : levelSel pa D i k = [] := by
    cases hl : levelSel pa D i k with
    | nil => rfl
    | cons a l =>
      rw [hl, List.map_cons, List.sum_cons] at hk
      have h1 := pos a
      have h2 : 0 ≤ (l.map fun j => t.nSamp (t.leafNode j)).sum := by
        apply List.sum_nonneg
        intro x hx
        obtain ⟨j, _, rfl⟩ := List.mem_map.1 hx
        exact (pos j).le
      linarith
  rw [flLeafRow_gam hs kind t pa D n hn i c k, hnil]
  exact rsum_nil (hs [])

/-- C177: the error of a new leaf value, for weights of any sign. `M` bounds the leaf means. -/
theorem C177_error {sum : List ℚ → ℚ} (hs : IsFlSum sum) (kind : Kind) (t : SkTree ℚ C)
    (hc : WholeCounts t) (pos : ∀ j : Fin t.nLeaves, 0 < t.nSamp (t.leafNode j)) (pa : Bool)
    (D : Fin t.nLeaves → Fin t.nLeaves → ℤ) (n : ℕ) (hn : t.maxDist D + 1 ≤ n) (eps : ℚ)
    (i : Fin t.nLeaves) (c : Fin C) (lamb : Fin n → ℚ) {M : ℚ} (hM : 0 ≤ M) (hb : LeafBound kind t M c) :
    |flAllValue sum eps (flLeafRow sum kind t pa D n i c) lamb -
        ∑ k : Fin n, levelSum pa D (fun j => t.ny kind (t.leafNode j) c) i k /
          levelSum pa D (fun j => t.nSamp (t.leafNode j)) i k * lamb k| ≤
      ((1 + 1 / 2 ^ 53) ^ (t.nLeaves + n + 3) - 1) * (M * ∑ k, |lamb k|) := by
  have ha := C177_assertion hs kind t hc pos pa D n hn i c
  unfold flAllAssert at ha
  rw [decide_eq_true_eq] at ha
  have hk : ∀ k : Fin n, Approx ((1 + 1 / 2 ^ 53) ^ (t.nLeaves + 2)) M
      (levelSum pa D (fun j => t.ny kind (t.leafNode j) c) i k /
        levelSum pa D (fun j => t.nSamp (t.leafNode j)) i k)
      (flAllRow eps (flLeafRow sum kind t pa D n i c) k) := by
    intro k
    obtain ⟨e1, e2, e3⟩ := flLeafRow_approx hs kind t hc pa D n hn i c hb k
    unfold flAllRow
    by_cases h0 : (flLeafRow sum kind t pa D n i c).eta k = 0
    · rw [if_pos h0, ha k h0, zero_div, ← e1, h0, div_zero, fl_zero]
      exact ⟨by
        rw [sub_zero, abs_zero]
        exact mul_nonneg (sub_nonneg.2 (one_le_pow₀ (by norm_num))) hM, by rwa [abs_zero]⟩
    · rw [if_neg h0, pow_succ']
      refine Approx.fl ?_
      have hpos := lt_of_le_of_ne e2 (by rw [← e1]; exact Ne.symm h0)
      have := e3.mul (inv_nonneg.2 e2)
      rw [mul_assoc, mul_inv_cancel₀ hpos.ne', mul_one] at this
      rw [e1, div_eq_mul_inv, div_eq_mul_inv]
      exact this
  have := (Approx.sum (l := List.finRange n) (fun k _ => ((hk k).mul_abs (lamb k)).fl) (hs _)).1
  rw [finRange_sum, finRange_sum, List.length_map, List.length_finRange, ← Finset.mul_sum, ← pow_succ',
    ← pow_add, show n + (t.nLeaves + 2 + 1) = t.nLeaves + n + 3 by omega] at this
  exact this

/-- C177: the sanity check of `smooth_all` gives every leaf its stored total divided by its sample size, as
`smooth` does. -/
theorem C177_sanity {sum : List ℚ → ℚ} (hs : IsFlSum sum) (kind : Kind) (t : SkTree ℚ C) (h : t.WF)
    (hc : WholeCounts t) (pa : Bool) (s : Style) (n : ℕ) (hn : t.maxDist (t.distDepth s) + 1 ≤ n) (eps : ℚ)
    (i : Fin t.nLeaves) (hi : t.nSamp (t.leafNode i) ≠ 0) (c : Fin C)
    (hv : kind = .cls → IsFloat (t.value (t.leafNode i) c)) :
    flAllValue sum eps (flLeafRow sum kind t pa (t.distDepth s) n i c) (firstWeight n) =
      flSmoothValue sum (flLeafRow sum kind t pa (t.distDepth s) n i c) (firstWeight n) := by
  rw [C165_value hs kind t h hc pa s n hn i hi c hv]
  obtain ⟨n, rfl⟩ : ∃ m, n = m + 1 := ⟨n - 1, by omega⟩
  have one : ∀ x : ℚ, IsFloat x → sum [x] = x := fun x hx => by
    have := ((hs [x]).single (by rw [List.countP_cons]; simp; split_ifs <;> simp) (by simpa using hx)).1
    simpa using this
  have hfn : IsFloat (t.nSamp (t.leafNode i)) := by
    obtain ⟨m, hm⟩ := hc.whole i
    rw [hm]
    apply isFloat_nat
    have h1 : t.nSamp (t.leafNode i) ≤ ∑ j : Fin t.nLeaves, t.nSamp (t.leafNode j) :=
      Finset.single_le_sum (f := fun j : Fin t.nLeaves => t.nSamp (t.leafNode j))
        (fun j _ => by obtain ⟨m, hm⟩ := hc.whole j; rw [hm]; positivity) (Finset.mem_univ i)
    have h2 := h1.trans hc.total
    rw [hm] at h2
    exact_mod_cast h2
  have hfg : IsFloat (flNy kind t (t.leafNode i) c) := by
    cases kind
    · exact fl_isFloat _
    · exact hv rfl
  have he : (flLeafRow sum kind t pa (t.distDepth s) (n + 1) i c).eta 0 = t.nSamp (t.leafNode i) := by
    rw [flLeafRow_eta hs kind t pa _ _ hn, Fin.val_zero, levelSel_self h]
    exact one _ hfn
  have hg : (flLeafRow sum kind t pa (t.distDepth s) (n + 1) i c).gam 0 = flNy kind t (t.leafNode i) c := by
    rw [flLeafRow_gam hs kind t pa _ _ hn, Fin.val_zero, levelSel_self h]
    exact one _ hfg
  unfold flAllValue
  rw [flDot_first hs _ (by unfold flAllRow; exact fl_isFloat _)]
  unfold flAllRow
  rw [he, hg, if_neg hi]

/-- C177: a fitted regression tree keeps its leaf values in every bit under the sanity check of `smooth_all`,
so the comparison of predictions with `==` in the test holds. -/
theorem C177_bits {sum : List ℚ → ℚ} (hs : IsFlSum sum) (t : SkTree ℚ C) (h : t.WF)
    (hc : WholeCounts t) (pa : Bool) (s : Style) (n : ℕ) (hn : t.maxDist (t.distDepth s) + 1 ≤ n) (eps : ℚ)
    (i : Fin t.nLeaves) (hi : t.nSamp (t.leafNode i) ≠ 0) (c : Fin C) {S : ℚ} (hS : IsFloat S)
    (hv : t.value (t.leafNode i) c = fl (S / t.nSamp (t.leafNode i))) :
    flAllValue sum eps (flLeafRow sum .reg t pa (t.distDepth s) n i c) (firstWeight n) =
      t.value (t.leafNode i) c := by
  rw [C177_sanity hs .reg t h hc pa s n hn eps i hi c (fun h => by cases h)]
  exact C165_bits hs t h hc pa s n hn i hi c hS hv

/-- C177: a leaf of a tree that was smoothed before may change. -/
theorem C177_refuted {sum : List ℚ → ℚ} (hs : IsFlSum sum) (pa : Bool) (s : Style) (eps : ℚ) :
    flAllValue sum eps (flLeafRow sum .reg exThirds pa (exThirds.distDepth s) 2 ⟨0, by decide⟩ 0)
      (firstWeight 2) ≠ exThirds.value (exThirds.leafNode ⟨0, by decide⟩) 0 := by
  rw [C177_sanity hs .reg exThirds (by decide) exThirds_counts pa s 2 (by cases s <;> decide +kernel) eps
    ⟨0, by decide⟩ (by decide +kernel) 0 (fun h => by cases h)]
  exact C165_refuted hs pa s

/-- Two levels with weights 3/4 and 1/4 on the stump with leaf values 0.1 and 1: the exact value
`3/4 * 0.1 + 1/4 * 1` is rounded twice; the result differs from it by less than the bound. -/
example : let r := flLeafRow npSum .reg exThirds false (exThirds.distDepth .standard) 2 ⟨0, by decide⟩ 0
    flAllAssert r = true ∧
    flAllValue npSum (1 / 6) r ![3 / 4, 1 / 4] ≠ 3 / 4 * tenth + 1 / 4 ∧
    |flAllValue npSum (1 / 6) r ![3 / 4, 1 / 4] - (3 / 4 * tenth + 1 / 4)| <
      ((1 + 1 / 2 ^ 53) ^ 7 - 1) * (1 * (3 / 4 + 1 / 4)) := by
  decide +kernel

end SmoothRF
