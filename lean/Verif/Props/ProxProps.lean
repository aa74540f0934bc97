import Verif.Proofs.Prox
import Mathlib.Data.Rat.Floor
import Mathlib.Tactic.NormNum
import Mathlib.Data.Fin.VecNotation

/-!
# C19–C22: prox_project
-/

set_option linter.unusedSectionVars false

namespace SmoothRF

variable {K : Type} [Field K] [LinearOrder K] [IsStrictOrderedRing K]

/-- C19: `prox_project` succeeds on every non-empty vector; the result is non-negative, bounded by
`max(y, 0)`, and monotone in the entries. It raises ValueError on the empty vector. -/
theorem C19_prox_nonneg_monotone {n : ℕ} (y : Fin (n + 1) → K) :
    ∃ x, proxProject y = .ok x ∧
      (∀ i, 0 ≤ x i) ∧ (∀ i, x i ≤ max (y i) 0) ∧
      (∀ i j, y i ≤ y j → x i ≤ x j) ∧ (∀ i j, y i = y j → x i = x j) := by
  obtain ⟨θ, j, e, -⟩ := proxProject_form y
  have mono : ∀ i j, y i ≤ y j →
      max (clip0 y i - max θ 0) 0 ≤ max (clip0 y j - max θ 0) 0 := by
    intro i j h
    rw [clip0_eq_max, clip0_eq_max]
    exact max_le_max (sub_le_sub_right (max_le_max h le_rfl) _) le_rfl
  refine ⟨_, e, fun i => le_max_right _ _, ?_, mono, ?_⟩
  · intro i
    have h0 : (0 : K) ≤ max θ 0 := le_max_right _ _
    rw [clip0_eq_max]
    exact max_le (by linarith) (le_max_right _ _)
  · intro i j h
    exact le_antisymm (mono i j h.le) (mono j i h.ge)

theorem C19_empty_raises (y : Fin 0 → K) : proxProject y = .error .valueError := rfl

/-- Non-trivial instance: a negative entry and a tie. -/
example : (match proxProject ![(2 : ℚ), -1, 2] with | .ok x => some (x 0, x 1, x 2) | .error _ => none)
    = some (1, 0, 1) := by decide +kernel

/-- C20 (what holds): if `y` is in descending order and its positive part sums to at least one, the
result is the Euclidean projection of `y` onto the simplex; for an arbitrary order the entries sum to
at least one, and the result is the projection exactly when they sum to one.
Missing: other orders and vectors whose positive part sums to less than one, where the claim is
false (`C20_refuted`, `C20_deficient_refuted`). -/
theorem C20_prox_projection_partial {n : ℕ} (y : Fin (n + 1) → K) (hs : 1 ≤ ∑ i, max (y i) 0) :
    ∃ x, proxProject y = .ok x ∧ 1 ≤ ∑ i, x i ∧ (∑ i, x i = 1 ↔ IsProjection y x) ∧
      ((∀ i j, i ≤ j → y j ≤ y i) → IsProjection y x) := by
  obtain ⟨θ, j, e, hθ, hmax, hj⟩ := proxProject_form y
  have hc : (∑ i, clip0 y i) = ∑ i, max (y i) 0 := by simp only [clip0_eq_max]
  -- the last threshold is non-negative
  have hlast : 0 ≤ proxThr (clip0 y) (Fin.last n) := by
    rw [proxThr_eq]
    apply div_nonneg _ (by positivity)
    rw [List.take_of_length_le (by rw [sortDesc_length]; simp), sum_eq_sortDesc, hc]
    linarith
  have hform : ∀ i, max (clip0 y i - max θ 0) 0 = max (y i - max θ 0) 0 := by
    intro i
    have h0 : (0 : K) ≤ max θ 0 := le_max_right _ _
    rw [clip0_eq_max]
    rcases le_total (y i) 0 with h | h
    · rw [max_eq_right h, max_eq_right (by linarith), max_eq_right (by linarith)]
    · rw [max_eq_left h]
  have hge : 1 ≤ ∑ i, max (clip0 y i - max θ 0) 0 := by
    rcases le_total θ 0 with h | h
    · exact one_le_sum_excess _ _ (Fin.last n) (by rw [max_eq_right h]; exact hlast)
    · exact one_le_sum_excess _ _ j (by rw [max_eq_left h, hθ])
  refine ⟨_, e, hge, ⟨fun h1 => ?_, fun h1 => h1.1.2⟩, fun hd => ?_⟩
  · simp only [hform] at h1 ⊢
    exact isProjection_of_threshold y _ h1
  · have hcd : ∀ i j, i ≤ j → clip0 y j ≤ clip0 y i := by
      intro i j hij
      rw [clip0_eq_max, clip0_eq_max]
      exact max_le_max (hd i j hij) le_rfl
    have hall := proxThr_le_of_antitone (clip0 y) hcd θ hmax
    have hle : ∑ i, max (clip0 y i - max θ 0) 0 ≤ 1 :=
      sum_excess_le_one _ _ fun i => le_trans (hall i) (le_max_left _ _)
    have h1 := le_antisymm hle hge
    simp only [hform] at h1 ⊢
    exact isProjection_of_threshold y _ h1

/-- Instance of the hypotheses of C20: descending, with a negative entry. -/
example : (1 : ℚ) ≤ ∑ i, max ((![2, 1, -1] : Fin 3 → ℚ) i) 0 ∧
    ∀ i j : Fin 3, i ≤ j → (![2, 1, -1] : Fin 3 → ℚ) j ≤ ![2, 1, -1] i := by
  constructor
  · decide +kernel
  · decide +kernel

/-- C20 (refuted): on `[1, 0, 1]` the result is `[2/3, 0, 2/3]`, which does not sum to one. -/
theorem C20_refuted : ¬ ∀ (n : ℕ) (y : Fin (n + 1) → ℚ), ∃ x, proxProject y = .ok x ∧ ∑ i, x i = 1 := by
  intro h
  obtain ⟨x, hx, hs⟩ := h 2 ![1, 0, 1]
  have : (match proxProject ![(1 : ℚ), 0, 1] with | .ok x => some (∑ i, x i) | .error _ => none)
    = some (4/3) := by decide +kernel
  rw [hx] at this
  simp only [hs, Option.some.injEq] at this
  norm_num at this

/-- C20 (refuted, second cause): whenever the positive part sums to less than one the result sums to
less than one, whatever the order. -/
theorem C20_deficient_refuted {n : ℕ} (y : Fin (n + 1) → K) (hs : ∑ i, max (y i) 0 < 1) :
    ∃ x, proxProject y = .ok x ∧ ∑ i, x i < 1 := by
  obtain ⟨θ, j, e, -⟩ := proxProject_form y
  refine ⟨_, e, lt_of_le_of_lt (Finset.sum_le_sum fun i _ => ?_) hs⟩
  have h0 : (0 : K) ≤ max θ 0 := le_max_right _ _
  rw [clip0_eq_max]
  exact max_le (by linarith) (le_max_right _ _)

/-- C21: if the positive part sums to at most one, the result is the positive part; in particular
feasible points are fixed and the map is idempotent there. -/
theorem C21_feasible_fixed {n : ℕ} (y : Fin (n + 1) → K) :
    (∑ i, max (y i) 0 ≤ 1 → proxProject y = .ok (fun i => max (y i) 0)) ∧
    ((∀ i, 0 ≤ y i) → ∑ i, y i ≤ 1 → proxProject y = .ok y) := by
  have main : ∑ i, max (y i) 0 ≤ 1 → proxProject y = .ok (fun i => max (y i) 0) := by
    intro hs
    obtain ⟨θ, j, e, hθ, -⟩ := proxProject_form y
    have hc : (∑ i, clip0 y i) = ∑ i, max (y i) 0 := by simp only [clip0_eq_max]
    have h0 : θ ≤ 0 := by
      rw [hθ, proxThr_le_iff, mul_zero, sub_zero]
      refine le_trans ?_ (hc ▸ hs)
      rw [← sum_eq_sortDesc (clip0 y)]
      refine List.Sublist.sum_le_sum (List.take_sublist _ _) ?_
      intro a ha
      rw [(sortDesc_perm _).mem_iff, List.mem_ofFn] at ha
      obtain ⟨i, rfl⟩ := ha
      exact clip0_nonneg y i
    rw [e, max_eq_right h0]
    congr 1
    funext i
    rw [sub_zero, clip0_eq_max, max_eq_left (le_max_right _ _)]
  refine ⟨main, fun hn hs => ?_⟩
  have e : ∀ i, max (y i) 0 = y i := fun i => max_eq_left (hn i)
  simp only [e] at main
  exact main hs

example : (∀ i, (0 : ℚ) ≤ (![1/2, 0, 1/4] : Fin 3 → ℚ) i) ∧ ∑ i, (![1/2, 0, 1/4] : Fin 3 → ℚ) i ≤ 1 := by
  constructor <;> decide +kernel

/-- C22 (what holds): the caller's array is unchanged exactly when it has no negative entry; negative
entries are overwritten by zero.
Missing: vectors with negative entries, where the claim is false (`C22_refuted`). -/
theorem C22_argument_unchanged_partial {n : ℕ} (y : Fin n → K) :
    (proxProjectArg y = y ↔ ∀ i, 0 ≤ y i) ∧ ∀ i, y i < 0 → proxProjectArg y i = 0 := by
  refine ⟨⟨fun h i => ?_, fun h => clip0_of_nonneg y h⟩, fun i hi => by simp [proxProjectArg, clip0, hi]⟩
  rw [← h]; exact clip0_nonneg y i

/-- C22 (refuted). -/
theorem C22_refuted : ¬ ∀ (n : ℕ) (y : Fin n → ℚ), proxProjectArg y = y := by
  intro h
  have := congrFun (h 2 ![-1, 1]) 0
  revert this; decide +kernel

end SmoothRF
