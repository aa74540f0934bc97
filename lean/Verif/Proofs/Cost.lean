import Verif.Model.Cost
import Mathlib.Analysis.Calculus.FDeriv.Pow
import Mathlib.Analysis.Calculus.FDeriv.Add
import Mathlib.Analysis.Calculus.FDeriv.Mul
import Mathlib.Analysis.Calculus.Deriv.Inv
import Mathlib.Analysis.SpecialFunctions.Log.Deriv
import Mathlib.Analysis.Normed.Module.FiniteDimension
import Mathlib.Topology.Algebra.Module.FiniteDimension
import Mathlib.Algebra.Order.BigOperators.Group.List
import Mathlib.Tactic.Linarith
import Mathlib.Tactic.Ring
import Mathlib.Tactic.FieldSimp
import Mathlib.Tactic.Positivity

set_option linter.unusedSectionVars false

namespace SmoothRF

section alg
variable {K : Type} [Field K] [LinearOrder K] {k : ℕ}

theorem fillAssert_of_ne (rows : List (Row K k)) (lamb : Fin k → K)
    (h : ∀ r ∈ rows, dot r.eta lamb ≠ 0) : fillAssert rows lamb = true := by
  simp only [fillAssert, List.all_eq_true]
  intro r hr
  simp [h r hr]

theorem fillAssert_iff (rows : List (Row K k)) (lamb : Fin k → K) :
    fillAssert rows lamb = true ↔ ∀ r ∈ rows, dot r.eta lamb = 0 → dot r.gam lamb = 0 := by
  simp only [fillAssert, List.all_eq_true]
  refine forall₂_congr fun r _ => ?_
  by_cases h : dot r.eta lamb = 0 <;> simp [h]

theorem etaFill_of_ne (r : Row K k) (lamb : Fin k → K) (h : dot r.eta lamb ≠ 0) :
    etaFill r lamb = dot r.eta lamb := by simp [etaFill, h]

theorem etaFill_ne (r : Row K k) (lamb : Fin k → K) : etaFill r lamb ≠ 0 := by
  unfold etaFill; split_ifs with h
  · exact one_ne_zero
  · exact h

theorem dot_smul (a lamb : Fin k → K) (c : K) : dot a (fun j => c * lamb j) = c * dot a lamb := by
  simp only [dot, Finset.mul_sum]
  exact Finset.sum_congr rfl fun i _ => by ring

/-- ratio after filling -/
theorem ratio_smul (r : Row K k) (lamb : Fin k → K) (c : K) (hc : c ≠ 0)
    (h : dot r.eta lamb = 0 → dot r.gam lamb = 0) :
    dot r.gam (fun j => c * lamb j) / etaFill r (fun j => c * lamb j) =
      dot r.gam lamb / etaFill r lamb := by
  unfold etaFill
  rw [dot_smul, dot_smul]
  by_cases h0 : dot r.eta lamb = 0
  · simp [h0, h h0]
  · rw [if_neg (mul_ne_zero hc h0), if_neg h0, mul_div_mul_left _ _ hc]

theorem fillAssert_smul (rows : List (Row K k)) (lamb : Fin k → K) (c : K) (hc : c ≠ 0) :
    fillAssert rows (fun j => c * lamb j) = fillAssert rows lamb := by
  simp [fillAssert, dot_smul, hc]

theorem sum_list_finset {ι : Type} [Fintype ι] (rows : List ι) {J : Type} [Fintype J]
    (f : ι → J → K) : ∑ j, (rows.map fun r => f r j).sum = (rows.map fun r => ∑ j, f r j).sum := by
  induction rows with
  | nil => simp
  | cons a l ih => simp [Finset.sum_add_distrib, ih]

theorem sum_list_finset' {ι : Type} (rows : List ι) {J : Type} [Fintype J]
    (f : ι → J → K) : ∑ j, (rows.map fun r => f r j).sum = (rows.map fun r => ∑ j, f r j).sum := by
  induction rows with
  | nil => simp
  | cons a l ih => simp [Finset.sum_add_distrib, ih]

end alg

theorem list_sum_eq_zero_iff {K : Type} [Field K] [LinearOrder K] [IsStrictOrderedRing K] (l : List K)
    (h : ∀ x ∈ l, 0 ≤ x) : l.sum = 0 ↔ ∀ x ∈ l, x = 0 := by
  induction l with
  | nil => simp
  | cons a l ih =>
    have h1 := h a List.mem_cons_self
    have h2 : ∀ x ∈ l, 0 ≤ x := fun x hx => h x (List.mem_cons_of_mem _ hx)
    have h3 := List.sum_nonneg h2
    rw [List.sum_cons, add_eq_zero_iff_of_nonneg h1 h3, ih h2]
    simp

/-! ### calculus -/

variable {k : ℕ}

/-- `dot a` as a continuous linear map -/
noncomputable def dotL (a : Fin k → ℝ) : (Fin k → ℝ) →L[ℝ] ℝ :=
  ∑ i, a i • ContinuousLinearMap.proj (R := ℝ) (φ := fun _ : Fin k => ℝ) i

theorem dotL_apply (a v : Fin k → ℝ) : dotL a v = dot a v := by
  simp [dotL, dot]

theorem hasFDerivAt_dot (a lamb : Fin k → ℝ) : HasFDerivAt (fun x => dot a x) (dotL a) lamb := by
  have := (dotL a).hasFDerivAt (x := lamb)
  simpa only [funext (dotL_apply a)] using! this

theorem continuous_dot (a : Fin k → ℝ) : Continuous fun x => dot a x := by
  simp only [← dotL_apply]; exact (dotL a).continuous

theorem hasFDerivAt_ratio (g e lamb : Fin k → ℝ) (h : dot e lamb ≠ 0) :
    HasFDerivAt (fun x => dot g x / dot e x)
      ((dot e lamb)⁻¹ • dotL g - (dot g lamb / dot e lamb ^ 2) • dotL e) lamb := by
  have h1 := (hasDerivAt_inv h).comp_hasFDerivAt lamb (hasFDerivAt_dot e lamb)
  have h2 := (hasFDerivAt_dot g lamb).mul h1
  refine (h2.congr_fderiv ?_).congr_of_eventuallyEq ?_
  · ext v
    simp
    ring
  · filter_upwards with x
    simp [div_eq_mul_inv]

theorem hasFDerivAt_list_sum {ι : Type} (rows : List ι) (f : ι → (Fin k → ℝ) → ℝ)
    (f' : ι → (Fin k → ℝ) →L[ℝ] ℝ) (lamb : Fin k → ℝ)
    (h : ∀ r ∈ rows, HasFDerivAt (f r) (f' r) lamb) :
    HasFDerivAt (fun x => (rows.map fun r => f r x).sum) ((rows.map f').sum) lamb := by
  induction rows with
  | nil => simpa using hasFDerivAt_const (0 : ℝ) lamb
  | cons a l ih =>
    simp only [List.map_cons, List.sum_cons]
    exact (h a List.mem_cons_self).add (ih fun r hr => h r (List.mem_cons_of_mem _ hr))

theorem list_sum_clm_apply {ι : Type} (rows : List ι) (f' : ι → (Fin k → ℝ) →L[ℝ] ℝ) (v : Fin k → ℝ) :
    (rows.map f').sum v = (rows.map fun r => f' r v).sum := by
  induction rows with
  | nil => simp
  | cons a l ih => simp [ih]

theorem eventually_all_list {ι : Type} (rows : List ι) (P : ι → (Fin k → ℝ) → Prop) (F : Filter (Fin k → ℝ))
    (h : ∀ r ∈ rows, ∀ᶠ x in F, P r x) : ∀ᶠ x in F, ∀ r ∈ rows, P r x := by
  induction rows with
  | nil => simp
  | cons a l ih =>
    filter_upwards [h a List.mem_cons_self, ih fun r hr => h r (List.mem_cons_of_mem _ hr)] with x h1 h2
    intro r hr
    rcases List.mem_cons.1 hr with rfl | hr
    · exact h1
    · exact h2 r hr

end SmoothRF
