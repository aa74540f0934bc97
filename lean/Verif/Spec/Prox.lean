import Mathlib.Algebra.Order.Field.Basic
import Mathlib.Algebra.BigOperators.Fin

/-! Specification vocabulary for projections onto the probability simplex. -/

namespace SmoothRF

variable {K : Type} [Field K] [LinearOrder K]

/-- The probability simplex. -/
def Simplex {n : ℕ} (x : Fin n → K) : Prop := (∀ i, 0 ≤ x i) ∧ ∑ i, x i = 1

/-- `x` is a point of the simplex nearest to `y`. -/
def IsProjection {n : ℕ} (y x : Fin n → K) : Prop :=
  Simplex x ∧ ∀ z : Fin n → K, Simplex z → ∑ i, (y i - x i) ^ 2 ≤ ∑ i, (y i - z i) ^ 2

end SmoothRF
