import Verif.Model.Linalg
import Verif.Spec.Level
import Mathlib.Data.Real.Sqrt

/-! Vocabulary for the linear algebra tests. -/

namespace SmoothRF

variable {K : Type} [Field K]

/-- `G v = 0`. -/
def Annihilates {m n : ℕ} (G : Fin m → Fin n → K) (v : Fin n → K) : Prop := ∀ i, ∑ j, G i j * v j = 0

/-- The listed columns are a basis of the null space of `G`: no column is redundant, and the vectors sent
to 0 are exactly their linear combinations. -/
structure NullBasis {m n : ℕ} (G : Fin m → Fin n → K) (cols : List (Fin n → K)) : Prop where
  indep : ∀ c : Fin cols.length → K, (∀ j, ∑ l, c l * cols[l] j = 0) → ∀ l, c l = 0
  spans : ∀ v, Annihilates G v ↔ ∃ c : Fin cols.length → K, ∀ j, v j = ∑ l, c l * cols[l] j

/-- Lower triangular with positive diagonal and `L Lᵀ = A`. -/
structure IsCholesky {n : ℕ} (A L : Fin n → Fin n → ℝ) : Prop where
  lower : ∀ i j, i < j → L i j = 0
  diag : ∀ i, 0 < L i i
  prod : ∀ i j, A i j = ∑ k, L i k * L j k

end SmoothRF
