import Verif.Model.Level
import Mathlib.LinearAlgebra.Dimension.Constructions
import Mathlib.LinearAlgebra.FiniteDimensional.Lemmas

/-!
# smooth_level.py 309-332, 433-483: `is_pos_def` and the rank test of `check_in_null`

* `np.allclose(A, A.T)` is equality.
* `np.linalg.cholesky` raises `LinAlgError` exactly when a pivot is not positive. The factorisation is
  the outer-product form: take the square root of the first diagonal entry, subtract the outer product of
  the scaled column, go on with the remaining block. No square root is needed to know the pivots.
* `scipy.linalg.null_space(G)` is a parameter: the list of its columns.
* `np.linalg.matrix_rank` is the dimension of the span of the columns (no tolerance).
-/

namespace SmoothRF

section Chol
variable {K : Type} [Field K] [LinearOrder K]

/-- The block that remains after the first column of the factor. -/
def schurRest {n : ℕ} (A : Fin (n + 1) → Fin (n + 1) → K) : Fin n → Fin n → K :=
  fun i j => A i.succ j.succ - A i.succ 0 * A j.succ 0 / A 0 0

/-- `np.linalg.cholesky(A)` succeeds (called at smooth_level.py 327): every pivot is positive. Only the
lower triangle is read. -/
def cholOk : (n : ℕ) → (Fin n → Fin n → K) → Bool
  | 0, _ => true
  | n + 1, A => decide (0 < A 0 0) && cholOk n (schurRest A)

/-- `is_pos_def`, smooth_level.py 309-332. -/
def isPosDef {n : ℕ} (A : Fin n → Fin n → K) : Bool :=
  if ∀ i j, A i j = A j i then cholOk n A else false

end Chol

section Null
variable {K : Type} [Field K]

/-- `np.linalg.matrix_rank` of the matrix with the given columns. -/
noncomputable def colRank {n : ℕ} (cols : List (Fin n → K)) : ℕ :=
  Module.finrank K (Submodule.span K {c | c ∈ cols})

/-- `check_in_null` after the argument check, smooth_level.py 466-483; `nspace` is the list of columns of
`scipy.linalg.null_space(G)`. -/
noncomputable def inNullRank {n : ℕ} (nspace : List (Fin n → K)) (v : Fin n → K) : Bool :=
  let nullRank := nspace.length
  if nullRank = 0 then false
  else decide (colRank (nspace ++ [v]) = nullRank)

end Null
end SmoothRF
