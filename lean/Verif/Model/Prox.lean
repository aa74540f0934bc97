import Verif.Model.Py
import Mathlib.Algebra.Order.Field.Basic
import Mathlib.Data.List.Sort
import Mathlib.Data.List.FinRange
import Mathlib.Algebra.BigOperators.Fin

/-!
# prox_project and prox_project_ce

smooth_base.py 110-216. Arrays of length `n` are functions `Fin n → K`.
Not modelled: `np.int` (line 148), which exists only in numpy < 1.24.
-/

namespace SmoothRF

variable {K : Type} [Field K] [LinearOrder K]

/-- `y[y < 0] = 0`, smooth_base.py 143 (and 152 for the result). -/
def clip0 {n : ℕ} (y : Fin n → K) : Fin n → K := fun i => if y i < 0 then 0 else y i

/-- `u = np.sort(y)[::-1]`, smooth_base.py 145. -/
def sortDesc {n : ℕ} (y : Fin n → K) : List K :=
  ((List.ofFn y).insertionSort (· ≤ ·)).reverse

/-- `np.cumsum`, smooth_base.py 146, with the running total as accumulator. -/
def cumsum (acc : K) : List K → List K
  | [] => []
  | a :: l => (acc + a) :: cumsum (acc + a) l

/-- `(sv - 1)/(np.arange(1, n + 1))` at index `j`, smooth_base.py 148. `j` is in range (`Fin n`). -/
def proxThr {n : ℕ} (y : Fin n → K) (j : Fin n) : K :=
  (((cumsum 0 (sortDesc y))[j.val]?).getD 0 - 1) / ((j.val + 1 : ℕ) : K)

/-- `rho`, smooth_base.py 148: the indices at which the (unsorted) clipped array exceeds the
threshold of the same position. -/
def proxRho {n : ℕ} (y : Fin n → K) : List (Fin n) :=
  (List.finRange n).filter fun j => decide (proxThr y j < y j)

/-- `np.max` of a list; raises ValueError on an empty one. -/
def npMaxE : List K → Except PyErr K
  | [] => .error .valueError
  | a :: l => .ok (l.foldl max a)

/-- The new value returned by `prox_project`, smooth_base.py 142-154. -/
def proxProject {n : ℕ} (y : Fin n → K) : Except PyErr (Fin n → K) := do
  let yc := clip0 y
  let inner ← npMaxE ((proxRho yc).map (proxThr yc))
  let theta := max inner 0
  pure (clip0 fun i => yc i - theta)

/-- What the caller's array holds after `prox_project`: line 143 writes into the argument. -/
def proxProjectArg {n : ℕ} (y : Fin n → K) : Fin n → K := clip0 y

/-- `prox_project_ce`, smooth_base.py 156-216: the first statement (line 189) is `assert False`. -/
def proxProjectCe {n : ℕ} (_y : Fin n → K) (_classEps : K) : Except PyErr (Fin n → K) :=
  .error .assertionError

end SmoothRF
