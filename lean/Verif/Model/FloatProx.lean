import Verif.Model.Prox
import Verif.Model.Float
import Mathlib.Algebra.Field.Rat

/-!
# prox_project in double precision

smooth_base.py 110-154 with every operation rounded; the exact version is `proxProject` of Model/Prox.lean.
-/

namespace SmoothRF

/-- `np.cumsum` in doubles, smooth_base.py 146: one addition after the other. -/
def flCumsum (acc : ℚ) : List ℚ → List ℚ
  | [] => []
  | a :: l => fl (acc + a) :: flCumsum (fl (acc + a)) l

/-- `(sv - 1)/(np.arange(1, n + 1))` at index `j`, smooth_base.py 148. -/
def flProxThr {n : ℕ} (y : Fin n → ℚ) (j : Fin n) : ℚ :=
  fl (fl (((flCumsum 0 (sortDesc y))[j.val]?).getD 0 - 1) / ((j.val + 1 : ℕ) : ℚ))

/-- `rho`, smooth_base.py 148. -/
def flProxRho {n : ℕ} (y : Fin n → ℚ) : List (Fin n) :=
  (List.finRange n).filter fun j => decide (flProxThr y j < y j)

/-- `prox_project` in doubles, smooth_base.py 142-154. -/
def flProxProject {n : ℕ} (y : Fin n → ℚ) : Except PyErr (Fin n → ℚ) := do
  let yc := clip0 y
  let inner ← npMaxE ((flProxRho yc).map (flProxThr yc))
  let theta := max inner 0
  pure (clip0 fun i => fl (yc i - theta))

end SmoothRF
