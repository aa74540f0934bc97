import Verif.Model.Float
import Verif.Model.Oob

/-!
# The numpy scores in double precision

`weighted_l2_np`, `l2_np` and `acc_np`, smooth_pytorch.py 658-720, with every operation rounded. `sum` is the order in which
`np.sum` and `np.mean` add.
The mean of an empty array is `nan`, an error value as in `Model/Oob.lean`.
-/

namespace SmoothRF

/-- `l2_np`, smooth_pytorch.py 700: `np.mean((y - y_pred)**2)`. -/
def flL2Np (sum : List ℚ → ℚ) (rows : List (ℚ × ℚ)) : Except PyErr ℚ :=
  if rows.length = 0 then .error .nonFinite
  else .ok (fl (sum (rows.map fun r => fl (fl (r.1 - r.2) ^ 2)) / (rows.length : ℚ)))

/-- `acc_np`, smooth_pytorch.py 719: `np.mean(y == y_pred)`, the booleans being added as doubles. -/
def flAccNp {α : Type} [DecidableEq α] (sum : List ℚ → ℚ) (rows : List (α × α)) : Except PyErr ℚ :=
  if rows.length = 0 then .error .nonFinite
  else .ok (fl (sum (rows.map fun r => if r.1 = r.2 then 1 else 0) / (rows.length : ℚ)))

/-- `weighted_l2_np`, smooth_pytorch.py 680: `np.sum(weights * (y - y_pred)**2)/np.sum(weights)`, rows `(y, y_pred, weight)`. A
zero weight total gives nan or inf. -/
def flWeightedL2Np (sum : List ℚ → ℚ) (rows : List (ℚ × ℚ × ℚ)) : Except PyErr ℚ :=
  let total := sum (rows.map fun r => r.2.2)
  if total = 0 then .error .nonFinite
  else .ok (fl (sum (rows.map fun r => fl (r.2.2 * fl (fl (r.1 - r.2.1) ^ 2))) / total))

end SmoothRF
