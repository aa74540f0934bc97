import Verif.Model.Sgd
import Verif.Model.Clean
import Mathlib.Analysis.SpecialFunctions.Log.Base
import Mathlib.Algebra.Order.Floor.Ring

/-!
# The numpy tests for a sum of one

`np.testing.assert_approx_equal(x, 1)` (smooth_base.py 1632) and `np.allclose(x, 1)` (smooth_clean.py 757), from the
numpy documentation and source; both are parameters (`approxOne`) of the models of the descents.
-/

namespace SmoothRF

/-- `np.testing.assert_approx_equal(x, 1)` does not raise: both numbers are divided by the power of ten at or below
the mean of their absolute values, and then differ by less than `10^-(significant - 1)`, `significant = 7`. -/
noncomputable def npApproxOne (x : ℝ) : Bool :=
  open Classical in
  if (1 : ℝ) = x then true
  else
    let scale : ℝ := (10 : ℝ) ^ ⌊Real.logb 10 (0.5 * (|1| + |x|))⌋
    decide (|1 / scale - x / scale| < 1 / 10 ^ 6)

/-- `np.allclose(x, 1)`: `|x - 1| <= atol + rtol * |1|` with `atol = 1e-8`, `rtol = 1e-5`. -/
def npCloseOne {K : Type} [Field K] [LinearOrder K] (x : K) : Bool :=
  decide (|x - 1| ≤ 1 / 10 ^ 8 + 1 / 10 ^ 5 * |1|)

end SmoothRF
