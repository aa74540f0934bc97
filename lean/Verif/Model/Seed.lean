import Verif.Model.Float
import Mathlib.Algebra.Order.Floor.Ring
import Mathlib.Data.Rat.Floor

/-!
# `get_random_seed`

main/1.0-depth_run_adam.py 152-155, main/1.1-depth_run_class_adam.py 164-167, main/analysis.py 123-126,
main/analysis_both.py 115-118, main/analysis_both_clean.py 139-142 (the same text).
-/

namespace SmoothRF

/-- `np.random.random(1)`: numpy's generator draws 53 bits, an integer `k < 2 ^ 53`, and returns `k / 2 ^ 53`,
which is a double. -/
def randomUnit (k : ℕ) : ℚ := (k : ℚ) / 2 ^ 53

/-- `np.random.random(1) * 1000000` in double precision, then `np.int`, which drops the fraction of a number
that is not negative. -/
def randomSeed (k : ℕ) : ℤ := ⌊fl (randomUnit k * 1000000)⌋

end SmoothRF
