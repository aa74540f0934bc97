import Verif.Model.Sgd

/-!
# The test function of `test_adam_step`

smooth_rf/tests/test_adam_sgd.py 12-93. The loop of the test is `adamLoop`.
-/

namespace SmoothRF

variable {K : Type} [Field K] [LinearOrder K] {k : ℕ}

/-- `_rosenbrock`, test_adam_sgd.py 12-35. -/
def rosenbrock (a b : K) (vec : Fin 2 → K) : K := (a - vec 0) ^ 2 + b * (vec 1 - vec 0 ^ 2) ^ 2

/-- `_d_rosenbrock`, test_adam_sgd.py 36-60, the code. -/
def dRosenbrock (a b : K) (vec : Fin 2 → K) : Fin 2 → K :=
  ![-2 * (a - vec 0) - 4 * b * (vec 1 - vec 0 ^ 2) * vec 0, 2 * b * (vec 1 - vec 0 ^ 2)]

/-- The gradient stated in the docstring of `_d_rosenbrock`, test_adam_sgd.py 41-42. -/
def docRosenbrock (a b : K) (vec : Fin 2 → K) : Fin 2 → K :=
  ![-2 * (a - vec 0) + 4 * b * vec 0 * (vec 1 - vec 0 ^ 2), 2 * b * (vec 1 - vec 0 ^ 2)]

/-- The inner loop of `test_adam_step`, test_adam_sgd.py 81-85: `lamb` and `iv` are passed on. -/
def adamLoop (sqrt : K → K) (gradFun : (Fin k → K) → Except PyErr (Fin k → K)) (o : AdamOpts K) (start : Fin k → K) :
    ℕ → Except PyErr ((Fin k → K) × Option (Iv K k))
  | 0 => .ok (start, none)
  | n + 1 => do
    let (lamb, iv) ← adamLoop sqrt gradFun o start n
    let (lamb, iv) ← adamStep sqrt gradFun (some lamb) o iv
    pure (lamb, some iv)

end SmoothRF
