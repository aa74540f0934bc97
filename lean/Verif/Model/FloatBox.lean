import Verif.Model.Box
import Verif.Model.Float
import Mathlib.Algebra.Field.Rat

/-!
# Centres in double precision

`bound_box_tree` copies and compares numbers, so its result in doubles is the exact one of Model/Box.lean. The mean of
`center_tree` is rounded.
-/

namespace SmoothRF
namespace SplitTree

variable {p : ℕ}

/-- `center_tree` in doubles, smooth_base.py 1783-1801: `tree_box.mean(axis = 2)` adds the two bounds and divides by
2. -/
def flCenterTree (t : SplitTree ℚ p) (X : List (Fin p → ℚ)) : Except PyErr (t.Node → Fin p → ℚ) := do
  let b ← t.boundBox X
  pure fun i j => fl (fl ((b i j).1 + (b i j).2) / 2)

end SplitTree
end SmoothRF
