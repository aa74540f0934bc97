import Verif.Model.DepthTune
import Verif.Model.Float

/-!
# depth_tune in double precision

`Model/DepthTune` with every sum, difference and square rounded. Choosing values of nodes and comparing
them involves no arithmetic; the number of wrong classes is an integer sum.
-/

namespace SmoothRF
open SkTree

variable {C : ℕ}

/-- `np.sum((y_tune - yhat)**2)` and `np.sum(yhat != y_tune)`, tune_depth.py 165-171. -/
def flTreeLoss (kind : Kind) (rows : List (LossRow ℚ)) (pred : List (Fin C → ℚ)) : Except PyErr ℚ :=
  if rows.isEmpty then .error .valueError else
  match kind with
  | .reg => do
    let ls ← rows.mapM fun r => do
      let v ← pyGet pred r.leaf
      let yhat ← pyGet (List.ofFn v) 0
      pure (fl (fl (r.y - yhat) ^ 2))
    pure (npSum ls)
  | .cls => do
    let ls ← rows.mapM fun r => do
      let v ← pyGet pred r.leaf
      pure (if ((npArgmax (List.ofFn v) : ℕ) : ℚ) ≠ r.y then (1 : ℚ) else 0)
    pure ls.sum

/-- `forest_loss += tree_loss`, tune_depth.py 139-174. -/
def flDepthTuneStep (kind : Kind) (maxDepth : ℕ) (tune : ℕ → List (LossRow ℚ))
    (s : List ℚ × Option ℕ) (tt : SkTree ℚ C × ℕ) : Except PyErr (List ℚ × Option ℕ) := do
  let pred ← leafPredictedValues tt.1
  let losses ← pred.mapM (flTreeLoss kind (tune tt.2))
  let (v, i) ← treeLossVec maxDepth s.2 losses
  pure (List.zipWith (fun a b => fl (a + b)) s.1 v, i)

/-- `depth_tune`, tune_depth.py 63-195. -/
def flDepthTune (rf : Option Kind) (forest : List (SkTree ℚ C)) (data : DataArgs)
    (sources : TuneSrc → ℕ → List (LossRow ℚ)) : Except PyErr (List (SkTree ℚ C) × List ℚ) :=
  match rf with
  | none => .error .valueError
  | some kind => do
    let src ← tuneSource data
    let maxDepth := forestDepth forest
    let s ← forest.zipIdx.foldlM (flDepthTuneStep kind maxDepth (sources src))
      (List.replicate maxDepth 0, none)
    let best ← npArgmin s.1
    let out ← forest.mapM (truncateTree best)
    pure (out, s.1)

end SmoothRF
