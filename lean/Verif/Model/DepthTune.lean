import Verif.Model.Smooth
import Verif.Model.Clean

/-!
# tune_depth.py

`leaf_predicted_values` and `depth_tune`. Routing of tuning rows is a parameter as in `Model/Smooth`.
A tree's `predict` returns the stored value of the leaf (regression) or the position of the first
largest class entry (classification; the trees inside a forest carry class codes 0, 1, …).
-/

namespace SmoothRF
open SkTree

variable {K : Type} [Field K] [LinearOrder K] {C : ℕ}

/-- `lowest_viable_node` of one leaf, tune_depth.py 44-52: row maximum of
`leaf_decision @ diag((depth <= d) * arange(n_nodes))`. -/
def lowestViable (t : Topo) (d : ℕ) (r : Fin t.nLeaves) : ℕ :=
  ((List.finRange (t.m + 1)).map fun i =>
    t.decisionLeaf r i * ((if t.depthPerNode i ≤ d then 1 else 0) * i.val)).foldl max 0

/-- `vals[i]` for a node number. -/
def valAt (t : SkTree K C) (i : ℕ) : Except PyErr (Fin C → K) :=
  if h : i < t.m + 1 then .ok (t.value ⟨i, h⟩) else .error .indexError

/-- `leaf_predicted_values`, tune_depth.py 18-61: entry `d` (for `d` in `range(max_depth)`) holds one
value vector per leaf. -/
def leafPredictedValues (t : SkTree K C) : Except PyErr (List (List (Fin C → K))) :=
  (List.range (Topo.npMax t.depthPerNode)).mapM fun d =>
    (List.finRange t.nLeaves).mapM fun r => valAt t (lowestViable t.toTopo d r)

/-- `np.argmax`: position of the first largest entry. -/
def npArgmax (v : List K) : ℕ :=
  (v.zipIdx.foldl (fun (b : Option K × ℕ) x =>
    match b.1 with
    | none => (some x.1, x.2)
    | some m => if m < x.1 then (some x.1, x.2) else b) (none, 0)).2

/-- `np.argmin`: position of the first smallest entry; ValueError on an empty array. -/
def npArgmin (v : List K) : Except PyErr ℕ :=
  match v with
  | [] => .error .valueError
  | _ :: _ => .ok (npArgmax (v.map fun x => -x))

/-- A tuning row: leaf reached and response (class code for classification). -/
structure LossRow (K : Type) where
  leaf : ℕ
  y : K

/-- Loss of one tree whose leaves hold `pred`, tune_depth.py 165-171. `predict` raises ValueError without
rows (sklearn rejects empty arrays). -/
def treeLoss (kind : Kind) (rows : List (LossRow K)) (pred : List (Fin C → K)) : Except PyErr K :=
  if rows.isEmpty then .error .valueError else
  match kind with
  | .reg => do
    let ls ← rows.mapM fun r => do
      let v ← pyGet pred r.leaf
      let yhat ← pyGet (List.ofFn v) 0
      pure ((r.y - yhat) ^ 2)
    pure ls.sum
  | .cls => do
    let ls ← rows.mapM fun r => do
      let v ← pyGet pred r.leaf
      pure (if ((npArgmax (List.ofFn v) : ℕ) : K) ≠ r.y then (1 : K) else 0)
    pure ls.sum

/-- `tree_loss` after the loop and the fill, tune_depth.py 161-173: the losses of the candidate depths,
then `tree_loss[tree_loss == -1] = tree_loss[i]`. `i` is the loop variable left by the loop, or by an
earlier tree's loop if this tree has no candidates (`prev`; unbound at first). -/
def treeLossVec (maxDepth : ℕ) (prev : Option ℕ) (losses : List K) : Except PyErr (List K × Option ℕ) :=
  let v := losses ++ List.replicate (maxDepth - losses.length) (-1)
  let i := if losses.length = 0 then prev else some (losses.length - 1)
  match i with
  | none => .error .unboundLocalError
  | some i => do
    let fill ← pyGet v i
    pure (v.map (fun x => if x = -1 then fill else x), some i)

/-- One iteration of the first forest loop, tune_depth.py 139-174. -/
def depthTuneStep (kind : Kind) (maxDepth : ℕ) (tune : ℕ → List (LossRow K))
    (s : List K × Option ℕ) (tt : SkTree K C × ℕ) : Except PyErr (List K × Option ℕ) := do
  let pred ← leafPredictedValues tt.1
  let losses ← pred.mapM (treeLoss kind (tune tt.2))
  let (v, i) ← treeLossVec maxDepth s.2 losses
  pure (List.zipWith (· + ·) s.1 v, i)

/-- Second loop: truncate one tree, tune_depth.py 183-190. `np.max([])` raises ValueError. -/
def truncateTree (best : ℕ) (t : SkTree K C) : Except PyErr (SkTree K C) := do
  let pred ← leafPredictedValues t
  if pred.length = 0 then .error .valueError
  else do
    let v ← pyGet pred (min (pred.length - 1) best)
    writeLeaves t v

/-- `depth_tune`, tune_depth.py 63-195: the updated forest and `.loss_vec_depth`. -/
def depthTune (rf : Option Kind) (forest : List (SkTree K C)) (data : DataArgs)
    (sources : TuneSrc → ℕ → List (LossRow K)) : Except PyErr (List (SkTree K C) × List K) :=
  match rf with
  | none => .error .valueError
  | some kind => do
    let src ← tuneSource data
    let maxDepth := forestDepth forest
    let s ← forest.zipIdx.foldlM (depthTuneStep kind maxDepth (sources src))
      (List.replicate maxDepth 0, none)
    let best ← npArgmin s.1
    let out ← forest.mapM (truncateTree best)
    pure (out, s.1)

end SmoothRF
