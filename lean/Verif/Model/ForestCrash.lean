import Verif.Model.ForestHeap

/-!
# What memory holds when a function stops

The functions of Model/ForestHeap.lean (smooth_base.py 1057-1422, smooth_clean.py 863-1060, smooth_level.py 485-733,
tune_depth.py 63-195) again as sequences of reads, allocations and writes, in the order of the code, such that the
memory at the moment of an exception can be looked at. The computations between reads and writes are those of
Model/ForestHeap.lean.
-/

namespace SmoothRF
open SkTree

variable {K : Type} [Field K] [LinearOrder K] {C : ℕ}

/-- Steps on memory; an exception keeps the memory of its moment. -/
abbrev Mem (K : Type) (C : ℕ) := EStateM PyErr (VHeap K C)

/-- A computation that touches no value array. -/
def pureStep {α : Type} : Except PyErr α → Mem K C α
  | .ok a => fun h => .ok a h
  | .error e => fun h => .error e h

/-- A computation that reads memory and changes nothing. -/
def readStep {α : Type} (x : VHeap K C → Except PyErr α) : Mem K C α := fun h => pureStep (x h) h

/-- `tree.value[tree.children_left == -1,:,:] = vals`. -/
def memWrite (o : TreeObj K C) (vals : List (Fin C → K)) : Mem K C Unit := fun h =>
  match writeObj h o vals with
  | .ok h' => .ok () h'
  | .error e => .error e h

/-- `copy.deepcopy(random_forest)`. -/
def memCopy (objs : List (TreeObj K C)) : Mem K C (List (TreeObj K C)) := fun h =>
  .ok (copyForest h [] objs).2 (copyForest h [] objs).1

/-- The trees as they are now. -/
def memRead (objs : List (TreeObj K C)) : Mem K C (List (SkTree K C)) := fun h =>
  .ok (objs.map (TreeObj.read h)) h

/-- First write-back loop, smooth_base.py 1387-1399, smooth_clean.py 1043-1056, smooth_level.py 719-729. -/
def memWrite1 (all : List (Fin C → K)) : ℕ → List (TreeObj K C) → Mem K C Unit
  | _, [] => pure ()
  | startIdx, o :: os => do
    memWrite o ((all.drop startIdx).take o.shape.nLeaves)
    memWrite1 all (startIdx + o.shape.nLeaves) os

/-- Second write-back loop, smooth_base.py 1404-1416. -/
def memWrite2 (all : List (Fin C → K)) : ℕ → List (TreeObj K C) → Mem K C Unit
  | _, [] => pure ()
  | startIdx2, o :: os => do
    memWrite o ((all.drop startIdx2).take o.shape.nLeaves)
    memWrite2 all startIdx2 os

/-- `smooth`, smooth_base.py 1057-1422: both forests with their weights, and `c`. -/
def memSmooth (sqrt : K → K)
    (ce : (n : ℕ) → SgdOpts K → K → List (Row K n) → List K → List ℕ →
      Except PyErr ((Fin n → K) × (Fin n → K) × List K))
    (rf : Option Kind) (objs : List (TreeObj K C)) (cfg : SmoothCfg K)
    (sources : TuneSrc → ℕ → List (TuneRow K C)) :
    Mem K C (List (TreeObj K C) × List K × List (TreeObj K C) × List K × List K) := do
  let ks ← pureStep (smoothCheck rf cfg.data cfg.noConstraint)
  let c1 ← memCopy objs
  let c2 ← memCopy objs
  let forest ← memRead objs
  let copies ← memRead c1
  let r ← pureStep (smoothCompute sqrt ce ks.1 ks.2 forest copies cfg sources)
  memWrite1 r.1 0 c1
  memWrite2 r.2.1 0 c2
  pure (c1, r.2.2.1, c2, r.2.2.2.1, r.2.2.2.2)

/-- `smooth_clean`, smooth_clean.py 863-1060. -/
def memClean (sqrt : K → K) (approxOne : K → Bool) (rf : Option Kind) (objs : List (TreeObj K 1)) (y : List K)
    (leafOf : ℕ → ℕ → ℕ) (unsampled : ℕ → List ℕ) (cfg : CleanCfg K) (choices : List (List ℕ)) :
    Mem K 1 (List (TreeObj K 1) × List K × List K) :=
  match rf with
  | some .reg => do
    let c1 ← memCopy objs
    let forest ← memRead objs
    let r ← pureStep (cleanCompute sqrt approxOne forest y leafOf unsampled cfg choices)
    memWrite1 r.1 0 c1
    pure (c1, r.2.1, r.2.2)
  | _ => pureStep (.error .valueError)

/-- `smooth_all`, smooth_level.py 485-733; `none`: a loop has not stopped. -/
def memAll (o : AllOracles K) (fuel : ℕ) (objs : List (TreeObj K 1)) (c : AllCfg)
    (sources : TuneSrc → ℕ → List (TuneRow K 1)) : Mem K 1 (Option (List (TreeObj K 1) × List K)) := do
  let c1 ← memCopy objs
  let copies ← memRead c1
  let r ← pureStep (allCompute o fuel copies c sources)
  match r with
  | none => pure none
  | some q => do
    memWrite1 q.1 0 c1
    pure (some (c1, q.2))

/-- Inner loop of the loss loop, tune_depth.py 162-171. -/
def memLosses (kind : Kind) (rows : List (LossRow K)) (o : TreeObj K C) :
    List (List (Fin C → K)) → Mem K C (List K)
  | [] => pure []
  | pred :: ps => do
    memWrite o pred
    let l ← readStep fun h => treeLoss kind rows ((List.finRange o.shape.nLeaves).map fun r =>
      (o.read h).value (o.shape.leafNode r))
    let ls ← memLosses kind rows o ps
    pure (l :: ls)

/-- One iteration of the first forest loop, tune_depth.py 139-174. -/
def memTuneStep (kind : Kind) (maxDepth : ℕ) (tune : ℕ → List (LossRow K)) (s : List K × Option ℕ)
    (oo : TreeObj K C × ℕ) : Mem K C (List K × Option ℕ) := do
  let pred ← readStep fun h => leafPredictedValues (oo.1.read h)
  let losses ← memLosses kind (tune oo.2) oo.1 pred
  let vi ← pureStep (treeLossVec maxDepth s.2 losses)
  pure (List.zipWith (· + ·) s.1 vi.1, vi.2)

/-- The first forest loop. -/
def memTuneLoop (kind : Kind) (maxDepth : ℕ) (tune : ℕ → List (LossRow K)) :
    List (TreeObj K C × ℕ) → List K × Option ℕ → Mem K C (List K × Option ℕ)
  | [], s => pure s
  | oo :: os, s => do
    let s' ← memTuneStep kind maxDepth tune s oo
    memTuneLoop kind maxDepth tune os s'

/-- Second loop, tune_depth.py 182-190. -/
def memTruncate (best : ℕ) : List (TreeObj K C) → Mem K C Unit
  | [] => pure ()
  | o :: os => do
    let pred ← readStep fun h => leafPredictedValues (o.read h)
    let v ← pureStep (if pred.length = 0 then .error .valueError else pyGet pred (min (pred.length - 1) best))
    memWrite o v
    memTruncate best os

/-- `depth_tune`, tune_depth.py 63-195. -/
def memDepthTune (rf : Option Kind) (objs : List (TreeObj K C)) (data : DataArgs)
    (sources : TuneSrc → ℕ → List (LossRow K)) : Mem K C (List (TreeObj K C) × List K) :=
  match rf with
  | none => pureStep (.error .valueError)
  | some kind => do
    let src ← pureStep (tuneSource data)
    let c1 ← memCopy objs
    let forest ← memRead objs
    let maxDepth := forestDepth forest
    let s ← memTuneLoop kind maxDepth (sources src) c1.zipIdx (List.replicate maxDepth 0, none)
    let best ← pureStep (npArgmin s.1)
    let c2 ← memCopy objs
    memTruncate best c2
    pure (c2, s.1)

end SmoothRF
