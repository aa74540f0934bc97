import Verif.Model.SmoothAll
import Verif.Model.DepthTune

/-!
# Forest objects with shared value arrays

The value array of a fitted tree (`tree.tree_.value`) is a piece of memory which the smoothing functions
overwrite in place. Here a tree is an object holding the address of its value array; `copy.deepcopy`
allocates new arrays, and the assignments `tree.value[tree.children_left == -1] = …` write into the heap.
The four functions are `smooth`, `smooth_clean`, `smooth_all` and `depth_tune` with the objects they
read (`random_forest`, its copies) kept apart. Child arrays, node counts and impurities are never
written, so they stay values.
-/

namespace SmoothRF
open SkTree

variable {K : Type} [Field K] [LinearOrder K] {C : ℕ}

/-- Value arrays by address; rows are addressed by node number. -/
abbrev VHeap (K : Type) (C : ℕ) := List (ℕ → Fin C → K)

/-- A tree object: everything but the values (`shape.value` is not used), and the address of these. -/
structure TreeObj (K : Type) (C : ℕ) where
  shape : SkTree K C
  ref : ℕ

/-- The array at an address. -/
def VHeap.arr (h : VHeap K C) (r : ℕ) : ℕ → Fin C → K := h.getD r fun _ _ => 0

/-- The tree as it is now. -/
def TreeObj.read (h : VHeap K C) (o : TreeObj K C) : SkTree K C :=
  { o.shape with value := fun i => h.arr o.ref i.val }

/-- `copy.deepcopy(random_forest)`: a new array for every tree object; `memo` (old address, new address)
keeps an object that occurs twice a single object. -/
def copyForest : VHeap K C → List (ℕ × ℕ) → List (TreeObj K C) → VHeap K C × List (TreeObj K C)
  | h, _, [] => (h, [])
  | h, memo, o :: os =>
    match memo.lookup o.ref with
    | some r =>
      let p := copyForest h memo os
      (p.1, ⟨o.shape, r⟩ :: p.2)
    | none =>
      let p := copyForest (h ++ [h.arr o.ref]) ((o.ref, h.length) :: memo) os
      (p.1, ⟨o.shape, h.length⟩ :: p.2)

/-- `tree.value[tree.children_left == -1,:,:] = vals` in place (as `writeLeaves`). -/
def writeObj (h : VHeap K C) (o : TreeObj K C) (vals : List (Fin C → K)) : Except PyErr (VHeap K C) :=
  if vals.length = o.shape.nLeaves ∨ vals.length = 1 then
    .ok (h.set o.ref fun n c =>
      if hn : n < o.shape.m + 1 then newValue (o.read h) vals ⟨n, hn⟩ c else h.arr o.ref n c)
  else .error .valueError

/-- First write-back loop, smooth_base.py 1387-1399, smooth_clean.py 1043-1056, smooth_level.py 719-729. -/
def heapWrite1 (all : List (Fin C → K)) : ℕ → List (TreeObj K C) → VHeap K C → Except PyErr (VHeap K C)
  | _, [], h => .ok h
  | startIdx, o :: os, h => do
    let h' ← writeObj h o ((all.drop startIdx).take o.shape.nLeaves)
    heapWrite1 all (startIdx + o.shape.nLeaves) os h'

/-- Second write-back loop, smooth_base.py 1404-1416. -/
def heapWrite2 (all : List (Fin C → K)) : ℕ → List (TreeObj K C) → VHeap K C → Except PyErr (VHeap K C)
  | _, [], h => .ok h
  | startIdx2, o :: os, h => do
    let h' ← writeObj h o ((all.drop startIdx2).take o.shape.nLeaves)
    heapWrite2 all startIdx2 os h'

/-- What `smooth` computes before the write-back, smooth_base.py 1206-1385: `y_leaf_new_all`,
`y_leaf_new_all2`, `lamb`, `lamb_last`, `c`. `forest` is `random_forest.estimators_`, `copies` is
`inner_rf.estimators_`. -/
def smoothCompute (sqrt : K → K)
    (ce : (n : ℕ) → SgdOpts K → K → List (Row K n) → List K → List ℕ →
      Except PyErr ((Fin n → K) × (Fin n → K) × List K))
    (kind : Kind) (src : TuneSrc) (forest copies : List (SkTree K C)) (cfg : SmoothCfg K)
    (sources : TuneSrc → ℕ → List (TuneRow K C)) :
    Except PyErr (List (Fin C → K) × List (Fin C → K) × List K × List K × List K) := do
  let ge := gammaEtaForest kind forest cfg.style cfg.parentsAll
  let yw ← tuneSummaries (decide (kind = .cls) && decide (src ≠ .given)) copies (sources src)
  let lamb ← initLamb kind cfg.seed cfg.classEps
  let rows := flatRows (forestDepth forest + 1) cfg.allTrees ge yw
  let (lamb1, lamb2, costs) ← smoothOptimise sqrt (ce _) kind cfg rows lamb
  pure (reshapeF C (rows.map fun r => smoothValue r lamb1), reshapeF C (rows.map fun r => smoothValue r lamb2),
    List.ofFn lamb1, List.ofFn lamb2, costs)

/-- Result of `smooth` on objects: the memory afterwards, the trees of both forests, their `.lamb`, `c`. -/
structure HeapOut (K : Type) (C : ℕ) where
  heap : VHeap K C
  rf1 : List (TreeObj K C)
  lamb1 : List K
  rf2 : List (TreeObj K C)
  lamb2 : List K
  costs : List K

/-- `smooth` on objects, smooth_base.py 1057-1422. -/
def heapSmooth (sqrt : K → K)
    (ce : (n : ℕ) → SgdOpts K → K → List (Row K n) → List K → List ℕ →
      Except PyErr ((Fin n → K) × (Fin n → K) × List K))
    (rf : Option Kind) (h : VHeap K C) (objs : List (TreeObj K C)) (cfg : SmoothCfg K)
    (sources : TuneSrc → ℕ → List (TuneRow K C)) : Except PyErr (HeapOut K C) := do
  let (kind, src) ← smoothCheck rf cfg.data cfg.noConstraint
  let c1 := copyForest h [] objs
  let c2 := copyForest c1.1 [] objs
  let r ← smoothCompute sqrt ce kind src (objs.map (TreeObj.read c2.1)) (c1.2.map (TreeObj.read c2.1)) cfg sources
  let h3 ← heapWrite1 r.1 0 c1.2 c2.1
  let h4 ← heapWrite2 r.2.1 0 c2.2 h3
  pure ⟨h4, c1.2, r.2.2.1, c2.2, r.2.2.2.1, r.2.2.2.2⟩

/-- What `smooth_clean` computes before the write-back, smooth_clean.py 969-1041. -/
def cleanCompute (sqrt : K → K) (approxOne : K → Bool) (forest : List (SkTree K 1)) (y : List K)
    (leafOf : ℕ → ℕ → ℕ) (unsampled : ℕ → List ℕ) (cfg : CleanCfg K) (choices : List (List ℕ)) :
    Except PyErr (List (Fin 1 → K) × List K × List K) := do
  let d := cleanData forest cfg.style cfg.parentsAll y.length leafOf unsampled
  let p ← cleanLamb sqrt approxOne d y cfg choices
  let vals := List.zipWith
    (fun g e => if dot e p.1 = 0 then 0 else dot g p.1 / (if dot e p.1 = 0 then 1 else dot e p.1))
    d.gam d.eta
  pure (vals.map fun v _ => v, List.ofFn p.1, p.2)

/-- `smooth_clean` on objects, smooth_clean.py 863-1060. `generate_oob_info` reads the copy's structure
only, which is that of `random_forest`. -/
def heapClean (sqrt : K → K) (approxOne : K → Bool) (rf : Option Kind) (h : VHeap K 1)
    (objs : List (TreeObj K 1)) (y : List K) (leafOf : ℕ → ℕ → ℕ) (unsampled : ℕ → List ℕ)
    (cfg : CleanCfg K) (choices : List (List ℕ)) :
    Except PyErr (VHeap K 1 × List (TreeObj K 1) × List K × List K) :=
  match rf with
  | some .reg => do
    let c1 := copyForest h [] objs
    let r ← cleanCompute sqrt approxOne (objs.map (TreeObj.read c1.1)) y leafOf unsampled cfg choices
    let h2 ← heapWrite1 r.1 0 c1.2 c1.1
    pure (h2, c1.2, r.2.1, r.2.2)
  | _ => .error .valueError

/-- What `smooth_all` computes before the write-back, smooth_level.py 539-717; `none`: a loop has not
stopped. -/
def allCompute (o : AllOracles K) (fuel : ℕ) (forest : List (SkTree K 1)) (c : AllCfg)
    (sources : TuneSrc → ℕ → List (TuneRow K 1)) : Except PyErr (Option (List (Fin 1 → K) × List K)) := do
  let p ← allPrepare forest c sources
  let r ← allSolve o fuel c.noConstraint p.rows
  match r with
  | none => pure none
  | some (g, l) => do
    let _ ← allAssess o c.innerAssess p.tolPow g (quadA p.rows) l
    let lamb := if p.flag then lambBase else l
    pure (some ((p.store.map fun row => dot row lamb).map (fun v _ => v), List.ofFn lamb))

/-- `smooth_all` on objects, smooth_level.py 485-733: the matrices are computed from the copy. -/
def heapAll (o : AllOracles K) (fuel : ℕ) (h : VHeap K 1) (objs : List (TreeObj K 1)) (c : AllCfg)
    (sources : TuneSrc → ℕ → List (TuneRow K 1)) :
    Except PyErr (Option (VHeap K 1 × List (TreeObj K 1) × List K)) := do
  let c1 := copyForest h [] objs
  let r ← allCompute o fuel (c1.2.map (TreeObj.read c1.1)) c sources
  match r with
  | none => pure none
  | some (vals, lamb) => do
    let h2 ← heapWrite1 vals 0 c1.2 c1.1
    pure (some (h2, c1.2, lamb))

/-- Inner loop of the loss loop, tune_depth.py 162-171: every candidate is written into the tree before
it predicts. -/
def heapLosses (kind : Kind) (rows : List (LossRow K)) (o : TreeObj K C) :
    List (List (Fin C → K)) → VHeap K C → Except PyErr (List K × VHeap K C)
  | [], h => .ok ([], h)
  | pred :: ps, h => do
    let h' ← writeObj h o pred
    let l ← treeLoss kind rows ((List.finRange o.shape.nLeaves).map fun r =>
      (o.read h').value (o.shape.leafNode r))
    let (ls, h'') ← heapLosses kind rows o ps h'
    pure (l :: ls, h'')

/-- One iteration of the first forest loop on objects, tune_depth.py 139-174. -/
def heapTuneStep (kind : Kind) (maxDepth : ℕ) (tune : ℕ → List (LossRow K))
    (s : (List K × Option ℕ) × VHeap K C) (oo : TreeObj K C × ℕ) :
    Except PyErr ((List K × Option ℕ) × VHeap K C) := do
  let pred ← leafPredictedValues (oo.1.read s.2)
  let (losses, h') ← heapLosses kind (tune oo.2) oo.1 pred s.2
  let (v, i) ← treeLossVec maxDepth s.1.2 losses
  pure ((List.zipWith (· + ·) s.1.1 v, i), h')

/-- Second loop on objects, tune_depth.py 182-190. -/
def heapTruncate (best : ℕ) : List (TreeObj K C) → VHeap K C → Except PyErr (VHeap K C)
  | [], h => .ok h
  | o :: os, h => do
    let pred ← leafPredictedValues (o.read h)
    if pred.length = 0 then .error .valueError
    else do
      let v ← pyGet pred (min (pred.length - 1) best)
      let h' ← writeObj h o v
      heapTruncate best os h'

/-- `depth_tune` on objects, tune_depth.py 63-195: the losses are computed on a first copy, which is
overwritten on the way; the result is a second copy of `random_forest`. -/
def heapDepthTune (rf : Option Kind) (h : VHeap K C) (objs : List (TreeObj K C)) (data : DataArgs)
    (sources : TuneSrc → ℕ → List (LossRow K)) :
    Except PyErr (VHeap K C × List (TreeObj K C) × List K) :=
  match rf with
  | none => .error .valueError
  | some kind => do
    let src ← tuneSource data
    let c1 := copyForest h [] objs
    let maxDepth := forestDepth (objs.map (TreeObj.read c1.1))
    let s ← c1.2.zipIdx.foldlM (heapTuneStep kind maxDepth (sources src))
      ((List.replicate maxDepth 0, none), c1.1)
    let best ← npArgmin s.1.1
    let c2 := copyForest s.2 [] objs
    let h' ← heapTruncate best c2.2 c2.1
    pure (h', c2.2, s.1.1)

end SmoothRF
