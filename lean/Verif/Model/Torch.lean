import Verif.Model.Smooth
import Verif.Model.Box

/-!
# smooth_pytorch (smooth_pytorch.py 20-1003)

* Exact arithmetic (`float32` casts are identities); `exp` is a parameter.
* Dictionaries are association lists in insertion order.
* Tensor shapes are listed from the last axis to the first. `DataLoader` with its default batch size
  adds a leading axis of length 1.
* Backpropagation and Adam are one parameter `opt`; sampled tree numbers are the parameter `draws`.
* A zero denominator gives NaN in torch and `.error .nonFinite` here.
* `X_tune`, `y_tune`, bootstrap draws and `decision_path` as in `Verif.Model.Smooth`.
-/

namespace SmoothRF
open SkTree

variable {K : Type} [Field K] [LinearOrder K] {C p : ℕ}

/-! ### tensors -/

/-- A tensor: axis lengths (last axis first) and entries. -/
structure Tensor (K : Type) where
  shape : List ℕ
  get : List ℕ → K

/-- Broadcast shape, compared from the last axis. -/
def bshape : List ℕ → List ℕ → Option (List ℕ)
  | [], ys => some ys
  | xs, [] => some xs
  | x :: xs, y :: ys => do
    let r ← bshape xs ys
    if x = y then some (x :: r) else if x = 1 then some (y :: r) else if y = 1 then some (x :: r) else none

/-- Index into an operand of a broadcast: axes of length 1 are read at 0, missing axes dropped. -/
def bindex (shape idx : List ℕ) : List ℕ := List.zipWith (fun d i => if d = 1 then 0 else i) shape idx

/-- Elementwise operation with broadcasting; incompatible shapes raise RuntimeError. -/
def Tensor.zip (f : K → K → K) (a b : Tensor K) : Except PyErr (Tensor K) :=
  match bshape a.shape b.shape with
  | none => .error .runtimeError
  | some s => .ok ⟨s, fun i => f (a.get (bindex a.shape i)) (b.get (bindex b.shape i))⟩

/-- All indices of a shape. -/
def indices : List ℕ → List (List ℕ)
  | [] => [[]]
  | d :: s => (List.range d).flatMap fun i => (indices s).map (i :: ·)

/-- `torch.sum`. -/
def Tensor.sum (a : Tensor K) : K := ((indices a.shape).map a.get).sum

/-- `weighted_l2`, smooth_pytorch.py 639-659. -/
def weightedL2 (y pred w : Tensor K) : Except PyErr K := do
  let d ← y.zip (· - ·) pred
  let q ← w.zip (· * ·) ⟨d.shape, fun i => d.get i ^ 2⟩
  if w.sum = 0 then .error .nonFinite else pure (q.sum / w.sum)

/-- A vector as a tensor of shape `(1, N)`. -/
def batchVec (l : List K) : Tensor K := ⟨[l.length, 1], fun i => l.getD (i.getD 0 0) 0⟩

/-- A vector as a tensor of shape `(1, N, 1)`. -/
def batchCol (l : List K) : Tensor K := ⟨[1, l.length, 1], fun i => l.getD (i.getD 1 0) 0⟩

/-- A vector as a tensor of shape `(N,)`. -/
def flatVec (l : List K) : Tensor K := ⟨[l.length], fun i => l.getD (i.getD 0 0) 0⟩

/-! ### leaf data -/

/-- A fitted tree with its split rules. -/
structure FullTree (K : Type) (C p : ℕ) extends SkTree K C where
  feature : Fin (m + 1) → Fin p
  threshold : Fin (m + 1) → K

/-- The part of a tree read by `center_tree`. -/
def FullTree.split (t : FullTree K C p) : SplitTree K p := ⟨t.toTopo, t.feature, t.threshold⟩

/-- `dict[name] = v`. -/
def dictSet {α : Type} (d : List (String × α)) (name : String) (v : α) : List (String × α) :=
  if d.any fun e => e.1 == name then d.map fun e => if e.1 == name then (name, v) else e
  else d ++ [(name, v)]

/-- `np.tile(v, C)` along the first axis. -/
def tile {α : Type} (C : ℕ) (l : List α) : List α := (List.replicate C l).flatten

/-- The tuning data used: out-of-bag, resampled, given, or the tree's own bootstrap sample. -/
inductive PSrc | oob | resample | given | train
  deriving DecidableEq

/-- Choice of the tuning data in `pytorch_numpy_prep`, smooth_pytorch.py 135-149, 187-219. -/
def prepSource (a : DataArgs) (trainOnly : Bool) : Except PyErr PSrc :=
  let oobLogic := (!a.xTune || !a.yTune) && !a.resample && !trainOnly
  if (oobLogic || a.resample || trainOnly) && (!a.xTrained || !a.yTrained) then .error .typeError
  else if trainOnly then .ok .train
  else if a.resample then .ok .resample
  else if oobLogic then .ok .oob
  else .ok .given

/-- Result of `pytorch_numpy_prep`: the stacked arrays as rows, and the two dictionaries. -/
structure Prep (K : Type) (n : ℕ) where
  rows : List (Row K n)
  one : List (String × List K)
  two : List (String × List (List K))

/-- `pytorch_numpy_prep`, smooth_pytorch.py 20-271. `none` = the object is neither forest class. -/
def pytorchPrep (rf : Option Kind) (forest : List (SkTree K C)) (s : Topo.Style) (pa : Bool)
    (a : DataArgs) (trainOnly : Bool) (sources : PSrc → ℕ → List (TuneRow K C)) :
    Except PyErr (Prep K (forestDepth forest + 1)) :=
  match rf with
  | none => .error .valueError
  | some kind => do
    let src ← prepSource a trainOnly
    let ge := gammaEtaForest kind forest s pa
    let more ← forestMore forest s
    let yw ← tuneSummaries (decide (kind = .cls) && decide (src ≠ .given)) forest (sources src)
    pure { rows := flatRows (forestDepth forest + 1) false ge yw
           one := [("leaf_n", tile C more.numLeaf),
             ("leaf_d", tile C (more.depthLeaf.map fun z : ℤ => (z : K))),
             ("leaf_i", tile C more.impurityLeaf)]
           two := [("full_d", tile C more.depthFull), ("full_i", tile C more.impurityFull)] }

/-- `"center" + str(col_num)`. -/
def centerName (j : ℕ) : String := "center" ++ toString j

/-- One dictionary entry of the `one_d_dict` update, smooth_pytorch.py 332-339: the coordinate of the
leaf centres, tree by tree (not tiled over classes). -/
def centerOne (forest : List (FullTree K C p)) (X : List (Fin p → K)) (j : Fin p) :
    Except PyErr (List K) := do
  let l ← forest.mapM fun t => do
    let c ← t.split.centerTree X
    pure ((List.finRange t.nLeaves).map fun r => c (t.leafNode r) j)
  pure l.flatten

/-- One dictionary entry of the `two_d_dict` update, smooth_pytorch.py 353-372: the centres of the
nodes up the path, the last column repeated up to the forest width. -/
def centerTwo (width : ℕ) (forest : List (FullTree K C p)) (X : List (Fin p → K)) (j : Fin p) :
    Except PyErr (List (List K)) := do
  let l ← forest.mapM fun t => do
    let c ← t.split.centerTree X
    pure ((List.finRange t.nLeaves).map fun r =>
      let addon := (t.depthPerNodePlusParent.2 (t.leafNode r)).map fun i => c i j
      addon ++ List.replicate (width - addon.length) (addon.getLast?.getD 0))
  pure l.flatten

/-- `node_spatial_structure_update`, smooth_pytorch.py 274-376. -/
def nodeSpatial (forest : List (FullTree K C p)) (X : List (Fin p → K))
    (one : Option (List (String × List K))) (two : Option (List (String × List (List K)))) :
    Except PyErr (Option (List (String × List K)) × Option (List (String × List (List K)))) :=
  if one.isNone && two.isNone then .error .valueError
  else do
    let one' ← one.mapM fun d => (List.finRange p).foldlM (fun d j => do
      let v ← centerOne forest X j
      pure (dictSet d (centerName j) v)) d
    let two' ← two.mapM fun d => (List.finRange p).foldlM (fun d j => do
      let v ← centerTwo (forestDepth (forest.map FullTree.toSkTree) + 1) forest X j
      pure (dictSet d (centerName j) v)) d
    pure (one', two')

/-! ### data set -/

/-- `ForestDataset`. -/
structure Dataset (K : Type) (n : ℕ) where
  y : List K
  gamma : List (Fin n → K)
  eta : List (Fin n → K)
  weights : List K
  tVec : List ℕ
  numTrees : ℕ
  numVars : ℕ
  /-- `softmax_structure`, columns `0 .. n * numVars - 1` -/
  feats : ℕ → ℕ → K

/-- The assignments of `__create_softmax_structure`, smooth_pytorch.py 499-525: variable number and
matrix so far. A wrong shape raises AssertionError. -/
def writeOne (nObs lambDim : ℕ) (st : ℕ × (ℕ → ℕ → K)) (item : List K) :
    Except PyErr (ℕ × (ℕ → ℕ → K)) :=
  if item.length = nObs then
    .ok (st.1 + 1, fun i j => if lambDim * st.1 ≤ j ∧ j < lambDim * (st.1 + 1) then item.getD i 0
      else st.2 i j)
  else .error .assertionError

@[inherit_doc writeOne] def writeTwo (nObs lambDim : ℕ) (st : ℕ × (ℕ → ℕ → K)) (item : List (List K)) :
    Except PyErr (ℕ × (ℕ → ℕ → K)) :=
  if item.length = nObs ∧ ∀ r ∈ item, r.length = lambDim then
    .ok (st.1 + 1, fun i j => if lambDim * st.1 ≤ j ∧ j < lambDim * (st.1 + 1) then
      (item.getD i []).getD (j - lambDim * st.1) 0 else st.2 i j)
  else .error .assertionError

/-- `__create_softmax_structure`, smooth_pytorch.py 476-530. -/
def softmaxStructure (nObs lambDim : ℕ) (one : List (String × List K))
    (two : List (String × List (List K))) : Except PyErr (ℕ × (ℕ → ℕ → K)) := do
  let st ← one.foldlM (fun st e => writeOne nObs lambDim st e.2) (0, fun _ _ => 0)
  two.foldlM (fun st e => writeTwo nObs lambDim st e.2) st

/-- `ForestDataset.__init__`, smooth_pytorch.py 382-431. -/
def mkDataset {n : ℕ} (rows : List (Row K n)) (one : List (String × List K))
    (two : List (String × List (List K))) : Except PyErr (Dataset K n) := do
  let st ← softmaxStructure rows.length n one two
  pure { y := rows.map Row.y, gamma := rows.map Row.gam, eta := rows.map Row.eta
         weights := rows.map Row.w, tVec := rows.map Row.tree
         numTrees := (rows.map Row.tree).dedup.length
         numVars := one.length + two.length, feats := st.2 }

/-- Boolean masking `a[t_vec == idx]`. -/
def maskSel {α : Type} (tVec : List ℕ) (idx : ℕ) (a : List α) : List α :=
  ((tVec.zip a).filter fun e => e.1 == idx).map Prod.snd

/-- `ForestDataset.__getitem__`. -/
structure Item (K : Type) (n : ℕ) where
  y : List K
  gamma : List (Fin n → K)
  eta : List (Fin n → K)
  weights : List K
  numVars : ℕ
  feats : List (ℕ → K)

/-- `ForestDataset.__getitem__`, smooth_pytorch.py 439-473. -/
def Dataset.item {n : ℕ} (d : Dataset K n) (idx : ℕ) : Item K n :=
  { y := maskSel d.tVec idx d.y
    gamma := maskSel d.tVec idx d.gamma
    eta := maskSel d.tVec idx d.eta
    weights := maskSel d.tVec idx d.weights
    numVars := d.numVars
    feats := maskSel d.tVec idx ((List.range d.tVec.length).map d.feats) }

/-! ### network -/

/-- Weights and biases of the linear models, by level. -/
structure Params (K : Type) where
  weight : ℕ → ℕ → K
  bias : ℕ → K

/-- `SoftmaxTreeFit`. -/
structure Net (K : Type) where
  numVars : ℕ
  params : Params K

/-- `SoftmaxTreeFit.__init__`, smooth_pytorch.py 534-594; `none` = "r", with drawn parameters `rnd`. -/
def initNet (numVars : ℕ) (init : Option K) (rnd : Params K) : Except PyErr (Net K) :=
  match init with
  | none => .ok ⟨numVars, rnd⟩
  | some b =>
    if b ≤ 0 then .error .valueError
    else .ok ⟨numVars, ⟨fun _ _ => 0, fun k => if k = 0 then b else 0⟩⟩

/-- Output of linear model `k` for one leaf, smooth_pytorch.py 620-623: columns
`k + lamb_dim * v`. -/
def Net.linear (net : Net K) (lambDim : ℕ) (feat : ℕ → K) (k : ℕ) : K :=
  ((List.range net.numVars).map fun v => net.params.weight k v * feat (k + lambDim * v)).sum +
    net.params.bias k

/-- Softmax over the levels. -/
def softmax (exp : K → K) {n : ℕ} (z : Fin n → K) : Fin n → K := fun k => exp (z k) / ∑ j, exp (z j)

/-- `lamb` for one leaf, smooth_pytorch.py 625-626. -/
def Net.lamb (exp : K → K) (net : Net K) {n : ℕ} (feat : ℕ → K) : Fin n → K :=
  softmax exp fun k => net.linear n feat k

/-- Prediction for one leaf, smooth_pytorch.py 629-633. -/
def leafOut {n : ℕ} (gam eta lamb : Fin n → K) : Except PyErr K :=
  if dot eta lamb = 0 then .error .nonFinite else .ok (dot gam lamb / dot eta lamb)

/-- `SoftmaxTreeFit.forward`, smooth_pytorch.py 597-635: entries of the `(1, N, 1)` prediction. A
column index beyond the features raises IndexError; so does the float index array of `num_vars = 0`. -/
def forward (exp : K → K) (net : Net K) {n : ℕ} (x : Item K n) : Except PyErr (List K) :=
  if net.numVars = 0 ∨ x.numVars < net.numVars then .error .indexError
  else ((x.gamma.zip x.eta).zip x.feats).mapM fun e => leafOut e.1.1 e.1.2 (net.lamb exp e.2)

/-- Loss of the network on an item, smooth_pytorch.py 971-973, 982-984: `y` and the weights have shape
`(1, N)`, the prediction `(1, N, 1)`. -/
def itemLoss (exp : K → K) (net : Net K) {n : ℕ} (x : Item K n) : Except PyErr K := do
  let pred ← forward exp net x
  weightedL2 (batchVec x.y) (batchCol pred) (batchVec x.weights)

/-! ### optimisation -/

/-- Loop state: optimiser state, parameter objects by address (the live network is at 0), next free
address, `loss_all`, `loss_min` (`none` = inf), `params_min` and `best_model` as addresses. -/
structure RunSt (K S : Type) where
  opt : S
  heap : ℕ → Params K
  next : ℕ
  losses : List K
  lossMin : Option K
  paramsMin : Option ℕ
  best : Option ℕ

/-- Book-keeping after a step, smooth_pytorch.py 984-991: `list(parameters()).copy()` keeps the live
parameter objects, `copy.deepcopy` allocates new ones. -/
def record {S : Type} (st : RunSt K S) (cur : K) : RunSt K S :=
  if (∀ m, st.lossMin = some m → m ≥ cur) then
    { st with
      losses := st.losses ++ [cur], lossMin := some cur, paramsMin := some 0
      heap := Function.update st.heap st.next (st.heap 0), best := some st.next, next := st.next + 1 }
  else { st with losses := st.losses ++ [cur] }

/-- One optimisation step, smooth_pytorch.py 969-991. -/
def runStep {S : Type} (exp : K → K) {n : ℕ} (numVars : ℕ)
    (opt : S → Item K n → Params K → S × Params K) (d all : Dataset K n) (st : RunSt K S) (draw : ℕ) :
    Except PyErr (RunSt K S) := do
  let x := d.item draw
  let _ ← itemLoss exp ⟨numVars, st.heap 0⟩ x
  let (s', p') := opt st.opt x (st.heap 0)
  let cur ← itemLoss exp ⟨numVars, p'⟩ (all.item 0)
  pure (record { st with opt := s', heap := Function.update st.heap 0 p' } cur)

/-- The two loops, smooth_pytorch.py 967-991. -/
def runLoop {S : Type} (exp : K → K) {n : ℕ} (numVars : ℕ)
    (opt : S → Item K n → Params K → S × Params K) (d all : Dataset K n) (s0 : S) (p0 : Params K)
    (draws : List ℕ) : Except PyErr (RunSt K S) :=
  draws.foldlM (runStep exp numVars opt d all) ⟨s0, fun _ => p0, 1, [], none, none, none⟩

/-! ### write-back -/

/-- The loop of `update_rf`, smooth_pytorch.py 796-812. -/
def updateTrees (exp : K → K) (net : Net K) {n : ℕ} (d : Dataset K n) (forest : List (SkTree K C)) :
    Except PyErr (List (SkTree K C)) :=
  if forest.length < d.numTrees then .error .indexError
  else forest.zipIdx.mapM fun tt =>
    if tt.2 < d.numTrees then do
      let yTree ← forward exp net (d.item tt.2)
      writeLeaves tt.1 (reshapeF C yTree)
    else pure tt.1

/-- `update_rf`, smooth_pytorch.py 727-814: always with both dictionaries of `pytorch_numpy_prep`. -/
def updateRf (exp : K → K) (net : Net K) (rf : Option Kind) (forest : List (SkTree K C))
    (s : Topo.Style) (pa : Bool) (a : DataArgs) (sources : PSrc → ℕ → List (TuneRow K C)) :
    Except PyErr (List (SkTree K C)) := do
  let pr ← pytorchPrep rf forest s pa { a with xTune := false, yTune := false, resample := false } true sources
  let d ← mkDataset pr.rows pr.one pr.two
  updateTrees exp net d forest

/-- Arguments of `smooth_pytorch`; membership of the two names in `which_dicts` and `x_dicts`. -/
structure TorchArgs (K : Type) where
  data : DataArgs
  style : Topo.Style
  parentsAll : Bool
  sgdMax : ℕ
  allTrees : Bool
  whichOne : Bool
  whichTwo : Bool
  xOne : Bool
  xTwo : Bool
  init : Option K

/-- Everything drawn at random or left to torch. -/
structure TorchEnv (K S : Type) where
  exp : K → K
  opt : {n : ℕ} → S → Item K n → Params K → S × Params K
  s0 : S
  rnd : Params K
  draws : ℕ → ℕ

/-- The dictionaries used for training, smooth_pytorch.py 910-930. -/
def trainDicts {n : ℕ} (forest : List (FullTree K C p)) (X : List (Fin p → K)) (a : TorchArgs K)
    (pr : Prep K n) : Except PyErr (List (String × List K) × List (String × List (List K))) := do
  let one := if a.whichOne then pr.one else []
  let two := if a.whichTwo then pr.two else []
  let xo := if a.xOne then some one else none
  let xt := if a.xTwo then some two else none
  if xo.isSome || xt.isSome then do
    let (od, td) ← nodeSpatial forest X xo xt
    pure (od.getD one, td.getD two)
  else pure (one, two)

/-- Result of `smooth_pytorch`: forest, `loss_all`, `loss_min`, `params_min` (as read by the caller),
`best_model`, the live network, and the data set. -/
structure TorchOut (K : Type) (C n : ℕ) where
  rf : List (SkTree K C)
  losses : List K
  lossMin : Option K
  paramsMin : Option (Params K)
  best : Net K
  live : Net K
  data : Dataset K n

/-- Training part of `smooth_pytorch`, smooth_pytorch.py 901-991: data set, number of variables, final
loop state. `num_trees` is the number of trees, or 1 with `all_trees`; `dataloader` is built before
`t_idx_vec` is overwritten. -/
def torchTrain {S : Type} (env : TorchEnv K S) (rf : Option Kind) (forest : List (FullTree K C p))
    (X : List (Fin p → K)) (a : TorchArgs K) (sources : PSrc → ℕ → List (TuneRow K C)) :
    Except PyErr (Dataset K (forestDepth (forest.map FullTree.toSkTree) + 1) × ℕ × RunSt K S) := do
  let pr ← pytorchPrep rf (forest.map FullTree.toSkTree) a.style a.parentsAll
    { a.data with xTune := false, yTune := false, resample := false } true sources
  let (one, two) ← trainDicts forest X a pr
  let d ← mkDataset pr.rows one two
  let numTrees := if a.allTrees then 1 else forest.length
  let all ← mkDataset (pr.rows.map fun r => { r with tree := 0 }) one two
  let net ← initNet (one.length + two.length) a.init env.rnd
  if numTrees = 0 then .error .zeroDivisionError
  else do
    let st ← runLoop env.exp net.numVars env.opt d all env.s0 net.params
      ((List.range (a.sgdMax / numTrees * d.numTrees)).map env.draws)
    pure (d, net.numVars, st)

/-- `smooth_pytorch`, smooth_pytorch.py 817-1003. -/
def smoothPytorch {S : Type} (env : TorchEnv K S) (rf : Option Kind) (forest : List (FullTree K C p))
    (X : List (Fin p → K)) (a : TorchArgs K) (sources : PSrc → ℕ → List (TuneRow K C)) :
    Except PyErr (TorchOut K C (forestDepth (forest.map FullTree.toSkTree) + 1)) := do
  let (d, numVars, st) ← torchTrain env rf forest X a sources
  match st.best with
  | none => .error .unboundLocalError
  | some b => do
    let out ← updateRf env.exp ⟨numVars, st.heap b⟩ rf (forest.map FullTree.toSkTree) a.style a.parentsAll
      a.data sources
    pure { rf := out, losses := st.losses, lossMin := st.lossMin
           paramsMin := st.paramsMin.map st.heap
           best := ⟨numVars, st.heap b⟩, live := ⟨numVars, st.heap 0⟩, data := d }

end SmoothRF
