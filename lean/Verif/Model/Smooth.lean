import Verif.Model.Gamma
import Verif.Model.Sgd

/-!
# smooth

smooth_base.py 1057-1422, for `distance_style="depth"`.

* Regression is the case `C = 1` of the class-indexed arrays (the code has the same statements with
  the class axis dropped).
* Routing of tuning rows to leaves (`decision_path`) and the bootstrap index draws are parameters: for
  each data source and tree number, the list of tuning rows with the leaf (row number among the
  tree's leaves) each reaches.
* `pd.get_dummies` (out-of-bag and resampled classification data) has one column per label present;
  if a label is absent, `np.concatenate` with the `(0, C)` array raises ValueError.
* `np.random.uniform` for `initial_lamb_seed` is the parameter `seed`.
* The cross-entropy descent is a parameter `ce` (it needs real logarithms); `sgdCe` is its model.
-/

namespace SmoothRF
open SkTree

variable {K : Type} [Field K] [LinearOrder K] {C : ℕ}

/-- Where the tuning rows come from. -/
inductive TuneSrc | oob | resample | given
  deriving DecidableEq

/-- Which of the optional arguments are present (not None), and `resample_tune`. -/
structure DataArgs where
  xTrained : Bool
  yTrained : Bool
  xTune : Bool
  yTune : Bool
  resample : Bool
  deriving DecidableEq

/-- `oob_logic` and the choice of tuning rows inside the tree loop, smooth_base.py 1170-1173,
1243-1263, with the TypeError of 1176-1180. -/
def tuneSource (a : DataArgs) : Except PyErr TuneSrc :=
  let oobLogic := (!a.xTune || !a.yTune) && !a.resample
  if (oobLogic || a.resample) && (!a.xTrained || !a.yTrained) then .error .typeError
  else if a.resample then .ok .resample
  else if oobLogic then .ok .oob
  else .ok .given

/-- Argument checks of `smooth` in order, smooth_base.py 1161-1196. `none` = the object is neither
forest class. -/
def smoothCheck (rf : Option Kind) (a : DataArgs) (noConstraint : Bool) :
    Except PyErr (Kind × TuneSrc) :=
  match rf with
  | none => .error .valueError
  | some kind => do
    let src ← tuneSource a
    if kind = .cls ∧ noConstraint = true then .error .valueError
    else pure (kind, src)

/-- One tuning row: the leaf it reaches and its response (one-hot for classification). -/
structure TuneRow (K : Type) (C : ℕ) where
  leaf : ℕ
  y : Fin C → K

/-- `obs_weight` for one leaf, smooth_base.py 1266-1268. -/
def leafWeight (rows : List (TuneRow K C)) (i : ℕ) : K :=
  ((rows.filter fun r => r.leaf == i).length : K)

/-- `obs_y_leaf` for one leaf, smooth_base.py 1272-1281: column sums over the rows reaching the leaf,
divided by the weight (1 if the weight is 0). -/
def leafMean (rows : List (TuneRow K C)) (i : ℕ) (c : Fin C) : K :=
  ((rows.filter fun r => r.leaf == i).map fun r => r.y c).sum /
    (if leafWeight rows i = 0 then 1 else leafWeight rows i)

/-- The tree loop of smooth_base.py 1229-1285: `(y_all, weight_all)`. `dummies` is true for
classification data that went through `pd.get_dummies`. A tree without tuning rows makes
`decision_path` raise ValueError (sklearn rejects empty arrays). -/
def tuneSummaries (dummies : Bool) (forest : List (SkTree K C)) (tune : ℕ → List (TuneRow K C)) :
    Except PyErr (List ((Fin C → K) × K)) :=
  forest.zipIdx.foldlM
    (fun acc tt =>
      let rows := tune tt.2
      if rows.isEmpty || (dummies && decide (∃ c, ∀ r ∈ rows, r.y c = 0)) then .error .valueError
      else pure (acc ++ (List.range tt.1.nLeaves).map fun i =>
        ((fun c => leafMean rows i c), leafWeight rows i)))
    []

/-- `lamb / lamb.sum()`; a zero sum gives NaN. -/
def normalise {n : ℕ} (l : Fin n → K) : Except PyErr (Fin n → K) :=
  if ∑ i, l i = 0 then .error .nonFinite else .ok fun i => l i / ∑ j, l j

/-- Starting weights before the classification correction, smooth_base.py 1290-1296. -/
def baseLamb {n : ℕ} (seed : Option (ℕ → K)) : Except PyErr (Fin (n + 1) → K) :=
  match seed with
  | none => .ok fun i => if i = 0 then 1 else 0
  | some u => normalise fun i => u i

/-- Starting weights, smooth_base.py 1290-1301. -/
def initLamb (kind : Kind) {n : ℕ} (seed : Option (ℕ → K)) (classEps : K) :
    Except PyErr (Fin (n + 1) → K) := do
  let l ← baseLamb seed
  match kind with
  | .reg => pure l
  | .cls =>
    let l ← normalise fun i => l i + 1 * classEps / ((n + 1 : ℕ) : K)
    normalise l

/-- A stored row as a vector of the given width. -/
def toVec (n : ℕ) (row : List K) : Fin n → K := fun j => row.getD j 0

/-- The flattened optimisation rows, smooth_base.py 1303-1317: class-major (`Gamma.reshape`,
`np.tile(eta)`, `y_all.T.reshape`, `np.tile(weight_all)`, `np.tile(t_idx_vec)`), with
`all_trees` zeroing the tree index. -/
def flatRows (n : ℕ) (allTrees : Bool) (ge : GE K C) (yw : List ((Fin C → K) × K)) : List (Row K n) :=
  (List.finRange C).flatMap fun c => (List.range ge.eta.length).map fun i =>
    { y := (yw[i]?).elim 0 fun p => p.1 c
      w := (yw[i]?).elim 0 fun p => p.2
      gam := toVec n ((ge.gamma c).getD i [])
      eta := toVec n (ge.eta.getD i [])
      tree := if allTrees then 0 else ge.tIdx.getD i 0 }

/-- `y_leaf_new_all`, smooth_base.py 1370-1378: the ratio, 0 where the denominator is 0. -/
def smoothValue {n : ℕ} (r : Row K n) (lamb : Fin n → K) : K :=
  if dot r.eta lamb = 0 then 0 else dot r.gam lamb / etaFill r lamb

/-- `reshape((-1, num_classes), order="F")`, smooth_base.py 1380-1385: entry `[i, c]` is
`flat[c * N + i]`, `N = len(flat) / num_classes`. -/
def reshapeF (C : ℕ) (flat : List K) : List (Fin C → K) :=
  let N := flat.length / C
  (List.range N).map fun i c => flat.getD (c.val * N + i) 0

/-- The value array after the assignment in `writeLeaves`. -/
def newValue (t : SkTree K C) (vals : List (Fin C → K)) (i : t.Node) (c : Fin C) : K :=
  if t.right i = none then
    (vals[if vals.length = 1 then 0 else (t.leafIdx i).toNat]?).elim 0 fun v => v c
  else t.value i c

/-- `tree.value[tree.children_left == -1,:,:] = vals`, smooth_base.py 1392-1397: the r-th leaf (in id
order) gets entry r; one value is broadcast; other lengths raise ValueError. -/
def writeLeaves (t : SkTree K C) (vals : List (Fin C → K)) : Except PyErr (SkTree K C) :=
  if vals.length = t.nLeaves ∨ vals.length = 1 then
    .ok { t with value := newValue t vals }
  else .error .valueError

/-- First write-back loop, smooth_base.py 1387-1399 (`start_idx += num_leaf`). -/
def writeBack1 (all : List (Fin C → K)) : ℕ → List (SkTree K C) → Except PyErr (List (SkTree K C))
  | _, [] => .ok []
  | startIdx, t :: ts => do
    let t' ← writeLeaves t ((all.drop startIdx).take t.nLeaves)
    let ts' ← writeBack1 all (startIdx + t.nLeaves) ts
    pure (t' :: ts')

/-- Second write-back loop, smooth_base.py 1404-1416: line 1416 advances `start_idx`, so `start_idx2`
keeps its value. -/
def writeBack2 (all : List (Fin C → K)) : ℕ → List (SkTree K C) → Except PyErr (List (SkTree K C))
  | _, [] => .ok []
  | startIdx2, t :: ts => do
    let t' ← writeLeaves t ((all.drop startIdx2).take t.nLeaves)
    let ts' ← writeBack2 all startIdx2 ts
    pure (t' :: ts')

/-- Remaining arguments of `smooth`. `steps` are the random tree choices (`sgd_max_num` of them). -/
structure SmoothCfg (K : Type) where
  data : DataArgs
  noConstraint : Bool
  sanityCheck : Bool
  steps : List ℕ
  tFix : K
  allTrees : Bool
  seed : Option (ℕ → K)
  parentsAll : Bool
  style : Topo.Style
  classEps : K
  lossL2 : Bool
  adam : Option (AdamOpts K)

/-- Result of `smooth`: the two forests, their `.lamb`, and the cost list. -/
structure SmoothOut (K : Type) (C n : ℕ) where
  rf1 : List (SkTree K C)
  lamb1 : Fin n → K
  rf2 : List (SkTree K C)
  lamb2 : Fin n → K
  costs : List K

/-- The optimisation stage, smooth_base.py 1320-1361. -/
def smoothOptimise {n : ℕ} (sqrt : K → K)
    (ce : SgdOpts K → K → List (Row K n) → List K → List ℕ →
      Except PyErr ((Fin n → K) × (Fin n → K) × List K))
    (kind : Kind) (cfg : SmoothCfg K) (rows : List (Row K n)) (lamb : Fin n → K) :
    Except PyErr ((Fin n → K) × (Fin n → K) × List K) :=
  if cfg.sanityCheck then .ok (lamb, lamb, [])
  else
    let o : SgdOpts K := ⟨cfg.tFix, !cfg.noConstraint, cfg.adam⟩
    if kind = .reg ∨ cfg.lossL2 = true then sgd sqrt o rows (List.ofFn lamb) cfg.steps
    else ce o cfg.classEps rows (List.ofFn lamb) cfg.steps

/-- `smooth`, smooth_base.py 1057-1422. -/
def smooth (sqrt : K → K)
    (ce : (n : ℕ) → SgdOpts K → K → List (Row K n) → List K → List ℕ →
      Except PyErr ((Fin n → K) × (Fin n → K) × List K))
    (rf : Option Kind) (forest : List (SkTree K C)) (cfg : SmoothCfg K)
    (sources : TuneSrc → ℕ → List (TuneRow K C)) :
    Except PyErr (SmoothOut K C (forestDepth forest + 1)) := do
  let (kind, src) ← smoothCheck rf cfg.data cfg.noConstraint
  let ge := gammaEtaForest kind forest cfg.style cfg.parentsAll
  let yw ← tuneSummaries (decide (kind = .cls) && decide (src ≠ .given)) forest (sources src)
  let lamb ← initLamb kind cfg.seed cfg.classEps
  let rows := flatRows (forestDepth forest + 1) cfg.allTrees ge yw
  let (lamb1, lamb2, costs) ← smoothOptimise sqrt (ce _) kind cfg rows lamb
  let new1 := reshapeF C (rows.map fun r => smoothValue r lamb1)
  let new2 := reshapeF C (rows.map fun r => smoothValue r lamb2)
  let rf1 ← writeBack1 new1 0 forest
  let rf2 ← writeBack2 new2 0 forest
  pure ⟨rf1, lamb1, rf2, lamb2, costs⟩

end SmoothRF
