import Verif.Model.Options
import Verif.Model.Experiment
import Verif.Model.Search

/-!
# The simulation drivers main/1.0, main/1.1, main/1.2 and main/pytorch_example.py

`check_rf_grow`, `depth_error_vis`, `cost_vis` (main/1.0-depth_run_adam.py 157-405 and
main/1.1-depth_run_class_adam.py 169-425), one simulation of main/1.2-compare_depth_vs_smooth.py 262-353.

Simplifications.
* Option lists in the signature of `check_rf_grow` stand for their first entry, so options are strings.
* Data generation, fitting and the random draws are parameters, one value for every cell `(i, j)`.
* `smooth_all` (style "level-base") is a parameter.
* `score_mat[k, i, j]` is entry `k` of cell `(i, j)`.
* Progress bars, plots and files are left out, except the frames the plots are made from.
-/

namespace SmoothRF
open SkTree

variable {K : Type} [Field K] [LinearOrder K] {C : ℕ}

/-- Arguments of `check_rf_grow`; `lossClass` exists in main/1.1 only. -/
structure GrowArgs (K : Type) where
  regOrClass : String
  nDepth : ℕ
  nDraws : ℕ
  dataSet : String
  tuning : String
  style : String
  batch : String
  initialLamb : String
  lossClass : String
  constrained : Bool
  parentsAll : Bool
  maxIter : ℕ
  t : K
  dataGiven : Bool

/-- The two lists of data set names that the function knows: read from files, generated. -/
structure DataNames where
  files : List String
  gens : List String

/-- main/1.0 202-220. -/
def names10 : DataNames := ⟨["online_news", "splice", "prgeng"], ["microsoft", "knn"]⟩

/-- main/1.1 215-235. -/
def names11 : DataNames := ⟨["online_news", "splice", "titantic"], ["microsoft", "knn", "moon"]⟩

/-- What is drawn or fitted in cell `(i, j)`. -/
structure GrowEnv (K : Type) (C : ℕ) where
  sqrt : K → K
  ce : (n : ℕ) → SgdOpts K → K → List (Row K n) → List K → List ℕ →
    Except PyErr ((Fin n → K) × (Fin n → K) × List K)
  forest : ℕ → ℕ → List (SkTree K C)
  sources : ℕ → ℕ → TuneSrc → ℕ → List (TuneRow K C)
  test : ℕ → ℕ → List (TestRow K)
  uniform : ℕ → ℕ → ℕ → K
  steps : ℕ → ℕ → List ℕ
  smoothAll : ℕ → ℕ → DataArgs → Bool → Bool → Except PyErr (List (SkTree K C))

/-- Model class, main/1.0 170-181 (this error is raised). -/
def growKind (s : String) : Except PyErr Kind :=
  if s = "reg" then .ok .reg else if s = "class" then .ok .cls else .error .valueError

/-- The data of one cell, main/1.0 252-281: says whether `data_tune` and `y_tune` are given. The errors of
211-219 are built but not raised: `train_test_split(None, None)` is a TypeError, an unknown generator is
an unbound name. -/
def growData (nm : DataNames) (a : GrowArgs K) : Except PyErr Bool :=
  if a.dataSet ∈ nm.files then if a.dataGiven then .ok false else .error .typeError
  else if a.dataSet ∈ nm.gens then .ok (decide (a.tuning = "oracle"))
  else .error .unboundLocalError

/-- `all_trees`, main/1.0 231-236; another string leaves the name unbound. -/
def growBatch (s : String) : Except PyErr Bool :=
  if s = "single-tree" then .ok false else if s = "all-trees" then .ok true else .error .unboundLocalError

/-- `initial_lamb_seed_f`, main/1.0 226-229; `true` draws a seed. -/
def growInit (s : String) : Except PyErr Bool :=
  if s = "rf-init" then .ok false else if s = "random-init" then .ok true else .error .unboundLocalError

/-- `c_mat[i, j, :] = c`, main/1.0 320, for a row of the given width: one value is broadcast, other lengths raise. -/
def assignRow (width : ℕ) (c : List K) : Except PyErr (List K) :=
  if c.length = width then .ok c
  else match c with
    | [x] => .ok (List.replicate width x)
    | _ => .error .valueError

/-- The literal `adam` dictionary, main/1.0 318-319. -/
def growAdam : AdamOpts K := ⟨1 / 1000, 9 / 10, 999 / 1000, 1 / 100000000⟩

/-- Arguments of the `smooth` call, main/1.0 304-319; the string options keep their defaults. -/
def growCfg (a : GrowArgs K) (e : GrowEnv K C) (i j : ℕ) (given allTrees random : Bool) : SmoothCfg K :=
  { data := ⟨true, true, given, given, decide (a.tuning = "resample")⟩
    noConstraint := !a.constrained, sanityCheck := false, steps := e.steps i j, tFix := a.t
    allTrees := allTrees, seed := if random then some (e.uniform i j) else none
    parentsAll := a.parentsAll, style := .standard, classEps := 1 / 10000, lossL2 := false
    adam := some growAdam }

/-- What a cell stores: the scores and (element-based) the cost row. -/
structure GrowCell (K : Type) where
  scores : List K
  costs : Option (List K)
  deriving DecidableEq

/-- Body of the double loop, main/1.0 249-327. -/
def growCell (nm : DataNames) (a : GrowArgs K) (e : GrowEnv K C) (kind : Kind) (i j : ℕ) :
    Except PyErr (GrowCell K) := do
  let given ← growData nm a
  if a.style = "level-base" then do
    let rf ← e.smoothAll i j ⟨true, true, given, given, decide (a.tuning = "resample")⟩
      (!a.constrained) a.parentsAll
    let s0 ← assessRf (some kind) (e.forest i j) (e.test i j)
    let s1 ← assessRf (some kind) rf (e.test i j)
    pure ⟨[s0, s1], none⟩
  else if a.style = "element-based" then do
    let allTrees ← growBatch a.batch
    let random ← growInit a.initialLamb
    let o ← smoothOpt e.sqrt e.ce (some kind) (e.forest i j) none ⟨styleDefault, distDefault, lossDefault⟩
      (growCfg a e i j given allTrees random) (e.sources i j)
    let c ← assignRow (a.maxIter + 1) o.2.costs
    let s0 ← assessRf (some kind) (e.forest i j) (e.test i j)
    let s1 ← assessRf (some kind) o.2.rf1 (e.test i j)
    let s2 ← assessRf (some kind) o.2.rf2 (e.test i j)
    pure ⟨[s0, s1, s2], some c⟩
  else pure ⟨[], none⟩

/-- `check_rf_grow`, main/1.0 157-329, main/1.1 169-349: the cells by depth and draw. An unknown style
leaves `score_mat` unbound, noticed by the `return`. -/
def checkRfGrow (nm : DataNames) (a : GrowArgs K) (e : GrowEnv K C) :
    Except PyErr (List (List (GrowCell K))) := do
  let kind ← growKind a.regOrClass
  let cells ← (List.range a.nDepth).mapM fun i => (List.range a.nDraws).mapM fun j =>
    growCell nm a e kind i j
  if a.style ≠ "level-base" ∧ a.style ≠ "element-based" then .error .unboundLocalError
  else pure cells

/-! ### The script main/1.0 -/

/-- Command line arguments of main/1.0 (33-146); `t` and `maxIter` are the parsed numbers. -/
structure ScriptArgs (K : Type) where
  dataSet : String
  numTrees : ℕ
  tuning : String
  cIn : String
  s : String
  d : String
  innerDist : String
  init : String
  batch : String
  maxIter : ℕ
  t : K
  dataGiven : Bool

/-- Two-valued options: the errors of 86-136 are built but not raised; the name stays undefined and the
call at 412 raises NameError. -/
def scriptOption {α : Type} (s s1 s2 : String) (v1 v2 : α) : Except PyErr α :=
  if s = s1 then .ok v1 else if s = s2 then .ok v2 else .error .nameError

/-- The arguments handed to `check_rf_grow`, main/1.0 33-146 and 412-429. `inner_dist` is not among
them. -/
def scriptGrowArgs (a : ScriptArgs K) : Except PyErr (GrowArgs K) := do
  let constrained ← scriptOption a.cIn "c" "nc" true false
  let style ← scriptOption a.s "lb" "eb" "level-base" "element-based"
  let parentsAll ← scriptOption a.d "l" "p" false true
  let batch ← if a.s = "eb" then scriptOption a.batch "tree" "all" "single-tree" "all-trees" else .ok ""
  let init ← if a.s = "eb" then scriptOption a.init "rf" "r" "rf-init" "random-init" else .ok ""
  pure
    { regOrClass := if a.dataSet = "splice" then "class" else "reg", nDepth := 24, nDraws := 20
      dataSet := a.dataSet, tuning := a.tuning, style := style, batch := batch, initialLamb := init
      lossClass := "ce", constrained := constrained, parentsAll := parentsAll, maxIter := a.maxIter
      t := a.t, dataGiven := a.dataGiven }

/-- Name of the csv file of scores, main/1.0 436-445 ("lb") and 461-475 ("eb"). -/
def scriptFile (str : K → String) (a : ScriptArgs K) : String :=
  "images/data_vis_depth_" ++ a.dataSet ++ "_trees" ++ a.numTrees.repr ++ "_" ++ a.tuning ++ "_" ++ a.cIn ++
    "_" ++ (if a.s = "eb" then "element-based" else "level-base") ++ "_distance-" ++ a.d ++
    "_tree_depth_dist-" ++ a.innerDist ++
    (if a.s = "eb" then "_init_lamb-" ++ (if a.init = "rf" then "rf-init" else "random-init") ++ "_fix_t-" ++
      str a.t ++ "_" ++ (if a.batch = "tree" then "single-tree" else "all-trees") ++ "_" ++ a.maxIter.repr ++
      "_adam"
    else "") ++ ".csv"

/-- main/1.0: the file and the cells written to it. -/
def growScript (str : K → String) (a : ScriptArgs K) (e : GrowEnv K C) :
    Except PyErr (String × List (List (GrowCell K))) := do
  let g ← scriptGrowArgs a
  let cells ← checkRfGrow names10 g e
  pure (scriptFile str a, cells)

/-! ### The frames of the plots -/

/-- A row of the frame of `depth_error_vis`. -/
structure VisRow (K : Type) where
  mu : K
  lower : K
  upper : K
  idx : K
  model : ℕ
  deriving DecidableEq

/-- `.mean()` of one row of draws. -/
def rowMean (l : List K) : K := l.sum / (l.length : K)

/-- `.std()` of one row of draws. -/
def rowStd (sqrt : K → K) (l : List K) : K := sqrt (rowMean (l.map fun x => (x - rowMean l) ^ 2))

/-- `depth_error_vis`, main/1.0 332-370. `cv[m][d]` are the draws of method `m` at depth `d`;
`nDepth = cv_mat.shape[1]`. A mean over no draws is nan; columns of different length raise ValueError. -/
def depthErrorVis (sqrt : K → K) (nDepth : ℕ) (cv : List (List (List K))) (idxRange : Option (List K)) :
    Except PyErr (List (VisRow K)) := do
  let idx := idxRange.getD ((List.range nDepth).map fun i : ℕ => (i : K))
  let frames ← cv.zipIdx.mapM fun mm =>
    if idx.length ≠ mm.1.length then .error PyErr.valueError
    else if ∃ l ∈ mm.1, l = [] then .error PyErr.nonFinite
    else .ok (List.zipWith (fun l x =>
      ({ mu := rowMean l, lower := rowMean l + rowStd sqrt l / sqrt (nDepth : K)
         upper := rowMean l - rowStd sqrt l / sqrt (nDepth : K), idx := x, model := mm.2 } : VisRow K))
      mm.1 idx)
  pure frames.flatten

/-- A row of the frame of `cost_vis`. -/
structure CostRow (K : Type) where
  depth : K
  sim : ℕ
  step : ℕ
  c : K
  deriving DecidableEq

/-- `cost_vis`, main/1.0 373-405; `cm[d][s]` are the costs of draw `s` at depth `d`, `nSim =
c_mat.shape[1]`, which is also the length of the default range of depths. -/
def costVis (nSim : ℕ) (cm : List (List (List K))) (depthRange : Option (List K)) :
    Except PyErr (List (CostRow K)) := do
  let range := depthRange.getD ((List.range nSim).map fun i : ℕ => (i : K))
  let frames ← range.zipIdx.mapM fun dd => (List.range nSim).mapM fun s => do
    let row ← pyGet cm dd.2
    let cs ← pyGet row s
    pure (cs.zipIdx.map fun ck => ({ depth := dd.1, sim := s, step := ck.2, c := ck.1 } : CostRow K))
  pure (frames.flatten.flatten)

/-! ### main/1.2 -/

/-- `model`, main/1.2 235-241: the regressor for "class", the classifier otherwise. -/
def compareKind (regOrClass : String) : Kind := if regOrClass = "class" then .reg else .cls

/-- The two `smooth` calls of one simulation, main/1.2 318-342, in order; what comes before them (the
searches and fits) does not decide whether they return. -/
def compareSmooths (sqrt : K → K)
    (ce : (n : ℕ) → SgdOpts K → K → List (Row K n) → List K → List ℕ →
      Except PyErr ((Fin n → K) × (Fin n → K) × List K))
    (regOrClass : String) (dist : OptArg) (fitted : List (List (SkTree K C)))
    (steps : List ℕ) (sources : TuneSrc → ℕ → List (TuneRow K C)) :
    Except PyErr (List ((n : ℕ) × SmoothOut K C (n + 1))) :=
  fitted.mapM fun forest =>
    smoothOpt sqrt ce (some (compareKind regOrClass)) forest none ⟨styleDefault, dist, lossDefault⟩
      { data := ⟨true, true, false, false, false⟩, noConstraint := false, sanityCheck := false
        steps := steps, tFix := 1, allTrees := false, seed := none, parentsAll := true
        style := .standard, classEps := 1 / 10000, lossL2 := false, adam := some growAdam } sources

end SmoothRF
