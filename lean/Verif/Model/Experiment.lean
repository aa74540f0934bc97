import Verif.Model.SmoothImp
import Verif.Model.DepthTune
import Verif.Model.Torch

/-!
# The experiment drivers in main/

`smooth_wrapper_clean` and its grid (main/analysis_both_clean.py 293-445), `smooth_wrapper` and its
grid (main/analysis_both.py 270-425; main/analysis.py 285-425 is the same with one fixed `d_style`),
`smooth_all_wrapper`'s labels (main/analysis.py 235-254), `generate_rf` and `assess_rf`
(analysis_both_clean.py 181-241).

Simplifications.
* `joblib.Parallel` runs the jobs in list order; the first exception ends the script.
* Routing of the test rows is a parameter; the random draws of each job are parameters. `uniform s` are
  the numbers drawn after `np.random.seed(s)`.
* `str` of a float is the parameter `str`. `str(adam_values).replace(", ", "_")` of a tuple is the
  entries' `str` joined by `_` inside parentheses.
* The two dictionaries (scores and weights) have the same keys for the jobs and are kept as one.
* Timing, printing and pickling are left out.
-/

namespace SmoothRF
open SkTree

variable {K : Type} [Field K] [LinearOrder K] {C : ℕ}

/-! ### generate_rf, assess_rf -/

/-- The choice of the model class in `generate_rf`, analysis_both_clean.py 204-215: for another string
the exception object is built but not raised, and `model_type` is unbound in the next statement. -/
def modelType (regOrClass : String) : Except PyErr Kind :=
  if regOrClass = "reg" then .ok .reg
  else if regOrClass = "class" then .ok .cls
  else .error .unboundLocalError

/-- A test row: the leaf it reaches in every tree and its response (class code for classification). -/
structure TestRow (K : Type) where
  leaf : ℕ → ℕ
  y : K

/-- What tree number `i` contributes to the forest prediction: its leaf value, or the normalised class
entries (a zero sum is replaced by 1). -/
def treeVote (kind : Kind) (r : TestRow K) (tt : SkTree K C × ℕ) : Except PyErr (Fin C → K) := do
  let vals := (List.finRange tt.1.nLeaves).map fun l => tt.1.value (tt.1.leafNode l)
  let v ← pyGet vals (r.leaf tt.2)
  pure (match kind with
    | .reg => v
    | .cls => fun c => v c / (if ∑ c', v c' = 0 then 1 else ∑ c', v c'))

/-- `random_forest.predict` for one row: mean over the trees, then (classification) the code of the
first largest entry. -/
def forestPredict (kind : Kind) (forest : List (SkTree K C)) (r : TestRow K) : Except PyErr K := do
  let vs ← forest.zipIdx.mapM (treeVote kind r)
  let avg : Fin C → K := fun c => (vs.map fun v => v c).sum / (forest.length : K)
  match kind with
  | .reg => pyGet (List.ofFn avg) 0
  | .cls => pure ((npArgmax (List.ofFn avg) : ℕ) : K)

/-- `assess_rf`, analysis_both_clean.py 232-241: mean squared error or accuracy. For another object
`scoring` is unbound, but `predict` is called first. -/
def assessRf (rf : Option Kind) (forest : List (SkTree K C)) (test : List (TestRow K)) :
    Except PyErr K :=
  match rf with
  | none => .error .unboundLocalError
  | some kind => do
    let preds ← test.mapM (forestPredict kind forest)
    if test.length = 0 then .error .valueError
    else match kind with
      | .reg => pure ((List.zipWith (fun p r => (r.y - p) ^ 2) preds test).sum / (test.length : K))
      | .cls => pure ((List.zipWith (fun p r => if p = r.y then (1 : K) else 0) preds test).sum /
          (test.length : K))

/-- `np.min`; ValueError on an empty array. -/
def npMinE : List K → Except PyErr K
  | [] => .error .valueError
  | x :: xs => .ok (xs.foldl min x)

/-! ### Labels -/

/-- `str` of a boolean. -/
def boolStr (b : Bool) : String := if b then "True" else "False"

/-- The option strings of `dist_mat_style`. -/
def styleStr : Topo.Style → String
  | .standard => "standard"
  | .max => "max"
  | .min => "min"

/-- The option strings of `distance_style`. -/
def distStr (impurity : Bool) : String := if impurity then "impurity" else "depth"

/-- `il`: the seed, or "rf". -/
def seedStr : Option ℕ → String
  | some s => s.repr
  | none => "rf"

/-- `str(adam_values).replace(", ", "_")`. -/
def adamStr (str : K → String) : Option (AdamOpts K) → String
  | none => "None"
  | some a => "(" ++ str a.alpha ++ "_" ++ str a.beta1 ++ "_" ++ str a.beta2 ++ "_" ++ str a.eps ++ ")"

/-- `add_levels` of analysis_both_clean.py 39-44. -/
def levelStr : Option ℕ → String
  | some n => n.repr
  | none => "NA"

/-- `add_levels` of analysis_both.py 34-39 and analysis.py 42-47. -/
def bothLevelStr : Option ℕ → String
  | some n => "_levels:" ++ n.repr
  | none => ""

/-! ### analysis_both_clean.py -/

/-- `params` of `smooth_wrapper_clean`, analysis_both_clean.py 361-362. -/
structure CleanParams (K : Type) where
  impurity : Bool
  style : Topo.Style
  parentAll : Bool
  noConstraint : Bool
  seed : Option ℕ
  adam : Option (AdamOpts K)

/-- Names of the script's scope, data and random draws. -/
structure CleanEnv (K : Type) where
  sqrt : K → K
  approxOne : K → Bool
  rf : Option Kind
  forest : List (SkTree K 1)
  y : List K
  leafOf : ℕ → ℕ → ℕ
  unsampled : ℕ → List ℕ
  levels : Option ℕ
  uniform : ℕ → ℕ → K
  choices : CleanParams K → List (List ℕ)
  tFix : K
  test : List (TestRow K)

/-- What a job stores: the score on the test data, `.lamb`, `np.min(c)`. -/
structure JobRecord (K : Type) where
  score : K
  info : List K
  bestOob : K

/-- `name`, analysis_both_clean.py 400-407. -/
def cleanName (str : K → String) (levels : Option ℕ) (p : CleanParams K) : String :=
  "smooth_rf" ++
    ",dist_style:" ++ distStr p.impurity ++
    ",levels:" ++ levelStr levels ++
    ",tree_dist:" ++ styleStr p.style ++
    ",parents:" ++ boolStr p.parentAll ++
    ",constraints:" ++ boolStr (!p.noConstraint) ++
    ",initial_lamb:" ++ seedStr p.seed ++
    ",adam_options:" ++ adamStr str p.adam

/-- The arguments of the call, analysis_both_clean.py 373-388. -/
def cleanJobCfg (e : CleanEnv K) (p : CleanParams K) : CleanCfg K :=
  { noConstraint := p.noConstraint, sanityCheck := false, allObs := false, useFullLoss := true
    nObs := 40, tFix := e.tFix, seed := p.seed.map e.uniform, parentsAll := p.parentAll
    style := p.style, adam := p.adam }

/-- The forest, weights and costs a job obtains. -/
def cleanJobRun (e : CleanEnv K) (p : CleanParams K) :
    Except PyErr (List (SkTree K 1) × List K × List K) :=
  if p.impurity then do
    let o ← smoothCleanImp e.sqrt e.approxOne e.rf e.forest (e.levels.map .int) e.y e.leafOf
      e.unsampled (cleanJobCfg e p) (e.choices p)
    pure (o.rf1, List.ofFn o.lamb, o.costs)
  else do
    let o ← smoothClean e.sqrt e.approxOne e.rf e.forest e.y e.leafOf e.unsampled (cleanJobCfg e p)
      (e.choices p)
    pure (o.1, List.ofFn o.2.1, o.2.2)

/-- `smooth_wrapper_clean`, analysis_both_clean.py 313-409. -/
def cleanJob (str : K → String) (e : CleanEnv K) (p : CleanParams K) :
    Except PyErr (String × JobRecord K) := do
  let o ← cleanJobRun e p
  let bestOob ← npMinE o.2.2
  let score ← assessRf e.rf o.1 e.test
  pure (cleanName str e.levels p, ⟨score, o.2.1, bestOob⟩)

/-- `all_params`, analysis_both_clean.py 414-430 (`itertools.product`). -/
def cleanGrid (kind : Kind) (mySeed : ℕ) (adams : List (AdamOpts K)) : List (CleanParams K) :=
  [false, true].flatMap fun (impurity : Bool) =>
  [Topo.Style.standard, .max, .min].flatMap fun (style : Topo.Style) =>
  [true, false].flatMap fun (parentAll : Bool) =>
  (match kind with | .reg => [true, false] | .cls => [false]).flatMap fun (noConstraint : Bool) =>
  [some mySeed, none].flatMap fun (seed : Option ℕ) =>
  (none :: adams.map some).map fun adam => ⟨impurity, style, parentAll, noConstraint, seed, adam⟩

/-- The jobs and the storing loop, analysis_both_clean.py 437-447 and analysis_both.py 398-425. -/
def runJobs {P R : Type} (job : P → Except PyErr (String × R)) (grid : List P)
    (dict : List (String × R)) : Except PyErr (List (String × R)) := do
  let out ← grid.mapM job
  pure (out.foldl (fun d nr => dictSet d ("smooth_element_based," ++ nr.1) nr.2) dict)

/-! ### analysis_both.py -/

/-- `params` of `smooth_wrapper`, analysis_both.py 342-343. -/
structure BothParams (K : Type) where
  impurity : Bool
  style : Topo.Style
  parentAll : Bool
  noConstraint : Bool
  seed : Option ℕ
  lossL2 : Bool
  adam : AdamOpts K

/-- Names of the script's scope, data and random draws; `ce` is the cross-entropy descent as in
`smooth`. -/
structure BothEnv (K : Type) (C : ℕ) where
  sqrt : K → K
  ce : (n : ℕ) → SgdOpts K → K → List (Row K n) → List K → List ℕ →
    Except PyErr ((Fin n → K) × (Fin n → K) × List K)
  rf : Option Kind
  forest : List (SkTree K C)
  sources : TuneSrc → ℕ → List (TuneRow K C)
  levels : Option ℕ
  uniform : ℕ → ℕ → K
  steps : BothParams K → List ℕ
  tFix : K
  test : List (TestRow K)

/-- `name`, analysis_both.py 377-382; `class_loss` does not occur in it. -/
def bothName (str : K → String) (levels : Option ℕ) (p : BothParams K) : String :=
  "element_opt" ++ ",dist_style:" ++ distStr p.impurity ++ bothLevelStr levels ++
    ",dist:" ++ styleStr p.style ++
    ",parents:" ++ boolStr p.parentAll ++
    ",constraints:" ++ boolStr (!p.noConstraint) ++
    ",initial_lamb:" ++ seedStr p.seed ++
    ",adam_options:" ++ adamStr str (some p.adam)

/-- The arguments of the call, analysis_both.py 351-366: `parents_all=False` whatever the parameter. -/
def bothJobCfg (e : BothEnv K C) (p : BothParams K) : SmoothCfg K :=
  { data := ⟨true, true, false, false, false⟩, noConstraint := p.noConstraint, sanityCheck := false
    steps := e.steps p, tFix := e.tFix, allTrees := false, seed := p.seed.map e.uniform
    parentsAll := false, style := p.style, classEps := 1 / 10000, lossL2 := p.lossL2
    adam := some p.adam }

/-- The forest, weights and costs a job obtains. -/
def bothJobRun (e : BothEnv K C) (p : BothParams K) :
    Except PyErr (List (SkTree K C) × List K × List K) :=
  if p.impurity then do
    let o ← smoothImp e.sqrt e.ce e.rf e.forest (e.levels.map .int) (bothJobCfg e p) e.sources
    pure (o.2.rf1, List.ofFn o.2.lamb1, o.2.costs)
  else do
    let o ← smooth e.sqrt e.ce e.rf e.forest (bothJobCfg e p) e.sources
    pure (o.rf1, List.ofFn o.lamb1, o.costs)

/-- `smooth_wrapper`, analysis_both.py 339-387. -/
def bothJob (str : K → String) (e : BothEnv K C) (p : BothParams K) :
    Except PyErr (String × JobRecord K) := do
  let o ← bothJobRun e p
  let bestOob ← npMinE o.2.2
  let score ← assessRf e.rf o.1 e.test
  pure (bothName str e.levels p, ⟨score, o.2.1, bestOob⟩)

/-- The job list, analysis_both.py 285-301 and 402-407. -/
def bothGrid (kind : Kind) (mySeed : ℕ) (adams : List (AdamOpts K)) : List (BothParams K) :=
  [false, true].flatMap fun (impurity : Bool) =>
  [Topo.Style.standard, .max, .min].flatMap fun (style : Topo.Style) =>
  [true, false].flatMap fun (parentAll : Bool) =>
  (match kind with | .reg => [true, false] | .cls => [false]).flatMap fun (noConstraint : Bool) =>
  [some mySeed, none].flatMap fun (seed : Option ℕ) =>
  (match kind with | .reg => [true] | .cls => [false, true]).flatMap fun (lossL2 : Bool) =>
  adams.map fun adam => ⟨impurity, style, parentAll, noConstraint, seed, lossL2, adam⟩

/-! ### smooth_all jobs of analysis.py -/

/-- `name` of `smooth_all_wrapper`, main/analysis.py 245-247. -/
def wolsName (parentAll noConstraint : Bool) : String :=
  "wOLs_opt" ++ "_parents:" ++ boolStr parentAll ++ ",constraints:" ++ boolStr (!noConstraint)

end SmoothRF
