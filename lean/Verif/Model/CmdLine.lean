import Verif.Model.Experiment

/-!
# Command line and result files of main/analysis*.py

Argument reading (analysis.py 28-47, analysis_both.py 29-39, analysis_both_clean.py 34-44), `pull_data`
(analysis.py 52-121; the three copies are the same), the order of the stages and the files written
(analysis.py 163-448, analysis_both.py 155-443, analysis_both_clean.py 246-468).

Simplifications.
* `np.int` is Python's `int` (numpy before 1.24); which strings it accepts is the parameter `int`.
* `argv` is `sys.argv` with the script's name at position 0.
* What the stages between two writes compute is a parameter (`Stages`): the two dictionaries and the
  times are one value of a type `D`. The jobs' part is `runJobs` of `Model/Experiment.lean`.
* The block `if False:` after the last write (analysis.py 452-, analysis_both.py 451-) never runs.
* Reading the csv files and opening the result files succeed. `pull_data` returns the name of its source
  and whether 100 is added to the response.
* A forest with fewer than one tree is rejected by scikit-learn's `fit` with ValueError.
-/

namespace SmoothRF
open SkTree

/-- The names bound while the arguments are read; `dStyle` is bound by analysis.py only. -/
structure CmdArgs where
  dataSet : String
  kind : String
  nTrees : ℤ
  dStyle : Option String
  levels : Option ℤ
  deriving DecidableEq

/-- `data_set`, `reg_or_class`, `n_trees`: the first three arguments of all three scripts. -/
def readThree (int : String → Option ℤ) (argv : List String) : Except PyErr (String × String × ℤ) := do
  let d ← pyGet argv 1
  let k ← pyGet argv 2
  let n ← pyGet argv 3
  match int n with
  | none => .error .valueError
  | some n => pure (d, k, n)

/-- `try: levels = np.int(sys.argv[i])`, `except: levels = None`. -/
def readLevels (int : String → Option ℤ) (argv : List String) (i : ℕ) : Option ℤ :=
  match argv[i]? with
  | none => none
  | some s => int s

/-- analysis.py 28-47. -/
def argsAnalysis (int : String → Option ℤ) (argv : List String) : Except PyErr CmdArgs := do
  let (d, k, n) ← readThree int argv
  let style := match argv[4]? with
    | some s => s
    | none => "depth"
  if style ∉ ["impurity", "depth"] then .error .valueError
  else pure ⟨d, k, n, some style, readLevels int argv 5⟩

/-- analysis_both.py 29-39 and analysis_both_clean.py 34-44. -/
def argsBoth (int : String → Option ℤ) (argv : List String) : Except PyErr CmdArgs := do
  let (d, k, n) ← readThree int argv
  pure ⟨d, k, n, none, readLevels int argv 4⟩

/-- `pull_data`, analysis.py 52-121: the source and whether 100 is added. The `ValueError` objects at
78-79 and 118-119 are built and dropped. Any other name falls through: the function returns `None`. -/
def pullData (dataSet kind : String) : Option (String × Bool) :=
  if dataSet = "microsoft" then some ("generate_data", decide (kind = "reg"))
  else if dataSet = "moon" then some ("make_moons", decide (kind = "reg"))
  else if dataSet = "prgeng" then
    if kind ≠ "reg" then some ("prgeng.txt", false) else some ("prgeng.txt", false)
  else if dataSet = "titantic" then
    if kind ≠ "class" then some ("titanic3.csv", false) else some ("titanic3.csv", false)
  else none

/-- `str` of an integer. -/
def intStr : ℤ → String
  | .ofNat n => n.repr
  | .negSucc n => "-" ++ (n + 1).repr

/-- `add_levels_file`. -/
def levelsFile : Option ℤ → String
  | some k => "levels_" ++ intStr k
  | none => ""

/-- "saving before", analysis.py 276-277 and analysis_both.py 268-269. -/
def interimFile (a : CmdArgs) (seed : ℕ) : String :=
  "data/" ++ a.dataSet ++ "_" ++ a.kind ++ "_" ++ intStr a.nTrees ++ "_" ++ seed.repr ++ ".pkl"

/-- analysis.py 441-443. -/
def finalAnalysis (a : CmdArgs) (seed : ℕ) : String :=
  "data/" ++ a.dataSet ++ "_" ++ a.dStyle.getD "" ++ "_" ++ levelsFile a.levels ++ a.kind ++ "_" ++
    intStr a.nTrees ++ "_" ++ seed.repr ++ ".pkl"

/-- analysis_both.py 436-438; the blank is in the source. -/
def finalBoth (a : CmdArgs) (seed : ℕ) : String :=
  "data/" ++ a.dataSet ++ "_both _" ++ levelsFile a.levels ++ a.kind ++ "_" ++
    intStr a.nTrees ++ "_" ++ seed.repr ++ ".pkl"

/-- analysis_both_clean.py 459-463. -/
def finalClean (date : String) (a : CmdArgs) (seed : ℕ) : String :=
  "data/" ++ a.dataSet ++ "_both_clean_" ++ levelsFile a.levels ++ a.kind ++ "_" ++
    intStr a.nTrees ++ "_" ++ seed.repr ++ "_" ++ date ++ ".pkl"

/-- What is computed between the writes: the fitted forest with its scores and `depth_tune`; the four
`smooth_all` jobs; the smoothing jobs. -/
structure Stages (D : Type) where
  base : CmdArgs → Kind → Except PyErr D
  wols : CmdArgs → D → Except PyErr D
  jobs : CmdArgs → Kind → D → Except PyErr D

/-- The files written, in order, and how the script ends. -/
structure RunOut (D : Type) where
  files : List (String × D)
  result : Except PyErr Unit

/-- The last stage and the final file. -/
def runTail {D : Type} (s : Stages D) (a : CmdArgs) (k : Kind) (d : D) (before : List (String × D))
    (final : String) : RunOut D :=
  match s.jobs a k d with
  | .error e => ⟨before, .error e⟩
  | .ok d' => ⟨before ++ [(final, d')], .ok ()⟩

/-- The scripts from `pull_data` on. `wols` tells whether the script has the `smooth_all` stage, which
runs for "reg" only and is followed by the interim file. -/
def runScript {D : Type} (args : Except PyErr CmdArgs) (wols : Bool) (final : CmdArgs → ℕ → String)
    (s : Stages D) (seed : ℕ) : RunOut D :=
  match args with
  | .error e => ⟨[], .error e⟩
  | .ok a =>
    match pullData a.dataSet a.kind with
    | none => ⟨[], .error .typeError⟩
    | some _ =>
      match modelType a.kind with
      | .error e => ⟨[], .error e⟩
      | .ok k =>
        if a.nTrees < 1 then ⟨[], .error .valueError⟩
        else
          match s.base a k with
          | .error e => ⟨[], .error e⟩
          | .ok d =>
            if wols = true ∧ k = .reg then
              match s.wols a d with
              | .error e => ⟨[], .error e⟩
              | .ok d => runTail s a k d [(interimFile a seed, d)] (final a seed)
            else runTail s a k d [] (final a seed)

/-- main/analysis.py. -/
def mainAnalysis {D : Type} (int : String → Option ℤ) (argv : List String) (s : Stages D) (seed : ℕ) :
    RunOut D :=
  runScript (argsAnalysis int argv) true finalAnalysis s seed

/-- main/analysis_both.py. -/
def mainBoth {D : Type} (int : String → Option ℤ) (argv : List String) (s : Stages D) (seed : ℕ) :
    RunOut D :=
  runScript (argsBoth int argv) true finalBoth s seed

/-- main/analysis_both_clean.py. -/
def mainClean {D : Type} (int : String → Option ℤ) (date : String) (argv : List String) (s : Stages D)
    (seed : ℕ) : RunOut D :=
  runScript (argsBoth int argv) false (finalClean date) s seed

variable {K : Type}

/-- `name`, analysis.py 385-390. -/
def analysisName (str : K → String) (levels : Option ℕ) (p : BothParams K) : String :=
  "element_opt" ++ "_dist_style:" ++ distStr p.impurity ++ bothLevelStr levels ++
    "_dist:" ++ styleStr p.style ++
    ",parents:" ++ boolStr p.parentAll ++
    ",constraints:" ++ boolStr (!p.noConstraint) ++
    ",initial_lamb:" ++ seedStr p.seed ++
    ",adam_options:" ++ adamStr str (some p.adam)

variable [Field K] [LinearOrder K] {C : ℕ}

/-- The job list of analysis.py 288-305 and 409-414: that of analysis_both.py for one `d_style`. -/
def analysisGrid (impurity : Bool) (kind : Kind) (mySeed : ℕ) (adams : List (AdamOpts K)) :
    List (BothParams K) :=
  (bothGrid kind mySeed adams).filter fun p => p.impurity == impurity

/-- `smooth_wrapper`, analysis.py 347-395: the job of analysis_both.py under another label. -/
def analysisJob (str : K → String) (e : BothEnv K C) (p : BothParams K) :
    Except PyErr (String × JobRecord K) := do
  let o ← bothJobRun e p
  let bestOob ← npMinE o.2.2
  let score ← assessRf e.rf o.1 e.test
  pure (analysisName str e.levels p, ⟨score, o.2.1, bestOob⟩)

end SmoothRF
