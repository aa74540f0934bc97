import Verif.Model.Sgd

/-!
# Python calls

How a Python call assigns its arguments to the parameters of the called function, the signatures of the
functions of smooth_rf/ that the scripts of main/ and main_old/ call, and those calls.
-/

namespace SmoothRF

/-- A parameter: its name and its default value, if any. -/
structure Param (V : Type) where
  name : String
  dflt : Option V

variable {V : Type}

/-- One keyword argument `name=v`: TypeError if there is no such parameter or it already has a value. -/
def bindKw (ps : List (Param V)) (slots : List (Option V)) (p : String × V) :
    Except PyErr (List (Option V)) :=
  match ps.findIdx? (fun q => q.name == p.1) with
  | none => .error .typeError
  | some i => if (slots.getD i none).isSome then .error .typeError else .ok (slots.set i (some p.2))

/-- The value of a parameter after all arguments are assigned: TypeError if there is none. -/
def fillDefault (s : Option V) (p : Param V) : Except PyErr V :=
  match s with
  | some v => .ok v
  | none =>
    match p.dflt with
    | some v => .ok v
    | none => .error .typeError

/-- A call with positional arguments `pos` and keyword arguments `kw` of a function without `*args` and
`**kwargs`: the values of its parameters. -/
def bindCall (ps : List (Param V)) (pos : List V) (kw : List (String × V)) : Except PyErr (List V) :=
  if ps.length < pos.length then .error .typeError
  else do
    let slots ← kw.foldlM (bindKw ps) (pos.map some ++ List.replicate (ps.length - pos.length) none)
    (List.zip slots ps).mapM fun q => fillDefault q.1 q.2

/-! ### adam_step(grad_fun=…, lamb_init=…, internal_values=…, **adam) -/

/-- An argument of `adam_step`: a number, or one of the other objects. -/
inductive AdamArg (K : Type)
  | num (x : K)
  | obj

/-- `adam_step`, adam_sgd.py 11-15. -/
def adamParams {K : Type} [Field K] : List (Param (AdamArg K)) :=
  [⟨"grad_fun", none⟩, ⟨"lamb_init", some .obj⟩, ⟨"alpha", some (.num (1 / 1000))⟩,
   ⟨"beta_1", some (.num (9 / 10))⟩, ⟨"beta_2", some (.num (999 / 1000))⟩,
   ⟨"internal_values", some .obj⟩, ⟨"eps", some (.num (1 / 10 ^ 8))⟩]

/-- The options of Adam that `adam_step(grad_fun=g, lamb_init=l, internal_values=iv, **adam)` uses
(smooth_base.py 1537-1540, 1683-1686, smooth_clean.py 818-821). -/
def adamFromDict {K : Type} [Field K] (adam : List (String × K)) : Except PyErr (AdamOpts K) := do
  let env ← bindCall adamParams []
    ([("grad_fun", .obj), ("lamb_init", .obj), ("internal_values", .obj)] ++
      adam.map fun p => (p.1, .num p.2))
  match env with
  | [_, _, .num a, .num b1, .num b2, _, .num e] => .ok ⟨a, b1, b2, e⟩
  | _ => .error .typeError

/-! ### Signatures and calls -/

/-- A signature: parameter names without and with default. -/
structure Sig where
  req : List String
  opt : List String

/-- The parameters of a signature; `d` gives the defaults. -/
def Sig.params (s : Sig) (d : String → V) : List (Param V) :=
  s.req.map (fun n => ⟨n, none⟩) ++ s.opt.map fun n => ⟨n, some (d n)⟩

/-- smooth_base.py 1057-1070. -/
def sigSmooth : Sig :=
  ⟨["random_forest"],
   ["X_trained", "y_trained", "X_tune", "y_tune", "verbose", "no_constraint", "sanity_check",
    "resample_tune", "sgd_max_num", "sgd_t_fix", "all_trees", "initial_lamb_seed", "parents_all",
    "dist_mat_style", "distance_style", "levels", "class_eps", "class_loss", "adam"]⟩

/-- smooth_clean.py 863-875. -/
def sigClean : Sig :=
  ⟨["random_forest", "X_trained", "y_trained"],
   ["verbose", "no_constraint", "sanity_check", "sgd_max_num", "sgd_t_fix", "all_obs", "use_full_loss",
    "sgd_n_obs", "initial_lamb_seed", "parents_all", "dist_mat_style", "distance_style", "levels", "adam"]⟩

/-- smooth_level.py, `smooth_all`. -/
def sigAll : Sig :=
  ⟨["random_forest", "X_trained", "y_trained"],
   ["X_tune", "y_tune", "verbose", "no_constraint", "sanity_check", "resample_tune", "parents_all",
    "inner_assess"]⟩

/-- tune_depth.py, `depth_tune`. -/
def sigDepth : Sig :=
  ⟨["random_forest"], ["X_trained", "y_trained", "X_tune", "y_tune", "verbose", "resample_tune"]⟩

/-- smooth_pytorch.py, `smooth_pytorch`. -/
def sigTorch : Sig :=
  ⟨["random_forest", "X_trained", "y_trained"],
   ["X_tune", "y_tune", "resample_tune", "sgd_max_num", "all_trees", "parents_all", "distance_style",
    "which_dicts", "x_dicts", "init", "verbose", "adam"]⟩

/-- A call in a script: number of positional arguments and names of the keyword arguments. -/
structure CallSite where
  sig : Sig
  npos : ℕ
  kws : List String

/-- The calls in main/: 1.0 (288, 304), 1.1 (307, 324), 1.2 (318, 333), analysis.py (196, 239, 359, 476),
analysis_both.py (188, 231, 351, 471), analysis_both_clean.py (279, 373), pytorch_example.py (50, 64).
Equal calls are listed once. -/
def mainSites : List CallSite :=
  [⟨sigAll, 1, ["X_trained", "y_trained", "X_tune", "y_tune", "resample_tune", "no_constraint",
      "parents_all", "verbose"]⟩,
   ⟨sigSmooth, 1, ["X_trained", "y_trained", "X_tune", "y_tune", "resample_tune", "no_constraint",
      "sgd_max_num", "sgd_t_fix", "parents_all", "verbose", "all_trees", "initial_lamb_seed", "adam"]⟩,
   ⟨sigSmooth, 0, ["random_forest", "X_trained", "y_trained", "sgd_max_num", "verbose", "parents_all",
      "distance_style", "no_constraint", "adam"]⟩,
   ⟨sigSmooth, 1, ["X_trained", "y_trained", "sgd_max_num", "verbose", "parents_all", "distance_style",
      "no_constraint", "adam"]⟩,
   ⟨sigDepth, 1, ["X_trained", "y_trained"]⟩,
   ⟨sigAll, 1, ["X_trained", "y_trained", "no_constraint", "parents_all", "verbose"]⟩,
   ⟨sigSmooth, 1, ["X_trained", "y_trained", "no_constraint", "sgd_max_num", "all_trees",
      "initial_lamb_seed", "parents_all", "dist_mat_style", "distance_style", "class_eps", "class_loss",
      "adam", "verbose", "levels"]⟩,
   ⟨sigTorch, 1, ["X_trained", "y_trained", "sgd_max_num", "all_trees", "init", "parents_all",
      "distance_style", "adam", "verbose"]⟩,
   ⟨sigClean, 1, ["X_trained", "y_trained", "no_constraint", "sgd_max_num", "all_obs", "use_full_loss",
      "sgd_n_obs", "initial_lamb_seed", "parents_all", "dist_mat_style", "distance_style", "adam",
      "verbose", "levels"]⟩,
   ⟨sigSmooth, 0, ["random_forest", "X_trained", "y_trained", "X_tune", "y_tune", "resample_tune",
      "sgd_max_num", "all_trees", "parents_all", "distance_style", "verbose", "adam"]⟩,
   ⟨sigTorch, 0, ["random_forest", "X_trained", "y_trained", "X_tune", "y_tune", "resample_tune",
      "sgd_max_num", "all_trees", "parents_all", "distance_style", "which_dicts", "x_dicts", "init",
      "verbose"]⟩]

/-- The calls of `smooth` in main_old/: depth_examples2.py (67, 77, 87, 97), depth_examples_oracle.py (70,
80, 91, 101; 112, 123), depth_examples_random_init.py (72, 83, 94, 105), depth_run.py (282),
depth_run_class.py (272), understanding_smoothing_microsoft.py (75), and understanding_smoothing_
microsoft_class.py (76, 94), …moons.py (80, 98), …splice.py (83, 101). -/
def oldSites : List CallSite :=
  [⟨sigSmooth, 1, ["X_trained", "y_trained", "resample_tune", "no_constraint", "subgrad_max_num",
      "subgrad_t_fix", "verbose", "all_trees"]⟩,
   ⟨sigSmooth, 1, ["X_trained", "y_trained", "X_tune", "y_tune", "no_constraint", "subgrad_max_num",
      "subgrad_t_fix", "verbose", "all_trees"]⟩,
   ⟨sigSmooth, 1, ["X_trained", "y_trained", "resample_tune", "no_constraint", "subgrad_max_num",
      "subgrad_t_fix", "verbose", "all_trees", "initial_lamb_seed"]⟩,
   ⟨sigSmooth, 1, ["X_trained", "y_trained", "X_tune", "y_tune", "resample_tune", "no_constraint",
      "subgrad_max_num", "subgrad_t_fix", "parents_all", "verbose", "all_trees", "initial_lamb_seed"]⟩,
   ⟨sigSmooth, 1, ["X_trained", "y_trained", "X_tune", "y_tune", "resample_tune", "no_constraint",
      "subgrad_max_num", "subgrad_t_fix", "parents_all", "verbose", "all_trees", "initial_lamb_seed",
      "class_eps", "class_loss"]⟩]

end SmoothRF
