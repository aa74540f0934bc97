import Verif.Model.SmoothImp

/-!
# The string options of smooth and smooth_clean

`dist_mat_style`, `distance_style` and `class_loss` are a string or a list of strings; the defaults are
lists whose first entry is meant. The place where an option is looked at decides which error comes
first.

Simplification: a list is a Python list (a tuple or array is treated in the same way by
smooth_base.py 654 but not by 329, 348 and 542).
-/

namespace SmoothRF
open SkTree

variable {K : Type} [Field K] [LinearOrder K] {C : ℕ}

/-- An option argument. -/
inductive OptArg
  | str (s : String)
  | list (l : List String)
  deriving DecidableEq

/-- `if len(x) > 1: x = x[0]`, smooth_base.py 329-330, 348-349, 542-543, 654-655. -/
def optFirst : OptArg → OptArg
  | .list (a :: _ :: _) => .str a
  | o => o

/-- `if type(class_loss) == list: class_loss = class_loss[0]`, smooth_base.py 1185-1186. -/
def lossFirst : OptArg → Except PyErr String
  | .str s => .ok s
  | .list (a :: _) => .ok a
  | .list [] => .error .indexError

/-- `distance_style`, smooth_base.py 654-690; `true` is "impurity". A one-entry list equals neither
string. -/
def distOption (o : OptArg) : Except PyErr Bool :=
  match optFirst o with
  | .str s => if s = "impurity" then .ok true else if s = "depth" then .ok false else .error .valueError
  | .list _ => .error .valueError

/-- `style`, smooth_base.py 348-349, 388-422. -/
def styleOption (o : OptArg) : Except PyErr Topo.Style :=
  match optFirst o with
  | .str s =>
    if s = "standard" then .ok .standard else if s = "max" then .ok .max
    else if s = "min" then .ok .min else .error .valueError
  | .list _ => .error .valueError

/-- The defaults in the signatures. -/
def distDefault : OptArg := .list ["depth", "impurity"]

@[inherit_doc distDefault] def styleDefault : OptArg := .list ["standard", "max", "min"]

@[inherit_doc distDefault] def lossDefault : OptArg := .list ["ce", "l2"]

/-- The string options of a call of `smooth`. -/
structure StrOpts where
  distMat : OptArg
  dist : OptArg
  loss : OptArg

/-- The checks before `class_loss` is looked at, smooth_base.py 1161-1180. -/
def optData (rf : Option Kind) (a : DataArgs) : Except PyErr TuneSrc :=
  match rf with
  | none => .error .valueError
  | some _ => tuneSource a

/-- `smooth` with its string options, smooth_base.py 1057-1422. The fields `style` and `lossL2` of `cfg`
are replaced by what the options say (line 1321: every string except "l2" means cross-entropy). -/
def smoothOpt (sqrt : K → K)
    (ce : (n : ℕ) → SgdOpts K → K → List (Row K n) → List K → List ℕ →
      Except PyErr ((Fin n → K) × (Fin n → K) × List K))
    (rf : Option Kind) (forest : List (SkTree K C)) (levels : Option (Levels K)) (o : StrOpts)
    (cfg : SmoothCfg K) (sources : TuneSrc → ℕ → List (TuneRow K C)) :
    Except PyErr ((n : ℕ) × SmoothOut K C (n + 1)) := do
  let _ ← optData rf cfg.data
  let loss ← lossFirst o.loss
  let _ ← smoothCheck rf cfg.data cfg.noConstraint
  let imp ← distOption o.dist
  let style ← styleOption o.distMat
  let cfg := { cfg with style := style, lossL2 := decide (loss = "l2") }
  if imp then smoothImp sqrt ce rf forest levels cfg sources
  else do
    let out ← smooth sqrt ce rf forest cfg sources
    pure ⟨forestDepth forest, out⟩

/-- `smooth_clean` with its string options, smooth_clean.py 863-1060. -/
def smoothCleanOpt (sqrt : K → K) (approxOne : K → Bool) (rf : Option Kind)
    (forest : List (SkTree K 1)) (levels : Option (Levels K)) (distMat dist : OptArg) (y : List K)
    (leafOf : ℕ → ℕ → ℕ) (unsampled : ℕ → List ℕ) (cfg : CleanCfg K) (choices : List (List ℕ)) :
    Except PyErr (CleanOut K) :=
  match rf with
  | some .reg => do
    let imp ← distOption dist
    let style ← styleOption distMat
    let cfg := { cfg with style := style }
    if imp then smoothCleanImp sqrt approxOne (some .reg) forest levels y leafOf unsampled cfg choices
    else do
      let o ← smoothClean sqrt approxOne (some .reg) forest y leafOf unsampled cfg choices
      pure ⟨forestDepth forest, o.1, o.2.1, o.2.2⟩
  | _ => .error .valueError

end SmoothRF
