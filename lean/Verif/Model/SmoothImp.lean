import Verif.Model.Smooth
import Verif.Model.Clean
import Verif.Model.Impurity

/-!
# smooth and smooth_clean with `distance_style="impurity"`

smooth_base.py 1057-1422 and smooth_clean.py 863-1060. Everything after `create_Gamma_eta_forest` is
the same as in `Model/Smooth.lean` and `Model/Clean.lean`; the number of weights is `Gamma.shape[-1]`,
known only when the matrices have been built. `smooth_base.py` 1204 (`calc_depth_for_forest`) does not
use the impurities and its result is not used.
-/

namespace SmoothRF
open SkTree

variable {K : Type} [Field K] [LinearOrder K] {C : ℕ}

/-- `smooth` after the matrices have been built, smooth_base.py 1214-1422. -/
def smoothFrom {n : ℕ} (sqrt : K → K)
    (ce : SgdOpts K → K → List (Row K (n + 1)) → List K → List ℕ →
      Except PyErr ((Fin (n + 1) → K) × (Fin (n + 1) → K) × List K))
    (kind : Kind) (src : TuneSrc) (ge : GE K C) (forest : List (SkTree K C)) (cfg : SmoothCfg K)
    (sources : TuneSrc → ℕ → List (TuneRow K C)) : Except PyErr (SmoothOut K C (n + 1)) := do
  let yw ← tuneSummaries (decide (kind = .cls) && decide (src ≠ .given)) forest (sources src)
  let lamb ← initLamb kind cfg.seed cfg.classEps
  let rows := flatRows (n + 1) cfg.allTrees ge yw
  let (lamb1, lamb2, costs) ← smoothOptimise sqrt ce kind cfg rows lamb
  let new1 := reshapeF C (rows.map fun r => smoothValue r lamb1)
  let new2 := reshapeF C (rows.map fun r => smoothValue r lamb2)
  let rf1 ← writeBack1 new1 0 forest
  let rf2 ← writeBack2 new2 0 forest
  pure ⟨rf1, lamb1, rf2, lamb2, costs⟩

/-- `Gamma.shape[-1] - 1`. -/
def lastLevel (ge : GE K C) : ℕ := (ge.eta.headD []).length - 1

/-- `smooth(…, distance_style="impurity", levels=levels)`. -/
def smoothImp (sqrt : K → K)
    (ce : (n : ℕ) → SgdOpts K → K → List (Row K n) → List K → List ℕ →
      Except PyErr ((Fin n → K) × (Fin n → K) × List K))
    (rf : Option Kind) (forest : List (SkTree K C)) (levels : Option (Levels K)) (cfg : SmoothCfg K)
    (sources : TuneSrc → ℕ → List (TuneRow K C)) :
    Except PyErr ((n : ℕ) × SmoothOut K C (n + 1)) := do
  let (kind, src) ← smoothCheck rf cfg.data cfg.noConstraint
  let ge ← gammaEtaForestImp kind forest cfg.style cfg.parentsAll levels
  let out ← smoothFrom (n := lastLevel ge) sqrt (ce _) kind src ge forest cfg sources
  pure ⟨lastLevel ge, out⟩

/-- The arrays of smooth_clean.py 970-977 from given matrices. -/
def cleanDataFrom (n : ℕ) (ge : GE K 1) (forest : List (SkTree K 1)) (nObs : ℕ)
    (leafOf : ℕ → ℕ → ℕ) (unsampled : ℕ → List ℕ) : CleanData K (n + 1) :=
  { gam := (ge.gamma 0).map (toVec _)
    eta := ge.eta.map (toVec _)
    idxMat := oobIdxMat forest nObs leafOf
    nTrees := forest.length
    oobW := oobWeights forest.length nObs unsampled }

/-- `smooth_clean` after the matrices have been built, smooth_clean.py 979-1060. -/
def smoothCleanFrom (n : ℕ) (sqrt : K → K) (approxOne : K → Bool) (ge : GE K 1)
    (forest : List (SkTree K 1)) (y : List K) (leafOf : ℕ → ℕ → ℕ) (unsampled : ℕ → List ℕ)
    (cfg : CleanCfg K) (choices : List (List ℕ)) :
    Except PyErr (List (SkTree K 1) × (Fin (n + 1) → K) × List K) := do
  let d := cleanDataFrom n ge forest y.length leafOf unsampled
  let p ← cleanLamb sqrt approxOne d y cfg choices
  let vals := List.zipWith
    (fun g e => if dot e p.1 = 0 then 0 else dot g p.1 / (if dot e p.1 = 0 then 1 else dot e p.1))
    d.gam d.eta
  let rf1 ← writeBack1 (vals.map fun v _ => v) 0 forest
  pure (rf1, p.1, p.2)

/-- Result of `smooth_clean` with a number of weights found on the way. -/
structure CleanOut (K : Type) where
  n : ℕ
  rf1 : List (SkTree K 1)
  lamb : Fin (n + 1) → K
  costs : List K

/-- `smooth_clean(…, distance_style="impurity", levels=levels)`. -/
def smoothCleanImp (sqrt : K → K) (approxOne : K → Bool) (rf : Option Kind)
    (forest : List (SkTree K 1)) (levels : Option (Levels K)) (y : List K) (leafOf : ℕ → ℕ → ℕ)
    (unsampled : ℕ → List ℕ) (cfg : CleanCfg K) (choices : List (List ℕ)) :
    Except PyErr (CleanOut K) :=
  match rf with
  | some .reg => do
    let ge ← gammaEtaForestImp .reg forest cfg.style cfg.parentsAll levels
    let r ← smoothCleanFrom (lastLevel ge) sqrt approxOne ge forest y leafOf unsampled cfg choices
    pure ⟨lastLevel ge, r.1, r.2.1, r.2.2⟩
  | _ => .error .valueError

end SmoothRF
