import Verif.Model.FloatClean
import Verif.Model.FloatForest
import Verif.Model.Clean

/-!
# smooth_clean in double precision

`calc_y_oob_grad`, `calc_l2_grad`, `stocastic_grad_descent_clean` and `smooth_clean` (`distance_style="depth"`) with every
operation rounded; the exact versions are those of Model/Clean.lean, from which the arguments and the loop variables are
taken. Observations carry the leaves they reach, as in Model/FloatClean.lean.
-/

namespace SmoothRF

open Topo SkTree

/-- One entry of `star @ diags(oob_weights)` in doubles, smooth_clean.py 436-441, 455-460: `1/G_fill`, zeros replaced by 1,
times the out-of-bag weight. -/
def flStar (sum : List ℚ → ℚ) {n : ℕ} (r : Row ℚ n) (lamb : Fin n → ℚ) (w : ℚ) : ℚ :=
  let g := flDot sum r.gam lamb
  fl (fl (1 / (if g = 0 then 1 else g)) * w)

/-- One entry of `star2 @ diags(oob_weights)` in doubles, smooth_clean.py 443-451, 458-461: `G_fill / H_fill**2`, zero
`H_fill` replaced by 1, times the out-of-bag weight. -/
def flStar2 (sum : List ℚ → ℚ) {n : ℕ} (r : Row ℚ n) (lamb : Fin n → ℚ) (w : ℚ) : ℚ :=
  let h := if flDot sum r.eta lamb = 0 then 1 else flDot sum r.eta lamb
  fl (fl (flDot sum r.gam lamb / fl (h * h)) * w)

/-- One row of `calc_y_oob_grad` in doubles, smooth_clean.py 388-463. -/
def flYOobGrad (sum : List ℚ → ℚ) (pa : Bool) (n : ℕ) (lamb : Fin n → ℚ) (o : OobObs) (j : Fin n) : ℚ :=
  let rows := o.trees.map fun q => flLeafRow sum .reg q.t pa q.D n q.i 0
  let w := flOobRow (o.trees.map fun q => q.oob)
  fl (sum (List.zipWith (fun r w => fl (flStar sum r lamb w * r.gam j)) rows w) -
    sum (List.zipWith (fun r w => fl (flStar2 sum r lamb w * r.eta j)) rows w))

/-- `calc_l2_grad` in doubles over the observations drawn, smooth_clean.py 505-547: `2/n_oob` is infinite when none of
them is recognised as out of bag. -/
def flL2Grad (sum : List ℚ → ℚ) (pa : Bool) (n : ℕ) (obs : List OobObs) (lamb : Fin n → ℚ) :
    Except PyErr (Fin n → ℚ) := do
  let ps ← obs.mapM (flYOob sum pa n lamb)
  let nOob := (ps.filter fun p => p.2).length
  if nOob = 0 then .error .nonFinite
  else pure fun j => sum (List.zipWith
    (fun p o => fl (fl (fl (2 / (nOob : ℚ)) * fl (p.1 - o.y)) * flYOobGrad sum pa n lamb o j)) ps obs)

/-- `y_trained[obs_idx]` and the rows of `obs_idx`. -/
def drawn (obs : List OobObs) (obsIdx : List ℕ) : Except PyErr (List OobObs) := obsIdx.mapM (pyGet obs)

/-- `s_step == 0` block in doubles, smooth_clean.py 784-802. -/
def flCleanStart (sum : List ℚ → ℚ) (pa : Bool) {n : ℕ} (obs : List OobObs) (o : CleanOpts ℚ) (sub : List OobObs)
    (s : CleanState ℚ n) : Except PyErr (CleanState ℚ n) :=
  if s.started then .ok s
  else if o.useFullLoss then do
    let c ← flCleanCost sum pa n obs s.lamb
    pure { s with best := some (s.lamb, c), costAll := s.costAll ++ [c], started := true }
  else do
    let c ← flCleanCost sum pa n sub s.lamb
    pure { s with costAll := s.costAll ++ [c], started := true }

/-- Gradient step in doubles, smooth_clean.py 805-821. -/
def flCleanPre (sum : List ℚ → ℚ) (pow : ℚ → ℕ → ℚ) (sqrt : ℚ → ℚ) (pa : Bool) {n : ℕ} (o : CleanOpts ℚ)
    (sub : List OobObs) (lamb : Fin n → ℚ) (iv : Option (Iv ℚ n)) : Except PyErr ((Fin n → ℚ) × Option (Iv ℚ n)) :=
  match o.adam with
  | none => do
    let g ← flL2Grad sum pa n sub lamb
    pure ((fun j => fl (lamb j - fl (o.tFix * g j))), iv)
  | some a => do
    let (l, iv') ← flAdamStep pow sqrt (flL2Grad sum pa n sub) lamb a iv
    pure (l, some iv')

/-- Gradient step and projection in doubles, smooth_clean.py 805-824. -/
def flCleanMove (sum : List ℚ → ℚ) (pow : ℚ → ℕ → ℚ) (sqrt : ℚ → ℚ) (pa : Bool) {n : ℕ} (o : CleanOpts ℚ)
    (sub : List OobObs) (lamb : Fin n → ℚ) (iv : Option (Iv ℚ n)) :
    Except PyErr ((Fin n → ℚ) × Option (Iv ℚ n)) := do
  let p ← flCleanPre sum pow sqrt pa o sub lamb iv
  if o.noConstraint then pure p
  else do
    let l2 ← flProxProject p.1
    pure (l2, p.2)

/-- Cost bookkeeping after the move in doubles, smooth_clean.py 826-845 (`if cost_new < cost_new`). -/
def flCleanRecord (sum : List ℚ → ℚ) (pa : Bool) {n : ℕ} (obs : List OobObs) (o : CleanOpts ℚ) (sub : List OobObs)
    (s : CleanState ℚ n) (lamb : Fin n → ℚ) (iv : Option (Iv ℚ n)) : Except PyErr (CleanState ℚ n) :=
  if o.useFullLoss then do
    let costNew ← flCleanCost sum pa n obs lamb
    pure { s with lamb := lamb, iv := iv, costAll := s.costAll ++ [costNew],
                  best := if costNew < costNew then some (lamb, costNew) else s.best }
  else do
    let c ← flCleanCost sum pa n sub lamb
    pure { s with lamb := lamb, iv := iv, costAll := s.costAll ++ [c] }

/-- One loop iteration in doubles, smooth_clean.py 779-845. -/
def flCleanStep (sum : List ℚ → ℚ) (pow : ℚ → ℕ → ℚ) (sqrt : ℚ → ℚ) (pa : Bool) {n : ℕ} (obs : List OobObs)
    (o : CleanOpts ℚ) (s : CleanState ℚ n) (obsIdx : List ℕ) : Except PyErr (CleanState ℚ n) :=
  if obs.length < o.nObs then .error .valueError
  else do
    let sub ← drawn obs obsIdx
    let s ← flCleanStart sum pa obs o sub s
    let p ← flCleanMove sum pow sqrt pa o sub s.lamb s.iv
    flCleanRecord sum pa obs o sub s p.1 p.2

/-- `stocastic_grad_descent_clean` in doubles, smooth_clean.py 687-851. -/
def flSgdClean (sum : List ℚ → ℚ) (pow : ℚ → ℕ → ℚ) (sqrt : ℚ → ℚ) (pa : Bool) (n : ℕ) (obs : List OobObs)
    (o : CleanOpts ℚ) (lambInit : List ℚ) (choices : List (List ℕ)) :
    Except PyErr ((Fin n → ℚ) × (Fin n → ℚ) × List ℚ) := do
  flCloseCheck o.noConstraint lambInit
  let s ← choices.foldlM (flCleanStep sum pow sqrt pa obs o) ⟨toVec n lambInit, none, none, [], false⟩
  if o.useFullLoss then
    match s.best with
    | some b => pure (b.1, s.lamb, s.costAll)
    | none => .error .unboundLocalError
  else pure (s.lamb, s.lamb, s.costAll)

/-- The leaf observation `i` reaches in tree `tt.2`, and whether it is out of bag there (`generate_oob_info`,
smooth_clean.py 63-90). -/
def oobTreeOf (style : Style) (leafOf : ℕ → ℕ → ℕ) (unsampled : ℕ → List ℕ) (i : ℕ) (tt : SkTree ℚ 1 × ℕ) :
    Except PyErr OobTree :=
  if h : leafOf tt.2 i < tt.1.nLeaves then
    .ok ⟨tt.1, tt.1.distDepth style, ⟨leafOf tt.2 i, h⟩, decide (i ∈ unsampled tt.2)⟩
  else .error .indexError

/-- All training observations. -/
def oobObsOf (forest : List (SkTree ℚ 1)) (style : Style) (y : List ℚ) (leafOf : ℕ → ℕ → ℕ)
    (unsampled : ℕ → List ℕ) : Except PyErr (List OobObs) :=
  y.zipIdx.mapM fun yi => do
    let trees ← forest.zipIdx.mapM (oobTreeOf style leafOf unsampled yi.2)
    pure ⟨trees, yi.1⟩

/-- The weights used by `smooth_clean` in doubles, smooth_clean.py 982-1024. -/
def flCleanLamb (sum : List ℚ → ℚ) (pow : ℚ → ℕ → ℚ) (sqrt : ℚ → ℚ) (n : ℕ) (obs : List OobObs) (cfg : CleanCfg ℚ)
    (choices : List (List ℕ)) : Except PyErr ((Fin n → ℚ) × List ℚ) :=
  if obs.length = 0 then .error .valueError
  else do
    let lamb ← flBaseLambE n cfg.seed
    if cfg.sanityCheck then pure (toVec n (flBaseLamb n none), [])
    else
      let o : CleanOpts ℚ :=
        { nObs := if cfg.allObs then obs.length else cfg.nObs
          useFullLoss := cfg.allObs || cfg.useFullLoss
          tFix := cfg.tFix, noConstraint := cfg.noConstraint, adam := cfg.adam }
      let r ← flSgdClean sum pow sqrt cfg.parentsAll n obs o lamb choices
      pure (r.1, r.2.2)

/-- `smooth_clean` in doubles, smooth_clean.py 863-1060: forest, `.lamb` and cost list. -/
def flSmoothClean (sum : List ℚ → ℚ) (pow : ℚ → ℕ → ℚ) (sqrt : ℚ → ℚ) (rf : Option Kind) (forest : List (SkTree ℚ 1))
    (y : List ℚ) (leafOf : ℕ → ℕ → ℕ) (unsampled : ℕ → List ℕ) (cfg : CleanCfg ℚ) (choices : List (List ℕ)) :
    Except PyErr (List (SkTree ℚ 1) × (Fin (forestDepth forest + 1) → ℚ) × List ℚ) :=
  match rf with
  | some .reg => do
    let ge := flGammaEtaForest sum .reg forest cfg.style cfg.parentsAll
    let obs ← oobObsOf forest cfg.style y leafOf unsampled
    let p ← flCleanLamb sum pow sqrt (forestDepth forest + 1) obs cfg choices
    let vals := List.zipWith
      (fun g e => flSmoothValue sum ⟨0, 0, toVec (forestDepth forest + 1) g, toVec (forestDepth forest + 1) e, 0⟩ p.1)
      (ge.gamma 0) ge.eta
    let rf1 ← writeBack1 (vals.map fun v _ => v) 0 forest
    pure (rf1, p.1, p.2)
  | _ => .error .valueError

end SmoothRF
