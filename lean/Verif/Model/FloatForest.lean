import Verif.Model.FloatSgd

/-!
# smooth in double precision

`smooth` (smooth_base.py 1057-1422, `distance_style="depth"`) with every operation rounded; the exact version is `smooth`
of Model/Smooth.lean, from which the argument checks, the flattening of the arrays and the two write-back loops (no
arithmetic) are taken. As there, the routing of the tuning rows, the random draws and the cross-entropy descent are
parameters. The order of the additions in matrix products is the argument `sum`; counts of tuning rows are sums of ones,
exact below `2 ^ 53`.
-/

namespace SmoothRF

open Topo SkTree

variable {C : ℕ}

/-- `create_Gamma_eta_forest` in doubles, smooth_base.py 597-760. -/
def flGammaEtaForest (sum : List ℚ → ℚ) (kind : Kind) (forest : List (SkTree ℚ C)) (s : Style) (pa : Bool) : GE ℚ C :=
  let width := forestDepth forest + 1
  forest.zipIdx.foldl
    (fun acc tt =>
      let t := tt.1
      let D := t.distDepth s
      { gamma := fun c => acc.gamma c ++ ((List.finRange t.nLeaves).map fun i =>
          flLevelRow sum t pa D (fun j => flNy kind t (t.leafNode j) c) i).map (padRow pa width)
        eta := acc.eta ++ ((List.finRange t.nLeaves).map fun i =>
          flLevelRow sum t pa D (fun j => t.nSamp (t.leafNode j)) i).map (padRow pa width)
        tIdx := acc.tIdx ++ List.replicate t.nLeaves tt.2 })
    { gamma := fun _ => [], eta := [], tIdx := [] }

/-- `obs_y_leaf` in doubles, smooth_base.py 1272-1281. -/
def flLeafMean (sum : List ℚ → ℚ) (rows : List (TuneRow ℚ C)) (i : ℕ) (c : Fin C) : ℚ :=
  fl (sum ((rows.filter fun r => r.leaf == i).map fun r => r.y c) /
    (if leafWeight rows i = 0 then 1 else leafWeight rows i))

/-- The tree loop in doubles, smooth_base.py 1229-1285. -/
def flTuneSummaries (sum : List ℚ → ℚ) (dummies : Bool) (forest : List (SkTree ℚ C)) (tune : ℕ → List (TuneRow ℚ C)) :
    Except PyErr (List ((Fin C → ℚ) × ℚ)) :=
  forest.zipIdx.foldlM
    (fun acc tt =>
      let rows := tune tt.2
      if rows.isEmpty || (dummies && decide (∃ c, ∀ r ∈ rows, r.y c = 0)) then .error .valueError
      else pure (acc ++ (List.range tt.1.nLeaves).map fun i =>
        ((fun c => flLeafMean sum rows i c), leafWeight rows i)))
    []

/-- `lamb / lamb.sum()` in doubles; a zero sum gives NaN. -/
def flNormaliseE (l : List ℚ) : Except PyErr (List ℚ) :=
  if npSum l = 0 then .error .nonFinite else .ok (flNormalise l)

/-- Starting weights in doubles before the classification correction, smooth_base.py 1290-1296. -/
def flBaseLambE (k : ℕ) (seed : Option (ℕ → ℚ)) : Except PyErr (List ℚ) :=
  match seed with
  | none => .ok (flBaseLamb k none)
  | some u => flNormaliseE ((List.range k).map u)

/-- Starting weights in doubles, smooth_base.py 1290-1301. -/
def flInitLamb (kind : Kind) (k : ℕ) (seed : Option (ℕ → ℚ)) (classEps : ℚ) : Except PyErr (List ℚ) := do
  let l ← flBaseLambE k seed
  match kind with
  | .reg => pure l
  | .cls =>
    let l ← flNormaliseE (l.map fun x => fl (x + fl (fl (1 * classEps) / (k : ℚ))))
    flNormaliseE l

/-- The optimisation stage in doubles, smooth_base.py 1320-1361, with the test of the starting vector
(smooth_base.py 1490-1493). -/
def flSmoothOptimise {n : ℕ} (sum : List ℚ → ℚ) (pow : ℚ → ℕ → ℚ) (sqrt : ℚ → ℚ)
    (ce : SgdOpts ℚ → ℚ → List (Row ℚ n) → List ℚ → List ℕ → Except PyErr ((Fin n → ℚ) × (Fin n → ℚ) × List ℚ))
    (kind : Kind) (cfg : SmoothCfg ℚ) (rows : List (Row ℚ n)) (lamb : List ℚ) :
    Except PyErr ((Fin n → ℚ) × (Fin n → ℚ) × List ℚ) :=
  if cfg.sanityCheck then .ok (toVec n lamb, toVec n lamb, [])
  else
    let o : SgdOpts ℚ := ⟨cfg.tFix, !cfg.noConstraint, cfg.adam⟩
    if kind = .reg ∨ cfg.lossL2 = true then do
      flStartCheck o.constrained lamb
      flSgdRun sum pow sqrt o rows (toVec n lamb) cfg.steps
    else ce o cfg.classEps rows lamb cfg.steps

/-- `smooth` in doubles, smooth_base.py 1057-1422. -/
def flSmooth (sum : List ℚ → ℚ) (pow : ℚ → ℕ → ℚ) (sqrt : ℚ → ℚ)
    (ce : (n : ℕ) → SgdOpts ℚ → ℚ → List (Row ℚ n) → List ℚ → List ℕ →
      Except PyErr ((Fin n → ℚ) × (Fin n → ℚ) × List ℚ))
    (rf : Option Kind) (forest : List (SkTree ℚ C)) (cfg : SmoothCfg ℚ)
    (sources : TuneSrc → ℕ → List (TuneRow ℚ C)) :
    Except PyErr (SmoothOut ℚ C (forestDepth forest + 1)) := do
  let (kind, src) ← smoothCheck rf cfg.data cfg.noConstraint
  let ge := flGammaEtaForest sum kind forest cfg.style cfg.parentsAll
  let yw ← flTuneSummaries sum (decide (kind = .cls) && decide (src ≠ .given)) forest (sources src)
  let lamb ← flInitLamb kind (forestDepth forest + 1) cfg.seed cfg.classEps
  let rows := flatRows (forestDepth forest + 1) cfg.allTrees ge yw
  let (lamb1, lamb2, costs) ← flSmoothOptimise sum pow sqrt (ce _) kind cfg rows lamb
  let new1 := reshapeF C (rows.map fun r => flSmoothValue sum r lamb1)
  let new2 := reshapeF C (rows.map fun r => flSmoothValue sum r lamb2)
  let rf1 ← writeBack1 new1 0 forest
  let rf2 ← writeBack2 new2 0 forest
  pure ⟨rf1, lamb1, rf2, lamb2, costs⟩

end SmoothRF
