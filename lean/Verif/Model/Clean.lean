import Verif.Model.Smooth

/-!
# smooth_clean.py

`generate_oob_info`, `create_G_H`, `calc_y_oob`, `calc_y_oob_grad`, `calc_l2_grad`,
`stocastic_grad_descent_clean`, `smooth_clean` (regression).

Parameters: `leafOf t i` = leaf row (within tree `t`) reached by observation `i` (`decision_path`),
`unsampled t` = out-of-bag indices of tree `t`, the random observation subsets, `approxOne` for
`np.allclose(sum, 1)`, `sqrt`.
-/

namespace SmoothRF
open SkTree

variable {K : Type} [Field K] [LinearOrder K] {k : ℕ}

/-- `l[i]` with IndexError. -/
def pyGet {α : Type} (l : List α) (i : ℕ) : Except PyErr α :=
  match l[i]? with
  | some a => .ok a
  | none => .error .indexError

/-- `np.cumsum` on whole numbers. -/
def natCumsum (acc : ℕ) : List ℕ → List ℕ
  | [] => []
  | x :: xs => (acc + x) :: natCumsum (acc + x) xs

/-- `idx_mat`, smooth_clean.py 53, 71-85: `d_path_leaf @ arange(num_leaves)` plus `cumsum([0]+sizes)[:T]`. -/
def oobIdxMat (forest : List (SkTree K 1)) (nObs : ℕ) (leafOf : ℕ → ℕ → ℕ) : List (List ℕ) :=
  let cum := (natCumsum 0 (0 :: forest.map fun t => t.nLeaves)).take forest.length
  (List.range nObs).map fun i => forest.zipIdx.map fun tt =>
    (((List.range tt.1.nLeaves).map fun l => (if leafOf tt.2 i = l then 1 else 0) * l).sum) +
      cum.getD tt.2 0

/-- `oob_weights_prime[i, t]`, smooth_clean.py 52, 63-69. -/
def oobPrime (unsampled : ℕ → List ℕ) (i t : ℕ) : K := if i ∈ unsampled t then 1 else 0

/-- `oob_weights`, smooth_clean.py 87-90: row-normalised indicators, ravelled row by row. -/
def oobWeights (nTrees nObs : ℕ) (unsampled : ℕ → List ℕ) : List K :=
  (List.range nObs).flatMap fun i => (List.range nTrees).map fun t =>
    let count := ((List.range nTrees).map fun t => (oobPrime unsampled i t : K)).sum
    oobPrime unsampled i t / (if count = 0 then 1 else count)

/-- The arrays handed around in smooth_clean.py. -/
structure CleanData (K : Type) (k : ℕ) where
  gam : List (Fin k → K)
  eta : List (Fin k → K)
  idxMat : List (List ℕ)
  nTrees : ℕ
  oobW : List K

/-- `create_G_H`, smooth_clean.py 147-197. -/
def createGH (d : CleanData K k) (obsIdx : List ℕ) :
    Except PyErr (List (Fin k → K) × List (Fin k → K)) := do
  let cur ← obsIdx.mapM (pyGet d.idxMat)
  let leafIdx := cur.flatten
  let G ← leafIdx.mapM (pyGet d.gam)
  let H ← leafIdx.mapM (pyGet d.eta)
  pure (G, H)

/-- `calc_G_H_fill`, smooth_clean.py 305-344. -/
def calcGHFill (d : CleanData K k) (lamb : Fin k → K) (obsIdx : List ℕ) :
    Except PyErr (List K × List K) := do
  let (G, H) ← createGH d obsIdx
  pure (G.map (dot · lamb), H.map (dot · lamb))

/-- `oob_weights_inner_first`, smooth_clean.py 282-284. -/
def oobInner (d : CleanData K k) (obsIdx : List ℕ) : Except PyErr (List (List K)) :=
  obsIdx.mapM fun ob => (List.range d.nTrees).mapM fun t => pyGet d.oobW (d.nTrees * ob + t)

/-- Row `i` of `kron(identity(m), ones(T)) @ v` (and of a `block_diag` of `1 × T` blocks applied to a
vector): the sum of the entries of block `i`. -/
def blockSum (T : ℕ) (v : List K) (i : ℕ) : K :=
  ((List.range v.length).map fun q => if q / T = i then v.getD q 0 else 0).sum

/-- `calc_y_oob`, smooth_clean.py 241-303: `(y_oob, ever_oob)`. -/
def calcYOob (d : CleanData K k) (lamb : Fin k → K) (obsIdx : List ℕ) :
    Except PyErr (List K × List Bool) := do
  let wFirst ← oobInner d obsIdx
  let everOob := wFirst.map fun item => decide (item.sum = 1)
  let w := wFirst.flatten
  let (gFill, hFill) ← calcGHFill d lamb obsIdx
  let hFill := List.zipWith (fun g h => if g = 0 then 1 else h) gFill hFill
  if hFill.any fun h => decide (h = 0) then .error .nonFinite
  else
    let left := List.zipWith (· / ·) gFill hFill
    let v := List.zipWith (· * ·) w left
    pure ((List.range obsIdx.length).map (blockSum d.nTrees v), everOob)

/-- `calc_y_oob_grad`, smooth_clean.py 388-463. `star` holds `1/G_fill` (zeros replaced by 1), `star2`
holds `G_fill/H_fill**2` (zero `H_fill` replaced by 1). The inner arrays are copies (index arrays). -/
def calcYOobGrad (d : CleanData K k) (lamb : Fin k → K) (obsIdx : List ℕ) :
    Except PyErr (List (Fin k → K)) := do
  let wFirst ← oobInner d obsIdx
  let w := wFirst.flatten
  let (gFill, hFill) ← calcGHFill d lamb obsIdx
  let (G, H) ← createGH d obsIdx
  let star := gFill.map fun g => 1 / (if g = 0 then 1 else g)
  let star2 := List.zipWith (fun g h => g / (if h = 0 then 1 else h) ^ 2) gFill hFill
  pure ((List.range obsIdx.length).map fun i j =>
    blockSum d.nTrees (List.zipWith (· * ·) star (List.zipWith (· * ·) w (G.map (· j)))) i -
    blockSum d.nTrees (List.zipWith (· * ·) star2 (List.zipWith (· * ·) w (H.map (· j)))) i)

/-- `calc_l2_grad`, smooth_clean.py 505-547. `2/n_oob` is infinite when no requested observation is
ever out of bag. -/
def calcL2Grad (d : CleanData K k) (y : List K) (lamb : Fin k → K) (obsIdx : List ℕ) :
    Except PyErr (Fin k → K) := do
  let yInner ← obsIdx.mapM (pyGet y)
  let (yOob, everOob) ← calcYOob d lamb obsIdx
  let nOob : K := ((everOob.filter fun b => b).length : K)
  let grads ← calcYOobGrad d lamb obsIdx
  if nOob = 0 then .error .nonFinite
  else
    let diff := List.zipWith (fun a b => 2 / nOob * (a - b)) yOob yInner
    pure fun j => (List.zipWith (fun a g => a * g j) diff grads).sum

/-- `calc_cost_l2_straight`, smooth_clean.py 590-594: a mean over the `ever_oob` entries (NaN if there
are none). -/
def calcCostStraight (yOob y : List K) (everOob : List Bool) : Except PyErr K :=
  let sel := ((List.zipWith (fun a b => (a - b) ^ 2) yOob y).zip everOob).filter fun p => p.2
  if sel.length = 0 then .error .nonFinite
  else .ok ((sel.map Prod.fst).sum / (sel.length : K))

/-- Loss over the given observations: `calc_y_oob` then `calc_cost_l2_straight` (smooth_clean.py 786-802,
826-845). -/
def cleanCost (d : CleanData K k) (y : List K) (lamb : Fin k → K) (obsIdx : List ℕ) :
    Except PyErr K := do
  let (yOob, everOob) ← calcYOob d lamb obsIdx
  let yy ← obsIdx.mapM (pyGet y)
  calcCostStraight yOob yy everOob

/-- Arguments of `stocastic_grad_descent_clean`. -/
structure CleanOpts (K : Type) where
  nObs : ℕ
  useFullLoss : Bool
  tFix : K
  noConstraint : Bool
  adam : Option (AdamOpts K)

/-- Loop variables; `best = none`: `lamb_best`, `cost_best` not yet assigned. -/
structure CleanState (K : Type) (k : ℕ) where
  lamb : Fin k → K
  iv : Option (Iv K k)
  best : Option ((Fin k → K) × K)
  costAll : List K
  started : Bool

/-- `s_step == 0` block, smooth_clean.py 784-802. -/
def cleanStart (d : CleanData K k) (y : List K) (o : CleanOpts K) (obsIdx : List ℕ)
    (s : CleanState K k) : Except PyErr (CleanState K k) :=
  if s.started then .ok s
  else if o.useFullLoss then do
    let c ← cleanCost d y s.lamb (List.range d.idxMat.length)
    pure { s with best := some (s.lamb, c), costAll := s.costAll ++ [c], started := true }
  else do
    let c ← cleanCost d y s.lamb obsIdx
    pure { s with costAll := s.costAll ++ [c], started := true }

/-- Gradient step, smooth_clean.py 805-821. -/
def cleanPre (sqrt : K → K) (d : CleanData K k) (y : List K) (o : CleanOpts K) (obsIdx : List ℕ)
    (lamb : Fin k → K) (iv : Option (Iv K k)) : Except PyErr ((Fin k → K) × Option (Iv K k)) :=
  match o.adam with
  | none => do
    let g ← calcL2Grad d y lamb obsIdx
    pure ((fun j => lamb j - o.tFix * g j), iv)
  | some a => do
    let (l, iv') ← adamStep sqrt (fun l => calcL2Grad d y l obsIdx) (some lamb) a iv
    pure (l, some iv')

/-- Gradient step and projection, smooth_clean.py 805-824. -/
def cleanMove (sqrt : K → K) (d : CleanData K k) (y : List K) (o : CleanOpts K) (obsIdx : List ℕ)
    (lamb : Fin k → K) (iv : Option (Iv K k)) : Except PyErr ((Fin k → K) × Option (Iv K k)) := do
  let p ← cleanPre sqrt d y o obsIdx lamb iv
  if o.noConstraint then pure p
  else do
    let l2 ← proxProject p.1
    pure (l2, p.2)

/-- Cost bookkeeping after the move, smooth_clean.py 826-845 (`if cost_new < cost_new`). -/
def cleanRecord (d : CleanData K k) (y : List K) (o : CleanOpts K) (obsIdx : List ℕ)
    (s : CleanState K k) (lamb : Fin k → K) (iv : Option (Iv K k)) :
    Except PyErr (CleanState K k) :=
  if o.useFullLoss then do
    let costNew ← cleanCost d y lamb (List.range d.idxMat.length)
    pure { s with lamb := lamb, iv := iv, costAll := s.costAll ++ [costNew],
                  best := if costNew < costNew then some (lamb, costNew) else s.best }
  else do
    let c ← cleanCost d y lamb obsIdx
    pure { s with lamb := lamb, iv := iv, costAll := s.costAll ++ [c] }

/-- One loop iteration, smooth_clean.py 779-845. `np.random.choice(n, n_obs, replace=False)` raises
ValueError if `n_obs > n`. -/
def cleanStep (sqrt : K → K) (d : CleanData K k) (y : List K) (o : CleanOpts K)
    (s : CleanState K k) (obsIdx : List ℕ) : Except PyErr (CleanState K k) :=
  if d.idxMat.length < o.nObs then .error .valueError
  else do
    let s ← cleanStart d y o obsIdx s
    let p ← cleanMove sqrt d y o obsIdx s.lamb s.iv
    cleanRecord d y o obsIdx s p.1 p.2

/-- `stocastic_grad_descent_clean`, smooth_clean.py 687-851. `choices`: the observation subsets, one
per step. -/
def sgdClean (sqrt : K → K) (approxOne : K → Bool) (d : CleanData K k) (y : List K) (o : CleanOpts K)
    (lambInit : Fin k → K) (choices : List (List ℕ)) :
    Except PyErr ((Fin k → K) × (Fin k → K) × List K) :=
  if o.noConstraint = false ∧ (approxOne (∑ i, lambInit i) = false ∨ ∃ i, lambInit i < 0) then
    .error .typeError
  else do
    let s ← choices.foldlM (cleanStep sqrt d y o) ⟨lambInit, none, none, [], false⟩
    if o.useFullLoss then
      match s.best with
      | some b => pure (b.1, s.lamb, s.costAll)
      | none => .error .unboundLocalError
    else pure (s.lamb, s.lamb, s.costAll)

/-- The arrays `smooth_clean` builds, smooth_clean.py 970-977. -/
def cleanData (forest : List (SkTree K 1)) (style : Topo.Style) (pa : Bool) (nObs : ℕ)
    (leafOf : ℕ → ℕ → ℕ) (unsampled : ℕ → List ℕ) : CleanData K (forestDepth forest + 1) :=
  let ge := gammaEtaForest .reg forest style pa
  { gam := (ge.gamma 0).map (toVec _)
    eta := ge.eta.map (toVec _)
    idxMat := oobIdxMat forest nObs leafOf
    nTrees := forest.length
    oobW := oobWeights forest.length nObs unsampled }

/-- Arguments of `smooth_clean`. -/
structure CleanCfg (K : Type) where
  noConstraint : Bool
  sanityCheck : Bool
  allObs : Bool
  useFullLoss : Bool
  nObs : ℕ
  tFix : K
  seed : Option (ℕ → K)
  parentsAll : Bool
  style : Topo.Style
  adam : Option (AdamOpts K)

/-- The weights used by `smooth_clean`, smooth_clean.py 982-1024: `sanity_check` resets them. Without
observations `generate_oob_info` raises ValueError (sklearn rejects empty arrays). -/
def cleanLamb (sqrt : K → K) (approxOne : K → Bool) {n : ℕ} (d : CleanData K (n + 1)) (y : List K)
    (cfg : CleanCfg K) (choices : List (List ℕ)) : Except PyErr ((Fin (n + 1) → K) × List K) :=
  if y.length = 0 then .error .valueError
  else do
    let lamb ← baseLamb cfg.seed
    if cfg.sanityCheck then pure ((fun i => if i = 0 then 1 else 0), [])
    else
      let o : CleanOpts K :=
        { nObs := if cfg.allObs then y.length else cfg.nObs
          useFullLoss := cfg.allObs || cfg.useFullLoss
          tFix := cfg.tFix, noConstraint := cfg.noConstraint, adam := cfg.adam }
      let r ← sgdClean sqrt approxOne d y o lamb choices
      pure (r.1, r.2.2)

/-- `smooth_clean`, smooth_clean.py 863-1060: forest, `.lamb` and cost list. A classifier or any other
object raises ValueError. -/
def smoothClean (sqrt : K → K) (approxOne : K → Bool) (rf : Option Kind) (forest : List (SkTree K 1))
    (y : List K) (leafOf : ℕ → ℕ → ℕ) (unsampled : ℕ → List ℕ) (cfg : CleanCfg K)
    (choices : List (List ℕ)) :
    Except PyErr (List (SkTree K 1) × (Fin (forestDepth forest + 1) → K) × List K) :=
  match rf with
  | some .reg => do
    let d := cleanData forest cfg.style cfg.parentsAll y.length leafOf unsampled
    let p ← cleanLamb sqrt approxOne d y cfg choices
    let vals := List.zipWith
      (fun g e => if dot e p.1 = 0 then 0 else dot g p.1 / (if dot e p.1 = 0 then 1 else dot e p.1))
      d.gam d.eta
    let rf1 ← writeBack1 (vals.map fun v _ => v) 0 forest
    pure (rf1, p.1, p.2)
  | _ => .error .valueError

end SmoothRF
