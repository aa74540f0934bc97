import Verif.Model.Smooth
import Verif.Model.Level

/-!
# smooth_all

smooth_level.py 335-383 (`process_tuning_leaf_attributes_tree`), 433-483 (`check_in_null`), 485-733
(`smooth_all`), for a regression forest.

* Routing and index draws as in `Verif.Model.Smooth`.
* `is_pos_def`, `quadprog.solve_qp`, `np.linalg.inv` and the null-space rank test are parameters;
  `none` from a solver means it raised.
* The two `while` loops take fuel; `none` means still looping.
* `tol_pow` is None or an integer (a non-integer raises the same ValueError as a negative integer).
* A tree without tuning rows makes `decision_path` raise ValueError (sklearn rejects empty arrays).
-/

namespace SmoothRF
open SkTree

variable {K : Type} [Field K] [LinearOrder K]

/-- Square matrices and vectors. -/
abbrev SqMat (K : Type) (n : ℕ) := Fin n → Fin n → K

/-- `process_tuning_leaf_attributes_tree`, smooth_level.py 335-383: one `(weight, y)` per leaf; the
weights are counts over the total count, with zeros replaced by `eps`. -/
def processTuning (nLeaves : ℕ) (eps : K) (rows : List (TuneRow K 1)) : Except PyErr (List (K × K)) :=
  if rows = [] then .error .valueError
  else
    let total := ((List.range nLeaves).map (leafWeight rows)).sum
    .ok ((List.range nLeaves).map fun i =>
      let w := leafWeight rows i / total
      (if w = 0 then eps else w, leafMean rows i 0))

/-- The `sanity_check` argument: a bool, a dictionary (`none` = key missing; the flag entry may fail to
be a bool), or something else. -/
inductive SanityArg
  | bool (b : Bool)
  | dict (tolPow : Option (Option ℤ)) (flag : Option (Option Bool))
  | other

/-- Reading `sanity_check`, smooth_level.py 554-566: `(sanity_check, tol_pow)`. -/
def readSanity : SanityArg → Except PyErr (Bool × Option ℤ)
  | .bool b => .ok (b, none)
  | .dict (some tp) (some (some b)) => .ok (b, tp)
  | .dict _ _ => .error .valueError
  | .other => .error .valueError

/-- Arguments of `smooth_all`: `X_trained.shape[0]`, `y_trained.shape[0]`, presence of the tuning data. -/
structure AllCfg where
  nTrained : ℕ
  yLen : ℕ
  xTune : Bool
  yTune : Bool
  resample : Bool
  noConstraint : Bool
  sanity : SanityArg
  parentsAll : Bool
  innerAssess : Bool

/-- The tuning rows used, smooth_level.py 542-546, 593-606. -/
def allSource (c : AllCfg) : TuneSrc :=
  let oobLogic := (!c.xTune || !c.yTune) && !c.resample
  if c.resample then .resample else if oobLogic then .oob else .given

/-- Library routines. `unit` is `np.finfo(float).eps * 1000`. -/
structure AllOracles (K : Type) where
  pd : {n : ℕ} → SqMat K n → Bool
  /-- `quadprog.solve_qp(G, a, C, b, meq)[0]` -/
  qp : {n m : ℕ} → SqMat K n → (Fin n → K) → (Fin n → Fin m → K) → (Fin m → K) → ℕ →
    Option (Fin n → K)
  /-- `np.linalg.inv(G) @ a` -/
  invMul : {n : ℕ} → SqMat K n → (Fin n → K) → Option (Fin n → K)
  inNull : {n : ℕ} → SqMat K n → (Fin n → K) → Bool
  unit : K

/-- The tree loop, smooth_level.py 583-617: leaf weights and leaf means, tree by tree. -/
def allTune (forest : List (SkTree K 1)) (tune : ℕ → List (TuneRow K 1)) :
    Except PyErr (List (K × K)) :=
  forest.zipIdx.foldlM
    (fun acc tt => do
      let l ← processTuning tt.1.nLeaves (-1) (tune tt.2)
      pure (acc ++ l))
    []

/-- `assert np.all(ga[et == 0] == 0)`, smooth_level.py 623-624. -/
def ratioOk {n : ℕ} (ga et : List (Fin n → K)) : Bool :=
  (List.zipWith (fun g e => decide (∀ k, e k = 0 → g k = 0)) ga et).all id

/-- `Gamma_all = ga / et` with zero denominators replaced by `eps`, smooth_level.py 627-628. -/
def ratioRows {n : ℕ} (eps : K) (ga et : List (Fin n → K)) : List (Fin n → K) :=
  List.zipWith (fun g e k => g k / (if e k = 0 then eps else e k)) ga et

/-- A row of the optimisation problem. -/
structure QRow (K : Type) (n : ℕ) where
  gam : Fin n → K
  w : K
  y : K

/-- Rows with tuning data (`obs_weight != -1`), smooth_level.py 631-636. -/
def keptRows {n : ℕ} (gam : List (Fin n → K)) (wy : List (K × K)) : List (QRow K n) :=
  (List.zipWith (fun g p => QRow.mk g p.1 p.2) gam wy).filter fun r => decide (r.w ≠ -1)

/-- `G = Gamma.T @ diag(w) @ Gamma`, smooth_level.py 639-641. -/
def quadG {n : ℕ} (rows : List (QRow K n)) : SqMat K n :=
  fun i j => (rows.map fun r => r.gam i * r.w * r.gam j).sum

/-- `a = Gamma.T @ diag(w) @ y`, smooth_level.py 643-645. -/
def quadA {n : ℕ} (rows : List (QRow K n)) : Fin n → K :=
  fun i => (rows.map fun r => r.gam i * r.w * r.y).sum

/-- `G = (G + G.T)/2`, smooth_level.py 654. -/
def symm {n : ℕ} (g : SqMat K n) : SqMat K n := fun i j => (g i j + g j i) / 2

/-- `C = hstack((ones, identity))`, smooth_level.py 646-647. -/
def consC (n : ℕ) : Fin n → Fin (n + 1) → K :=
  fun i j => if j.val = 0 then 1 else if j.val = i.val + 1 then 1 else 0

/-- `b = [1] + [0]*n`, smooth_level.py 648. -/
def consB (n : ℕ) : Fin (n + 1) → K := fun j => if j.val = 0 then 1 else 0

/-- The `try` body, smooth_level.py 661-670. -/
def trySolve (o : AllOracles K) {n : ℕ} (noConstraint : Bool) (g : SqMat K n) (a : Fin n → K) :
    Option (Fin n → K) :=
  if noConstraint then o.invMul g a
  else o.qp g a (consC n) (consB n) 1

/-- The retry loop, smooth_level.py 657-687: final `(G, lamb)`. -/
def solveLoop (o : AllOracles K) {n : ℕ} (noConstraint : Bool) (a : Fin n → K) :
    ℕ → ℕ → SqMat K n → Option (SqMat K n × (Fin n → K))
  | 0, _, _ => none
  | fuel + 1, twoPower, g =>
    match trySolve o noConstraint g a with
    | some l => some (g, l)
    | none =>
      let add : K := if twoPower = 0 then o.unit else o.unit * (2 ^ twoPower - 2 ^ (twoPower - 1))
      solveLoop o noConstraint a fuel (twoPower + 1) fun i j => g i j + if i = j then add else 0

/-- `1/2 * l.T @ G @ l - a.T @ l`, smooth_level.py 692, 697. -/
def quadCost {n : ℕ} (g : SqMat K n) (a l : Fin n → K) : K :=
  1 / 2 * ∑ i, (∑ j, l j * g j i) * l i - ∑ i, a i * l i

/-- The weights that leave the forest unchanged. -/
def lambBase {n : ℕ} : Fin n → K := fun i => if i.val = 0 then 1 else 0

/-- `check_in_null`, smooth_level.py 433-483. -/
def checkInNull (o : AllOracles K) {n : ℕ} (g : SqMat K n) (v : Fin n → K) (tolPow : Option ℤ) :
    Except PyErr Bool :=
  match tolPow with
  | some p => if p < 0 then .error .valueError else .ok (o.inNull g v)
  | none => .ok (o.inNull g v)

/-- The internal check, smooth_level.py 692-710. -/
def allAssess (o : AllOracles K) {n : ℕ} (innerAssess : Bool) (tolPow : Option ℤ) (g : SqMat K n)
    (a l : Fin n → K) : Except PyErr Unit :=
  if ∃ i, |l i - lambBase i| > 1 / 10 ^ 7 then do
    let inN ← checkInNull o g (fun i => lambBase i - l i) tolPow
    if inN = false ∧ innerAssess = true ∧ ¬ quadCost g a lambBase ≥ quadCost g a l then
      .error .assertionError
    else pure ()
  else .ok ()

/-- What the optimisation stage hands on: `Gamma_all_store`, the kept rows, `tol_pow` and the flag. -/
structure AllPrep (K : Type) (n : ℕ) where
  store : List (Fin n → K)
  rows : List (QRow K n)
  flag : Bool
  tolPow : Option ℤ

/-- smooth_level.py 539-636. `1/n_obs_trained` raises ZeroDivisionError for no rows. -/
def allPrepare (forest : List (SkTree K 1)) (c : AllCfg) (sources : TuneSrc → ℕ → List (TuneRow K 1)) :
    Except PyErr (AllPrep K (forestDepth forest + 1)) :=
  if c.nTrained = 0 then .error .zeroDivisionError
  else if c.yLen ≠ c.nTrained then .error .valueError
  else do
    let (flag, tolPow) ← readSanity c.sanity
    let wy ← allTune forest (sources (allSource c))
    let ge := gammaEtaForest .reg forest .standard c.parentsAll
    let ga := (ge.gamma 0).map (toVec (forestDepth forest + 1))
    let et := ge.eta.map (toVec (forestDepth forest + 1))
    if ratioOk ga et = false then .error .assertionError
    else
      let store := ratioRows (1 / (c.nTrained : K)) ga et
      pure ⟨store, keptRows store wy, flag, tolPow⟩

/-- Both loops, smooth_level.py 639-687. -/
def allSolve (o : AllOracles K) (fuel : ℕ) {n : ℕ} (noConstraint : Bool) (rows : List (QRow K n)) :
    Except PyErr (Option (SqMat K n × (Fin n → K))) := do
  let g ← updateTilPsd o.pd o.unit fuel (symm (quadG rows))
  match g with
  | none => pure none
  | some g => pure (solveLoop o noConstraint (quadA rows) fuel 0 g)

/-- `smooth_all`, smooth_level.py 485-733: the forest and `.lamb`; `none`: a loop has not stopped. -/
def smoothAll (o : AllOracles K) (fuel : ℕ) (forest : List (SkTree K 1)) (c : AllCfg)
    (sources : TuneSrc → ℕ → List (TuneRow K 1)) :
    Except PyErr (Option (List (SkTree K 1) × (Fin (forestDepth forest + 1) → K))) := do
  let p ← allPrepare forest c sources
  let r ← allSolve o fuel c.noConstraint p.rows
  match r with
  | none => pure none
  | some (g, l) => do
    let _ ← allAssess o c.innerAssess p.tolPow g (quadA p.rows) l
    let lamb := if p.flag then lambBase else l
    let vals := p.store.map fun row => dot row lamb
    let rf ← writeBack1 (vals.map fun v _ => v) 0 forest
    pure (some (rf, lamb))

end SmoothRF
