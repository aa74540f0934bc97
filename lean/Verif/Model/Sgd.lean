import Verif.Model.Prox
import Verif.Model.Cost

/-!
# Adam step and stochastic gradient descent

adam_sgd.py 11-70; smooth_base.py 1424-1698.

`np.sqrt` is a parameter `sqrt`. The random tree choices are the list `choices`; its length is
`num_steps`. Not modelled: progress bar, `np.int` (numpy < 1.24).
-/

namespace SmoothRF

variable {K : Type} [Field K] [LinearOrder K] {k : ℕ}

/-- The `adam` dictionary. -/
structure AdamOpts (K : Type) where
  alpha : K
  beta1 : K
  beta2 : K
  eps : K

/-- The `internal_values` dictionary: keys "t", "lamb", "1st moment", "2nd moment". -/
structure Iv (K : Type) (k : ℕ) where
  t : ℕ
  lamb : Fin k → K
  m1 : Fin k → K
  m2 : Fin k → K

/-- Body of `adam_step` after the dictionary is prepared, adam_sgd.py 57-69. A zero divisor or a
negative argument of `np.sqrt` gives a non-finite array. -/
def adamBody (sqrt : K → K) (gradFun : (Fin k → K) → Except PyErr (Fin k → K)) (o : AdamOpts K)
    (iv : Iv K k) : Except PyErr ((Fin k → K) × Iv K k) := do
  let t := iv.t + 1
  let grad ← gradFun iv.lamb
  let m1 := fun j => iv.m1 j * o.beta1 + (1 - o.beta1) * grad j
  let m2 := fun j => iv.m2 j * o.beta2 + (1 - o.beta1) * grad j ^ 2
  if 1 - o.beta1 ^ t = 0 ∨ 1 - o.beta2 ^ t = 0 then .error .nonFinite
  else
    let h1 := fun j => m1 j / (1 - o.beta1 ^ t)
    let h2 := fun j => m2 j / (1 - o.beta2 ^ t)
    if ∃ j, h2 j < 0 ∨ sqrt (h2 j) + o.eps = 0 then .error .nonFinite
    else
      let lamb := fun j => iv.lamb j - o.alpha * h1 j / (sqrt (h2 j) + o.eps)
      pure (lamb, ⟨t, lamb, m1, m2⟩)

/-- `adam_step`, adam_sgd.py 11-70. -/
def adamStep (sqrt : K → K) (gradFun : (Fin k → K) → Except PyErr (Fin k → K))
    (lambInit : Option (Fin k → K)) (o : AdamOpts K) (iv : Option (Iv K k)) :
    Except PyErr ((Fin k → K) × Iv K k) :=
  match iv, lambInit with
  | none, none => .error .nameError
  | none, some l => adamBody sqrt gradFun o ⟨0, l, fun _ => 0, fun _ => 0⟩
  | some iv, some l => adamBody sqrt gradFun o { iv with lamb := l }
  | some iv, none => adamBody sqrt gradFun o iv

/-- Arguments of `stocastic_grad_descent` other than data. -/
structure SgdOpts (K : Type) where
  tFix : K
  constrained : Bool
  adam : Option (AdamOpts K)

/-- Loop variables of `stocastic_grad_descent`. -/
structure SgdState (K : Type) (k : ℕ) where
  lamb : Fin k → K
  iv : Option (Iv K k)
  lambBest : Fin k → K
  costBest : K
  costAll : List K

/-- The gradient part of one loop iteration, smooth_base.py 1519-1540: rows of the chosen tree, then a
plain step or an Adam step. -/
def sgdPre (sqrt : K → K) (grad : List (Row K k) → (Fin k → K) → Except PyErr (Fin k → K))
    (o : SgdOpts K) (rows : List (Row K k)) (treeIdx : ℕ) (lamb : Fin k → K) (iv : Option (Iv K k)) :
    Except PyErr ((Fin k → K) × Option (Iv K k)) :=
  let inner := rows.filter fun r => r.tree == treeIdx
  match o.adam with
  | none => do
    let g ← grad inner lamb
    pure ((fun j => lamb j - o.tFix * g j), iv)
  | some a => do
    let (l, iv') ← adamStep sqrt (grad inner) (some lamb) a iv
    pure (l, some iv')

/-- The update of `lamb` (and `iv`) in one loop iteration, smooth_base.py 1519-1543. -/
def sgdMove (sqrt : K → K) (grad : List (Row K k) → (Fin k → K) → Except PyErr (Fin k → K))
    (prox : (Fin k → K) → Except PyErr (Fin k → K)) (o : SgdOpts K) (rows : List (Row K k))
    (treeIdx : ℕ) (lamb : Fin k → K) (iv : Option (Iv K k)) :
    Except PyErr ((Fin k → K) × Option (Iv K k)) := do
  let p ← sgdPre sqrt grad o rows treeIdx lamb iv
  if o.constrained then
    let l2 ← prox p.1
    pure (l2, p.2)
  else pure p

/-- One loop iteration, smooth_base.py 1515-1551. -/
def sgdStep (sqrt : K → K) (grad : List (Row K k) → (Fin k → K) → Except PyErr (Fin k → K))
    (cost : List (Row K k) → (Fin k → K) → Except PyErr K)
    (prox : (Fin k → K) → Except PyErr (Fin k → K)) (o : SgdOpts K) (rows : List (Row K k))
    (s : SgdState K k) (treeIdx : ℕ) : Except PyErr (SgdState K k) := do
  let (l, iv) ← sgdMove sqrt grad prox o rows treeIdx s.lamb s.iv
  let c ← cost rows l
  if c < s.costBest then
    pure ⟨l, iv, l, c, s.costAll ++ [c]⟩
  else
    pure ⟨l, iv, s.lambBest, s.costBest, s.costAll ++ [c]⟩

/-- Initialisation and loop shared by both descents, smooth_base.py 1495-1553 and 1640-1698:
`np.max` of an empty index vector raises ValueError. Returns (lamb_best, lamb, cost_all). -/
def sgdRun (sqrt : K → K) (grad : List (Row K k) → (Fin k → K) → Except PyErr (Fin k → K))
    (cost : List (Row K k) → (Fin k → K) → Except PyErr K)
    (prox : (Fin k → K) → Except PyErr (Fin k → K)) (o : SgdOpts K) (rows : List (Row K k))
    (lamb : Fin k → K) (choices : List ℕ) :
    Except PyErr ((Fin k → K) × (Fin k → K) × List K) := do
  let c0 ← cost rows lamb
  if rows.isEmpty then .error .valueError
  else
    let s ← choices.foldlM (sgdStep sqrt grad cost prox o rows) ⟨lamb, none, lamb, c0, [c0]⟩
    pure (s.lambBest, s.lamb, s.costAll)

/-- `stocastic_grad_descent`, smooth_base.py 1424-1553. `lamb_init` is a list because its length is
checked at run time. -/
def sgd (sqrt : K → K) (o : SgdOpts K) (rows : List (Row K k)) (lambInit : List K)
    (choices : List ℕ) : Except PyErr ((Fin k → K) × (Fin k → K) × List K) :=
  if h : lambInit.length = k then
    if o.constrained && (decide (lambInit.sum ≠ 1) || lambInit.any fun x => decide (x < 0)) then
      .error .typeError
    else
      sgdRun sqrt takeGradient calcCost proxProject o rows (fun j => lambInit[j]) choices
  else .error .typeError

/-- `stocastic_grad_descent_ce`, smooth_base.py 1557-1698. The feasibility test (1630-1638) is
`np.testing.assert_approx_equal` (parameter `approxOne`, returns None or raises) and a `raise
TypeError`, all inside `try … except: pdb.set_trace()`. -/
noncomputable def sgdCe {k : ℕ} (sqrt : ℝ → ℝ) (approxOne : ℝ → Bool) (o : SgdOpts ℝ) (classEps : ℝ)
    (rows : List (Row ℝ k)) (lambInit : List ℝ) (choices : List ℕ) :
    Except PyErr ((Fin k → ℝ) × (Fin k → ℝ) × List ℝ) :=
  if h : lambInit.length = k then
    if o.constrained ∧ (approxOne lambInit.sum = false ∨ ∃ x ∈ lambInit, x < 0) then
      .error .debugger
    else
      sgdRun sqrt takeGradientCe calcCostCe (proxProjectCe · classEps) o rows
        (fun j => lambInit[j]) choices
  else .error .typeError

end SmoothRF
