import Verif.Model.FloatGrad
import Verif.Model.FloatProx
import Verif.Model.Sgd

/-!
# stocastic_grad_descent in double precision

`adam_step` (adam_sgd.py 46-70) and `stocastic_grad_descent` (smooth_base.py 1490-1553) with every operation rounded; the
exact version is `sgd` of Model/Sgd.lean. Python's `**` and `np.sqrt` are arguments `pow`, `sqrt`; the order of the
additions in matrix products is the argument `sum`.
-/

namespace SmoothRF

variable {n : ℕ}

/-- Body of `adam_step` in doubles, adam_sgd.py 57-69. -/
def flAdamBody (pow : ℚ → ℕ → ℚ) (sqrt : ℚ → ℚ) (gradFun : (Fin n → ℚ) → Except PyErr (Fin n → ℚ))
    (o : AdamOpts ℚ) (iv : Iv ℚ n) : Except PyErr ((Fin n → ℚ) × Iv ℚ n) := do
  let t := iv.t + 1
  let grad ← gradFun iv.lamb
  let m1 := fun j => fl (fl (iv.m1 j * o.beta1) + fl (fl (1 - o.beta1) * grad j))
  let m2 := fun j => fl (fl (iv.m2 j * o.beta2) + fl (fl (1 - o.beta1) * fl (grad j * grad j)))
  let d1 := fl (1 - pow o.beta1 t)
  let d2 := fl (1 - pow o.beta2 t)
  if d1 = 0 ∨ d2 = 0 then .error .nonFinite
  else
    let h1 := fun j => fl (m1 j / d1)
    let h2 := fun j => fl (m2 j / d2)
    if ∃ j, h2 j < 0 ∨ fl (sqrt (h2 j) + o.eps) = 0 then .error .nonFinite
    else
      let lamb := fun j => fl (iv.lamb j - fl (fl (o.alpha * h1 j) / fl (sqrt (h2 j) + o.eps)))
      pure (lamb, ⟨t, lamb, m1, m2⟩)

/-- `adam_step` in doubles with `lamb_init` given, adam_sgd.py 46-70. -/
def flAdamStep (pow : ℚ → ℕ → ℚ) (sqrt : ℚ → ℚ) (gradFun : (Fin n → ℚ) → Except PyErr (Fin n → ℚ))
    (lamb : Fin n → ℚ) (o : AdamOpts ℚ) (iv : Option (Iv ℚ n)) : Except PyErr ((Fin n → ℚ) × Iv ℚ n) :=
  match iv with
  | none => flAdamBody pow sqrt gradFun o ⟨0, lamb, fun _ => 0, fun _ => 0⟩
  | some iv => flAdamBody pow sqrt gradFun o { iv with lamb := lamb }

/-- The step before the projection in doubles, smooth_base.py 1519-1540. -/
def flSgdPre (sum : List ℚ → ℚ) (pow : ℚ → ℕ → ℚ) (sqrt : ℚ → ℚ) (o : SgdOpts ℚ) (rows : List (Row ℚ n))
    (treeIdx : ℕ) (lamb : Fin n → ℚ) (iv : Option (Iv ℚ n)) : Except PyErr ((Fin n → ℚ) × Option (Iv ℚ n)) :=
  let inner := rows.filter fun r => r.tree == treeIdx
  match o.adam with
  | none => do
    let g ← flTakeGradient sum inner lamb
    pure ((fun j => fl (lamb j - fl (o.tFix * g j))), iv)
  | some a => do
    let (l, iv') ← flAdamStep pow sqrt (flTakeGradient sum inner) lamb a iv
    pure (l, some iv')

/-- The new `lamb` of one iteration in doubles, smooth_base.py 1519-1543. -/
def flSgdMove (sum : List ℚ → ℚ) (pow : ℚ → ℕ → ℚ) (sqrt : ℚ → ℚ) (o : SgdOpts ℚ) (rows : List (Row ℚ n))
    (treeIdx : ℕ) (lamb : Fin n → ℚ) (iv : Option (Iv ℚ n)) :
    Except PyErr ((Fin n → ℚ) × Option (Iv ℚ n)) := do
  let p ← flSgdPre sum pow sqrt o rows treeIdx lamb iv
  if o.constrained then
    let l2 ← flProxProject p.1
    pure (l2, p.2)
  else pure p

/-- One loop iteration in doubles, smooth_base.py 1515-1551. -/
def flSgdStep (sum : List ℚ → ℚ) (pow : ℚ → ℕ → ℚ) (sqrt : ℚ → ℚ) (o : SgdOpts ℚ) (rows : List (Row ℚ n))
    (s : SgdState ℚ n) (treeIdx : ℕ) : Except PyErr (SgdState ℚ n) := do
  let (l, iv) ← flSgdMove sum pow sqrt o rows treeIdx s.lamb s.iv
  let c ← flCalcCost sum rows l
  if c < s.costBest then
    pure ⟨l, iv, l, c, s.costAll ++ [c]⟩
  else
    pure ⟨l, iv, s.lambBest, s.costBest, s.costAll ++ [c]⟩

/-- `stocastic_grad_descent` in doubles after the checks of its arguments, smooth_base.py 1506-1553. -/
def flSgdRun (sum : List ℚ → ℚ) (pow : ℚ → ℕ → ℚ) (sqrt : ℚ → ℚ) (o : SgdOpts ℚ) (rows : List (Row ℚ n))
    (lamb : Fin n → ℚ) (choices : List ℕ) : Except PyErr ((Fin n → ℚ) × (Fin n → ℚ) × List ℚ) := do
  let c0 ← flCalcCost sum rows lamb
  if rows.isEmpty then .error .valueError
  else
    let s ← choices.foldlM (flSgdStep sum pow sqrt o rows) ⟨lamb, none, lamb, c0, [c0]⟩
    pure (s.lambBest, s.lamb, s.costAll)

end SmoothRF
