import Verif.Model.Py
import Mathlib.Algebra.Order.Field.Basic
import Mathlib.Algebra.BigOperators.Fin
import Mathlib.Analysis.SpecialFunctions.Log.Basic

/-!
# Losses and gradients

smooth_base.py 762-863, 956-1054. The aligned arrays `y`, `weights`, `Gamma`, `eta`,
`tree_idx_vec` are one list of rows (broadcasting errors from misaligned arrays are not modelled).
-/

namespace SmoothRF

/-- One row (leaf, or leaf and class) of the aligned optimisation arrays. -/
structure Row (K : Type) (k : ℕ) where
  y : K
  w : K
  gam : Fin k → K
  eta : Fin k → K
  tree : ℕ

variable {K : Type} [Field K] [LinearOrder K] {k : ℕ}

/-- One entry of a matrix-vector product `M @ lamb`. -/
def dot (a lamb : Fin k → K) : K := ∑ i, a i * lamb i

/-- `eta_fill[eta_fill == 0] = 1`, smooth_base.py 802, 993. -/
def etaFill (r : Row K k) (lamb : Fin k → K) : K :=
  if dot r.eta lamb = 0 then 1 else dot r.eta lamb

/-- `assert np.all(Gamma_fill[eta_fill == 0] == 0)`, smooth_base.py 799, 990. -/
def fillAssert (rows : List (Row K k)) (lamb : Fin k → K) : Bool :=
  rows.all fun r => !decide (dot r.eta lamb = 0) || decide (dot r.gam lamb = 0)

/-- `residuals = y - Gamma_fill / eta_fill`, smooth_base.py 803, 995. -/
def residual (r : Row K k) (lamb : Fin k → K) : K := r.y - dot r.gam lamb / etaFill r lamb

/-- `take_gradient`, smooth_base.py 762-810. -/
def takeGradient (rows : List (Row K k)) (lamb : Fin k → K) : Except PyErr (Fin k → K) :=
  if fillAssert rows lamb then
    .ok fun j => (rows.map fun r =>
      -2 * residual r lamb * r.w *
        (1 / etaFill r lamb * r.gam j - dot r.gam lamb / etaFill r lamb ^ 2 * r.eta j)).sum
  else .error .assertionError

/-- `calc_cost`, smooth_base.py 956-997. -/
def calcCost (rows : List (Row K k)) (lamb : Fin k → K) : Except PyErr K :=
  if fillAssert rows lamb then
    .ok (rows.map fun r => residual r lamb ^ 2 * r.w).sum
  else .error .assertionError

/-- `phat = Gamma_fill / eta_fill`, smooth_base.py 855, 1048. -/
def pHat (r : Row K k) (lamb : Fin k → K) : K := dot r.gam lamb / etaFill r lamb

/-- `take_gradient_ce`, smooth_base.py 812-863 (`p` is the field `y`). `eta_fill2 = eta_fill` is an
alias, so the zero replacement affects both. A zero `phat` makes `-weights*p/phat` infinite or NaN. -/
def takeGradientCe (rows : List (Row K k)) (lamb : Fin k → K) : Except PyErr (Fin k → K) :=
  if fillAssert rows lamb then
    if rows.any fun r => decide (pHat r lamb = 0) then .error .nonFinite
    else .ok fun j => (rows.map fun r =>
      (r.gam j * etaFill r lamb - r.eta j * dot r.gam lamb) / etaFill r lamb ^ 2 *
        (-r.w * r.y / pHat r lamb)).sum
  else .error .assertionError

/-- `calc_cost_ce`, smooth_base.py 999-1054. The assertions sit in `try … except: pdb.set_trace()`.
Rows with zero weight or zero `p` are skipped; `log` of a non-positive used entry is -inf or NaN. -/
noncomputable def calcCostCe {k : ℕ} (rows : List (Row ℝ k)) (lamb : Fin k → ℝ) : Except PyErr ℝ :=
  if (∀ r ∈ rows, ∀ j, 0 ≤ r.gam j) ∧ (∀ j, 0 ≤ lamb j) then
    let used := rows.filter fun r => !decide (r.w = 0) && !decide (r.y = 0)
    if ∃ r ∈ used, pHat r lamb ≤ 0 then .error .nonFinite
    else .ok (-(used.map fun r => r.w * r.y * Real.log (pHat r lamb)).sum)
  else .error .debugger

end SmoothRF
