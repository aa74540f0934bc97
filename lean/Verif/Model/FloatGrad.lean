import Verif.Model.FloatCost

/-!
# take_gradient and take_gradient_ce in double precision

`take_gradient` (smooth_base.py 762-810) and `take_gradient_ce` (812-863) with every operation rounded, on rows as `create_Gamma_eta_forest_more` stores
them in doubles (Model/FloatSmooth.lean). The order of the additions in the products with `lamb` and in the last product
with `grad_yhat` is not fixed by the code, so the summation is an argument.

Simplification: no fused multiply-add, no underflow and overflow (Model/Float.lean).
-/

namespace SmoothRF

/-- `eta_fill` after `eta_fill[eta_fill == 0] = 1` in doubles, smooth_base.py 797, 802. -/
def flEtaFill (sum : List ℚ → ℚ) {n : ℕ} (r : Row ℚ n) (lamb : Fin n → ℚ) : ℚ :=
  if flDot sum r.eta lamb = 0 then 1 else flDot sum r.eta lamb

/-- `-2 * residuals.T @ diags(weights)` in doubles, smooth_base.py 803, 808 (evaluated from the left). -/
def flGradLeft (sum : List ℚ → ℚ) {n : ℕ} (r : Row ℚ n) (lamb : Fin n → ℚ) : ℚ :=
  fl (fl (-2 * fl (r.y - fl (flDot sum r.gam lamb / flEtaFill sum r lamb))) * r.w)

/-- An entry of `grad_yhat` in doubles, smooth_base.py 805-806. -/
def flGradYhat (sum : List ℚ → ℚ) {n : ℕ} (r : Row ℚ n) (lamb : Fin n → ℚ) (j : Fin n) : ℚ :=
  let d := flEtaFill sum r lamb
  fl (fl (fl (1 / d) * r.gam j) - fl (fl (flDot sum r.gam lamb / fl (d * d)) * r.eta j))

/-- `take_gradient` in doubles, smooth_base.py 796-810. -/
def flTakeGradient (sum : List ℚ → ℚ) {n : ℕ} (rows : List (Row ℚ n)) (lamb : Fin n → ℚ) :
    Except PyErr (Fin n → ℚ) :=
  if flFillAssert sum rows lamb then
    .ok fun j => sum (rows.map fun r => fl (flGradLeft sum r lamb * flGradYhat sum r lamb j))
  else .error .assertionError

/-- `phat = Gamma_fill / eta_fill2` in doubles, smooth_base.py 855. -/
def flPHat (sum : List ℚ → ℚ) {n : ℕ} (r : Row ℚ n) (lamb : Fin n → ℚ) : ℚ :=
  fl (flDot sum r.gam lamb / flEtaFill sum r lamb)

/-- An entry of `left_npp = -weights*p / phat` in doubles, smooth_base.py 858. -/
def flCeLeft (sum : List ℚ → ℚ) {n : ℕ} (r : Row ℚ n) (lamb : Fin n → ℚ) : ℚ :=
  fl (fl (-r.w * r.y) / flPHat sum r lamb)

/-- An entry of `right_crazy` in doubles, smooth_base.py 859-860. The products with `np.diag(...)` add zeros to one
rounded product. -/
def flCeRight (sum : List ℚ → ℚ) {n : ℕ} (r : Row ℚ n) (lamb : Fin n → ℚ) (j : Fin n) : ℚ :=
  let d := flEtaFill sum r lamb
  fl (fl (fl (r.gam j * d) - fl (r.eta j * flDot sum r.gam lamb)) / fl (d * d))

/-- `take_gradient_ce` in doubles, smooth_base.py 848-863. A zero `phat` makes `-weights*p/phat` infinite or NaN. -/
def flTakeGradientCe (sum : List ℚ → ℚ) {n : ℕ} (rows : List (Row ℚ n)) (lamb : Fin n → ℚ) :
    Except PyErr (Fin n → ℚ) :=
  if flFillAssert sum rows lamb then
    if rows.any fun r => decide (flPHat sum r lamb = 0) then .error .nonFinite
    else .ok fun j => sum (rows.map fun r => fl (flCeRight sum r lamb j * flCeLeft sum r lamb))
  else .error .assertionError

end SmoothRF
