import Verif.Model.Sgd
import Verif.Model.Smooth

/-!
# prox_project_ce without its `assert False`

`python -O` removes assertions, so smooth_base.py 192-216, which follow the `assert False` of line 189, are
executed. These statements and `stocastic_grad_descent_ce` calling them; `np.testing.assert_approx_equal` is a
function call and stays. The remaining assertions are kept in the model: where they hold, removing them changes
nothing.
-/

namespace SmoothRF

variable {K : Type} [Field K] [LinearOrder K]

/-- The loop over `idx`, smooth_base.py 192-207: `idx`, `tmpsum` and the rest `s[idx:]` of the sorted vector, which has
`m` entries. The last entry is only read after the loop; an empty vector has no `s[m-1]`. -/
def ceTmax (m : ℕ) : ℕ → K → List K → Except PyErr K
  | _, _, [] => .error .indexError
  | _, tmpsum, [x] => .ok ((tmpsum + x - 1) / (m : K))
  | idx, tmpsum, x :: y :: rest =>
    let tmpsum' := tmpsum + x
    let tmax := (tmpsum' - 1) / ((idx + 1 : ℕ) : K)
    if y ≤ tmax then .ok tmax else ceTmax m (idx + 1) tmpsum' (y :: rest)

/-- `(y-tmax)*(y-tmax > 0)`, smooth_base.py 209. -/
def ceClip {n : ℕ} (y : Fin n → K) (tmax : K) : Fin n → K := fun i =>
  (y i - tmax) * if 0 < y i - tmax then 1 else 0

/-- `prox_project_ce` after the assertion, smooth_base.py 192-216. -/
def proxProjectCeOpt {n : ℕ} (y : Fin n → K) (classEps : K) : Except PyErr (Fin n → K) := do
  let tmax ← ceTmax n 0 0 (sortDesc y)
  let yProx := ceClip y tmax
  let yProx ← normalise fun i => yProx i + 1 * classEps / (n : K)
  normalise yProx

/-- `stocastic_grad_descent_ce`, smooth_base.py 1557-1698, under `python -O`. -/
noncomputable def sgdCeOpt {k : ℕ} (sqrt : ℝ → ℝ) (approxOne : ℝ → Bool) (o : SgdOpts ℝ) (classEps : ℝ)
    (rows : List (Row ℝ k)) (lambInit : List ℝ) (choices : List ℕ) :
    Except PyErr ((Fin k → ℝ) × (Fin k → ℝ) × List ℝ) :=
  if h : lambInit.length = k then
    if o.constrained ∧ (approxOne lambInit.sum = false ∨ ∃ x ∈ lambInit, x < 0) then
      .error .debugger
    else
      sgdRun sqrt takeGradientCe calcCostCe (proxProjectCeOpt · classEps) o rows
        (fun j => lambInit[j]) choices
  else .error .typeError

end SmoothRF
