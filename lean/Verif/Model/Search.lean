import Verif.Model.Py
import Mathlib.Algebra.Order.Field.Basic

/-!
# The two out-of-bag parameter searches

`depth_search` (main/1.2-compare_depth_vs_smooth.py 15-62) and `node_size_search` (82-129). The two
bodies differ only in the name of the forest parameter that the loop variable sets.

Simplification: fitting a forest is an oracle. One iteration is given by the setting and by the
`oob_score_` of the forest fitted in that iteration (it is random, so it is not a function of the
setting). `inf` is `none`.
-/

namespace SmoothRF

variable {K : Type} [Field K] [LinearOrder K] {σ : Type}

/-- What the loop carries: best setting with its score (both `np.inf` at first), `oob_cost`. -/
structure SearchState (K σ : Type) where
  best : Option (σ × K)
  cost : List K

/-- Loop body, 1.2-compare 43-60 and 110-127. -/
def searchStep (st : SearchState K σ) (run : σ × K) : SearchState K σ :=
  let oobScore := 1 - run.2
  { cost := st.cost ++ [oobScore]
    best := match st.best with
      | none => some (run.1, oobScore)
      | some b => if oobScore < b.2 then some (run.1, oobScore) else some b }

/-- One iteration including the call `model(...)`. -/
def searchIter (known : Bool) (st : SearchState K σ) (run : σ × K) : Except PyErr (SearchState K σ) :=
  if known then .ok (searchStep st run) else .error .unboundLocalError

/-- The functions; `known` says that `type` is "reg" or "class". For another `type` the exception
object is built but not raised (line 26), so `model` is unbound in the first iteration. Returns
best setting with best score, `oob_cost`, and the range. -/
def gridSearch (known : Bool) (runs : List (σ × K)) :
    Except PyErr (Option (σ × K) × List K × List σ) := do
  let st ← runs.foldlM (searchIter known) ⟨none, []⟩
  pure (st.best, st.cost, runs.map (·.1))

end SmoothRF
