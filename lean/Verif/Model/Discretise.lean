import Verif.Model.Py
import Verif.Model.Tree
import Mathlib.Data.List.Sort
import Mathlib.Order.WithBot
import Mathlib.Algebra.Order.Field.Basic

/-! Discretisation of impurity distances, smooth_base.py 426-462 (array `levels`). -/

namespace SmoothRF

variable {K : Type} [Field K] [LinearOrder K]

/-- Floats extended with `-inf` and `inf`. -/
abbrev Ext (K : Type) := WithBot (WithTop K)

/-- The embedding of finite floats. -/
def fin (x : K) : Ext K := ((x : WithTop K) : WithBot (WithTop K))

/-- All positive entries of the matrix, `out[out > 0]`. -/
def positives {n : ℕ} (out : Fin n → Fin n → K) : List K :=
  ((List.finRange n).flatMap fun i => (List.finRange n).map fun j => out i j).filter (0 < ·)

/-- `sorted(list(set(breaks).union({0})))`, smooth_base.py 444. -/
def sortedSet (levels : List K) : List K :=
  ((0 :: levels).dedup).insertionSort (· ≤ ·)

/-- `breaks[breaks.shape[0]-1] = np.inf; breaks[0] = -np.inf`, smooth_base.py 445-446. -/
def withInf (b : List K) : List (Ext K) :=
  ((b.map fin).set (b.length - 1) (((⊤ : WithTop K)) : Ext K)).set 0 ⊥

/-- `pd.cut(x, bins, labels=False)` for a finite `x` and increasing bins from `-inf` to `inf`:
right-closed intervals, `searchsorted(bins, x, side="left") - 1`; smooth_base.py 457-458. -/
def cutLevel (breaks : List (Ext K)) (x : K) : ℕ :=
  (breaks.filter (fun b => b < fin x)).length - 1

/-- Break vector used for the cut, smooth_base.py 441-455. `np.min` of an empty array raises
ValueError; `breaks[which_zero + 1]` out of range raises IndexError. -/
def mkBreaks (levels : List K) (pos : List K) : Except PyErr (List (Ext K)) :=
  match pos with
  | [] => .error .valueError
  | p :: ps =>
    let upperZero := min (ps.foldl min p) 2 / 2
    let breaks := withInf (sortedSet levels)
    let whichZero := if fin 0 ∈ breaks then breaks.idxOf (fin 0) else breaks.idxOf ⊥
    match breaks[whichZero + 1]? with
    | none => .error .indexError
    | some nxt =>
      .ok (if fin upperZero < nxt then
            breaks.take (whichZero + 1) ++ [fin upperZero] ++ breaks.drop (whichZero + 1)
          else breaks)

/-- The discretised distance matrix and `expected_levels`, smooth_base.py 438-462. -/
def discretise {n : ℕ} (levels : List K) (out : Fin n → Fin n → K) :
    Except PyErr ((Fin n → Fin n → ℕ) × ℕ) := do
  let breaks ← mkBreaks levels (positives out)
  pure (fun i j => cutLevel breaks (out i j), breaks.length)

end SmoothRF
