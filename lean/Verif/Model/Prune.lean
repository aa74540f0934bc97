import Verif.Model.Gamma
import Verif.Model.DepthTune

/-!
# tune_prune.py

The pruning table: `r_single_t`, `_initialize_prune_df`, `_append_g1`, `_inner_prune` and its helpers,
`prune_tree`. The data frame's row labels are the node numbers, so label and mask access coincide.
Recursions and the upward loop carry fuel; running out is RuntimeError (Python's RecursionError).
`_append_oob_values` is in `Model/Oob.lean`.
-/

namespace SmoothRF
open SkTree

/-- An entry of `c_left` / `c_right`: -1, -2 or a node number. -/
inductive CId (n : ℕ)
  | leaf
  | pruned
  | node (j : Fin n)
  deriving DecidableEq

/-- A float: finite, NaN or infinite. -/
inductive Fl (K : Type)
  | fin (x : K)
  | nan
  | inf
  deriving DecidableEq

variable {K : Type} [Field K] [LinearOrder K] {C : ℕ}

/-- Float division: 0/0 is NaN, x/0 is infinite. -/
def flDiv (a b : K) : Fl K :=
  if b = 0 then (if a = 0 then .nan else .inf) else .fin (a / b)

/-- One row of `prune_df`; the columns of tune_prune.py 239-263. -/
structure PRow (K : Type) (n : ℕ) where
  rOne : K
  rSub : K
  cLeft : CId n
  cRight : CId n
  size : ℕ
  parent : Option (Fin n)
  nObs : K
  g1 : Fl K

/-- `prune_df`, one row per node. -/
abbrev PDf (K : Type) (t : Topo) := t.Node → PRow K (t.m + 1)

/-- `values.argmax(axis=2)` entry set to 0, then the row sum, tune_prune.py 578-583. -/
def misclassified (v : Fin C → K) : K :=
  ∑ c, if c.val = npArgmax (List.ofFn v) then 0 else v c

/-- `r_single_t` at a node, tune_prune.py 551-590. `nSamp = 0` divides by zero. -/
def rSingle (kind : Kind) (t : SkTree K C) (i : t.Node) : Except PyErr K :=
  match kind with
  | .reg => .ok (t.impurity i)
  | .cls => if t.nSamp i = 0 then .error .nonFinite else .ok (misclassified (t.value i) / t.nSamp i)

/-- A child array entry. -/
def CId.ofChild {n : ℕ} : Option (Fin n) → CId n
  | none => .leaf
  | some j => .node j

/-- `_recursive_initial_prune_df`, tune_prune.py 511-549. -/
def recInit (t : Topo) : ℕ → PDf K t → t.Node → Except PyErr (PDf K t)
  | 0, _, _ => .error .runtimeError
  | fuel + 1, df, i =>
    match (df i).cLeft, (df i).cRight with
    | .leaf, _ => .ok (Function.update df i { df i with size := 1 })
    | .node l, .node r => do
      let df ← recInit t fuel df l
      let df ← recInit t fuel df r
      if (df i).nObs = 0 then .error .nonFinite
      else
        pure (Function.update df i { df i with
          size := (df l).size + (df r).size
          rSub := ((df l).rSub * (df l).nObs + (df r).rSub * (df r).nObs) / (df i).nObs })
    | _, _ => .error .typeError

/-- `_append_g1` on a frame without that column, tune_prune.py 398-399. -/
def appendG1 (t : Topo) (df : PDf K t) : PDf K t := fun i =>
  { df i with g1 := flDiv ((df i).rOne - (df i).rSub) (((df i).size : K) - 1) }

/-- The frame before the recursion, tune_prune.py 266-284. The column `g1` does not exist yet (NaN
here; it is overwritten by `appendG1`). -/
def rawDf (t : SkTree K C) (r : t.Node → K) : PDf K t.toTopo := fun i =>
  { rOne := r i, rSub := r i, cLeft := .ofChild (t.left i), cRight := .ofChild (t.right i)
    size := 0, parent := t.calcParent i, nObs := t.nSamp i, g1 := .nan }

/-- `_initialize_prune_df`, tune_prune.py 225-290, given the array `r_single_t(tree)`. -/
def initDfOf (t : SkTree K C) (r : t.Node → K) : Except PyErr (PDf K t.toTopo) := do
  let df ← recInit t.toTopo (t.m + 1) (rawDf t r) 0
  pure (appendG1 t.toTopo df)

/-- `r_single_t`, tune_prune.py 551-590. -/
def rSingleAll (kind : Kind) (t : SkTree K C) : Except PyErr (List K) :=
  (List.finRange (t.m + 1)).mapM (rSingle kind t)

/-- `_initialize_prune_df`, tune_prune.py 225-290. -/
def initDf (kind : Kind) (t : SkTree K C) : Except PyErr (PDf K t.toTopo) := do
  let r ← rSingleAll kind t
  initDfOf t fun i => r.getD i 0

/-- The row of a node that is cut away, tune_prune.py 216-221. -/
def cutRow {n : ℕ} (r : PRow K n) (rOne : K) : PRow K n :=
  { r with size := 0, rSub := rOne, cLeft := .pruned, cRight := .pruned, g1 := .nan }

/-- `_recursive_inner_prune`, tune_prune.py 210-223: reads `prune_df`, writes `out_df`. A child id that
is not a node number selects no row, so recursing into it changes nothing. -/
def recCut (t : Topo) (df : PDf K t) : ℕ → PDf K t → t.Node → Except PyErr (PDf K t)
  | 0, _, _ => .error .runtimeError
  | fuel + 1, out, i => do
    let out ← match (df i).cLeft with
      | .node l => recCut t df fuel out l
      | _ => pure out
    let out ← match (df i).cLeft, (df i).cRight with
      | .leaf, _ => pure out
      | _, .node r => recCut t df fuel out r
      | _, _ => pure out
    pure (Function.update out i (cutRow (out i) (df i).rOne))

/-- `_inner_prune_down`, tune_prune.py 169-207. -/
def pruneDown (t : Topo) (df : PDf K t) (i : t.Node) : Except PyErr (PDf K t) := do
  let out := Function.update df i
    { df i with size := 1, rSub := (df i).rOne, cLeft := .leaf, cRight := .leaf }
  let out ← match (df i).cLeft with
    | .node l => recCut t df (t.m + 1) out l
    | _ => pure out
  match (df i).cLeft, (df i).cRight with
  | .leaf, _ => pure out
  | _, .node r => recCut t df (t.m + 1) out r
  | _, _ => pure out

/-- One pass of the loop of `_inner_prune_update_upward`, tune_prune.py 140-155. -/
def upStep (t : Topo) (df : PDf K t) (i : t.Node) : Except PyErr (PDf K t) :=
  match (df i).cLeft, (df i).cRight with
  | .node l, .node r =>
    let size := (df l).size + (df r).size
    if (df i).nObs = 0 then .error .nonFinite
    else
      let rSub := ((df l).rSub * (df l).nObs + (df r).rSub * (df r).nObs) / (df i).nObs
      .ok (Function.update df i { df i with
        size := size, rSub := rSub, g1 := flDiv ((df i).rOne - rSub) ((size : K) - 1) })
  | _, _ => .error .indexError

/-- The loop of `_inner_prune_update_upward`, tune_prune.py 134-165. -/
def upLoop (t : Topo) : ℕ → PDf K t → t.Node → Except PyErr (PDf K t)
  | 0, _, _ => .error .runtimeError
  | fuel + 1, df, i => do
    let df ← upStep t df i
    match (df i).parent with
    | none => pure df
    | some p => upLoop t fuel df p

/-- `_inner_prune_update_upward`, tune_prune.py 110-167. -/
def pruneUp (t : Topo) (df : PDf K t) (i : t.Node) : Except PyErr (PDf K t) :=
  match (df i).parent with
  | none => .ok df
  | some p => upLoop t (t.m + 1) df p

/-- `_inner_prune`, tune_prune.py 79-108. A node number outside the table raises IndexError. -/
def innerPrune (t : Topo) (df : PDf K t) (idx : ℕ) : Except PyErr (PDf K t) :=
  if h : idx < t.m + 1 then
    match (df ⟨idx, h⟩).cLeft with
    | .node _ => do
      let out ← pruneDown t df ⟨idx, h⟩
      pruneUp t out ⟨idx, h⟩
    | _ => .error .valueError
  else .error .indexError

/-- A sequence of `_inner_prune` calls. -/
def pruneMany (t : Topo) (df : PDf K t) (ops : List ℕ) : Except PyErr (PDf K t) :=
  ops.foldlM (innerPrune t) df

/-- `prune_tree`, tune_prune.py 60-76: the returned name is never assigned. -/
def pruneTree (kind : Kind) (t : SkTree K C) : Except PyErr (PDf K t.toTopo) := do
  let _ ← initDf kind t
  .error .nameError

end SmoothRF
