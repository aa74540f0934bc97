import Verif.Model.Prune
import Verif.Model.Float

/-!
# The pruning table in double precision

`r_single_t`, `_initialize_prune_df`, `_append_g1` and `_inner_prune` of tune_prune.py with every operation rounded. The
table is that of Model/Prune.lean; the functions that only move entries (`recCut`, `pruneDown`) are used unchanged.
`R({t})` of a regression tree is the stored impurity. `sum` is the order in which `np.sum(values, axis = 2)` adds.
-/

namespace SmoothRF
open SkTree

variable {C : ℕ}

/-- Rounded division: 0/0 is NaN, x/0 is infinite. -/
def flDivR (a b : ℚ) : Fl ℚ := if b = 0 then (if a = 0 then .nan else .inf) else .fin (fl (a / b))

/-- `R(T_t)` from the two children, tune_prune.py 144-149, 542-547. -/
def flComb (rl nl rr nr n : ℚ) : ℚ := fl (fl (fl (rl * nl) + fl (rr * nr)) / n)

/-- `g1`, tune_prune.py 152-155, 398-399. -/
def flG1 (rOne rSub : ℚ) (size : ℕ) : Fl ℚ := flDivR (fl (rOne - rSub)) ((size : ℚ) - 1)

/-- `r_single_t` at a node in doubles, tune_prune.py 551-590. -/
def flRSingle (sum : List ℚ → ℚ) (kind : Kind) (t : SkTree ℚ C) (i : t.Node) : Except PyErr ℚ :=
  match kind with
  | .reg => .ok (t.impurity i)
  | .cls =>
    if t.nSamp i = 0 then .error .nonFinite
    else .ok (fl (sum (List.ofFn fun c : Fin C => if c.val = npArgmax (List.ofFn (t.value i)) then 0 else t.value i c) /
      t.nSamp i))

/-- `_recursive_initial_prune_df` in doubles, tune_prune.py 511-549. -/
def flRecInit (t : Topo) : ℕ → PDf ℚ t → t.Node → Except PyErr (PDf ℚ t)
  | 0, _, _ => .error .runtimeError
  | fuel + 1, df, i =>
    match (df i).cLeft, (df i).cRight with
    | .leaf, _ => .ok (Function.update df i { df i with size := 1 })
    | .node l, .node r => do
      let df ← flRecInit t fuel df l
      let df ← flRecInit t fuel df r
      if (df i).nObs = 0 then .error .nonFinite
      else
        pure (Function.update df i { df i with
          size := (df l).size + (df r).size
          rSub := flComb (df l).rSub (df l).nObs (df r).rSub (df r).nObs (df i).nObs })
    | _, _ => .error .typeError

/-- `_append_g1` in doubles, tune_prune.py 398-399. -/
def flAppendG1 (t : Topo) (df : PDf ℚ t) : PDf ℚ t := fun i =>
  { df i with g1 := flG1 (df i).rOne (df i).rSub (df i).size }

/-- `_initialize_prune_df` in doubles, tune_prune.py 225-290, given the array `r_single_t(tree)`. -/
def flInitDfOf (t : SkTree ℚ C) (r : t.Node → ℚ) : Except PyErr (PDf ℚ t.toTopo) := do
  let df ← flRecInit t.toTopo (t.m + 1) (rawDf t r) 0
  pure (flAppendG1 t.toTopo df)

/-- `_initialize_prune_df` in doubles, tune_prune.py 225-290. -/
def flInitDf (sum : List ℚ → ℚ) (kind : Kind) (t : SkTree ℚ C) : Except PyErr (PDf ℚ t.toTopo) := do
  let r ← (List.finRange (t.m + 1)).mapM (flRSingle sum kind t)
  flInitDfOf t fun i => r.getD i 0

/-- One pass of the loop of `_inner_prune_update_upward` in doubles, tune_prune.py 140-155. -/
def flUpStep (t : Topo) (df : PDf ℚ t) (i : t.Node) : Except PyErr (PDf ℚ t) :=
  match (df i).cLeft, (df i).cRight with
  | .node l, .node r =>
    let size := (df l).size + (df r).size
    if (df i).nObs = 0 then .error .nonFinite
    else
      let rSub := flComb (df l).rSub (df l).nObs (df r).rSub (df r).nObs (df i).nObs
      .ok (Function.update df i { df i with size := size, rSub := rSub, g1 := flG1 (df i).rOne rSub size })
  | _, _ => .error .indexError

/-- The loop of `_inner_prune_update_upward` in doubles, tune_prune.py 134-165. -/
def flUpLoop (t : Topo) : ℕ → PDf ℚ t → t.Node → Except PyErr (PDf ℚ t)
  | 0, _, _ => .error .runtimeError
  | fuel + 1, df, i => do
    let df ← flUpStep t df i
    match (df i).parent with
    | none => pure df
    | some p => flUpLoop t fuel df p

/-- `_inner_prune_update_upward` in doubles, tune_prune.py 110-167. -/
def flPruneUp (t : Topo) (df : PDf ℚ t) (i : t.Node) : Except PyErr (PDf ℚ t) :=
  match (df i).parent with
  | none => .ok df
  | some p => flUpLoop t (t.m + 1) df p

/-- `_inner_prune` in doubles, tune_prune.py 79-108. -/
def flInnerPrune (t : Topo) (df : PDf ℚ t) (idx : ℕ) : Except PyErr (PDf ℚ t) :=
  if h : idx < t.m + 1 then
    match (df ⟨idx, h⟩).cLeft with
    | .node _ => do
      let out ← pruneDown t df ⟨idx, h⟩
      flPruneUp t out ⟨idx, h⟩
    | _ => .error .valueError
  else .error .indexError

/-- A sequence of `_inner_prune` calls in doubles. -/
def flPruneMany (t : Topo) (df : PDf ℚ t) (ops : List ℕ) : Except PyErr (PDf ℚ t) :=
  ops.foldlM (flInnerPrune t) df

end SmoothRF
