import Verif.Model.Prune

/-!
# `_append_oob_values` (tune_prune.py 442-507) and the numpy losses (smooth_pytorch.py 661-720)

The out-of-bag observations of the tree are given as rows: the nodes on the decision path and the
response. Without rows `decision_path` raises ValueError (sklearn rejects empty arrays).
-/

namespace SmoothRF

variable {K : Type} [Field K] [LinearOrder K] {C : ℕ}

/-- An out-of-bag observation of a tree: its row of `tree.decision_path(X_tune)` and its response. -/
structure OobRow (t : Topo) (Y : Type) where
  path : t.Node → Bool
  y : Y

/-- `n_oob`, tune_prune.py 471. -/
def oobCount {Y : Type} (t : Topo) (rows : List (OobRow t Y)) (i : t.Node) : ℕ :=
  (rows.filter fun r => r.path i).length

/-- Columns of `pd.get_dummies(y_tune)`, tune_prune.py 468: the classes that occur, in order. -/
def dummyCols (labels : List (Fin C)) : List (Fin C) :=
  (List.finRange C).filter fun c => c ∈ labels

/-- Classification entry, tune_prune.py 473-487: `oob_values[node, column_choice] / n_oob`, nan set to
0. The column index is the arg-max class code; out of range raises IndexError. -/
def oobErrCls (t : SkTree K C) (rows : List (OobRow t.toTopo (Fin C))) (i : t.Node) : Except PyErr K :=
  match (dummyCols (rows.map OobRow.y))[npArgmax (List.ofFn (t.value i))]? with
  | none => .error .indexError
  | some c =>
    .ok (if oobCount t.toTopo rows i = 0 then 0
      else ((rows.filter fun r => r.path i && r.y == c).length : K) / (oobCount t.toTopo rows i : K))

/-- Regression entry, tune_prune.py 495-501: squared differences on the path, zero elsewhere, averaged
over all out-of-bag rows (nan when there is none). -/
def oobErrReg (t : SkTree K 1) (rows : List (OobRow t.toTopo K)) (i : t.Node) : Except PyErr K :=
  if rows.length = 0 then .error .nonFinite
  else .ok ((rows.map fun r =>
      (if r.path i then (if r.path i then 1 else 0) * r.y - t.value i 0 else 0) ^ 2).sum /
    (rows.length : K))

/-- A row of the returned frame; `none` stands for the NaNs that `pd.concat` fills in. -/
structure OobOut (K : Type) (n : ℕ) where
  orig : Option (PRow K n)
  oob : Option (ℕ × K)

/-- `pd.concat((prune_df, new_df))` on axis 0, tune_prune.py 504-505: the rows of the second frame come
after those of the first. -/
def concatRows (t : Topo) (df : PDf K t) (nOob : t.Node → ℕ) (err : List K) :
    List (OobOut K (t.m + 1)) :=
  ((List.finRange (t.m + 1)).map fun i => { orig := some (df i), oob := none }) ++
  (List.finRange (t.m + 1)).map fun i => { orig := none, oob := some (nOob i, err.getD i 0) }

/-- `_append_oob_values` for a classifier. -/
def appendOobCls (t : SkTree K C) (df : PDf K t.toTopo) (rows : List (OobRow t.toTopo (Fin C))) :
    Except PyErr (List (OobOut K (t.m + 1))) :=
  if rows.isEmpty then .error .valueError
  else do
    let err ← (List.finRange (t.m + 1)).mapM (oobErrCls t rows)
    pure (concatRows t.toTopo df (oobCount t.toTopo rows) err)

/-- `_append_oob_values` for a regressor. -/
def appendOobReg (t : SkTree K 1) (df : PDf K t.toTopo) (rows : List (OobRow t.toTopo K)) :
    Except PyErr (List (OobOut K (t.m + 1))) :=
  if rows.isEmpty then .error .valueError
  else do
    let err ← (List.finRange (t.m + 1)).mapM (oobErrReg t rows)
    pure (concatRows t.toTopo df (oobCount t.toTopo rows) err)

/-! ### numpy losses -/

/-- `weighted_l2_np`, smooth_pytorch.py 680: rows `(y, y_pred, weight)`. A zero weight total gives nan
or inf. -/
def weightedL2Np (rows : List (K × K × K)) : Except PyErr K :=
  let total := (rows.map fun r => r.2.2).sum
  if total = 0 then .error .nonFinite
  else .ok ((rows.map fun r => r.2.2 * (r.1 - r.2.1) ^ 2).sum / total)

/-- `l2_np`, smooth_pytorch.py 700: the mean of an empty array is nan. -/
def l2Np (rows : List (K × K)) : Except PyErr K :=
  if rows.length = 0 then .error .nonFinite
  else .ok ((rows.map fun r => (r.1 - r.2) ^ 2).sum / (rows.length : K))

/-- `acc_np`, smooth_pytorch.py 719: the mean of the indicator `y == y_pred`. -/
def accNp {α : Type} [DecidableEq α] (rows : List (α × α)) : Except PyErr K :=
  if rows.length = 0 then .error .nonFinite
  else .ok ((rows.map fun r => if r.1 = r.2 then (1 : K) else 0).sum / (rows.length : K))

end SmoothRF
