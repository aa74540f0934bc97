import Verif.Model.Data
import Verif.Model.Grow

/-!
# Helpers of the scripts in main_old/

`average_depth` (understanding_smoothing_moons.py 25-56; the same in the other understanding_smoothing
scripts), `cleanup` with the `str.split` behind it (prelim_examination_splice.py 26-34),
`regression_prep` (prelim_examination_splice.py 62-103, the same in all prelim_examination scripts),
`depth_error_vis` (same file 105-136), the data preparation of prelim_examination_spiral.py 131-135 and of
prelim_examination_splice.py 21-39, 156-160, and the names used at the top of prelim_examination.py 31-52.

Simplifications.
* `decision_path` of scikit-learn marks the nodes from the root to the leaf reached; its rows are those of
  `create_decision_per_leafs` (C05).
* Fitting and scoring are oracles.
* `repr` of a one-character string is modelled for printable characters.
* A data frame is a list of named columns without an index.
-/

namespace SmoothRF
open SkTree

variable {K : Type} [Field K] [LinearOrder K] {C : ℕ}

/-! ### average_depth -/

/-- `np.array(d_path.sum(axis = 1)).ravel()` at one row that reaches leaf number `l`. -/
def pathCount (t : SkTree K C) (l : ℕ) : ℕ :=
  if h : l < t.nLeaves then ∑ j, t.decisionLeaf ⟨l, h⟩ j else 0

/-- `average_depth`, understanding_smoothing_moons.py 45-56, at one row; 0/0 for an empty forest. -/
def averageDepth (forest : List (SkTree K C)) (leaf : ℕ → ℕ) : Except PyErr K :=
  if forest.length = 0 then .error .nonFinite
  else .ok ((forest.zipIdx.foldl (fun d tt => d + (pathCount tt.1 (leaf tt.2) : K)) 0) / (forest.length : K))

/-! ### cleanup -/

/-- `repr` of the string of one printable character. -/
def reprChar (c : Char) : List Char :=
  if c = '\'' then ['"', '\'', '"']
  else if c = '\\' then ['\'', '\\', '\\', '\'']
  else ['\'', c, '\'']

/-- The elements of `str([x for x in g])` with their separators. -/
def joinRepr : List Char → List Char
  | [] => []
  | [c] => reprChar c
  | c :: cs => reprChar c ++ [',', ' '] ++ joinRepr cs

/-- `str.replace(x, "")` for a one-character `x`. -/
def removeChar (x : Char) (g : List Char) : List Char := g.filter fun c => decide (c ≠ x)

/-- `cleanup`, prelim_examination_splice.py 26-32. -/
def cleanup (s : List Char) : List Char :=
  let g := removeChar ' ' s
  let g := ['['] ++ joinRepr g ++ [']']
  removeChar '\'' (removeChar '[' (removeChar ']' g))

/-- `.str.split(", ")`, prelim_examination_splice.py 34. -/
def splitComma : List Char → List (List Char)
  | [] => [[]]
  | ',' :: ' ' :: rest => [] :: splitComma rest
  | c :: rest => match splitComma rest with
    | [] => [[c]]
    | w :: ws => (c :: w) :: ws

/-! ### regression_prep, depth_error_vis -/

/-- `regression_prep`, prelim_examination_splice.py 62-103; `score kind d i` is the score of the forest
fitted at step `i` with `max_depth = d`. -/
def regressionPrep {D : Type} (score : Kind → D → ℕ → Except PyErr K) (regOrClass : String) (depths : List D) :
    Except PyErr (List K) := do
  let kind ← if regOrClass = "reg" then .ok Kind.reg else if regOrClass = "class" then .ok Kind.cls
    else .error .valueError
  depths.zipIdx.mapM fun di => score kind di.1 di.2

/-- `depth_error_vis`, prelim_examination_splice.py 105-136. `cols[d]` are the `nSim` simulations at
position `d`. -/
def depthErrorVisOld (sqrt : K → K) (nSim : ℕ) (cols : List (List K)) (idxRange : Option (List K)) :
    Except PyErr (List (VisRow K)) :=
  let idx := idxRange.getD ((List.range cols.length).map fun i : ℕ => (i : K))
  if idx.length ≠ cols.length then .error .valueError
  else if nSim = 0 then .error .nonFinite
  else .ok (List.zipWith (fun l x =>
    ({ mu := rowMean l, lower := rowMean l + rowStd sqrt l / sqrt (nSim : K)
       upper := rowMean l - rowStd sqrt l / sqrt (nSim : K), idx := x, model := 0 } : VisRow K)) cols idx)

/-! ### Data preparation -/

/-- Named columns. -/
abbrev Frame (V : Type) := List (String × List V)

/-- `f[name]`. -/
def Frame.col {V : Type} (f : Frame V) (name : String) : Except PyErr (List V) :=
  match f.lookup name with
  | some c => .ok c
  | none => .error .keyError

/-- `f.drop(columns = names)`: a new frame. -/
def Frame.drop {V : Type} (f : Frame V) (names : List String) : Except PyErr (Frame V) :=
  if names.all fun n => (f.lookup n).isSome then .ok (f.filter fun p => !names.contains p.1)
  else .error .keyError

/-- The frame `spirals` returns. -/
def spiralFrame (rows : List (SpiralRow K)) : Frame K :=
  [("t", rows.map (·.t)), ("x", rows.map (·.x)), ("y", rows.map (·.y)), ("class", rows.map fun r => (r.cls : K))]

/-- prelim_examination_spiral.py 132-135 (and 179-182): features and labels handed to `train_test_split`.
The frame returned by `drop` is not bound. -/
def spiralPrep {V : Type} (f : Frame V) : Except PyErr (Frame V × List V) := do
  let yAll ← f.col "class"
  let _ ← f.drop ["class", "t"]
  pure (f, yAll)

/-- The loop of prelim_examination_splice.py 156-172: `data_all`, `y_all` come from the file (36-39) and are
assigned again at the start of every simulation. Returned: what each simulation splits and scores. -/
def spliceLoop {X Y : Type} (file : X × Y) (generated : ℕ → X × Y) (nSim : ℕ) : List (X × Y) :=
  ((List.range nSim).foldl (fun (st : (X × Y) × List (X × Y)) s =>
    let all := generated s
    (all, st.2 ++ [all])) (file, [])).2

/-! ### Names -/

/-- A top-level statement: the names it reads, then the names it binds. -/
abbrev NameStmt := List String × List String

/-- Run statements in a scope. -/
def runNames : List NameStmt → List String → Except PyErr (List String)
  | [], scope => .ok scope
  | (reads, binds) :: rest, scope =>
    if reads.all fun n => scope.contains n then runNames rest (binds ++ scope) else .error .nameError

/-- prelim_examination.py 31-55. -/
def prelimTop : List NameStmt :=
  [(["pd", "path"], ["data_train"]), (["data_train"], ["data_train"]), ([], ["cleanup"]),
   (["data_train", "cleanup"], ["gene_expand_df"]), (["pd", "gene_expand_df"], ["gene_expand_df_dummy"]),
   (["pd", "data_train"], ["y_all"]), (["gene_expand_df_dummy"], ["data_all"]), ([], ["reg_and_class"]),
   (["reg_or_class"], ["data_name"]), ([], ["n_sim"]), (["np"], ["depth_range"]), ([], ["n_tree"])]

end SmoothRF
