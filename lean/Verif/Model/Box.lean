import Verif.Model.Tree
import Verif.Model.Py
import Mathlib.Algebra.Order.Field.Basic

/-!
# Bounding boxes and centres (smooth_base.py 1702-1835, 2372-2420)

`X` is a list of rows. The recursion carries fuel; running out is RuntimeError. sklearn writes -2 as
the feature of a leaf; it is never read there, so `feature` is total.
-/

namespace SmoothRF

/-- A tree with its split rule arrays `tree_.feature`, `tree_.threshold`. -/
structure SplitTree (K : Type) (p : ℕ) extends Topo where
  feature : Fin (m + 1) → Fin p
  threshold : Fin (m + 1) → K

namespace SplitTree

variable {K : Type} [Field K] [LinearOrder K] {p : ℕ}

/-- `storage_bound_box`: per node and feature the pair (min, max). -/
abbrev Boxes (t : SplitTree K p) := t.Node → Fin p → K × K

/-- `np.min` / `np.max` of a column. -/
def colMin (x : Fin p → K) (X : List (Fin p → K)) (j : Fin p) : K :=
  X.foldl (fun acc r => min acc (r j)) (x j)

@[inherit_doc colMin] def colMax (x : Fin p → K) (X : List (Fin p → K)) (j : Fin p) : K :=
  X.foldl (fun acc r => max acc (r j)) (x j)

/-- `_bound_box_tree`, smooth_base.py 1732-1781. A right child -1 wraps to the last node. -/
def boxRec (t : SplitTree K p) : ℕ → t.Boxes → t.Node → Except PyErr t.Boxes
  | 0, _, _ => .error .runtimeError
  | fuel + 1, st, idx =>
    match t.left idx with
    | none => .ok st
    | some l => do
      let f := t.feature idx
      let r := (t.right idx).getD (Fin.last t.m)
      let st := Function.update st l (st idx)
      let st := Function.update st l (Function.update (st l) f ((st l f).1, t.threshold idx))
      let st ← boxRec t fuel st l
      let st := Function.update st r (st idx)
      let st := Function.update st r (Function.update (st r) f (t.threshold idx, (st r f).2))
      boxRec t fuel st r

/-- `bound_box_tree`, smooth_base.py 1702-1730. `np.min` of an empty array raises ValueError. -/
def boundBox (t : SplitTree K p) (X : List (Fin p → K)) : Except PyErr t.Boxes :=
  match X with
  | [] => .error .valueError
  | x :: xs => t.boxRec (t.m + 1)
      (Function.update (fun _ _ => (0, 0)) 0 fun j => (colMin x xs j, colMax x xs j)) 0

/-- `center_tree`, smooth_base.py 1783-1801. -/
def centerTree (t : SplitTree K p) (X : List (Fin p → K)) : Except PyErr (t.Node → Fin p → K) := do
  let b ← t.boundBox X
  pure fun i j => ((b i j).1 + (b i j).2) / 2

/-- `center_forest`, smooth_base.py 1804-1835: stacked rows and tree numbers. -/
def centerForest (forest : List (SplitTree K p)) (X : List (Fin p → K)) :
    Except PyErr (List (Fin p → K) × List ℕ) :=
  forest.zipIdx.foldlM
    (fun acc tt => do
      let c ← tt.1.centerTree X
      pure (acc.1 ++ (List.finRange (tt.1.m + 1)).map c, acc.2 ++ List.replicate (tt.1.m + 1) tt.2))
    ([], [])

end SplitTree

/-- `quantiles_distance_trees(forest, style, "depth", levels=None)`, smooth_base.py 2372-2420: all leaf
distances, tree by tree, row by row. -/
def allDistances (forest : List Topo) (s : Topo.Style) : List ℤ :=
  forest.foldl
    (fun acc t => acc ++ (List.finRange t.nLeaves).flatMap fun i =>
      (List.finRange t.nLeaves).map fun j => t.distDepth s i j)
    []

end SmoothRF
