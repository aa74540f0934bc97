import Verif.Model.Smooth

/-! Squared error of a forest on tuning rows. -/

namespace SmoothRF
open SkTree

variable {K : Type} [Field K] [LinearOrder K] {C : ℕ}

/-- Squared error of one tree on tuning rows: each row is predicted by the value stored in the leaf it
reaches. -/
def treeSSE (t : SkTree K C) (rows : List (TuneRow K C)) : K :=
  (rows.map fun q => if h : q.leaf < t.nLeaves then
    ∑ c, (q.y c - t.value (t.leafNode ⟨q.leaf, h⟩) c) ^ 2 else 0).sum

/-- Squared error of all trees, tree `i` on the rows `tune i`. -/
def forestSSE (forest : List (SkTree K C)) (tune : ℕ → List (TuneRow K C)) : K :=
  (forest.zipIdx.map fun tt => treeSSE tt.1 (tune tt.2)).sum

/-- Sum over the trees of the mean squared error, tree `i` on the rows `tune i`. -/
def forestMSE (forest : List (SkTree K C)) (tune : ℕ → List (TuneRow K C)) : K :=
  (forest.zipIdx.map fun tt => treeSSE tt.1 (tune tt.2) / ((tune tt.2).length : K)).sum

end SmoothRF
