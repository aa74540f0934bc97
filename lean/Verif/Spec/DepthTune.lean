import Verif.Model.DepthTune
import Verif.Spec.Smooth

/-! Truncation of a tree at a depth, and the tuning loss of a truncated tree. -/

namespace SmoothRF

namespace Topo

/-- `a` is the deepest ancestor-or-self of `i` whose depth is at most `d`. -/
def Deepest (t : Topo) (d : ℕ) (i a : t.Node) : Prop :=
  t.Anc a i ∧ (∃ e ≤ d, t.DepthIs a e) ∧ ∀ b e, t.Anc b i → t.DepthIs b e → e ≤ d → t.Anc b a

/-- `D` is the largest depth of a node. -/
def IsTreeDepth (t : Topo) (D : ℕ) : Prop :=
  (∃ i, t.DepthIs i D) ∧ ∀ i d, t.DepthIs i d → d ≤ D

end Topo

variable {K : Type} [Field K] [LinearOrder K] {C : ℕ}

/-- `c` is the position of the first largest entry. -/
def IsArgmax {n : ℕ} (v : Fin n → K) (c : Fin n) : Prop :=
  (∀ j, v j ≤ v c) ∧ ∀ j, j < c → v j < v c

open Classical in
/-- Loss of predicting with the leaf vector `v` for the response `y`: squared error, or 1 unless the
first largest class is `y`. -/
noncomputable def pointLoss [NeZero C] (kind : Kind) (v : Fin C → K) (y : K) : K :=
  match kind with
  | .reg => (y - v 0) ^ 2
  | .cls => if ∃ c, IsArgmax v c ∧ ((c.val : ℕ) : K) = y then 0 else 1

/-- Total loss of tree `t` when the leaf `i` predicts with the value stored at node `tr i`. -/
noncomputable def truncLoss [NeZero C] (kind : Kind) (t : SkTree K C) (tr : t.Node → t.Node)
    (rows : List (LossRow K)) : K :=
  (rows.map fun r => if h : r.leaf < t.nLeaves then
    pointLoss kind (t.value (tr (t.leafNode ⟨r.leaf, h⟩))) r.y else 0).sum

end SmoothRF
