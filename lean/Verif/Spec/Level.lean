import Verif.Model.Level
import Verif.Spec.Tree

/-! Vocabulary for level kernels. -/

namespace SmoothRF

/-- Nodes `i` and `j` have a common ancestor at depth `k`. -/
def Topo.ShareAt (t : Topo) (k : ℕ) (i j : t.Node) : Prop :=
  ∃ a, t.DepthIs a k ∧ t.Anc a i ∧ t.Anc a j

open Classical in
/-- `path` is the decision-path indicator of observations that reach the nodes `leaf x`. -/
def Topo.IsPath (t : Topo) {n : ℕ} (path : Fin n → t.Node → ℕ) (leaf : Fin n → t.Node) : Prop :=
  ∀ x i, path x i = if t.Anc i (leaf x) then 1 else 0

/-- One tree with the paths of two data sets and the nodes they end in. -/
structure Routes (a b : ℕ) where
  t : Topo
  pathNew : Fin a → t.Node → ℕ
  path : Fin b → t.Node → ℕ
  leafNew : Fin a → t.Node
  leaf : Fin b → t.Node

/-- The tree is well formed and the paths are the root paths of the end nodes. -/
structure Routes.Ok {a b : ℕ} (r : Routes a b) : Prop where
  wf : r.t.WF
  isNew : r.t.IsPath r.pathNew r.leafNew
  isOld : r.t.IsPath r.path r.leaf

variable {K : Type} [Field K] [LinearOrder K] [IsStrictOrderedRing K]

/-- `G + w I`. -/
def shiftMat {n : ℕ} (g : Fin n → Fin n → K) (w : K) : Fin n → Fin n → K :=
  fun i j => g i j + if i = j then w else 0

/-- Exact positive definiteness. -/
def PosDefForm {n : ℕ} (g : Fin n → Fin n → K) : Prop :=
  ∀ x : Fin n → K, x ≠ 0 → 0 < ∑ i, ∑ j, x i * g i j * x j

end SmoothRF
