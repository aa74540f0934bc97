import Verif.Model.Prune
import Verif.Spec.Tree

/-! Pruned trees: a set `P` of pruned nodes cuts off everything strictly below its members. -/

namespace SmoothRF
namespace Topo

variable (t : Topo)

/-- `i` lies strictly below a pruned node. -/
def Removed (P : t.Node → Prop) (i : t.Node) : Prop := ∃ p, P p ∧ t.Anc p i ∧ p ≠ i

/-- `i` is a leaf of the pruned tree. -/
def CurLeaf (P : t.Node → Prop) (i : t.Node) : Prop := ¬ t.Removed P i ∧ (t.IsLeaf i ∨ P i)

open Classical in
/-- The leaves of the pruned tree below `i`. -/
noncomputable def curLeaves (P : t.Node → Prop) (i : t.Node) : Finset t.Node :=
  Finset.univ.filter fun l => t.Anc i l ∧ t.CurLeaf P l

end Topo

/-- The pruned nodes after a list of operations. -/
def pruneSet (t : Topo) (ops : List ℕ) : t.Node → Prop := fun i => i.val ∈ ops

end SmoothRF
