import Verif.Model.Oob
import Verif.Spec.Prune

/-!
# Trees fitted to training data

What sklearn stores in the nodes of a fitted tree: each training row (repeated as often as the bootstrap
drew it) runs from the root to one leaf; a node holds the number of its rows and, for regression, the mean
and the mean squared deviation of their responses, for classification their class counts.
-/

namespace SmoothRF

variable {K : Type} [Field K] [LinearOrder K] {C : ℕ}

/-- A row of the decision path matrix: it starts at the root and enters exactly one child of every split it
reaches. -/
structure Routed (t : Topo) (path : t.Node → Bool) : Prop where
  root : path 0 = true
  split : ∀ i l q, t.left i = some l → t.right i = some q →
    path i = (path l || path q) ∧ (path l && path q) = false

instance (t : Topo) (path : t.Node → Bool) : Decidable (Routed t path) :=
  decidable_of_iff (path 0 = true ∧ ∀ i l q, t.left i = some l → t.right i = some q →
    path i = (path l || path q) ∧ (path l && path q) = false)
    ⟨fun ⟨a, b⟩ => ⟨a, b⟩, fun ⟨a, b⟩ => ⟨a, b⟩⟩

/-- The rows that run through node `i`. -/
def through {t : Topo} {Y : Type} (rows : List (OobRow t Y)) (i : t.Node) : List (OobRow t Y) :=
  rows.filter fun r => r.path i

/-- A regression tree fitted to `rows`. -/
structure FitReg (t : SkTree K 1) (rows : List (OobRow t.toTopo K)) : Prop where
  routed : ∀ r ∈ rows, Routed t.toTopo r.path
  seen : ∀ i, through rows i ≠ []
  count : ∀ i, t.nSamp i = ((through rows i).length : K)
  mean : ∀ i, t.nSamp i * t.value i 0 = ((through rows i).map fun r => r.y).sum
  mse : ∀ i, t.nSamp i * t.impurity i = ((through rows i).map fun r => (r.y - t.value i 0) ^ 2).sum

/-- A classification tree fitted to `rows` (the split criterion is left open). -/
structure FitCls (t : SkTree K C) (rows : List (OobRow t.toTopo (Fin C))) : Prop where
  routed : ∀ r ∈ rows, Routed t.toTopo r.path
  seen : ∀ i, through rows i ≠ []
  count : ∀ i, t.nSamp i = ((through rows i).length : K)
  classes : ∀ i c, t.value i c = (((through rows i).filter fun r => r.y = c).length : K)

/-- The impurities are Gini indices. -/
def GiniImp (t : SkTree K C) : Prop :=
  ∀ i, t.impurity i = 1 - ∑ c, (t.value i c / t.nSamp i) ^ 2

/-- `pl` sends every row to the leaf of the pruned tree it falls into. -/
def PrunedLeaf {t : Topo} {Y : Type} (P : t.Node → Prop) (rows : List (OobRow t Y))
    (pl : OobRow t Y → t.Node) : Prop :=
  ∀ r ∈ rows, t.CurLeaf P (pl r) ∧ r.path (pl r) = true

end SmoothRF
