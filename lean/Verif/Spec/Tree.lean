import Verif.Model.Tree

/-!
# Independent vocabulary for binary trees

Nothing here mentions the loops of the model: only the child arrays.
-/

namespace SmoothRF
namespace Topo

variable (t : Topo)

/-- `c` is a child of `p`. -/
def IsChild (p c : t.Node) : Prop := t.left p = some c ∨ t.right p = some c

instance (p c : t.Node) : Decidable (t.IsChild p c) := by unfold IsChild; infer_instance

/-- What sklearn's tree builders guarantee about the child arrays. -/
structure WF : Prop where
  /-- a node has two children or none -/
  both : ∀ i, t.left i = none ↔ t.right i = none
  /-- a child is numbered after its parent -/
  lt : ∀ p c, t.IsChild p c → p < c
  /-- the two children differ -/
  ne : ∀ p c, t.left p = some c → t.right p ≠ some c
  /-- at most one parent -/
  uniq : ∀ p q c, t.IsChild p c → t.IsChild q c → p = q
  /-- every node but the root has a parent -/
  parent : ∀ c, c ≠ 0 → ∃ p, t.IsChild p c

instance : Decidable t.WF :=
  decidable_of_iff
    ((∀ i, t.left i = none ↔ t.right i = none) ∧ (∀ p c, t.IsChild p c → p < c) ∧
      (∀ p c, t.left p = some c → t.right p ≠ some c) ∧
      (∀ p q c, t.IsChild p c → t.IsChild q c → p = q) ∧
      (∀ c, c ≠ 0 → ∃ p, t.IsChild p c))
    ⟨fun ⟨a, b, c, d, e⟩ => ⟨a, b, c, d, e⟩, fun ⟨a, b, c, d, e⟩ => ⟨a, b, c, d, e⟩⟩

/-- `DepthIs i d`: there is a root path of `d` edges ending in `i`. -/
inductive DepthIs : t.Node → ℕ → Prop
  | root : DepthIs 0 0
  | child {p c : t.Node} {d : ℕ} : t.IsChild p c → DepthIs p d → DepthIs c (d + 1)

/-- `Anc a i`: `a` is `i` or a proper ancestor of `i`. -/
inductive Anc : t.Node → t.Node → Prop
  | refl (a : t.Node) : Anc a a
  | step {a p c : t.Node} : Anc a p → t.IsChild p c → Anc a c

/-- `UpBy k i a`: `a` is the ancestor of `i` exactly `k` levels up. -/
inductive UpBy : ℕ → t.Node → t.Node → Prop
  | zero (i : t.Node) : UpBy 0 i i
  | step {k : ℕ} {p c a : t.Node} : t.IsChild p c → UpBy k p a → UpBy (k + 1) c a

/-- `a` is the lowest common ancestor of `i` and `j`. -/
def IsLCA (i j a : t.Node) : Prop :=
  t.Anc a i ∧ t.Anc a j ∧ ∀ b, t.Anc b i → t.Anc b j → t.Anc b a

/-- A leaf has no children. -/
def IsLeaf (i : t.Node) : Prop := ∀ c, ¬ t.IsChild i c

end Topo
end SmoothRF

namespace SmoothRF
namespace Topo

/-- `RootPath i l`: `l` lists the nodes from the root down to `i`. -/
inductive RootPath (t : Topo) : t.Node → List t.Node → Prop
  | root : RootPath t 0 [0]
  | child {p c : t.Node} {l : List t.Node} : t.IsChild p c → RootPath t p l →
      RootPath t c (l ++ [c])

end Topo
end SmoothRF
