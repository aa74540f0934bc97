import Verif.Model.Box
import Verif.Spec.Tree

/-! Routing of a point through a split tree, and the region of a node. -/

namespace SmoothRF
namespace SplitTree

variable {K : Type} [Field K] [LinearOrder K] {p : ℕ} (t : SplitTree K p)

/-- The point `x` reaches node `i`: it goes left where `x[feature] <= threshold`, otherwise right. -/
inductive Routed (x : Fin p → K) : t.Node → Prop
  | root : Routed x 0
  | goLeft {i l : t.Node} : Routed x i → t.left i = some l → x (t.feature i) ≤ t.threshold i → Routed x l
  | goRight {i r : t.Node} : Routed x i → t.right i = some r → t.threshold i < x (t.feature i) →
      Routed x r

/-- The point `x` satisfies the closed split constraints on the way from the root to `i`. -/
def InRegion (x : Fin p → K) (i : t.Node) : Prop :=
  ∀ a c, t.Anc c i →
    (t.left a = some c → x (t.feature a) ≤ t.threshold a) ∧
    (t.right a = some c → t.threshold a ≤ x (t.feature a))

/-- Every split sends at least one row of `X` each way (true of the data the tree was grown on). -/
def Grown (X : List (Fin p → K)) : Prop :=
  ∀ i, (∀ l, t.left i = some l → ∃ x ∈ X, t.Routed x l) ∧ (∀ r, t.right i = some r → ∃ x ∈ X, t.Routed x r)

/-- `x` lies in the box `b`. -/
def InBox (b : Fin p → K × K) (x : Fin p → K) : Prop := ∀ j, (b j).1 ≤ x j ∧ x j ≤ (b j).2

end SplitTree
end SmoothRF
