import Verif.Model.Gamma
import Verif.Spec.Tree

/-! Specification of the level sums. -/

namespace SmoothRF

/-- Sum of `v j` over the `j` at level exactly `k` (or at level at most `k` when `pa`) from `i`. -/
def levelSum {K : Type} [AddCommMonoid K] (pa : Bool) {n : ℕ} (D : Fin n → Fin n → ℤ)
    (v : Fin n → K) (i : Fin n) (k : ℕ) : K :=
  if pa then ∑ j ∈ Finset.univ.filter (fun j => D i j ≤ k), v j
  else ∑ j ∈ Finset.univ.filter (fun j => D i j = k), v j

/-- Total response of a node: sample size times mean for a regressor, the stored class count for a
classifier. -/
def SkTree.mass {K : Type} [Field K] [LinearOrder K] {C : ℕ} (kind : Kind) (t : SkTree K C)
    (i : t.Node) (c : Fin C) : K :=
  if kind = .reg then t.nSamp i * t.value i c else t.value i c

/-- Node statistics are consistent: an internal node's sample weight and (weighted) sum of
responses / class counts are the sums of its children's. -/
def SkTree.Consistent {K : Type} [Field K] [LinearOrder K] {C : ℕ} (kind : Kind)
    (t : SkTree K C) : Prop :=
  ∀ p l r : t.Node, t.left p = some l → t.right p = some r →
    t.nSamp p = t.nSamp l + t.nSamp r ∧ ∀ c, t.mass kind p c = t.mass kind l c + t.mass kind r c

end SmoothRF
