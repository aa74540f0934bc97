import Verif.Spec.Gamma

/-! Specification of the smoothed leaf values. -/

namespace SmoothRF
open SkTree

variable {K : Type} [Field K] [LinearOrder K] {C : ℕ}

/-- Denominator of a smoothed value: `lamb`-weighted sample weight of the levels around leaf `r` of
tree `t`. -/
def smoothDen (t : SkTree K C) (s : Topo.Style) (pa : Bool) {n : ℕ} (lamb : Fin n → K)
    (r : Fin t.nLeaves) : K :=
  ∑ k : Fin n, levelSum pa (t.distDepth s) (fun j => t.nSamp (t.leafNode j)) r k * lamb k

/-- Numerator of a smoothed value. -/
def smoothNum (kind : Kind) (t : SkTree K C) (s : Topo.Style) (pa : Bool) {n : ℕ} (lamb : Fin n → K)
    (r : Fin t.nLeaves) (c : Fin C) : K :=
  ∑ k : Fin n, levelSum pa (t.distDepth s) (fun j => t.mass kind (t.leafNode j) c) r k * lamb k

/-- The smoothed value of leaf `r`, class `c`, of tree `t`. -/
def smoothSpec (kind : Kind) (t : SkTree K C) (s : Topo.Style) (pa : Bool) {n : ℕ} (lamb : Fin n → K)
    (r : Fin t.nLeaves) (c : Fin C) : K :=
  if smoothDen t s pa lamb r = 0 then 0 else smoothNum kind t s pa lamb r c / smoothDen t s pa lamb r

/-- `t'` is `t` with the `r`-th leaf's vector replaced by `f r` and everything else unchanged. -/
def LeafUpdate (t t' : SkTree K C) (f : Fin t.nLeaves → Fin C → K) : Prop :=
  ∃ v, t' = { t with value := v } ∧ (∀ r c, v (t.leafNode r) c = f r c) ∧
    (∀ i c, ¬ t.IsLeaf i → v i c = t.value i c)

end SmoothRF
