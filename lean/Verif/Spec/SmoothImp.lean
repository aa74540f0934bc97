import Verif.Spec.Smooth
import Verif.Model.Impurity

/-! Smoothed leaf values for an arbitrary whole-number leaf distance. -/

namespace SmoothRF
open SkTree

variable {K : Type} [Field K] [LinearOrder K] {C : ℕ}

/-- Denominator: `lamb`-weighted sample weight of the levels around leaf `r`, levels given by `D`. -/
def denBy (t : SkTree K C) (D : Fin t.nLeaves → Fin t.nLeaves → ℤ) (pa : Bool) {n : ℕ}
    (lamb : Fin n → K) (r : Fin t.nLeaves) : K :=
  ∑ k : Fin n, levelSum pa D (fun j => t.nSamp (t.leafNode j)) r k * lamb k

/-- Numerator. -/
def numBy (kind : Kind) (t : SkTree K C) (D : Fin t.nLeaves → Fin t.nLeaves → ℤ) (pa : Bool) {n : ℕ}
    (lamb : Fin n → K) (r : Fin t.nLeaves) (c : Fin C) : K :=
  ∑ k : Fin n, levelSum pa D (fun j => t.mass kind (t.leafNode j) c) r k * lamb k

/-- The smoothed value; 0 if the denominator is 0. -/
def valueBy (kind : Kind) (t : SkTree K C) (D : Fin t.nLeaves → Fin t.nLeaves → ℤ) (pa : Bool) {n : ℕ}
    (lamb : Fin n → K) (r : Fin t.nLeaves) (c : Fin C) : K :=
  if denBy t D pa lamb r = 0 then 0 else numBy kind t D pa lamb r c / denBy t D pa lamb r

/-- The levels in use: the breaks `lv`, and each tree's discretised impurity distances. -/
structure ImpBy (forest : List (SkTree K C)) (s : Topo.Style) (levels : Option (Levels K)) (L : ℕ)
    (lev : (t : SkTree K C) → Fin t.nLeaves → Fin t.nLeaves → ℕ) : Prop where
  breaks : ∃ lv : List K,
    (levels = some (.arr lv) ∨ ∃ m, levels = some (.int m) ∧
      quantileBreaks ((forest.take 5).flatMap fun t => ravelM (t.distImpurity t.impurity s)) m =
        .ok lv) ∧
    (∃ t0 ∈ forest.head?, discretise lv (t0.distImpurity t0.impurity s) = .ok (lev t0, L)) ∧
    (∀ t ∈ forest, ∃ Lt, discretise lv (t.distImpurity t.impurity s) = .ok (lev t, Lt))
  bound : ∀ t ∈ forest, ∀ i j, lev t i j < L

end SmoothRF
