import Mathlib.Algebra.Order.Field.Basic
import Mathlib.Data.Rat.Floor
import Mathlib.Data.List.Basic

/-! # Vocabulary for the data generators. -/

namespace SmoothRF

variable {K : Type} [Field K] [LinearOrder K]

/-- A block of drawn points with a common label. -/
structure DataBlock (K : Type) where
  label : ℕ
  count : ℕ
  point : ℕ → K × K

/-- The nine blocks for `n` points per full class: class 2 on top, 3 on the right, 0 in the rotated
square, 1 at the bottom and on the left. -/
def dataBlocks (cosA sinA : K) (n : ℕ) (z u : ℕ → ℕ → K × K) : List (DataBlock K) :=
  [⟨2, ⌊(2 / 5 : ℚ) * n⌋₊, fun i => (1/2 + 33/100 * (z 0 i).1, 9/10 + 1/20 * (z 0 i).2)⟩,
   ⟨2, ⌊(3 / 5 : ℚ) * n⌋₊, fun i => ((u 1 i).1, 4/5 + 1/5 * (u 1 i).2)⟩,
   ⟨3, ⌊(2 / 5 : ℚ) * n⌋₊, fun i => (9/10 + 1/20 * (z 2 i).1, 1/2 + 33/100 * (z 2 i).2)⟩,
   ⟨3, ⌊(3 / 5 : ℚ) * n⌋₊, fun i => (4/5 + 1/5 * (u 3 i).1, (u 3 i).2)⟩,
   ⟨0, n, fun i => (7/40 + 1/2 * (cosA * (u 4 i).1 + sinA * (u 4 i).2),
      3/40 + 1/2 * (cosA * (u 4 i).2 - sinA * (u 4 i).1))⟩,
   ⟨1, ⌊(4 / 15 : ℚ) * n⌋₊, fun i => (1/2 + 33/100 * (z 5 i).1, 1/10 + 1/20 * (z 5 i).2)⟩,
   ⟨1, ⌊(2 / 5 : ℚ) * n⌋₊, fun i => ((u 6 i).1, 1/5 * (u 6 i).2)⟩,
   ⟨1, ⌊(2 / 5 : ℚ) * n⌋₊, fun i => (1/10 + 1/20 * (z 7 i).1, 1/2 + 33/100 * (z 7 i).2)⟩,
   ⟨1, ⌊(2 / 5 : ℚ) * n⌋₊, fun i => (1/5 * (u 8 i).1, (u 8 i).2)⟩]

/-- All points of some blocks with their labels. -/
def labelled (l : List (DataBlock K)) : List ((K × K) × ℕ) :=
  l.flatMap fun b => (List.range b.count).map fun i => (b.point i, b.label)

/-- The kept region. -/
def InBox (p : K × K) : Prop := -(1/20) ≤ p.1 ∧ p.1 ≤ 21/20 ∧ -(1/20) ≤ p.2 ∧ p.2 ≤ 21/20

instance (p : K × K) : Decidable (InBox p) := by unfold InBox; infer_instance

end SmoothRF
