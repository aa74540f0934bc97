import Mathlib.Data.List.FinRange

/-! Fold invariants. -/

namespace SmoothRF

/-- Invariant rule for `for i in range(n)` loops. -/
theorem foldl_finRange_inv {n : ℕ} {S : Type*} (f : S → Fin n → S) (P : ℕ → S → Prop) (s : S)
    (h0 : P 0 s) (hs : ∀ (i : Fin n) (s : S), P i.val s → P (i.val + 1) (f s i)) :
    P n ((List.finRange n).foldl f s) := by
  have key : ∀ k (hk : k ≤ n), P k (((List.finRange n).take k).foldl f s) := by
    intro k
    induction k with
    | zero => intro _; simpa using h0
    | succ k ih =>
      intro hk
      have hlt : k < n := hk
      have : (List.finRange n).take (k + 1) = (List.finRange n).take k ++ [⟨k, hlt⟩] := by
        rw [List.take_add_one]
        simp [hlt]
      rw [this, List.foldl_append]
      exact hs ⟨k, hlt⟩ _ (ih hlt.le)
  have := key n le_rfl
  rwa [List.take_of_length_le (by simp)] at this

/-- Invariant rule for folds over lists. -/
theorem foldl_inv {α S : Type*} (f : S → α → S) (P : S → Prop) (l : List α) (s : S)
    (h0 : P s) (hs : ∀ s, ∀ a ∈ l, P s → P (f s a)) : P (l.foldl f s) := by
  induction l generalizing s with
  | nil => exact h0
  | cons a l ih =>
    exact ih _ (hs _ _ (by simp) h0) (fun s b hb h => hs s b (by simp [hb]) h)

theorem finRange_getElem? {n : ℕ} (i : Fin n) : (List.finRange n)[i.val]? = some i := by
  rw [List.getElem?_eq_getElem (by simp)]; simp

end SmoothRF
