import Verif.Proofs.Discretise
import Mathlib.Data.Rat.Floor
import Mathlib.Data.Fin.VecNotation

/-!
# C11: discretised impurity distances
-/

set_option linter.unusedSectionVars false

namespace SmoothRF

variable {K : Type} [Field K] [LinearOrder K] [IsStrictOrderedRing K]

/-- C11: levels are monotone in the distance, lie in `0 .. expected_levels - 2`, every supplied
break that is neither the smallest nor the largest of `levels ∪ {0}` separates levels
(right-closed), and, when the largest supplied break is positive, a positive distance never shares
its level with a zero distance. -/
theorem C11_discretise {n : ℕ} (levels : List K) (out : Fin n → Fin n → K)
    (lev : Fin n → Fin n → ℕ) (L : ℕ) (hok : discretise levels out = .ok (lev, L)) :
    (∀ i j i' j', out i j ≤ out i' j' → lev i j ≤ lev i' j') ∧
    (∀ i j, lev i j + 2 ≤ L) ∧
    (∀ b i j i' j', (b = 0 ∨ b ∈ levels) → (∃ a, (a = 0 ∨ a ∈ levels) ∧ a < b) →
      (∃ c, (c = 0 ∨ c ∈ levels) ∧ b < c) → out i j ≤ b → b < out i' j' → lev i j < lev i' j') ∧
    ((∃ b ∈ levels, 0 < b) → ∀ i j i' j', out i j = 0 → 0 < out i' j' → lev i j < lev i' j') := by
  obtain ⟨br, hb, rfl, rfl⟩ := discretise_ok hok
  obtain ⟨hbot, htop⟩ := mkBreaks_bot_top hb
  have hp0 : ∀ x ∈ positives out, 0 < x := fun x hx => ((mem_positives out x).1 hx).1
  refine ⟨fun i j i' j' h => cutLevel_mono br h, fun i j => cutLevel_bound br hbot htop _, ?_, ?_⟩
  · intro b i j i' j' hb' ha hc h1 h2
    exact cutLevel_lt br hbot (mkBreaks_between hb hb' ha hc) (fin_le.2 h1) (fin_lt.2 h2)
  · intro hpl i j i' j' h0 hpos
    obtain ⟨c, hc, hc0, hcd⟩ := mkBreaks_sep hb hp0 hpl
      ((mem_positives out _).2 ⟨hpos, i', j', rfl⟩)
    exact cutLevel_lt br hbot hc (by rw [h0]; exact hc0) hcd

/-- C11 (first level): with no negative break and no negative distance, and a positive break,
level 0 is exactly the set of zero distances. -/
theorem C11_level_zero {n : ℕ} (levels : List K) (out : Fin n → Fin n → K)
    (lev : Fin n → Fin n → ℕ) (L : ℕ) (hok : discretise levels out = .ok (lev, L))
    (hlev : ∀ b ∈ levels, 0 ≤ b) (hpos : ∃ b ∈ levels, 0 < b) (hout : ∀ i j, 0 ≤ out i j)
    (i j : Fin n) : lev i j = 0 ↔ out i j = 0 := by
  obtain ⟨br, hb, rfl, rfl⟩ := discretise_ok hok
  obtain ⟨hbot, htop⟩ := mkBreaks_bot_top hb
  have hp0 : ∀ x ∈ positives out, 0 < x := fun x hx => ((mem_positives out x).1 hx).1
  have hzero : cutLevel br 0 = 0 := by
    unfold cutLevel
    have honly : ∀ c ∈ br.filter (fun b => decide (b < fin (0 : K))), ⊥ = c := by
      intro c hc
      obtain ⟨hcb, hc0⟩ := List.mem_filter.1 hc
      exact (mkBreaks_below_zero hb hp0 hlev hcb (by simpa using hc0)).symm
    have hcount := List.count_eq_length.2 honly
    have := List.Sublist.count_le (⊥ : Ext K)
      (List.filter_sublist (p := fun b => decide (b < fin (0 : K))) (l := br))
    rw [mkBreaks_count_bot hb] at this
    omega
  show cutLevel br (out i j) = 0 ↔ _
  constructor
  · intro h
    rcases eq_or_lt_of_le (hout i j) with h0 | h0
    · exact h0.symm
    · obtain ⟨c, hc, hc0, hcd⟩ := mkBreaks_sep hb hp0 hpos
        ((mem_positives out _).2 ⟨h0, i, j, rfl⟩)
      have := cutLevel_lt br hbot hc hc0 hcd
      omega
  · intro h; rw [h, hzero]

/-- C11 (when it raises): exactly when no distance is positive (ValueError: `np.min` of an empty
array) or, otherwise, when every supplied break is zero (IndexError). -/
theorem C11_raises {n : ℕ} (levels : List K) (out : Fin n → Fin n → K) :
    (discretise levels out = .error .valueError ↔ ∀ i j, out i j ≤ 0) ∧
    (discretise levels out = .error .indexError ↔
      (∃ i j, 0 < out i j) ∧ ∀ b ∈ levels, b = 0) ∧
    ((∃ r, discretise levels out = .ok r) ↔ (∃ i j, 0 < out i j) ∧ ∃ b ∈ levels, b ≠ 0) := by
  have hne : (∃ b ∈ levels, b ≠ 0) ↔ ¬ ∀ b ∈ levels, b = 0 := by push Not; rfl
  rw [hne]
  clear hne
  have hshape : (∀ b ∈ levels, b = 0) ↔ ∃ x, sortedSet levels = [x] := by
    constructor
    · intro hz
      rcases list_shape (sortedSet levels) with he | he | ⟨x, mid, y, he⟩
      · have := (sortedSet_mem levels 0).2 (Or.inl rfl)
        rw [he] at this; simp at this
      · exact he
      · exfalso
        have hs := sortedSet_sorted levels
        rw [he] at hs
        have hxy := (List.pairwise_cons.1 hs).1 y (by simp)
        have hx : x = 0 := by
          rcases (sortedSet_mem levels x).1 (by rw [he]; simp) with h | h
          · exact h
          · exact hz x h
        have hy : y = 0 := by
          rcases (sortedSet_mem levels y).1 (by rw [he]; simp) with h | h
          · exact h
          · exact hz y h
        rw [hx, hy] at hxy; exact lt_irrefl _ hxy
    · rintro ⟨x, hx⟩ b hb
      have h1 := (sortedSet_mem levels b).2 (Or.inr hb)
      have h2 := (sortedSet_mem levels 0).2 (Or.inl rfl)
      rw [hx, List.mem_singleton] at h1 h2
      rw [h1, h2]
  have hposs : positives out = [] ↔ ∀ i j, out i j ≤ 0 := by
    rw [List.eq_nil_iff_forall_not_mem]
    simp only [mem_positives, not_and, not_exists]
    constructor
    · intro h i j; by_contra hlt; exact h _ (not_le.1 hlt) i j rfl
    · intro h x hx i j e; exact absurd (e ▸ hx) (not_lt.2 (h i j))
  rw [hshape, ← hposs]
  have hex : (∃ i j, 0 < out i j) ↔ positives out ≠ [] := by
    rw [Ne, hposs]; push Not; rfl
  rw [hex]
  unfold discretise mkBreaks
  rcases hp : positives out with _ | ⟨p, ps⟩
  · simp [Bind.bind, Except.bind]
  · simp only [Bind.bind, Except.bind, Pure.pure, Except.pure]
    have h0 : ¬ (fin (0 : K) = ⊥) := (bot_lt_fin 0).ne'
    rcases list_shape (sortedSet levels) with he | ⟨x, he⟩ | ⟨x, mid, y, he⟩
    · exfalso
      have := (sortedSet_mem levels 0).2 (Or.inl rfl)
      rw [he] at this; simp at this
    · rw [he, withInf_single]
      simp [h0]
    · have hs := sortedSet_sorted levels
      rw [he] at hs
      rw [he, withInf_cons]
      set br : List (Ext K) := ⊥ :: (mid.map fin ++ [((⊤ : WithTop K) : Ext K)]) with hbr
      have hlt : (if fin 0 ∈ br then br.idxOf (fin 0) else br.idxOf ⊥) + 1 < br.length := by
        by_cases hm : fin (0 : K) ∈ br
        · rw [if_pos hm]
          have hm' : fin (0 : K) ∈ ⊥ :: mid.map fin := by
            rw [hbr] at hm
            simp only [List.mem_cons, List.mem_append, List.not_mem_nil, or_false] at hm ⊢
            rcases hm with h | h | h
            · exact Or.inl h
            · exact Or.inr h
            · exact absurd h (fin_lt_top 0).ne
          have e : br = (⊥ :: mid.map fin) ++ [((⊤ : WithTop K) : Ext K)] := by simp [hbr]
          rw [e, List.idxOf_append_of_mem hm']
          have := List.idxOf_lt_length_of_mem hm'
          simp only [List.length_append, List.length_cons, List.length_nil] at this ⊢
          omega
        · rw [if_neg hm]
          simp [hbr]
      rw [List.getElem?_eq_getElem hlt]
      simp

/-- Non-vacuity: breaks `[1, 3]`, distances `0, 1/2, 2, 5`; the zero distance is alone at level 0. -/
example : (match discretise (K := ℚ) [1, 3] ![![0, 1 / 2], ![2, 5]] with
    | .ok (lev, L) => some (lev 0 0, lev 0 1, lev 1 0, lev 1 1, L)
    | .error _ => none) = some (0, 1, 2, 2, 4) := by
  decide +kernel

end SmoothRF
