import Verif.Model.Search
import Mathlib.Data.Rat.Floor
import Mathlib.Algebra.Order.Ring.Rat

/-!
# C111: the out-of-bag parameter searches
-/

set_option linter.unusedSectionVars false

namespace SmoothRF

variable {K : Type} [Field K] [LinearOrder K] [IsStrictOrderedRing K] {σ : Type}

/-- `i` is the position of the first largest out-of-bag score. -/
def FirstBest (runs : List (σ × K)) (i : ℕ) (x : σ × K) : Prop :=
  runs[i]? = some x ∧ (∀ y ∈ runs, y.2 ≤ x.2) ∧ ∀ (j : ℕ) (y : σ × K), j < i → runs[j]? = some y → y.2 < x.2

theorem search_loop (runs done : List (σ × K)) (st : SearchState K σ)
    (hc : st.cost = done.map fun r => 1 - r.2)
    (hb : (done = [] ∧ st.best = none) ∨ ∃ i x, FirstBest done i x ∧ st.best = some (x.1, 1 - x.2)) :
    ∃ st', runs.foldlM (searchIter true) st = .ok st' ∧
      st'.cost = (done ++ runs).map (fun r => 1 - r.2) ∧
      ((done ++ runs = [] ∧ st'.best = none) ∨
        ∃ i x, FirstBest (done ++ runs) i x ∧ st'.best = some (x.1, 1 - x.2)) := by
  induction runs generalizing done st with
  | nil => exact ⟨st, rfl, by simpa using hc, by simpa using hb⟩
  | cons r runs ih =>
    rw [show done ++ r :: runs = (done ++ [r]) ++ runs by simp]
    rw [List.foldlM_cons]
    refine ih (done ++ [r]) (searchStep st r) (by simp [searchStep, hc]) ?_
    · right
      rcases hb with ⟨hd, hn⟩ | ⟨i, x, ⟨hi, hmax, hfirst⟩, hs⟩
      · refine ⟨0, r, ⟨by simp [hd], by simp [hd], by intro j y hj; omega⟩, by simp [searchStep, hn]⟩
      · have hil : i < done.length := (List.getElem?_eq_some_iff.1 hi).1
        by_cases hlt : 1 - r.2 < 1 - x.2
        · have hxr : x.2 < r.2 := by linarith
          refine ⟨done.length, r, ⟨by simp, ?_, ?_⟩, by simp [searchStep, hs, hlt]⟩
          · intro y hy
            rcases List.mem_append.1 hy with h | h
            · exact (hmax y h).trans hxr.le
            · simp only [List.mem_singleton] at h; rw [h]
          · intro j y hj hy
            rw [List.getElem?_append_left hj] at hy
            exact (hmax y (List.mem_of_getElem? hy)).trans_lt hxr
        · have hxr : r.2 ≤ x.2 := by linarith
          refine ⟨i, x, ⟨by rw [List.getElem?_append_left hil]; exact hi, ?_, ?_⟩,
            by simp [searchStep, hs]; intro h; exact absurd (by linarith : 1 - r.2 < 1 - x.2) hlt⟩
          · intro y hy
            rcases List.mem_append.1 hy with h | h
            · exact hmax y h
            · simp only [List.mem_singleton] at h; rw [h]; exact hxr
          · intro j y hj hy
            rw [List.getElem?_append_left (by omega)] at hy
            exact hfirst j y hj hy

/-- C111: with a known `type` and a non-empty range, the search returns the setting whose forest had
the largest out-of-bag score, the first such one, with one minus that score, and the list of one
minus the scores in range order. -/
theorem C111_search_best (runs : List (σ × K)) (hne : runs ≠ []) :
    ∃ i x, FirstBest runs i x ∧
      gridSearch true runs = .ok (some (x.1, 1 - x.2), runs.map (fun r => 1 - r.2), runs.map (·.1)) := by
  obtain ⟨st, h1, h2, h3⟩ := search_loop runs [] ⟨none, []⟩ rfl (Or.inl ⟨rfl, rfl⟩)
  simp only [List.nil_append] at h2 h3
  rcases h3 with ⟨h, -⟩ | ⟨i, x, hx, hb⟩
  · exact absurd h hne
  · refine ⟨i, x, hx, ?_⟩
    unfold gridSearch
    rw [h1]
    simp [bind, Except.bind, pure, Except.pure, hb, h2]

/-- C111: an unknown `type` is not rejected where it is checked; the first iteration raises
UnboundLocalError, and an empty range returns infinities whatever the `type`. -/
theorem C111_unknown_type (known : Bool) (runs : List (σ × K)) :
    (runs ≠ [] → gridSearch false runs = .error .unboundLocalError) ∧
    gridSearch known ([] : List (σ × K)) = .ok (none, [], []) := by
  refine ⟨fun h => ?_, rfl⟩
  obtain ⟨r, rs, rfl⟩ := List.exists_cons_of_ne_nil h
  rfl

/-- Ties go to the first setting. -/
example : (match gridSearch (K := ℚ) true [((2 : ℕ), 1 / 4), (4, 1 / 2), (6, 1 / 2), (8, 1 / 3)] with
    | .ok (b, c, r) => some (b, c, r) | .error _ => none) =
    some (some (4, 1 / 2), [3 / 4, 1 / 2, 1 / 2, 2 / 3], [2, 4, 6, 8]) := by decide +kernel

end SmoothRF
