import Verif.Model.Feasible
import Verif.Props.CostProps
import Verif.Props.SgdProps
import Mathlib.Tactic.Linarith
import Mathlib.Tactic.NormNum

/-!
# Which starting weights the three descents accept (C220)
-/

set_option linter.unusedSectionVars false

namespace SmoothRF

variable {k : ℕ}

theorem floor_logb_one {s : ℝ} (h1 : 1 ≤ s) (h2 : s < 10) : ⌊Real.logb 10 s⌋ = 0 := by
  rw [Int.floor_eq_iff]
  constructor
  · simpa using Real.logb_nonneg (by norm_num) h1
  · have := Real.logb_lt_logb (b := 10) (by norm_num) (by linarith) h2
    rw [Real.logb_self_eq_one (by norm_num)] at this
    simpa using this

theorem floor_logb_tenth {s : ℝ} (h1 : 1 / 10 ≤ s) (h2 : s < 1) : ⌊Real.logb 10 s⌋ = -1 := by
  rw [Int.floor_eq_iff]
  constructor
  · have := Real.logb_le_logb_of_le (b := 10) (by norm_num) (by norm_num : (0 : ℝ) < 1 / 10) h1
    rw [one_div, Real.logb_inv, Real.logb_self_eq_one (by norm_num)] at this
    simpa using this
  · have := Real.logb_lt_logb (b := 10) (by norm_num) (by linarith) h2
    rw [Real.logb_one] at this
    simpa using this

theorem scale_le {s : ℝ} (h : 0 < s) : (10 : ℝ) ^ ⌊Real.logb 10 s⌋ ≤ s := by
  rw [← Real.rpow_intCast]
  have := Real.rpow_le_rpow_of_exponent_le (x := 10) (by norm_num) (Int.floor_le (Real.logb 10 s))
  rwa [Real.rpow_logb (by norm_num) (by norm_num) h] at this

/-- C220: the test of the cross-entropy descent is not symmetric around one. -/
theorem C220_approx (x : ℝ) : npApproxOne x = true ↔ 1 - 1 / 10 ^ 7 < x ∧ x < 1 + 1 / 10 ^ 6 := by
  unfold npApproxOne
  split_ifs with h1
  · subst h1; norm_num
  simp only [abs_one, decide_eq_true_eq]
  set s : ℝ := 0.5 * (1 + |x|) with hs
  have hs0 : 0 < s := by have := abs_nonneg x; rw [hs]; linarith
  have hsc := scale_le hs0
  have hp : (0 : ℝ) < 10 ^ ⌊Real.logb 10 s⌋ := zpow_pos (by norm_num) _
  rcases lt_or_ge x 1 with hx | hx
  · rcases le_or_gt x 0 with h0 | h0
    · refine ⟨fun h => ?_, fun h => by norm_num at h; linarith⟩
      exfalso
      rw [← sub_div, abs_div, abs_of_pos hp, div_lt_iff₀ hp, abs_of_pos (by linarith)] at h
      rw [abs_of_nonpos h0] at hs
      have : 1 - x < 1 / 10 ^ 6 * s := lt_of_lt_of_le h (mul_le_mul_of_nonneg_left hsc (by norm_num))
      rw [hs] at this
      norm_num at this
      linarith
    · have e : ⌊Real.logb 10 s⌋ = -1 := by
        rw [abs_of_pos h0] at hs
        exact floor_logb_tenth (by rw [hs]; linarith) (by rw [hs]; linarith)
      rw [e, ← sub_div, abs_div, abs_of_pos (by norm_num : (0 : ℝ) < 10 ^ (-1 : ℤ)), abs_of_pos (by linarith),
        div_lt_iff₀ (by norm_num)]
      norm_num
      constructor
      · intro h; constructor <;> linarith
      · intro h; linarith [h.1]
  · have h0 : 0 ≤ x := by linarith
    have habs : |1 - x| = x - 1 := by rw [abs_of_nonpos (by linarith)]; ring
    rw [abs_of_nonneg h0] at hs
    constructor
    · intro h
      rw [← sub_div, abs_div, abs_of_pos hp, div_lt_iff₀ hp, habs] at h
      have h2 : x - 1 < 1 / 10 ^ 6 * s := lt_of_lt_of_le h (mul_le_mul_of_nonneg_left hsc (by norm_num))
      have hx2 : x < 2 := by rw [hs] at h2; norm_num at h2; linarith
      have e : ⌊Real.logb 10 s⌋ = 0 := floor_logb_one (by rw [hs]; linarith) (by rw [hs]; linarith)
      rw [e] at h
      norm_num at h ⊢
      constructor <;> linarith
    · rintro ⟨-, h⟩
      have e : ⌊Real.logb 10 s⌋ = 0 :=
        floor_logb_one (by rw [hs]; linarith) (by rw [hs]; norm_num at h; linarith)
      rw [e, zpow_zero, div_one, div_one, habs]
      linarith

/-- C220: the test of `stocastic_grad_descent_clean`. -/
theorem C220_close {K : Type} [Field K] [LinearOrder K] [IsStrictOrderedRing K] (x : K) :
    npCloseOne x = true ↔ |x - 1| ≤ 1001 / 10 ^ 8 := by
  unfold npCloseOne
  rw [decide_eq_true_eq, abs_one]
  norm_num

/-- C220: `stocastic_grad_descent_ce` raises TypeError for a wrong length and, with the constraint, stops in the
debugger for a sum outside the window or a negative entry, whatever the data. Other starts of non-negative weights
are taken: without steps they are what is returned (for rows with a cost). -/
theorem C220_ce (sqrt : ℝ → ℝ) (o : SgdOpts ℝ) (eps : ℝ) (rows : List (Row ℝ k)) (l : List ℝ) (choices : List ℕ) :
    (l.length ≠ k → sgdCe sqrt npApproxOne o eps rows l choices = .error .typeError) ∧
    (l.length = k → o.constrained = true →
      (l.sum ≤ 1 - 1 / 10 ^ 7 ∨ 1 + 1 / 10 ^ 6 ≤ l.sum ∨ ∃ x ∈ l, x < 0) →
      sgdCe sqrt npApproxOne o eps rows l choices = .error .debugger) ∧
    (∀ h : l.length = k,
      (o.constrained = true → 1 - 1 / 10 ^ 7 < l.sum ∧ l.sum < 1 + 1 / 10 ^ 6) → (∀ x ∈ l, 0 ≤ x) →
      rows ≠ [] → (∀ r ∈ rows, ∀ j, 0 ≤ r.gam j) →
      (∀ r ∈ rows, 0 < ∑ j, r.eta j * l[j] ∧ 0 < ∑ j, r.gam j * l[j]) →
      ∃ c, sgdCe sqrt npApproxOne o eps rows l [] = .ok (fun j => l[j], fun j => l[j], [c])) := by
  refine ⟨fun h => ?_, fun h hc hbad => ?_, fun h hs h0 hr hg hpos => ?_⟩
  · unfold sgdCe; rw [dif_neg h]
  · unfold sgdCe
    rw [dif_pos h, if_pos]
    refine ⟨hc, ?_⟩
    rcases hbad with hb | hb | hb
    · left
      rw [← Bool.not_eq_true, C220_approx]
      exact fun h => absurd h.1 (not_lt.2 hb)
    · left
      rw [← Bool.not_eq_true, C220_approx]
      exact fun h => absurd h.2 (not_lt.2 hb)
    · exact Or.inr hb
  · obtain ⟨f, L, g, -, hf, -⟩ := C26_gradient_ce rows (fun j : Fin k => l[j]) hg (fun j => h0 _ (List.getElem_mem _))
      (fun r hr => (hpos r hr).1) (fun r hr => (hpos r hr).2)
    refine ⟨f fun j => l[j], ?_⟩
    unfold sgdCe
    rw [dif_pos h, if_neg]
    · unfold sgdRun
      rw [hf]
      have : rows.isEmpty = false := by cases rows <;> simp_all
      simp only [bind, Except.bind, this, List.foldlM_nil]
      rfl
    · rintro ⟨hc, hb | ⟨x, hx, hlt⟩⟩
      · rw [← Bool.not_eq_true, C220_approx] at hb
        exact hb (hs hc)
      · exact absurd (h0 x hx) (not_le.2 hlt)

/-- C220: `stocastic_grad_descent_clean` with the constraint raises TypeError for a sum further than `1.001e-5` from
one or a negative entry, whatever the data; other starts are taken: without steps they are what is returned. -/
theorem C220_clean {K : Type} [Field K] [LinearOrder K] [IsStrictOrderedRing K] (sqrt : K → K) (d : CleanData K k)
    (y : List K) (o : CleanOpts K) (l : Fin k → K) (choices : List (List ℕ)) :
    (o.noConstraint = false → (1001 / 10 ^ 8 < |∑ j, l j - 1| ∨ ∃ j, l j < 0) →
      sgdClean sqrt npCloseOne d y o l choices = .error .typeError) ∧
    ((o.noConstraint = false → |∑ j, l j - 1| ≤ 1001 / 10 ^ 8 ∧ ∀ j, 0 ≤ l j) → o.useFullLoss = false →
      sgdClean sqrt npCloseOne d y o l [] = .ok (l, l, [])) := by
  refine ⟨fun hc hb => ?_, fun h hf => ?_⟩
  · unfold sgdClean
    rw [if_pos]
    refine ⟨hc, ?_⟩
    rcases hb with hb | hb
    · left
      rw [← Bool.not_eq_true, C220_close]
      exact not_le.2 hb
    · exact Or.inr hb
  · unfold sgdClean
    rw [if_neg]
    · simp [List.foldlM_nil, bind, Except.bind, pure, Except.pure, hf]
    · rintro ⟨hc, hb | ⟨j, hj⟩⟩
      · rw [← Bool.not_eq_true, C220_close] at hb
        exact hb (h hc).1
      · exact absurd ((h hc).2 j) (not_le.2 hj)

/-- One row, one weight. -/
def exStartRows : List (Row ℝ 1) := [⟨1, 1, fun _ => 1, fun _ => 1, 0⟩]

/-- C220: the three windows differ. The weight `1 + 5e-7` is refused by `stocastic_grad_descent` and taken by the
cross-entropy descent; `1 - 5e-7` stops the latter in the debugger and is taken by
`stocastic_grad_descent_clean`. -/
theorem C220_differ (sqrt : ℝ → ℝ) :
    sgd sqrt ⟨1, true, none⟩ exStartRows [1 + 5 / 10 ^ 7] [] = .error .typeError ∧
    (∃ out, sgdCe sqrt npApproxOne ⟨1, true, none⟩ 0 exStartRows [1 + 5 / 10 ^ 7] [] = .ok out) ∧
    sgdCe sqrt npApproxOne ⟨1, true, none⟩ 0 exStartRows [1 - 5 / 10 ^ 7] [] = .error .debugger ∧
    ∀ (d : CleanData ℝ 1) (y : List ℝ) (n : ℕ),
      ∃ out, sgdClean sqrt npCloseOne d y ⟨n, false, 1, false, none⟩ (fun _ => 1 - 5 / 10 ^ 7) [] = .ok out := by
  refine ⟨?_, ?_, ?_, fun d y n => ?_⟩
  · rw [C29_rejects_bad_start]
    right
    refine ⟨rfl, Or.inl ?_⟩
    norm_num
  · obtain ⟨c, hc⟩ := (C220_ce sqrt ⟨1, true, none⟩ 0 exStartRows [1 + 5 / 10 ^ 7] []).2.2 rfl
      (fun _ => by norm_num) (by norm_num) (by simp [exStartRows]) (by simp [exStartRows])
      (by simp [exStartRows]; norm_num)
    exact ⟨_, hc⟩
  · exact (C220_ce sqrt ⟨1, true, none⟩ 0 exStartRows [1 - 5 / 10 ^ 7] []).2.1 rfl rfl (Or.inl (by norm_num))
  · exact ⟨_, (C220_clean sqrt d y ⟨n, false, 1, false, none⟩ (fun _ => 1 - 5 / 10 ^ 7) []).2
      (fun _ => by constructor <;> norm_num [abs_le]) rfl⟩

/-- The weights of `calc_lamb` for ten levels, all 1/10, are taken by all three. -/
example : npApproxOne (List.replicate 10 (1 / 10 : ℝ)).sum = true ∧
    npCloseOne (List.replicate 10 (1 / 10 : ℝ)).sum = true ∧ (List.replicate 10 (1 / 10 : ℝ)).sum = 1 := by
  rw [C220_approx, C220_close]
  norm_num

end SmoothRF
