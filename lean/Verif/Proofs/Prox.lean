import Verif.Model.Prox
import Verif.Spec.Prox
import Mathlib.Tactic.Linarith
import Mathlib.Tactic.Ring
import Mathlib.Tactic.FieldSimp
import Mathlib.Tactic.Positivity
import Mathlib.Tactic.Push
import Mathlib.Algebra.Order.BigOperators.Group.Finset
import Mathlib.Algebra.Order.BigOperators.Group.List
import Mathlib.Algebra.BigOperators.Ring.Finset

set_option linter.unusedSectionVars false

namespace SmoothRF

variable {K : Type} [Field K] [LinearOrder K] [IsStrictOrderedRing K]

theorem clip0_eq_max {n : ℕ} (y : Fin n → K) (i : Fin n) : clip0 y i = max (y i) 0 := by
  unfold clip0; split_ifs with h
  · exact (max_eq_right h.le).symm
  · exact (max_eq_left (not_lt.1 h)).symm

theorem clip0_nonneg {n : ℕ} (y : Fin n → K) (i : Fin n) : 0 ≤ clip0 y i := by
  rw [clip0_eq_max]; exact le_max_right _ _

theorem clip0_of_nonneg {n : ℕ} (y : Fin n → K) (h : ∀ i, 0 ≤ y i) : clip0 y = y := by
  funext i; rw [clip0_eq_max]; exact max_eq_left (h i)

theorem cumsum_getElem? (l : List K) : ∀ (acc : K) (j : ℕ), j < l.length →
    (cumsum acc l)[j]? = some (acc + (l.take (j + 1)).sum) := by
  induction l with
  | nil => intro acc j h; simp at h
  | cons a l ih =>
    intro acc j h
    cases j with
    | zero => simp [cumsum]
    | succ j =>
      simp only [cumsum, List.getElem?_cons_succ, List.take_succ_cons, List.sum_cons]
      rw [ih _ _ (by simpa using h)]
      simp [add_assoc]

theorem sortDesc_perm {n : ℕ} (y : Fin n → K) : (sortDesc y).Perm (List.ofFn y) :=
  (List.reverse_perm _).trans (List.perm_insertionSort _ _)

theorem sortDesc_length {n : ℕ} (y : Fin n → K) : (sortDesc y).length = n := by
  rw [(sortDesc_perm y).length_eq, List.length_ofFn]

theorem sortDesc_sorted {n : ℕ} (y : Fin n → K) : (sortDesc y).Pairwise (· ≥ ·) := by
  unfold sortDesc
  rw [List.pairwise_reverse]
  exact List.pairwise_insertionSort (· ≤ ·) _

theorem proxThr_eq {n : ℕ} (y : Fin n → K) (j : Fin n) :
    proxThr y j = (((sortDesc y).take (j.val + 1)).sum - 1) / ((j.val + 1 : ℕ) : K) := by
  unfold proxThr
  rw [cumsum_getElem? _ _ _ (by rw [sortDesc_length]; exact j.isLt)]
  simp

theorem proxThr_le_iff {n : ℕ} (y : Fin n → K) (j : Fin n) (θ : K) :
    proxThr y j ≤ θ ↔ ((sortDesc y).take (j.val + 1)).sum - ((j.val + 1 : ℕ) : K) * θ ≤ 1 := by
  rw [proxThr_eq, div_le_iff₀ (by positivity)]
  constructor <;> intro h <;> linarith [mul_comm θ ((j.val + 1 : ℕ) : K)]

theorem mul_proxThr {n : ℕ} (y : Fin n → K) (j : Fin n) :
    ((j.val + 1 : ℕ) : K) * proxThr y j = ((sortDesc y).take (j.val + 1)).sum - 1 := by
  rw [proxThr_eq, mul_div_cancel₀]; positivity

/-- excess of a list over a threshold -/
def excess (θ : K) (l : List K) : K := (l.map fun a => max (a - θ) 0).sum

theorem take_sub_le_excess (θ : K) (l : List K) : ∀ j, j ≤ l.length →
    (l.take j).sum - (j : K) * θ ≤ excess θ l := by
  induction l with
  | nil => intro j h; simp at h; subst h; simp [excess]
  | cons a l ih =>
    intro j h
    cases j with
    | zero =>
      simp only [List.take_zero, List.sum_nil, Nat.cast_zero, zero_mul, sub_zero, excess]
      exact List.sum_nonneg (by simp)
    | succ j =>
      have := ih j (by simpa using h)
      simp only [excess, List.map_cons, List.sum_cons, List.take_succ_cons] at this ⊢
      have h1 := le_max_left (a - θ) 0
      push_cast
      linarith

/-- For a descending list some prefix realises the excess. -/
theorem exists_take_excess (θ : K) (l : List K) (hl : l.Pairwise (· ≥ ·)) :
    ∃ j ≤ l.length, excess θ l = (l.take j).sum - (j : K) * θ := by
  induction l with
  | nil => exact ⟨0, le_refl _, by simp [excess]⟩
  | cons a l ih =>
    rw [List.pairwise_cons] at hl
    by_cases ha : a ≤ θ
    · refine ⟨0, Nat.zero_le _, ?_⟩
      simp only [excess, List.take_zero, List.sum_nil, Nat.cast_zero, zero_mul, sub_zero]
      apply List.sum_eq_zero
      simp only [List.mem_map]
      rintro x ⟨b, hb, rfl⟩
      apply max_eq_right
      rcases List.mem_cons.1 hb with rfl | hb
      · linarith
      · have := hl.1 b hb; linarith
    · obtain ⟨j, hj, e⟩ := ih hl.2
      refine ⟨j + 1, by simpa using hj, ?_⟩
      simp only [excess, List.map_cons, List.sum_cons, List.take_succ_cons] at e ⊢
      rw [e, max_eq_left (by linarith [not_le.1 ha])]
      push_cast; ring

theorem excess_eq_sum {n : ℕ} (y : Fin n → K) (θ : K) :
    excess θ (sortDesc y) = ∑ i, max (y i - θ) 0 := by
  unfold excess
  rw [((sortDesc_perm y).map _).sum_eq, List.map_ofFn, List.sum_ofFn]
  rfl

theorem sum_eq_sortDesc {n : ℕ} (y : Fin n → K) : (sortDesc y).sum = ∑ i, y i := by
  rw [(sortDesc_perm y).sum_eq, List.sum_ofFn]

/-- If all thresholds are at most `θ` the excess over `θ` is at most one. -/
theorem sum_excess_le_one {n : ℕ} (y : Fin n → K) (θ : K) (h : ∀ j, proxThr y j ≤ θ) :
    ∑ i, max (y i - θ) 0 ≤ 1 := by
  rw [← excess_eq_sum]
  obtain ⟨j, hj, e⟩ := exists_take_excess θ _ (sortDesc_sorted y)
  rw [e]
  cases j with
  | zero => simp
  | succ j =>
    rw [sortDesc_length] at hj
    exact (proxThr_le_iff y ⟨j, hj⟩ θ).1 (h ⟨j, hj⟩)

/-- If some threshold is at least `θ` the excess over `θ` is at least one. -/
theorem one_le_sum_excess {n : ℕ} (y : Fin n → K) (θ : K) (j : Fin n) (h : θ ≤ proxThr y j) :
    1 ≤ ∑ i, max (y i - θ) 0 := by
  rw [← excess_eq_sum]
  refine le_trans ?_ (take_sub_le_excess θ _ (j.val + 1) (by rw [sortDesc_length]; exact j.isLt))
  have := mul_proxThr y j
  have h2 : ((j.val + 1 : ℕ) : K) * θ ≤ ((j.val + 1 : ℕ) : K) * proxThr y j :=
    mul_le_mul_of_nonneg_left h (by positivity)
  linarith

theorem npMaxE_spec (l : List K) (m : K) (h : npMaxE l = .ok m) : m ∈ l ∧ ∀ a ∈ l, a ≤ m := by
  cases l with
  | nil => simp [npMaxE] at h
  | cons a l =>
    simp only [npMaxE, Except.ok.injEq] at h
    subst h
    induction l generalizing a with
    | nil => simp
    | cons b l ih =>
      have := ih (max a b)
      simp only [List.foldl_cons, List.mem_cons] at this ⊢
      refine ⟨?_, ?_⟩
      · rcases this.1 with h | h
        · rcases max_choice a b with e | e
          · left; rw [h, e]
          · right; left; rw [h, e]
        · exact Or.inr (Or.inr h)
      · have hm := this.2 (max a b) (Or.inl rfl)
        rintro x (rfl | rfl | hx)
        · exact le_trans (le_max_left _ _) hm
        · exact le_trans (le_max_right _ _) hm
        · exact this.2 x (Or.inr hx)

theorem npMaxE_isOk (l : List K) (h : l ≠ []) : ∃ m, npMaxE l = .ok m := by
  cases l with
  | nil => exact (h rfl).elim
  | cons a l => exact ⟨_, rfl⟩

theorem take_sum_le (M : K) (l : List K) (h : ∀ a ∈ l, a ≤ M) : ∀ j ≤ l.length,
    (l.take j).sum ≤ (j : K) * M := by
  induction l with
  | nil => intro j hj; simp at hj; subst hj; simp
  | cons a l ih =>
    intro j hj
    cases j with
    | zero => simp
    | succ j =>
      have := ih (fun b hb => h b (List.mem_cons_of_mem _ hb)) j (by simpa using hj)
      have ha := h a List.mem_cons_self
      simp only [List.take_succ_cons, List.sum_cons]
      push_cast; linarith

/-- The position of a largest entry is in `rho`. -/
theorem proxRho_ne_nil {n : ℕ} (y : Fin (n + 1) → K) : proxRho y ≠ [] := by
  obtain ⟨j, -, hj⟩ := Finset.exists_max_image Finset.univ y ⟨0, Finset.mem_univ _⟩
  have : j ∈ proxRho y := by
    simp only [proxRho, List.mem_filter, List.mem_finRange, true_and, decide_eq_true_eq]
    rw [proxThr_eq, div_lt_iff₀ (by positivity)]
    have := take_sum_le (y j) (sortDesc y) (fun a ha => by
      rw [(sortDesc_perm y).mem_iff, List.mem_ofFn] at ha
      obtain ⟨i, rfl⟩ := ha
      exact hj i (Finset.mem_univ _)) (j.val + 1) (by rw [sortDesc_length]; exact j.isLt)
    linarith [mul_comm (y j) ((j.val + 1 : ℕ) : K)]
  intro e; rw [e] at this; simp at this

/-- Shape of every successful result. -/
theorem proxProject_form {n : ℕ} (y : Fin (n + 1) → K) :
    ∃ θ j, proxProject y = .ok (fun i => max (clip0 y i - max θ 0) 0) ∧ θ = proxThr (clip0 y) j ∧
      (∀ i, proxThr (clip0 y) i < clip0 y i → proxThr (clip0 y) i ≤ θ) ∧
      proxThr (clip0 y) j < clip0 y j := by
  obtain ⟨θ, hθ⟩ := npMaxE_isOk ((proxRho (clip0 y)).map (proxThr (clip0 y)))
    (by simpa using proxRho_ne_nil (clip0 y))
  obtain ⟨hm, hle⟩ := npMaxE_spec _ _ hθ
  obtain ⟨j, hj, e⟩ := List.mem_map.1 hm
  refine ⟨θ, j, ?_, e.symm, ?_, ?_⟩
  · simp only [proxProject, hθ]
    show Except.ok _ = _
    congr 1
    funext i
    rw [clip0_eq_max]
  · intro i hi
    exact hle _ (List.mem_map.2 ⟨i, by simp [proxRho, hi], rfl⟩)
  · simpa [proxRho] using hj

/-- A soft-thresholded vector that sums to one is the Euclidean projection. -/
theorem isProjection_of_threshold {n : ℕ} (y : Fin n → K) (θ : K)
    (hs : ∑ i, max (y i - θ) 0 = 1) : IsProjection y (fun i => max (y i - θ) 0) := by
  refine ⟨⟨fun i => le_max_right _ _, hs⟩, fun z hz => ?_⟩
  have key : ∀ i, (y i - max (y i - θ) 0) ^ 2 + 2 * θ * (max (y i - θ) 0 - z i) ≤ (y i - z i) ^ 2 := by
    intro i
    have hzi := hz.1 i
    rcases le_total (y i - θ) 0 with h | h
    · rw [max_eq_right h]
      nlinarith [sq_nonneg (z i), mul_nonneg hzi (sub_nonneg.2 h)]
    · rw [max_eq_left h]
      nlinarith [sq_nonneg (y i - z i - θ)]
  have := Finset.sum_le_sum fun i (_ : i ∈ Finset.univ) => key i
  rw [Finset.sum_add_distrib, ← Finset.mul_sum, Finset.sum_sub_distrib, hs, hz.2] at this
  simpa using this

theorem sortDesc_of_antitone {n : ℕ} (y : Fin n → K) (h : ∀ i j, i ≤ j → y j ≤ y i) :
    sortDesc y = List.ofFn y := by
  apply (sortDesc_perm y).eq_of_pairwise (le := (· ≥ ·)) (fun a b _ _ h1 h2 => le_antisymm h2 h1)
    (sortDesc_sorted y)
  rw [List.pairwise_ofFn]
  exact fun i j hij => h i j hij.le

/-- For descending input the largest threshold over `rho` is the largest threshold. -/
theorem proxThr_le_of_antitone {n : ℕ} (y : Fin n → K) (h : ∀ i j, i ≤ j → y j ≤ y i) (θ : K)
    (hθ : ∀ i, proxThr y i < y i → proxThr y i ≤ θ) : ∀ j, proxThr y j ≤ θ := by
  rintro ⟨j, hj⟩
  induction j with
  | zero =>
    apply hθ
    rw [proxThr_eq, sortDesc_of_antitone y h]
    cases n with
    | zero => exact absurd hj (by omega)
    | succ n => simp
  | succ j ih =>
    have ih := ih (by omega)
    by_cases hlt : proxThr y ⟨j + 1, hj⟩ < y ⟨j + 1, hj⟩
    · exact hθ _ hlt
    · refine le_trans ?_ ih
      have h1 := mul_proxThr y ⟨j + 1, hj⟩
      have h0 := mul_proxThr y ⟨j, by omega⟩
      have e : ((sortDesc y).take (j + 1 + 1)).sum = ((sortDesc y).take (j + 1)).sum + y ⟨j + 1, hj⟩ := by
        rw [List.sum_take_succ (sortDesc y) (j + 1) (by rw [sortDesc_length]; exact hj)]
        simp only [sortDesc_of_antitone y h, List.getElem_ofFn]
      simp only at h1 h0
      rw [e] at h1
      have hn := not_lt.1 hlt
      have hpos : (0 : K) < ((j + 1 : ℕ) : K) := by positivity
      have : ((j + 1 : ℕ) : K) * proxThr y ⟨j + 1, hj⟩ ≤ ((j + 1 : ℕ) : K) * proxThr y ⟨j, by omega⟩ := by
        push_cast at h1 h0 ⊢
        linarith
      exact le_of_mul_le_mul_left this hpos

end SmoothRF
