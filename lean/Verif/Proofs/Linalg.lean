import Verif.Spec.Linalg
import Mathlib.Tactic.Ring
import Mathlib.Tactic.FieldSimp
import Mathlib.Tactic.Linarith
import Mathlib.Tactic.Positivity
import Mathlib.LinearAlgebra.LinearIndependent.Lemmas
import Mathlib.Data.Real.Sqrt
import Mathlib.Algebra.BigOperators.Field

set_option linter.unusedSectionVars false

namespace SmoothRF

section Chol
variable {K : Type} [Field K] [LinearOrder K] [IsStrictOrderedRing K]

/-- Completing the square in the first coordinate. -/
theorem schur_form {n : ℕ} (A : Fin (n + 1) → Fin (n + 1) → K) (hs : ∀ i j, A i j = A j i)
    (ha : A 0 0 ≠ 0) (x : Fin (n + 1) → K) :
    ∑ i, ∑ j, x i * A i j * x j =
      A 0 0 * (x 0 + (∑ j : Fin n, A j.succ 0 * x j.succ) / A 0 0) ^ 2 +
        ∑ i : Fin n, ∑ j : Fin n, x i.succ * schurRest A i j * x j.succ := by
  have e1 : ∑ i, ∑ j, x i * A i j * x j =
      x 0 * A 0 0 * x 0 + x 0 * (∑ j : Fin n, A j.succ 0 * x j.succ) +
      ((∑ j : Fin n, A j.succ 0 * x j.succ) * x 0 +
        ∑ i : Fin n, ∑ j : Fin n, x i.succ * A i.succ j.succ * x j.succ) := by
    rw [Fin.sum_univ_succ]
    congr 1
    · rw [Fin.sum_univ_succ, Finset.mul_sum]
      congr 1
      refine Finset.sum_congr rfl fun j _ => ?_
      rw [hs 0 j.succ]; ring
    · rw [Finset.sum_mul, ← Finset.sum_add_distrib]
      refine Finset.sum_congr rfl fun i _ => ?_
      rw [Fin.sum_univ_succ]
      congr 1
      ring
  have e2 : ∑ i : Fin n, ∑ j : Fin n, x i.succ * schurRest A i j * x j.succ =
      (∑ i : Fin n, ∑ j : Fin n, x i.succ * A i.succ j.succ * x j.succ) -
        (∑ j : Fin n, A j.succ 0 * x j.succ) ^ 2 / A 0 0 := by
    rw [sq, Finset.sum_mul_sum, Finset.sum_div, ← Finset.sum_sub_distrib]
    refine Finset.sum_congr rfl fun i _ => ?_
    rw [Finset.sum_div, ← Finset.sum_sub_distrib]
    refine Finset.sum_congr rfl fun j _ => ?_
    unfold schurRest
    ring
  rw [e1, e2]
  generalize (∑ j : Fin n, A j.succ 0 * x j.succ) = b
  field_simp
  ring

theorem schur_symm {n : ℕ} {A : Fin (n + 1) → Fin (n + 1) → K} (hs : ∀ i j, A i j = A j i) (i j : Fin n) :
    schurRest A i j = schurRest A j i := by
  unfold schurRest
  rw [hs i.succ j.succ, mul_comm (A i.succ 0)]

theorem cholOk_iff : ∀ {n : ℕ} (A : Fin n → Fin n → K), (∀ i j, A i j = A j i) →
    (cholOk n A = true ↔ PosDefForm A)
  | 0, A, _ => by
    simp only [cholOk, true_iff]
    intro x hx
    exact absurd (funext fun i => i.elim0) hx
  | n + 1, A, hs => by
    have ih := cholOk_iff (schurRest A) (schur_symm hs)
    simp only [cholOk, Bool.and_eq_true, decide_eq_true_eq, ih]
    constructor
    · rintro ⟨ha, hS⟩ x hx
      rw [schur_form A hs ha.ne' x]
      by_cases hy : (fun i : Fin n => x i.succ) = 0
      · have hy' : ∀ i : Fin n, x i.succ = 0 := fun i => congrFun hy i
        have hx0 : x 0 ≠ 0 := by
          intro h0
          exact hx (funext fun i => Fin.cases h0 hy' i)
        simp only [hy', mul_zero, Finset.sum_const_zero, zero_div, add_zero]
        positivity
      · have := hS _ hy
        have h2 : 0 ≤ A 0 0 * (x 0 + (∑ j : Fin n, A j.succ 0 * x j.succ) / A 0 0) ^ 2 := by positivity
        linarith
    · intro hP
      have ha : 0 < A 0 0 := by
        have := hP (Fin.cons 1 0) (by
          intro h
          have := congrFun h 0
          simp at this)
        simpa [Fin.sum_univ_succ] using this
      refine ⟨ha, fun y hy => ?_⟩
      have := hP (Fin.cons (-(∑ j : Fin n, A j.succ 0 * y j) / A 0 0) y) (by
        intro h
        exact hy (funext fun i => by simpa using congrFun h i.succ))
      rw [schur_form A hs ha.ne'] at this
      simp only [Fin.cons_zero, Fin.cons_succ] at this
      rw [neg_div, neg_add_cancel] at this
      simpa using this

theorem isPosDef_iff {n : ℕ} (A : Fin n → Fin n → K) :
    isPosDef A = true ↔ (∀ i j, A i j = A j i) ∧ PosDefForm A := by
  unfold isPosDef
  split_ifs with hs
  · rw [cholOk_iff A hs]
    exact ⟨fun h => ⟨hs, h⟩, fun h => h.2⟩
  · simp only [Bool.false_eq_true, false_iff]
    exact fun h => hs h.1

/-- The pivots are positive exactly when there is a Cholesky factor. -/
theorem cholOk_factor : ∀ {n : ℕ} (A : Fin n → Fin n → ℝ), (∀ i j, A i j = A j i) → cholOk n A = true →
    ∃ L, IsCholesky A L
  | 0, _, _, _ => ⟨fun i => i.elim0, ⟨fun i => i.elim0, fun i => i.elim0, fun i => i.elim0⟩⟩
  | n + 1, A, hs, h => by
    simp only [cholOk, Bool.and_eq_true, decide_eq_true_eq] at h
    obtain ⟨ha, hS⟩ := h
    obtain ⟨L, hL⟩ := cholOk_factor (schurRest A) (schur_symm hs) hS
    have hr : 0 < √(A 0 0) := Real.sqrt_pos.2 ha
    have hrr : √(A 0 0) * √(A 0 0) = A 0 0 := Real.mul_self_sqrt ha.le
    refine ⟨fun i j => Fin.cases (Fin.cases (√(A 0 0)) (fun _ => 0) j)
      (fun i' => Fin.cases (A i'.succ 0 / √(A 0 0)) (fun j' => L i' j') j) i, ?_, ?_, ?_⟩
    · intro i j
      refine Fin.cases ?_ (fun i' => ?_) i <;> refine Fin.cases ?_ (fun j' => ?_) j
      · intro h; exact absurd h (lt_irrefl _)
      · intro _; rfl
      · intro h; exact absurd h (Fin.not_lt_zero _)
      · intro h; exact hL.lower i' j' (Fin.succ_lt_succ_iff.1 h)
    · intro i
      refine Fin.cases ?_ (fun i' => ?_) i
      · exact hr
      · exact hL.diag i'
    · intro i j
      rw [Fin.sum_univ_succ]
      refine Fin.cases ?_ (fun i' => ?_) i <;> refine Fin.cases ?_ (fun j' => ?_) j
      · simp [hrr]
      · simp only [Fin.cases_zero, Fin.cases_succ, zero_mul, Finset.sum_const_zero, add_zero]
        rw [mul_div_cancel₀ _ hr.ne', hs]
      · simp only [Fin.cases_zero, Fin.cases_succ, mul_zero, Finset.sum_const_zero, add_zero]
        rw [div_mul_cancel₀ _ hr.ne']
      · simp only [Fin.cases_zero, Fin.cases_succ]
        rw [← hL.prod, div_mul_div_comm, hrr]
        unfold schurRest
        ring

/-- A matrix with a Cholesky factor is symmetric and positive definite. -/
theorem IsCholesky.posDef {n : ℕ} {A L : Fin n → Fin n → ℝ} (h : IsCholesky A L) :
    (∀ i j, A i j = A j i) ∧ PosDefForm A := by
  refine ⟨fun i j => ?_, fun x hx => ?_⟩
  · rw [h.prod, h.prod]
    exact Finset.sum_congr rfl fun k _ => mul_comm _ _
  have e : ∑ i, ∑ j, x i * A i j * x j = ∑ k, (∑ i, x i * L i k) ^ 2 := by
    simp only [h.prod, sq, Finset.sum_mul_sum]
    rw [Finset.sum_comm' (t' := Finset.univ) (s' := fun _ => Finset.univ) (by simp)]
    rw [Finset.sum_comm]
    rw [Finset.sum_congr rfl fun i _ => Finset.sum_congr rfl fun j _ => by
      rw [Finset.mul_sum, Finset.sum_mul]]
    rw [Finset.sum_congr rfl fun i _ => Finset.sum_comm, Finset.sum_comm]
    refine Finset.sum_congr rfl fun k _ => Finset.sum_congr rfl fun i _ => Finset.sum_congr rfl fun j _ => ?_
    ring
  rw [e]
  have hne : (Finset.univ.filter fun i => x i ≠ 0).Nonempty := by
    by_contra hc
    rw [Finset.not_nonempty_iff_eq_empty, Finset.filter_eq_empty_iff] at hc
    exact hx (funext fun i => by simpa using hc (Finset.mem_univ i))
  set k := (Finset.univ.filter fun i => x i ≠ 0).max' hne with hk
  have hxk : x k ≠ 0 := (Finset.mem_filter.1 (Finset.max'_mem _ hne)).2
  have hgt : ∀ i, k < i → x i = 0 := by
    intro i hi
    by_contra hc
    exact absurd (Finset.le_max' _ i (Finset.mem_filter.2 ⟨Finset.mem_univ i, hc⟩)) (not_le.2 hi)
  refine Finset.sum_pos' (fun i _ => sq_nonneg _) ⟨k, Finset.mem_univ k, ?_⟩
  rw [Finset.sum_eq_single k]
  · have := h.diag k
    positivity
  · intro i _ hik
    rcases lt_or_gt_of_ne hik with hlt | hlt
    · rw [h.lower i k hlt, mul_zero]
    · rw [hgt i hlt, zero_mul]
  · simp

end Chol

section Null
variable {K : Type} [Field K]

theorem setOf_mem_eq_range {n : ℕ} (cols : List (Fin n → K)) :
    {c | c ∈ cols} = Set.range fun l : Fin cols.length => cols[l] := by
  ext c
  simp only [Set.mem_ofPred_eq, Set.mem_range, List.mem_iff_get]
  rfl

theorem mem_span_cols {n : ℕ} (cols : List (Fin n → K)) (v : Fin n → K) :
    v ∈ Submodule.span K {c | c ∈ cols} ↔ ∃ c : Fin cols.length → K, ∀ j, v j = ∑ l, c l * cols[l] j := by
  rw [setOf_mem_eq_range, Submodule.mem_span_range_iff_exists_fun]
  constructor
  · rintro ⟨c, hc⟩
    refine ⟨c, fun j => ?_⟩
    rw [← hc]
    simp
  · rintro ⟨c, hc⟩
    refine ⟨c, funext fun j => ?_⟩
    rw [hc]
    simp

theorem NullBasis.rank {m n : ℕ} {G : Fin m → Fin n → K} {cols : List (Fin n → K)} (h : NullBasis G cols) :
    colRank cols = cols.length := by
  unfold colRank
  have hli : LinearIndependent K fun l : Fin cols.length => cols[l] := by
    rw [Fintype.linearIndependent_iff]
    intro c hc
    refine h.indep c fun j => ?_
    have := congrFun hc j
    simpa using this
  rw [setOf_mem_eq_range, finrank_span_eq_card hli, Fintype.card_fin]

theorem colRank_append_eq_iff {n : ℕ} (cols : List (Fin n → K)) (v : Fin n → K) :
    colRank (cols ++ [v]) = colRank cols ↔ v ∈ Submodule.span K {c | c ∈ cols} := by
  have hle : Submodule.span K {c | c ∈ cols} ≤ Submodule.span K {c | c ∈ cols ++ [v]} :=
    Submodule.span_mono fun c hc => by simp only [Set.mem_ofPred_eq] at hc ⊢; simp [hc]
  unfold colRank
  constructor
  · intro h
    rw [Submodule.eq_of_le_of_finrank_eq hle h.symm]
    exact Submodule.subset_span (by simp)
  · intro h
    have : Submodule.span K {c | c ∈ cols ++ [v]} = Submodule.span K {c | c ∈ cols} := by
      refine le_antisymm (Submodule.span_le.2 ?_) hle
      intro c hc
      simp only [Set.mem_ofPred_eq, List.mem_append, List.mem_singleton] at hc
      rcases hc with hc | rfl
      · exact Submodule.subset_span hc
      · exact h
    rw [this]

theorem inNullRank_iff {m n : ℕ} {G : Fin m → Fin n → K} {cols : List (Fin n → K)} (h : NullBasis G cols)
    (v : Fin n → K) : inNullRank cols v = true ↔ Annihilates G v ∧ ∃ u, u ≠ 0 ∧ Annihilates G u := by
  unfold inNullRank
  simp only
  split_ifs with h0
  · simp only [Bool.false_eq_true, false_iff, not_and, not_exists]
    intro _ u hu hG
    obtain ⟨c, hc⟩ := (h.spans u).1 hG
    refine hu (funext fun j => ?_)
    rw [hc j]
    refine Finset.sum_eq_zero fun l _ => ?_
    exact absurd l.isLt (by omega)
  · rw [decide_eq_true_eq]
    rw [← h.rank, colRank_append_eq_iff, mem_span_cols, ← h.spans]
    constructor
    · intro hv
      refine ⟨hv, cols[0], ?_, (h.spans _).2 ⟨fun l => if l.val = 0 then 1 else 0, fun j => ?_⟩⟩
      · intro hz
        have := h.indep (fun l => if l.val = 0 then 1 else 0) (fun j => ?_) ⟨0, by omega⟩
        · simp at this
        · rw [Finset.sum_eq_single ⟨0, by omega⟩]
          · simp [hz]
          · intro b _ hb
            have : b.val ≠ 0 := fun e => hb (Fin.ext e)
            simp [this]
          · simp
      · rw [Finset.sum_eq_single ⟨0, by omega⟩]
        · simp
        · intro b _ hb
          have : b.val ≠ 0 := fun e => hb (Fin.ext e)
          simp [this]
        · simp
    · exact fun hv => hv.1

end Null
end SmoothRF
