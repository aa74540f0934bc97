import Verif.Props.FloatGradProps
import Verif.Props.ProxProps

/-!
# C189: prox_project is accurate on descending vectors only
-/

set_option linter.unusedSectionVars false

namespace SmoothRF

attribute [local irreducible] fl

section Exact

variable {K : Type} [Field K] [LinearOrder K] [IsStrictOrderedRing K]

theorem clip0_antitone {n : ℕ} {y : Fin n → K} (h : ∀ i j, i ≤ j → y j ≤ y i) (i j : Fin n) (hij : i ≤ j) :
    clip0 y j ≤ clip0 y i := by
  rw [clip0_eq_max, clip0_eq_max]
  exact max_le_max_right 0 (h i j hij)

/-- One threshold from the next. -/
theorem proxThr_succ {n : ℕ} {y : Fin (n + 1) → K} (h : ∀ i j, i ≤ j → y j ≤ y i) (j : ℕ) (hj : j + 1 < n + 1) :
    ((j + 2 : ℕ) : K) * proxThr y ⟨j + 1, hj⟩ = ((j + 1 : ℕ) : K) * proxThr y ⟨j, by omega⟩ + y ⟨j + 1, hj⟩ := by
  have h1 := mul_proxThr y ⟨j + 1, hj⟩
  have h2 := mul_proxThr y ⟨j, by omega⟩
  rw [sortDesc_of_antitone y h] at h1 h2
  rw [h1, h2]
  have e : (List.ofFn y).take (j + 1 + 1) = (List.ofFn y).take (j + 1) ++ [y ⟨j + 1, hj⟩] := by
    rw [List.take_succ_eq_append_getElem (by simpa using hj)]
    simp
  rw [e, List.sum_append, List.sum_singleton]
  ring

/-- Whatever thresholds within `δ` the comparisons use, the ones that pass nearly reach every exact threshold. -/
theorem thr_reached {n : ℕ} {y : Fin (n + 1) → K} (h : ∀ i j, i ≤ j → y j ≤ y i) {δ : K} {t : Fin (n + 1) → K}
    (ht : ∀ j, |t j - proxThr y j| ≤ δ) (h0 : t 0 < y 0) :
    ∀ (j : ℕ) (hj : j < n + 1), ∃ i, t i < y i ∧ proxThr y ⟨j, hj⟩ - j * δ ≤ proxThr y i := by
  have hδ : 0 ≤ δ := (abs_nonneg _).trans (ht 0)
  intro j
  induction j with
  | zero => intro hj; exact ⟨0, h0, by simp⟩
  | succ j ih =>
    intro hj
    by_cases hp : t ⟨j + 1, hj⟩ < y ⟨j + 1, hj⟩
    · refine ⟨_, hp, ?_⟩
      have : 0 ≤ ((j + 1 : ℕ) : K) * δ := by positivity
      linarith
    · obtain ⟨i, hi, hle⟩ := ih (by omega)
      refine ⟨i, hi, le_trans ?_ hle⟩
      have e := proxThr_succ h j hj
      have h1 := (abs_le.1 (ht ⟨j + 1, hj⟩)).2
      push_cast at e ⊢
      have h2 : y ⟨j + 1, hj⟩ ≤ proxThr y ⟨j + 1, hj⟩ + δ := by linarith [not_lt.1 hp]
      have h3 : ((j : K) + 1) * (proxThr y ⟨j + 1, hj⟩ - δ) ≤ ((j : K) + 1) * proxThr y ⟨j, by omega⟩ := by
        have : 0 ≤ (j : K) * δ := by positivity
        linarith
      have h4 := le_of_mul_le_mul_left h3 (by positivity)
      linarith

/-- For a descending vector `theta` is the largest of all thresholds. -/
theorem proxProject_desc {n : ℕ} (y : Fin (n + 1) → K) (h : ∀ i j, i ≤ j → y j ≤ y i) :
    ∃ θ, proxProject y = .ok (fun i => max (clip0 y i - max θ 0) 0) ∧ (∃ j, θ = proxThr (clip0 y) j) ∧
      ∀ i, proxThr (clip0 y) i ≤ θ := by
  obtain ⟨θ, j, e, hθ, hmax, -⟩ := proxProject_form y
  refine ⟨θ, e, ⟨j, hθ⟩, fun i => ?_⟩
  have h0 : proxThr (clip0 y) 0 < clip0 y 0 := by
    rw [proxThr_eq, sortDesc_of_antitone _ (clip0_antitone h)]
    simp [List.ofFn_succ]
  obtain ⟨k, hk, hle⟩ := thr_reached (clip0_antitone h) (δ := 0) (t := proxThr (clip0 y)) (fun j => by simp) h0 i.val i.isLt
  rw [mul_zero, sub_zero] at hle
  exact hle.trans (hmax k hk)

theorem sum_take_close {ε : K} : ∀ (a b : List K), a.length = b.length →
    (∀ p ∈ a.zip b, |p.1 - p.2| ≤ ε) → ∀ j, |(a.take j).sum - (b.take j).sum| ≤ (min j a.length : ℕ) * ε := by
  intro a
  induction a with
  | nil => intro b hb _ j; simp [List.length_eq_zero_iff.1 (by simpa using hb.symm)]
  | cons x a ih =>
    intro b hb hp j
    cases b with
    | nil => simp at hb
    | cons z b =>
      cases j with
      | zero => simp
      | succ j =>
        have h1 := hp (x, z) (by simp)
        have h2 := ih b (by simpa using hb) (fun p hpp => hp p (by simp [hpp])) j
        simp only [List.take_succ_cons, List.sum_cons, List.length_cons]
        have e : x + (a.take j).sum - (z + (b.take j).sum) = (x - z) + ((a.take j).sum - (b.take j).sum) := by ring
        rw [e]
        refine (abs_add_le _ _).trans ?_
        rw [Nat.succ_min_succ]
        push_cast at h2 ⊢
        linarith

theorem proxThr_close {n : ℕ} {y z : Fin (n + 1) → K} (hy : ∀ i j, i ≤ j → y j ≤ y i)
    (hz : ∀ i j, i ≤ j → z j ≤ z i) {ε : K} (h : ∀ i, |y i - z i| ≤ ε) (j : Fin (n + 1)) :
    |proxThr y j - proxThr z j| ≤ ε := by
  rw [proxThr_eq, proxThr_eq, sortDesc_of_antitone y hy, sortDesc_of_antitone z hz, ← sub_div,
    sub_sub_sub_cancel_right, abs_div, abs_of_pos (show (0 : K) < ((j.val + 1 : ℕ) : K) by positivity),
    div_le_iff₀ (by positivity)]
  have := sum_take_close (List.ofFn y) (List.ofFn z) (by simp) (ε := ε) (by
    intro p hp
    obtain ⟨i, hi, rfl⟩ := List.getElem_of_mem hp
    rw [List.getElem_zip, List.getElem_ofFn, List.getElem_ofFn]
    exact h _) (j.val + 1)
  refine this.trans (le_of_eq ?_)
  rw [List.length_ofFn, min_eq_left (by have := j.isLt; omega), mul_comm]

theorem soft_close {a b s t ε δ : K} (h1 : |a - b| ≤ ε) (h2 : |s - t| ≤ δ) :
    |max (a - max s 0) 0 - max (b - max t 0) 0| ≤ ε + δ := by
  refine (abs_max_sub_max_le_abs _ _ _).trans ?_
  have h3 := abs_max_sub_max_le_abs s t 0
  have e : a - max s 0 - (b - max t 0) = (a - b) - (max s 0 - max t 0) := by ring
  rw [e]
  exact (abs_sub _ _).trans (by linarith)

/-- C189: on descending vectors `prox_project` moves by at most twice what the argument moves (in the largest entry). -/
theorem C189_lipschitz {n : ℕ} (y z : Fin (n + 1) → K) (hy : ∀ i j, i ≤ j → y j ≤ y i)
    (hz : ∀ i j, i ≤ j → z j ≤ z i) {ε : K} (h : ∀ i, |y i - z i| ≤ ε) :
    ∃ x w, proxProject y = .ok x ∧ proxProject z = .ok w ∧ ∀ i, |x i - w i| ≤ 2 * ε := by
  obtain ⟨s, e1, ⟨j, hj⟩, hs⟩ := proxProject_desc y hy
  obtain ⟨t, e2, ⟨k, hk⟩, ht⟩ := proxProject_desc z hz
  have hc : ∀ i, |clip0 y i - clip0 z i| ≤ ε := fun i => by
    rw [clip0_eq_max, clip0_eq_max]
    exact (abs_max_sub_max_le_abs _ _ _).trans (h i)
  have hthr := proxThr_close (clip0_antitone hy) (clip0_antitone hz) hc
  refine ⟨_, _, e1, e2, fun i => ?_⟩
  rw [two_mul]
  refine soft_close (hc i) (abs_le.2 ⟨?_, ?_⟩)
  · have := (abs_le.1 (hthr k)).1
    have := hs k
    linarith
  · have := (abs_le.1 (hthr j)).2
    have := ht j
    linarith

theorem sortDesc_jump {ε : K} (h0 : 0 ≤ ε) (h1 : ε ≤ 1) : sortDesc ![1 + ε, 0, 2] = [2, 1 + ε, 0] := by
  apply List.Perm.eq_of_pairwise (le := (· ≥ ·)) (fun a b _ _ h1 h2 => le_antisymm h2 h1) (sortDesc_sorted _)
  · simp only [List.pairwise_cons, List.mem_cons, List.not_mem_nil, or_false, forall_eq_or_imp, forall_eq, ge_iff_le,
      false_imp_iff, implies_true, List.Pairwise.nil, and_true]
    refine ⟨⟨by linarith, by norm_num⟩, by linarith⟩
  · refine (sortDesc_perm _).trans ?_
    simp only [List.ofFn_succ, Matrix.cons_val_zero, Matrix.cons_val_succ, List.ofFn_zero]
    refine (List.Perm.cons _ (List.Perm.swap _ _ _)).trans (List.Perm.swap _ _ _)

/-- C189: off descending vectors `prox_project` jumps: it maps `(1, 0, 2)` to `(1/3, 0, 4/3)` and `(1 + ε, 0, 2)`, however
small `ε` is, to a vector whose last entry is at most 1. -/
theorem C189_jump {ε : K} (h0 : 0 < ε) (h1 : ε ≤ 1) : ∃ x x' : Fin 3 → K, proxProject ![1, 0, 2] = .ok x ∧
    proxProject ![1 + ε, 0, 2] = .ok x' ∧ x 2 = 4 / 3 ∧ x' 2 ≤ 1 := by
  have c1 : clip0 (![1, 0, 2] : Fin 3 → K) = ![1 + 0, 0, 2] := by
    rw [add_zero]
    apply clip0_of_nonneg
    intro i
    fin_cases i <;> norm_num
  have c2 : clip0 (![1 + ε, 0, 2] : Fin 3 → K) = ![1 + ε, 0, 2] := by
    apply clip0_of_nonneg
    intro i
    fin_cases i
    · show 0 ≤ 1 + ε; linarith
    · exact le_rfl
    · norm_num
  obtain ⟨θ, j, e, hθ, hmax, hj⟩ := proxProject_form (![1, 0, 2] : Fin 3 → K)
  obtain ⟨θ', j', e', hθ', hmax', hj'⟩ := proxProject_form (![1 + ε, 0, 2] : Fin 3 → K)
  rw [c1] at e hθ hmax hj
  rw [c2] at e' hθ' hmax' hj'
  refine ⟨_, _, e, e', ?_, ?_⟩
  · have t0 : proxThr (![1 + 0, 0, 2] : Fin 3 → K) 0 = 1 := by
      rw [proxThr_eq, sortDesc_jump le_rfl zero_le_one]; norm_num
    have t1 : proxThr (![1 + 0, 0, 2] : Fin 3 → K) 1 = 1 := by
      rw [proxThr_eq, sortDesc_jump le_rfl zero_le_one]; norm_num
    have t2 : proxThr (![1 + 0, 0, 2] : Fin 3 → K) 2 = 2 / 3 := by
      rw [proxThr_eq, sortDesc_jump le_rfl zero_le_one]; norm_num
    have hj2 : j = 2 := by
      fin_cases j
      · rw [show ((⟨0, by decide⟩ : Fin 3)) = 0 from rfl, t0] at hj; simp at hj
      · rw [show ((⟨1, by decide⟩ : Fin 3)) = 1 from rfl, t1] at hj; norm_num at hj
      · rfl
    rw [hj2, t2] at hθ
    rw [hθ]
    show max ((2 : K) - max (2 / 3) 0) 0 = 4 / 3
    rw [max_eq_left (by norm_num : (0 : K) ≤ 2 / 3), max_eq_left (by norm_num)]
    norm_num
  · have t0 : proxThr (![1 + ε, 0, 2] : Fin 3 → K) 0 = 1 := by
      rw [proxThr_eq, sortDesc_jump h0.le h1]; norm_num
    have := hmax' 0 (by rw [t0]; show 1 < 1 + ε; linarith)
    rw [t0] at this
    show max ((2 : K) - max θ' 0) 0 ≤ 1
    refine max_le ?_ zero_le_one
    have := le_max_left θ' 0
    linarith

/-- C189: so no constant bounds the change of the result by the change of the argument. -/
theorem C189_lipschitz_refuted : ¬ ∃ c : K, ∀ (n : ℕ) (y z x w : Fin (n + 1) → K) (ε : K), (∀ i, |y i - z i| ≤ ε) →
    proxProject y = .ok x → proxProject z = .ok w → ∀ i, |x i - w i| ≤ c * ε := by
  rintro ⟨c, hc⟩
  set ε : K := 1 / (4 * (|c| + 1)) with hε
  have hp : 0 < 4 * (|c| + 1) := by positivity
  have hε0 : 0 < ε := by positivity
  have hε1 : ε ≤ 1 := by
    rw [hε, div_le_one hp]
    have := abs_nonneg c
    linarith
  obtain ⟨x, x', e1, e2, h1, h2⟩ := C189_jump hε0 hε1
  have h3 := hc 2 _ _ _ _ ε (by
    intro i
    fin_cases i
    · show |(1 : K) - (1 + ε)| ≤ ε
      rw [sub_add_cancel_left, abs_neg, abs_of_pos hε0]
    · show |(0 : K) - 0| ≤ ε
      simpa using hε0.le
    · show |(2 : K) - 2| ≤ ε
      simpa using hε0.le) e1 e2 2
  have h4 : 1 / 3 ≤ |x 2 - x' 2| := le_trans (by rw [h1]; linarith) (le_abs_self _)
  have h5 : c * ε ≤ 1 / 4 := by
    have : c * ε ≤ (|c| + 1) * ε := mul_le_mul_of_nonneg_right (by have := le_abs_self c; linarith) hε0.le
    refine this.trans (le_of_eq ?_)
    rw [hε]
    field_simp
  have h6 := h4.trans (h3.trans h5)
  norm_num at h6

end Exact

local notation "U" => ((1 : ℚ) + 1 / 2 ^ 53)

/-- A threshold in doubles. -/
theorem flProxThr_err {n : ℕ} (y : Fin (n + 1) → ℚ) (h0 : ∀ i, 0 ≤ y i) {Y : ℚ} (hY : ∀ i, y i ≤ Y)
    (hn : n + 3 ≤ 2 ^ 52) (j : Fin (n + 1)) :
    |flProxThr y j - proxThr y j| ≤ 2 * (n + 3) / 2 ^ 53 * (Y + 1) := by
  have hY0 : 0 ≤ Y := (h0 0).trans (hY 0)
  rw [flProxThr_eq, proxThr_eq]
  set l := (sortDesc y).take (j.val + 1) with hl
  have hlen : l.length = j.val + 1 := by
    rw [hl, List.length_take, sortDesc_length]
    have := j.isLt
    omega
  have hmem : ∀ x ∈ l, 0 ≤ x ∧ x ≤ Y := fun x hx => by
    obtain ⟨i, rfl⟩ := (mem_sortDesc y x).1 (List.mem_of_mem_take hx)
    exact ⟨h0 i, hY i⟩
  have hs := Approx.sum (l := l) (w := fun x => x) (f := fun x => x) (f' := fun x => x) (E := 1)
    (fun x hx => Approx.exact (le_of_eq (abs_of_nonneg (hmem x hx).1)))
    (by simpa using rsum_flSum l)
  rw [List.map_id', mul_one, hlen] at hs
  have hS : l.sum ≤ (j.val + 1 : ℕ) * Y := by
    have := List.sum_le_card_nsmul l Y fun x hx => (hmem x hx).2
    rwa [hlen, nsmul_eq_mul] at this
  have h1 := (hs.sub' ((Approx.exact (by norm_num : |(1 : ℚ)| ≤ 1)).mono
    (one_le_pow₀ (by norm_num) : (1 : ℚ) ≤ U ^ (j.val + 1)))).fl
  have hk : (0 : ℚ) < ((j.val + 1 : ℕ) : ℚ) := by positivity
  have h2 := ((h1.mul (show (0 : ℚ) ≤ 1 / ((j.val + 1 : ℕ) : ℚ) by positivity)).fl).mono
    (le_trans (le_of_eq (by ring)) (U_mono (show j.val + 3 ≤ n + 3 by have := j.isLt; omega)))
  simp only [mul_one_div] at h2
  refine h2.1.trans ?_
  have hp := pow_small (n + 3) hn
  have e1 : (l.sum + 1) / ((j.val + 1 : ℕ) : ℚ) ≤ Y + 1 := by
    rw [div_le_iff₀ hk]
    have : (1 : ℚ) ≤ ((j.val + 1 : ℕ) : ℚ) := by exact_mod_cast (by omega : 1 ≤ j.val + 1)
    nlinarith
  have e2 : 0 ≤ U ^ (n + 3) - 1 := sub_nonneg.2 (one_le_pow₀ (by norm_num))
  refine (mul_le_mul_of_nonneg_left e1 e2).trans (mul_le_mul_of_nonneg_right ?_ (by linarith))
  push_cast at hp
  linarith

/-- C189: on a descending vector of `n` entries at most `Y` the doubles are within `2 (n + 1) (n + 2) 2^-53 (Y + 1)` of the
exact result. -/
theorem C189_accuracy {n : ℕ} (y : Fin (n + 1) → ℚ) (hy : ∀ i j, i ≤ j → y j ≤ y i) {Y : ℚ}
    (hY : ∀ i, max (y i) 0 ≤ Y) (hn : n ≤ 2 ^ 50) (hb : ((n : ℚ) + 1) * (n + 3) * Y < 2 ^ 52) :
    ∃ x x', proxProject y = .ok x ∧ flProxProject y = .ok x' ∧
      ∀ i, |x' i - x i| ≤ 2 * (n + 2) * (n + 3) / 2 ^ 53 * (Y + 1) := by
  have hca := clip0_antitone hy
  have hc0 := clip0_nonneg y
  have hcY : ∀ i, clip0 y i ≤ Y := fun i => by rw [clip0_eq_max]; exact hY i
  have hY0 : 0 ≤ Y := (hc0 0).trans (hcY 0)
  have herr := flProxThr_err (clip0 y) hc0 hcY (by omega)
  set δ : ℚ := 2 * (n + 3) / 2 ^ 53 * (Y + 1) with hδ
  have hδ0 : 0 ≤ δ := (abs_nonneg _).trans (herr 0)
  have hlt : flProxThr (clip0 y) 0 < clip0 y 0 := by
    refine thr_lt_max _ hc0 0 (fun j => hca 0 j (Fin.zero_le j)) (lt_of_le_of_lt ?_ hb) hn
    exact mul_le_mul_of_nonneg_left (hcY 0) (by positivity)
  obtain ⟨m, hm⟩ := npMaxE_isOk ((flProxRho (clip0 y)).map (flProxThr (clip0 y)))
    (by simpa using flRho_ne _ _ hlt)
  obtain ⟨hmem, hle⟩ := npMaxE_spec _ _ hm
  obtain ⟨θ, e, ⟨j, hj⟩, hmax⟩ := proxProject_desc y hy
  have hθ : |m - θ| ≤ (n + 1) * δ := by
    rw [_root_.abs_le]
    constructor
    · obtain ⟨i, hi, h1⟩ := thr_reached hca herr hlt j.val j.isLt
      have h2 : flProxThr (clip0 y) i ≤ m := hle _ (List.mem_map.2 ⟨i, by simp [flProxRho, hi], rfl⟩)
      have h3 := (_root_.abs_le.1 (herr i)).1
      have h4 : (j.val : ℚ) * δ ≤ n * δ :=
        mul_le_mul_of_nonneg_right (by exact_mod_cast (by have := j.isLt; omega : j.val ≤ n)) hδ0
      rw [hj]
      linarith
    · obtain ⟨i, -, hi⟩ := List.mem_map.1 hmem
      have h3 := (_root_.abs_le.1 (herr i)).2
      have h4 := hmax i
      have : 0 ≤ (n : ℚ) * δ := by positivity
      linarith
  refine ⟨_, _, e, by unfold flProxProject; dsimp only; rw [hm]; rfl, fun i => ?_⟩
  rw [clip0_eq_max (fun i => fl (clip0 y i - max m 0))]
  have h1 := soft_close (a := clip0 y i) (b := clip0 y i) (ε := 0) (by simp) hθ
  have h2 : |max (fl (clip0 y i - max m 0)) 0 - max (clip0 y i - max m 0) 0| ≤ Y / 2 ^ 53 := by
    rcases le_total (clip0 y i - max m 0) 0 with hn | hp
    · rw [max_eq_right (fl_nonpos hn), max_eq_right hn]
      simpa using by positivity
    · refine (abs_max_sub_max_le_abs _ _ _).trans ((fl_err _).trans ?_)
      rw [abs_of_nonneg hp]
      refine div_le_div_of_nonneg_right ?_ (by positivity)
      have := le_max_right m 0
      have := hcY i
      linarith
  have e3 : max (fl (clip0 y i - max m 0)) 0 - max (clip0 y i - max θ 0) 0 =
      (max (fl (clip0 y i - max m 0)) 0 - max (clip0 y i - max m 0) 0) +
      (max (clip0 y i - max m 0) 0 - max (clip0 y i - max θ 0) 0) := by ring
  rw [e3]
  refine (abs_add_le _ _).trans ?_
  have h3 : Y / 2 ^ 53 ≤ δ := by
    rw [hδ]
    have : 0 ≤ (n : ℚ) * Y := by positivity
    have e : 2 * ((n : ℚ) + 3) / 2 ^ 53 * (Y + 1) = (2 * (n * Y) + 2 * n + 6 * Y + 6) / 2 ^ 53 := by ring
    rw [e]
    exact div_le_div_of_nonneg_right (by have : (0 : ℚ) ≤ n := by positivity
                                         linarith) (by positivity)
  have e4 : 2 * ((n : ℚ) + 2) * (n + 3) / 2 ^ 53 * (Y + 1) = (n + 2) * δ := by rw [hδ]; ring
  rw [e4]
  linarith

theorem ok_of_entries {n : ℕ} {e : Except PyErr (Fin n → ℚ)} {x : Fin n → ℚ}
    (h : (match e with | .ok v => decide (∀ i, v i = x i) | .error _ => false) = true) : e = .ok x := by
  cases e with
  | error a => cases h
  | ok v => rw [funext (of_decide_eq_true h)]

/-- C189: for other vectors there is no such bound. At `(1 + 2^-52, 1/2 + 2^-53, 0, 1)`, four doubles, the sum of the two
largest entries is rounded, a comparison that fails exactly passes, and two entries of the result are an eighth away (up to rounding). -/
theorem C189_accuracy_refuted : ∃ x x' : Fin 4 → ℚ, let y : Fin 4 → ℚ := ![1 + 1 / 2 ^ 52, 1 / 2 + 1 / 2 ^ 53, 0, 1]
    (∀ i, IsFloat (y i)) ∧ proxProject y = .ok x ∧ flProxProject y = .ok x' ∧ 1 / 9 < |x' 0 - x 0| ∧
      1 / 9 < |x' 3 - x 3| := by
  refine ⟨![22517998136852485 / 36028797018963968, 4503599627370497 / 36028797018963968, 0,
    22517998136852477 / 36028797018963968], ![2251799813685249 / 4503599627370496, 1 / 9007199254740992, 0, 1 / 2],
    ?_, ?_, ?_, ?_, ?_⟩
  · intro i
    fin_cases i
    · exact ⟨2 ^ 52 + 1, -52, by norm_num, by norm_num⟩
    · exact ⟨2 ^ 52 + 1, -53, by norm_num, by norm_num⟩
    · exact isFloat_zero
    · exact ⟨1, 0, by norm_num, by norm_num⟩
  · exact ok_of_entries (by decide +kernel)
  · exact ok_of_entries (by decide +kernel)
  · decide +kernel
  · decide +kernel

/- The hypotheses of the positive results hold for instance here. -/
example : ∃ x x', proxProject ![(9 / 10 : ℚ), 7 / 10, -1] = .ok x ∧ flProxProject ![9 / 10, 7 / 10, -1] = .ok x' ∧
    ∀ i, |x' i - x i| ≤ 2 * ((2 : ℕ) + 2) * ((2 : ℕ) + 3) / 2 ^ 53 * (1 + 1) :=
  C189_accuracy (n := 2) ![(9 / 10 : ℚ), 7 / 10, -1] (by decide +kernel) (Y := 1) (by decide +kernel) (by norm_num)
    (by norm_num)

end SmoothRF
