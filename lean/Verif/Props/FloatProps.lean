import Verif.Proofs.FloatSum
import Mathlib.Algebra.Order.Ring.Pow

/-!
# Equality tests on rounded numbers (C153, C154, C155)

smooth_rf compares computed double precision numbers for equality in three places. The statements below use
`IsFloat`, the numbers with at most 53 binary digits, and the rounded operations of `Verif.Model.Float`.
-/

set_option linter.unusedSectionVars false
set_option maxRecDepth 10000

namespace SmoothRF

/-! ## The rounding itself -/

/-- `fl` is rounding to nearest: it returns a double, and no double is closer. -/
theorem fl_correct (x : ℚ) : IsFloat (fl x) ∧ ∀ y, IsFloat y → |fl x - x| ≤ |y - x| :=
  ⟨fl_isFloat x, fun y hy => fl_nearest x y hy⟩

/-- One tenth is the double `3602879701896397 / 2^55`. -/
example : fl (1 / 10) = 3602879701896397 / 2 ^ 55 := by decide +kernel

/-- A tie goes to the even neighbour, in both directions. -/
example : fl (2 ^ 53 + 1) = 2 ^ 53 ∧ fl (2 ^ 53 + 3) = 2 ^ 53 + 4 := by decide +kernel

/-! ## Claim C153: `ever_oob` -/

theorem oobRow_sum (oob : List Bool) :
    (oob.map fun b => if b then (1 : ℚ) else 0).sum = (oob.count true : ℚ) := by
  induction oob with
  | nil => simp
  | cons b t ih => cases b <;> simp [ih, add_comm]

theorem flOobCount (oob : List Bool) (h : oob.length ≤ 2 ^ 53) :
    npSum (oob.map fun b => if b then (1 : ℚ) else 0) = (oob.count true : ℚ) := by
  rw [npSum_exact _ 0, oobRow_sum]
  · intro x hx
    obtain ⟨b, _, rfl⟩ := List.mem_map.1 hx
    cases b
    · exact ⟨0, by simp⟩
    · exact ⟨1, by simp⟩
  · rw [oobRow_sum]
    have : oob.count true ≤ 2 ^ 53 := List.count_le_length.trans h
    simp only [zpow_zero, mul_one]
    exact_mod_cast this

/-- The weights: the rounded reciprocal of the number of out-of-bag trees, at the out-of-bag trees. -/
theorem flOobRow_eq (oob : List Bool) (h : oob.length ≤ 2 ^ 53) :
    flOobRow oob = oob.map fun b => if b then fl (1 / (oob.count true : ℚ)) else 0 := by
  unfold flOobRow flOobDivisor
  simp only [flOobCount oob h]
  apply List.map_congr_left
  intro b hb
  cases b
  · simp [fl_zero]
  · have hc : (oob.count true : ℚ) ≠ 0 := by
      have := List.count_pos_iff.2 hb
      exact_mod_cast this.ne'
    simp [hc]

theorem oobRow_scaled_sum (oob : List Bool) (c : ℚ) :
    (oob.map fun b => if b then c else 0).sum = (oob.count true : ℚ) * c := by
  induction oob with
  | nil => simp
  | cons b t ih => cases b <;> simp [ih, add_comm, add_mul]

/-- The weights are divided by the number of out-of-bag trees, by 1 if there is none (never by 0). -/
theorem C153_divisor (oob : List Bool) (h : oob.length ≤ 2 ^ 53) :
    flOobDivisor oob = if true ∈ oob then (oob.count true : ℚ) else 1 := by
  unfold flOobDivisor
  simp only [flOobCount oob h]
  by_cases ht : true ∈ oob
  · have := (List.count_pos_iff.2 ht).ne'
    simp [ht, this]
  · simp [ht, List.count_eq_zero.2 ht]

example : flOobDivisor [false, false] = 1 ∧ flOobDivisor [true, false, true] = 2 := by decide +kernel

/-- An observation never out of bag is never counted as one that is. -/
theorem C153_sound (oob : List Bool) (h : oob.length ≤ 2 ^ 53) (he : flEverOob oob = true) : true ∈ oob := by
  by_contra hn
  have hc : oob.count true = 0 := List.count_eq_zero.2 hn
  have hrow : flOobRow oob = oob.map fun _ => (0 : ℚ) := by
    rw [flOobRow_eq oob h]
    apply List.map_congr_left
    intro b hb
    cases b
    · rfl
    · exact absurd hb hn
  have hs : npSum (flOobRow oob) = 0 := by
    rw [hrow, npSum_exact _ 0]
    · simp
    · intro x hx
      obtain ⟨b, _, rfl⟩ := List.mem_map.1 hx
      exact ⟨0, by simp⟩
    · simp
  simp [flEverOob, hs] at he

/-- An observation out of bag for a number of trees that is a power of two is recognised. -/
theorem C153_ever_oob_partial (oob : List Bool) (h : oob.length ≤ 2 ^ 53) (j : ℕ)
    (hc : oob.count true = 2 ^ j) : flEverOob oob = true := by
  have hinv : (1 / (oob.count true : ℚ)) = 2 ^ (-(j : ℤ)) := by
    rw [hc, zpow_neg, zpow_natCast]; push_cast; rw [one_div]
  have hfl : fl (1 / (oob.count true : ℚ)) = 2 ^ (-(j : ℤ)) := by
    rw [hinv]
    exact fl_of_float ⟨1, -(j : ℤ), by norm_num, by simp⟩
  have hsum : (oob.map fun b => if b then ((2 : ℚ) ^ (-(j : ℤ))) else 0).sum = 1 := by
    rw [oobRow_scaled_sum, hc, zpow_neg, zpow_natCast]
    push_cast
    rw [mul_inv_cancel₀ (by positivity)]
  have hj : (oob.count true : ℚ) ≤ 2 ^ 53 := by
    have : oob.count true ≤ 2 ^ 53 := List.count_le_length.trans h
    exact_mod_cast this
  have : npSum (flOobRow oob) = 1 := by
    rw [flOobRow_eq oob h, hfl, npSum_exact _ (-(j : ℤ)), hsum]
    · intro x hx
      obtain ⟨b, _, rfl⟩ := List.mem_map.1 hx
      cases b
      · exact ⟨0, by simp⟩
      · exact ⟨1, by simp⟩
    · rw [hsum]
      rw [hc] at hj
      push_cast at hj
      rw [zpow_neg, zpow_natCast, ← div_eq_mul_inv, le_div_iff₀ (by positivity), one_mul]
      exact hj
  simp [flEverOob, this]

/-- Sixteen trees, four of them out of bag. -/
example : flEverOob [true, false, false, true, false, false, false, true, false, true, false, false, false,
    false, false, false] = true := by decide +kernel

/-- Out of bag in all six trees of a forest, and still "never out of bag". -/
theorem C153_refuted : ∃ oob : List Bool, oob.length = 6 ∧ (∀ b ∈ oob, b = true) ∧ flEverOob oob = false :=
  ⟨List.replicate 6 true, by decide +kernel, by decide +kernel, by decide +kernel⟩

theorem foldl_skip (c : ℚ) : ∀ (oob : List Bool) (r : ℚ), IsFloat r →
    (oob.map fun b => if b then c else 0).foldl (fun r x => fl (r + x)) r =
      (List.replicate (oob.count true) c).foldl (fun r x => fl (r + x)) r
  | [], r, _ => by simp
  | true :: t, r, _ => by
    simp only [List.map_cons, if_true, List.foldl_cons, List.count_cons_self, List.replicate_succ]
    exact foldl_skip c t _ (fl_isFloat _)
  | false :: t, r, hr => by
    have hc : (false :: t).count true = t.count true := by simp
    rw [hc]
    simp only [List.map_cons, Bool.false_eq_true, if_false, List.foldl_cons, add_zero, fl_of_float hr]
    exact foldl_skip c t r hr

/-- With at most seven trees exactly the observations out of bag in one to five trees are recognised; those
out of bag in six or seven trees are lost. -/
theorem C153_few_trees (oob : List Bool) (h : oob.length < 8) :
    flEverOob oob = true ↔ 1 ≤ oob.count true ∧ oob.count true ≤ 5 := by
  have h53 : oob.length ≤ 2 ^ 53 := by
    have : (8 : ℕ) ≤ 2 ^ 53 := by norm_num
    omega
  have hseq : ∀ l : List ℚ, l.length < 8 → npSum l = flSum l := by
    intro l hl
    unfold npSum
    cases hn : l.length with
    | zero => rfl
    | succ n => unfold pairwiseSum; rw [if_pos hl]
  have hlen : oob.count true < 8 := lt_of_le_of_lt List.count_le_length h
  unfold flEverOob
  rw [flOobRow_eq oob h53, hseq _ (by simpa using h), flSum, foldl_skip _ _ _ isFloat_zero]
  generalize oob.count true = c at hlen
  have key : ∀ c : Fin 8, (decide ((List.replicate c.val (fl (1 / (c.val : ℚ)))).foldl
      (fun r x => fl (r + x)) 0 = 1) = true ↔ 1 ≤ c.val ∧ c.val ≤ 5) := by decide +kernel
  exact key ⟨c, hlen⟩

example : flEverOob [true, false, true, true, false] = true ∧
    flEverOob [true, true, true, false, true, true, true] = false := by decide +kernel

/-! ## Claim C154: the starting vector -/

/-- The default starting vector of a regression passes the exact test. -/
theorem C154_default (k : ℕ) (constrained : Bool) :
    flStartCheck constrained (flBaseLamb k none) = .ok () := by
  have h1 : npSum (flBaseLamb k none) = 1 := by
    have hs : (flBaseLamb k none).sum = 1 := by simp [flBaseLamb]
    rw [npSum_exact _ 0, hs]
    · intro x hx
      simp only [flBaseLamb, List.mem_cons, List.mem_replicate] at hx
      rcases hx with rfl | ⟨_, rfl⟩
      · exact ⟨1, by simp⟩
      · exact ⟨0, by simp⟩
    · rw [hs]; norm_num
  unfold flStartCheck
  rw [if_neg]
  rintro ⟨_, h | ⟨x, hx, hneg⟩⟩
  · exact h h1
  · simp only [flBaseLamb, List.mem_cons, List.mem_replicate] at hx
    rcases hx with rfl | ⟨_, rfl⟩ <;> norm_num at hneg

example : flStartCheck true (flBaseLamb 200 none) = .ok () := C154_default 200 true

/-- The vector recommended by the error message, `np.ones(k)/k`, passes if `k` is a power of two. -/
theorem C154_uniform_partial (j : ℕ) (hj : j ≤ 53) (constrained : Bool) :
    flStartCheck constrained (List.replicate (2 ^ j) (fl (1 / ((2 ^ j : ℕ) : ℚ)))) = .ok () := by
  have hfl : fl (1 / ((2 ^ j : ℕ) : ℚ)) = 2 ^ (-(j : ℤ)) := by
    have : (1 / ((2 ^ j : ℕ) : ℚ)) = 2 ^ (-(j : ℤ)) := by
      rw [zpow_neg, zpow_natCast]; push_cast; rw [one_div]
    rw [this]
    exact fl_of_float ⟨1, -(j : ℤ), by norm_num, by simp⟩
  have hsum : (List.replicate (2 ^ j) ((2 : ℚ) ^ (-(j : ℤ)))).sum = 1 := by
    rw [List.sum_replicate, nsmul_eq_mul, zpow_neg, zpow_natCast]
    push_cast
    rw [mul_inv_cancel₀ (by positivity)]
  have h1 : npSum (List.replicate (2 ^ j) ((2 : ℚ) ^ (-(j : ℤ)))) = 1 := by
    rw [npSum_exact _ (-(j : ℤ)), hsum]
    · intro x hx
      rw [List.eq_of_mem_replicate hx]
      exact ⟨1, by simp⟩
    · rw [hsum, zpow_neg, zpow_natCast, ← div_eq_mul_inv, le_div_iff₀ (by positivity), one_mul]
      exact pow_le_pow_right₀ (by norm_num) hj
  unfold flStartCheck
  rw [hfl, if_neg]
  rintro ⟨_, h | ⟨x, hx, hneg⟩⟩
  · exact h h1
  · rw [List.eq_of_mem_replicate hx] at hneg
    have : (0 : ℚ) < 2 ^ (-(j : ℤ)) := by positivity
    exact absurd hneg (not_lt.2 this.le)

example : flStartCheck true (List.replicate 8 (fl (1 / 8))) = .ok () := by
  have := C154_uniform_partial 3 (by norm_num) true
  simpa using this

/-- The error message recommends `np.ones(k)/k`. For six columns this very vector raises the error. -/
theorem C154_refuted_uniform : flStartCheck true (List.replicate 6 (fl (1 / 6))) = .error .typeError := by
  decide +kernel

/-- Random starting vectors: three draws (multiples of `2^-53` in `[0, 1)`) whose normalisation raises. -/
theorem C154_refuted_seed : ∃ u : List ℚ, u.length = 3 ∧ (∀ x ∈ u, 0 < x ∧ x < 1 ∧ ∃ n : ℕ, x = n / 2 ^ 53) ∧
    flStartCheck true (flBaseLamb 3 (some u)) = .error .typeError := by
  refine ⟨[28 / 64, 17 / 64, 4 / 64], rfl, ?_, by decide +kernel⟩
  intro x hx
  simp only [List.mem_cons, List.not_mem_nil, or_false] at hx
  rcases hx with rfl | rfl | rfl
  · exact ⟨by norm_num, by norm_num, 28 * 2 ^ 47, by norm_num⟩
  · exact ⟨by norm_num, by norm_num, 17 * 2 ^ 47, by norm_num⟩
  · exact ⟨by norm_num, by norm_num, 4 * 2 ^ 47, by norm_num⟩

/-- Other draws pass. -/
example : flStartCheck true (flBaseLamb 3 (some [32 / 64, 16 / 64, 16 / 64])) = .ok () := by decide +kernel

/-- Classification with the loss `"l2"` and the default `class_eps`: with 31 columns the default start of `smooth`
raises, although it is divided by its sum twice. -/
theorem C154_refuted_class : flStartCheck true (flClassLamb (fl (1 / 10000)) (flBaseLamb 31 none)) =
    .error .typeError := by decide +kernel

/-- The same with two columns and `class_eps=.006`. -/
theorem C154_refuted_class_eps : flStartCheck true (flClassLamb (fl (6 / 1000)) (flBaseLamb 2 none)) =
    .error .typeError := by decide +kernel

/-- With a few columns and the default `class_eps` it passes. -/
example : flStartCheck true (flClassLamb (fl (1 / 10000)) (flBaseLamb 4 none)) = .ok () := by decide +kernel

/-- Size of the two relative errors together. -/
theorem factor_small (k : ℕ) (hk : k ≤ 2 ^ 30) :
    (1 - 1 / 2 ^ 53 : ℚ) ^ k * ((1 - 1 / 2 ^ 53) / (1 + 1 / 2 ^ 53) ^ k) ≥ 1 - 1 / 10 ^ 5 ∧
      (1 + 1 / 2 ^ 53 : ℚ) ^ k * ((1 + 1 / 2 ^ 53) / (1 - 1 / 2 ^ 53) ^ k) ≤ 1 + 1 / 10 ^ 5 := by
  set v : ℚ := 1 / 2 ^ 53 with hv
  have hv0 : 0 < v := by positivity
  have hv1 : v < 1 := by rw [hv]; norm_num
  have hkq : (k : ℚ) ≤ 2 ^ 30 := by exact_mod_cast hk
  have hprod : (1 + v) * (1 - v) ≤ 1 := by nlinarith
  have hp : 0 < (1 - v) ^ k := pow_pos (by linarith) k
  have hq : 0 < (1 + v) ^ k := pow_pos (by linarith) k
  have hpq : (1 + v) ^ k * (1 - v) ^ k ≤ 1 := by
    rw [← mul_pow]
    exact pow_le_one₀ (mul_nonneg (by linarith) (by linarith)) hprod
  have hbern : 1 - ((2 * k + 1 : ℕ) : ℚ) * v ≤ (1 - v) ^ (2 * k + 1) := by
    have := one_add_mul_le_pow (a := -v) (by linarith) (2 * k + 1)
    have e : (1 + -v) = 1 - v := by ring
    rw [e] at this
    linarith
  have hsm : ((2 * k + 1 : ℕ) : ℚ) * v ≤ 1 / 2 ^ 20 := by
    have h1 : ((2 * k + 1 : ℕ) : ℚ) ≤ 2 ^ 33 := by push_cast; linarith
    calc ((2 * k + 1 : ℕ) : ℚ) * v ≤ 2 ^ 33 * v := mul_le_mul_of_nonneg_right h1 hv0.le
      _ = 1 / 2 ^ 20 := by rw [hv]; norm_num
  have hlow : 1 - 1 / 2 ^ 20 ≤ (1 - v) ^ (2 * k + 1) :=
    le_trans (sub_le_sub_left hsm 1) hbern
  have hsplit : (1 - v) ^ (2 * k + 1) = (1 - v) ^ k * (1 - v) ^ k * (1 - v) := by ring
  rw [hsplit] at hlow
  constructor
  · rw [ge_iff_le, ← mul_div_assoc, le_div_iff₀ hq]
    have h1 : (1 - v) ^ k * (1 - v) ^ k * (1 - v) * (1 + v) ^ k ≤ (1 - v) ^ k * (1 - v) := by
      calc (1 - v) ^ k * (1 - v) ^ k * (1 - v) * (1 + v) ^ k
          = ((1 - v) ^ k * (1 - v)) * ((1 + v) ^ k * (1 - v) ^ k) := by ring
        _ ≤ ((1 - v) ^ k * (1 - v)) * 1 :=
            mul_le_mul_of_nonneg_left hpq (mul_nonneg hp.le (by linarith))
        _ = _ := mul_one _
    refine le_trans ?_ h1
    refine mul_le_mul_of_nonneg_right (le_trans ?_ hlow) hq.le
    norm_num
  · rw [← mul_div_assoc, div_le_iff₀ hp]
    have h2 : (1 + v) ^ k * (1 + v) * ((1 - v) ^ k * (1 - v)) ≤ 1 := by
      calc (1 + v) ^ k * (1 + v) * ((1 - v) ^ k * (1 - v))
          = ((1 + v) ^ k * (1 - v) ^ k) * ((1 + v) * (1 - v)) := by ring
        _ ≤ 1 * 1 := mul_le_mul hpq hprod (mul_nonneg (by linarith) (by linarith)) (by norm_num)
        _ = 1 := one_mul 1
    have h3 : 1 ≤ (1 + 1 / 10 ^ 5) * ((1 - v) ^ k * (1 - v) ^ k * (1 - v)) := by
      refine le_trans ?_ (mul_le_mul_of_nonneg_left hlow (by norm_num))
      norm_num
    have hden : 0 < (1 - v) ^ k * (1 - v) := mul_pos hp (by linarith)
    refine le_of_mul_le_mul_right ?_ hden
    refine h2.trans (h3.trans (le_of_eq ?_))
    ring

/-- Dividing by `s` and rounding changes the sum by a factor close to one. -/
theorem normalise_sum (u : List ℚ) (s : ℚ) (hs0 : 0 < s) (h0 : ∀ x ∈ u, 0 ≤ x) :
    (1 - 1 / 2 ^ 53) * (u.sum / s) ≤ (u.map fun x => fl (x / s)).sum ∧
      (u.map fun x => fl (x / s)).sum ≤ (1 + 1 / 2 ^ 53) * (u.sum / s) := by
  induction u with
  | nil => simp
  | cons x t ih =>
    obtain ⟨i1, i2⟩ := ih fun y hy => h0 y (List.mem_cons_of_mem _ hy)
    have hx : 0 ≤ x / s := div_nonneg (h0 x (by simp)) hs0.le
    obtain ⟨g1, g2⟩ := fl_bounds hx
    simp only [List.map_cons, List.sum_cons, add_div, mul_add] at *
    exact ⟨add_le_add g1 i1, add_le_add g2 i2⟩

/-- `smooth_clean` tests with `np.allclose` and accepts every random starting vector, whatever the draws. -/
theorem C154_clean_seed (u : List ℚ) (h0 : ∀ x ∈ u, 0 ≤ x) (hpos : 0 < u.sum) (hlen : u.length ≤ 2 ^ 30)
    (noConstraint : Bool) : flCloseCheck noConstraint (flBaseLamb u.length (some u)) = .ok () := by
  obtain ⟨b1, b2⟩ := npSum_bounds u h0
  set k := u.length with hk
  obtain ⟨f1, f2⟩ := factor_small k hlen
  set v : ℚ := 1 / 2 ^ 53 with hv
  have hv0 : 0 < v := by positivity
  have hv1 : v < 1 := by rw [hv]; norm_num
  have hp : 0 < (1 - v) ^ k := pow_pos (by linarith) k
  have hq : 0 < (1 + v) ^ k := pow_pos (by linarith) k
  set s := npSum u with hs
  have hs0 : 0 < s := lt_of_lt_of_le (mul_pos hp hpos) b1
  have hn0 : ∀ x ∈ flNormalise u, 0 ≤ x := by
    intro x hx
    obtain ⟨y, hy, rfl⟩ := List.mem_map.1 hx
    have hdiv : 0 ≤ y / npSum u := div_nonneg (h0 y hy) hs0.le
    exact le_trans (mul_nonneg (by linarith) hdiv) (fl_bounds hdiv).1
  have hsum : (1 - v) * (u.sum / s) ≤ (flNormalise u).sum ∧ (flNormalise u).sum ≤ (1 + v) * (u.sum / s) := by
    exact normalise_sum u s hs0 h0
  have hr1 : 1 / (1 + v) ^ k ≤ u.sum / s := by
    rw [div_le_div_iff₀ hq hs0, one_mul, mul_comm]; exact b2
  have hr2 : u.sum / s ≤ 1 / (1 - v) ^ k := by
    rw [div_le_div_iff₀ hs0 hp, one_mul, mul_comm]; exact b1
  obtain ⟨c1, c2⟩ := npSum_bounds (flNormalise u) hn0
  have hlen' : (flNormalise u).length = k := by simp [flNormalise, hk]
  rw [hlen', ← hv] at c1 c2
  have d1 : 1 - 1 / 10 ^ 5 ≤ npSum (flNormalise u) := by
    refine le_trans f1 (le_trans (mul_le_mul_of_nonneg_left ?_ hp.le) c1)
    refine le_trans ?_ hsum.1
    rw [div_eq_mul_one_div]
    exact mul_le_mul_of_nonneg_left hr1 (by linarith)
  have d2 : npSum (flNormalise u) ≤ 1 + 1 / 10 ^ 5 := by
    refine le_trans (le_trans c2 (mul_le_mul_of_nonneg_left ?_ hq.le)) f2
    refine le_trans hsum.2 ?_
    rw [div_eq_mul_one_div (1 + v)]
    exact mul_le_mul_of_nonneg_left hr2 (by linarith)
  show flCloseCheck noConstraint (flNormalise u) = .ok ()
  unfold flCloseCheck
  rw [if_neg]
  rintro ⟨_, h | ⟨x, hx, hneg⟩⟩
  · apply h
    rw [abs_le]
    constructor <;> linarith [show (0 : ℚ) < 1 / 10 ^ 8 by positivity]
  · exact absurd hneg (not_lt.2 (hn0 x hx))

/-- The draws rejected by `smooth` are fine here. -/
example : flCloseCheck false (flBaseLamb 3 (some [28 / 64, 17 / 64, 4 / 64])) = .ok () :=
  C154_clean_seed [28 / 64, 17 / 64, 4 / 64] (by decide +kernel) (by norm_num) (by norm_num) false

/-- `np.allclose` is not vacuous: a vector with sum 2 is rejected. -/
example : flCloseCheck false [1, 1] = .error .typeError := by decide +kernel

/-! ## Claim C155: the sanity check -/

/-- With `lamb` the first unit vector the new leaf value is the old one, bit for bit, provided the old one is
what a fitted tree stores: the rounded quotient of a (rounded) sum `S` and the number `n` of observations. -/
theorem C155_sanity (S : ℚ) (hS : IsFloat S) (n : ℕ) (hn : 0 < n) (hn' : n ≤ 2 ^ 53) :
    flSanity n (fl (S / n)) = fl (S / n) := by
  have hnq : (0 : ℚ) < n := by exact_mod_cast hn
  have pos : ∀ {S : ℚ}, IsFloat S → 0 < S → flSanity n (fl (S / n)) = fl (S / n) := by
    intro S hS hS0
    have hx : 0 < S / n := div_pos hS0 hnq
    obtain ⟨m, e, he, h1, h2, hm⟩ := fl_pos_spec hx
    obtain ⟨m1, m2⟩ := nearInt_range h1 h2 hm
    have hu : (0 : ℚ) < 2 ^ e := by positivity
    unfold flSanity
    have power : ∀ f : ℤ, fl (S / n) = 2 ^ f → fl (fl (n * fl (S / n)) / n) = fl (S / n) := by
      intro f hf
      have hny : fl (n * fl (S / n)) = n * fl (S / n) := by
        apply fl_of_float
        rw [hf]
        refine ⟨n, f, ?_, by push_cast; rfl⟩
        rw [abs_of_nonneg (by positivity)]
        exact_mod_cast hn'
      rw [hny, mul_div_cancel_left₀ _ hnq.ne']
      exact fl_of_float (fl_isFloat _)
    by_cases c1 : m = 2 ^ 52
    · refine power (52 + e) ?_
      rw [he, c1, zpow_add₀ (by norm_num)]; norm_num
    by_cases c2 : m = 2 ^ 53
    · refine power (53 + e) ?_
      rw [he, c2, zpow_add₀ (by norm_num)]; norm_num
    have m1' : (2 : ℚ) ^ 52 + 1 ≤ m := by
      have : 2 ^ 52 + 1 ≤ m := by omega
      exact_mod_cast this
    have m2' : (m : ℚ) + 1 ≤ 2 ^ 53 := by
      have : m + 1 ≤ 2 ^ 53 := by omega
      exact_mod_cast this
    set y := fl (S / n) with hy
    set z := fl (n * y) / n with hz
    have hzy : |y - z| ≤ |y - S / n| := by
      have := fl_nearest (n * y) S hS
      have e1 : y - z = -((fl (n * y) - n * y) / n) := by
        rw [hz]; field_simp; ring
      have e2 : y - S / n = -((S - n * y) / n) := by field_simp; ring
      rw [e1, e2, abs_neg, abs_neg, abs_div, abs_div, abs_of_pos hnq]
      exact div_le_div_of_nonneg_right this hnq.le
    have hclose : |((m : ℤ) : ℚ) - z / 2 ^ e| ≤ |((m : ℤ) : ℚ) - S / n / 2 ^ e| := by
      have sc : ∀ w : ℚ, ((m : ℤ) : ℚ) - w / 2 ^ e = (y - w) / 2 ^ e := by
        intro w
        rw [he, sub_div, mul_div_cancel_right₀ _ hu.ne']
        push_cast; rfl
      rw [sc, sc, abs_div, abs_div]
      exact div_le_div_of_nonneg_right hzy (abs_nonneg _)
    have hnear := hm.closer hclose
    have hle := hnear.le
    rw [abs_le] at hle
    push_cast at hle
    rw [he]
    refine fl_eq_of ?_ ?_ hnear
    · rw [← le_div_iff₀ hu]; linarith [hle.2]
    · rw [← div_lt_iff₀ hu]; linarith [hle.1]
  rcases lt_trichotomy S 0 with h | rfl | h
  · have := pos hS.neg (neg_pos.2 h)
    unfold flSanity at this ⊢
    rw [neg_div, fl_neg, mul_neg, fl_neg, neg_div, fl_neg] at this
    exact neg_injective this
  · simp [flSanity, fl_zero]
  · exact pos hS h

/-- Mean of three observations with sum one. -/
example : flSanity 3 (fl (1 / 3)) = fl (1 / 3) ∧ fl (1 / 3) ≠ 1 / 3 := by decide +kernel

/-- For a value that is not such a quotient (for example the leaf of an already smoothed forest) the last digit
can change: value `0.0009` in a leaf with three observations. -/
theorem C155_refuted : ∃ (y : ℚ) (n : ℕ), IsFloat y ∧ 0 < n ∧ flSanity n y ≠ y :=
  ⟨fl (9 / 10000), 3, fl_isFloat _, by norm_num, by decide +kernel⟩

/-- For any value the change is at most two roundings. -/
theorem C155_any_value (y : ℚ) (n : ℕ) (hn : 0 < n) : |flSanity n y - y| ≤ (2 / 2 ^ 53 + 1 / 2 ^ 106) * |y| := by
  have hnq : (0 : ℚ) < n := by exact_mod_cast hn
  have h1 := fl_err (n * y)
  have h2 := fl_err (fl (n * y) / n)
  have h3 : |fl (n * y) / n - y| ≤ |y| / 2 ^ 53 := by
    have e : fl (n * y) / n - y = (fl (n * y) - n * y) / n := by field_simp
    rw [e, abs_div, abs_of_pos hnq, div_le_iff₀ hnq]
    refine h1.trans (le_of_eq ?_)
    rw [abs_mul, abs_of_pos hnq]; ring
  have h4 : |fl (n * y) / n| ≤ |y| + |y| / 2 ^ 53 := by
    have := abs_add_le (fl (n * y) / n - y) y
    rw [sub_add_cancel] at this
    linarith
  have h5 := abs_sub_le (flSanity n y) (fl (n * y) / n) y
  unfold flSanity at h5 ⊢
  have h6 : |fl (n * y) / n| / 2 ^ 53 ≤ (|y| + |y| / 2 ^ 53) / 2 ^ 53 :=
    div_le_div_of_nonneg_right h4 (by positivity)
  refine (h5.trans (add_le_add (h2.trans h6) h3)).trans (le_of_eq ?_)
  ring

end SmoothRF
