import Verif.Model.FloatSgd
import Verif.Props.FloatSgdProps
import Verif.Props.AdamBoundProps
import Verif.Proofs.Adam
import Verif.Props.FloatDepthProps
import Verif.Props.FloatQuantileProps

/-!
# adam_step in double precision (C205)
-/

set_option linter.unusedSectionVars false

namespace SmoothRF

variable {n : ℕ}

local notation "v" => ((1 : ℚ) / 10 ^ 9)

theorem fl_near (x : ℚ) : |fl x - x| ≤ v * |x| :=
  (fl_err x).trans (by rw [div_mul_eq_mul_div, one_mul]; have := abs_nonneg x; rw [div_le_iff₀ (by norm_num)]; nlinarith)

theorem fl_abs_le (x : ℚ) : |fl x| ≤ (1 + v) * |x| := by
  have h := fl_near x
  have : |fl x| ≤ |fl x - x| + |x| := by simpa using abs_add_le (fl x - x) x
  linarith

theorem fl_ge {x : ℚ} (hx : 0 ≤ x) : (1 - v) * x ≤ fl x := by
  have h := fl_near x
  rw [abs_of_nonneg hx, abs_le] at h
  linarith [h.1]

theorem fl_le {x : ℚ} (hx : 0 ≤ x) : fl x ≤ (1 + v) * x := by
  have h := fl_near x
  rw [abs_of_nonneg hx, abs_le] at h
  linarith [h.2]

/-- What is assumed of the routines and options: default decay rates (as doubles they are off by less than `2^-54`), powers and
square roots that are right to nine digits, step size and eps not negative. -/
structure AdamOk (pow : ℚ → ℕ → ℚ) (sqrt : ℚ → ℚ) (o : AdamOpts ℚ) : Prop where
  b1 : |o.beta1 - 9 / 10| ≤ v
  b2 : |o.beta2 - 999 / 1000| ≤ v
  pw : ∀ (x : ℚ) (t : ℕ), 0 ≤ x → |pow x t - x ^ t| ≤ v * x ^ t
  sq : ∀ x : ℚ, 0 ≤ x → 0 ≤ sqrt x ∧ (1 - v) * x ≤ sqrt x ^ 2 ∧ sqrt x ^ 2 ≤ (1 + v) * x
  al : 0 ≤ o.alpha
  ep : 0 ≤ o.eps

/-- Cauchy's inequality with the default decay rates and room for rounding. -/
theorem adam_cauchy {b1 b2 c X Y m2 : ℚ} (h1 : |b1 - 9 / 10| ≤ v) (h2 : |b2 - 999 / 1000| ≤ v) (hc : |c - 1 / 10| ≤ 3 * v)
    (hI : 9 / 5 * X ^ 2 ≤ m2) : 9 / 5 * (b1 * X + c * Y) ^ 2 ≤ 992 / 1000 * (b2 * m2 + c * Y ^ 2) := by
  rw [abs_le] at h1 h2 hc
  obtain ⟨h1, h1'⟩ := h1
  obtain ⟨h2, h2'⟩ := h2
  obtain ⟨hc, hc'⟩ := hc
  norm_num at h1 h1' h2 h2' hc hc'
  have e1 : (b1 * X + c * Y) ^ 2 ≤ (b1 ^ 2 + 18 / 100) * X ^ 2 + (c ^ 2 + b1 ^ 2 * c ^ 2 / (18 / 100)) * Y ^ 2 := by
    have := sq_nonneg (18 / 100 * X - b1 * c * Y)
    have e : (b1 * X + c * Y) ^ 2 = b1 ^ 2 * X ^ 2 + c ^ 2 * Y ^ 2 + 2 * (b1 * c * X * Y) := by ring
    have e' : (18 / 100 * X - b1 * c * Y) ^ 2 / (18 / 100) =
      18 / 100 * X ^ 2 - 2 * (b1 * c * X * Y) + b1 ^ 2 * c ^ 2 / (18 / 100) * Y ^ 2 := by ring
    have : 0 ≤ (18 / 100 * X - b1 * c * Y) ^ 2 / (18 / 100) := by positivity
    rw [e'] at this
    rw [e]
    linarith
  have b1s : b1 ^ 2 ≤ 8101 / 10000 := by nlinarith
  have e2 : b1 ^ 2 + 18 / 100 ≤ 992 / 1000 * b2 := by linarith
  have e3 : 9 / 5 * (c ^ 2 + b1 ^ 2 * c ^ 2 / (18 / 100)) ≤ 992 / 1000 * c := by
    have : 9 / 5 * (c ^ 2 + b1 ^ 2 * c ^ 2 / (18 / 100)) = c * (c * (9 / 5 + 10 * b1 ^ 2)) := by ring
    rw [this, mul_comm (992 / 1000)]
    refine mul_le_mul_of_nonneg_left ?_ (by linarith)
    have h3 : c * (9 / 5 + 10 * b1 ^ 2) ≤ c * (9 / 5 + 10 * (8101 / 10000)) :=
      mul_le_mul_of_nonneg_left (by linarith) (by linarith)
    linarith
  have e4 : (b1 ^ 2 + 18 / 100) * (9 / 5 * X ^ 2) ≤ 992 / 1000 * b2 * m2 := by
    have : 0 ≤ 9 / 5 * X ^ 2 := by positivity
    calc (b1 ^ 2 + 18 / 100) * (9 / 5 * X ^ 2) ≤ 992 / 1000 * b2 * (9 / 5 * X ^ 2) :=
          mul_le_mul_of_nonneg_right e2 this
      _ ≤ _ := mul_le_mul_of_nonneg_left hI (by linarith)
  have e5 := mul_le_mul_of_nonneg_right e3 (sq_nonneg Y)
  linarith

theorem adam_upper {b1 c m g : ℚ} (hb1 : 0 ≤ b1) (hc0 : 0 ≤ c) :
    |fl (fl (m * b1) + fl (c * g))| ≤ (1 + v) ^ 2 * (b1 * |m| + c * |g|) := by
  have k1 := fl_abs_le (m * b1)
  have k2 := fl_abs_le (c * g)
  have k3 := fl_abs_le (fl (m * b1) + fl (c * g))
  have k4 := abs_add_le (fl (m * b1)) (fl (c * g))
  rw [abs_mul, abs_of_nonneg hb1] at k1
  rw [abs_mul, abs_of_nonneg hc0] at k2
  have : (1 + v) * |fl (m * b1) + fl (c * g)| ≤ (1 + v) * ((1 + v) * (|m| * b1) + (1 + v) * (c * |g|)) :=
    mul_le_mul_of_nonneg_left (by linarith) (by norm_num)
  calc _ ≤ _ := k3
    _ ≤ _ := this
    _ = _ := by ring

theorem adam_lower {b2 c m2 g : ℚ} (hm2 : 0 ≤ m2) (hb2 : 0 ≤ b2) (hc0 : 0 ≤ c) :
    (1 - v) ^ 3 * (b2 * m2 + c * |g| ^ 2) ≤ fl (fl (m2 * b2) + fl (c * fl (g * g))) := by
  have hg := mul_self_nonneg g
  have k0 := fl_ge hg
  have k0' := fl_nonneg hg
  have k1 := fl_ge (mul_nonneg hm2 hb2)
  have k2 := fl_ge (mul_nonneg hc0 k0')
  have k3 := fl_ge (add_nonneg (fl_nonneg (mul_nonneg hm2 hb2)) (fl_nonneg (mul_nonneg hc0 k0')))
  have k4 : c * ((1 - v) * (g * g)) ≤ c * fl (g * g) := mul_le_mul_of_nonneg_left k0 hc0
  have k5 : (1 - v) * (c * ((1 - v) * (g * g))) ≤ (1 - v) * (c * fl (g * g)) :=
    mul_le_mul_of_nonneg_left k4 (by norm_num)
  have k6 : (1 - v) * ((1 - v) * (m2 * b2)) ≤ (1 - v) * (m2 * b2) := by
    have := mul_nonneg hm2 hb2
    nlinarith
  have k7 : (1 - v) * ((1 - v) * ((1 - v) * (m2 * b2)) + (1 - v) * (c * ((1 - v) * (g * g)))) ≤
      (1 - v) * (fl (m2 * b2) + fl (c * fl (g * g))) :=
    mul_le_mul_of_nonneg_left (by linarith) (by norm_num)
  calc _ = (1 - v) * ((1 - v) * ((1 - v) * (m2 * b2)) + (1 - v) * (c * ((1 - v) * (g * g)))) := by
        rw [sq_abs]; ring
    _ ≤ _ := k7
    _ ≤ _ := k3

/-- The moments as computed keep Cauchy's inequality. -/
theorem adam_moments {b1 b2 m m2 g : ℚ} (h1 : |b1 - 9 / 10| ≤ v) (h2 : |b2 - 999 / 1000| ≤ v)
    (hI : 9 / 5 * m ^ 2 ≤ m2) :
    9 / 5 * fl (fl (m * b1) + fl (fl (1 - b1) * g)) ^ 2 ≤ fl (fl (m2 * b2) + fl (fl (1 - b1) * fl (g * g))) := by
  have h1' := abs_le.1 h1
  have h2' := abs_le.1 h2
  have hb1 : 0 ≤ b1 := by norm_num at h1'; linarith [h1'.1]
  have hb2 : 0 ≤ b2 := by norm_num at h2'; linarith [h2'.1]
  have hm2 : 0 ≤ m2 := le_trans (by positivity) hI
  have hc : |fl (1 - b1) - 1 / 10| ≤ 3 * v := by
    have e := fl_near (1 - b1)
    have e1 : |1 - b1| ≤ 1 := by rw [abs_le]; norm_num at h1'; constructor <;> linarith [h1'.1, h1'.2]
    have : fl (1 - b1) - 1 / 10 = (fl (1 - b1) - (1 - b1)) + -(b1 - 9 / 10) := by ring
    rw [this]
    refine (abs_add_le _ _).trans ?_
    rw [abs_neg]
    have : v * |1 - b1| ≤ v * 1 := mul_le_mul_of_nonneg_left e1 (by norm_num)
    linarith
  generalize fl (1 - b1) = c at hc ⊢
  have hc' := abs_le.1 hc
  have hc0 : 0 ≤ c := by norm_num at hc'; linarith [hc'.1]
  have key := adam_cauchy h1 h2 hc (X := |m|) (Y := |g|) (m2 := m2) (by rwa [sq_abs])
  have ub := adam_upper (m := m) (g := g) hb1 hc0
  have lb := adam_lower (g := g) hm2 hb2 hc0
  have hsq : fl (fl (m * b1) + fl (c * g)) ^ 2 ≤ ((1 + v) ^ 2 * (b1 * |m| + c * |g|)) ^ 2 := by
    rw [← sq_abs (fl _)]
    exact pow_le_pow_left₀ (abs_nonneg _) ub 2
  have hnn : 0 ≤ b2 * m2 + c * |g| ^ 2 := by positivity
  calc 9 / 5 * fl (fl (m * b1) + fl (c * g)) ^ 2 ≤ 9 / 5 * ((1 + v) ^ 2 * (b1 * |m| + c * |g|)) ^ 2 := by linarith
    _ = (1 + v) ^ 4 * (9 / 5 * (b1 * |m| + c * |g|) ^ 2) := by ring
    _ ≤ (1 + v) ^ 4 * (992 / 1000 * (b2 * m2 + c * |g| ^ 2)) := mul_le_mul_of_nonneg_left key (by positivity)
    _ = ((1 + v) ^ 4 * (992 / 1000)) * (b2 * m2 + c * |g| ^ 2) := by ring
    _ ≤ (1 - v) ^ 3 * (b2 * m2 + c * |g| ^ 2) := mul_le_mul_of_nonneg_right (by norm_num) hnn
    _ ≤ _ := lb

/-- The bias corrections as computed. -/
theorem adam_corrections {b1 b2 p1 p2 : ℚ} {t : ℕ} (ht : 0 < t) (h1 : |b1 - 9 / 10| ≤ v) (h2 : |b2 - 999 / 1000| ≤ v)
    (hp1 : |p1 - b1 ^ t| ≤ v * b1 ^ t) (hp2 : |p2 - b2 ^ t| ≤ v * b2 ^ t) :
    0 < fl (1 - p1) ∧ 0 < fl (1 - p2) ∧ fl (1 - p2) ≤ 1001 / 1000 * fl (1 - p1) ^ 2 := by
  have h1' := abs_le.1 h1
  have h2' := abs_le.1 h2
  have hp1' := (abs_le.1 hp1)
  have hp2' := (abs_le.1 hp2)
  have hb1 : 0 ≤ b1 ∧ b1 ≤ 9 / 10 + v := ⟨by norm_num at h1'; linarith [h1'.1], by linarith [h1'.2]⟩
  have hb2 : 999 / 1000 - v ≤ b2 ∧ b2 ≤ 999 / 1000 + v := ⟨by linarith [h2'.1], by linarith [h2'.2]⟩
  have hb2' : 0 ≤ b2 := le_trans (by norm_num) hb2.1
  have q1 : ∀ s : ℕ, s ≤ t → b1 ^ t ≤ (9 / 10 + v) ^ s := fun s hs =>
    (pow_le_pow_left₀ hb1.1 hb1.2 t).trans (pow_le_pow_of_le_one (by norm_num) (by norm_num) hs)
  have q2 : b2 ^ t ≤ 999 / 1000 + v := by
    have := (pow_le_pow_of_le_one hb2' (hb2.2.trans (by norm_num)) ht).trans (le_of_eq (pow_one b2))
    exact this.trans hb2.2
  have q2' : 1 - (1 / 1000 + v) * t ≤ b2 ^ t := by
    have e := one_add_mul_le_pow (a := b2 - 1) (by linarith [hb2.1, show (-2 : ℚ) ≤ 999 / 1000 - v - 1 by norm_num]) t
    rw [add_sub_cancel] at e
    have : -(1 / 1000 + v) * t ≤ (b2 - 1) * t := mul_le_mul_of_nonneg_right (by linarith [hb2.1]) (by positivity)
    linarith
  have p1le : ∀ s : ℕ, s ≤ t → p1 ≤ (1 + v) * (9 / 10 + v) ^ s := fun s hs => by
    have := mul_le_mul_of_nonneg_left (q1 s hs) (show (0 : ℚ) ≤ 1 + v by norm_num)
    linarith [hp1'.2]
  have p2le : p2 ≤ (1 + v) * (999 / 1000 + v) := by
    have := mul_le_mul_of_nonneg_left q2 (show (0 : ℚ) ≤ 1 + v by norm_num)
    linarith [hp2'.2]
  have p2ge : (1 - v) * b2 ^ t ≤ p2 := by linarith [hp2'.1]
  have p2ge0 : 0 ≤ p2 := le_trans (mul_nonneg (by norm_num) (pow_nonneg hb2' _)) p2ge
  have d1ge : ∀ s : ℕ, s ≤ t → (1 - v) * (1 - (1 + v) * (9 / 10 + v) ^ s) ≤ fl (1 - p1) := fun s hs => by
    have h0 : 0 ≤ 1 - p1 := by
      have := p1le 1 ht
      norm_num at this ⊢
      linarith
    refine le_trans (mul_le_mul_of_nonneg_left (by linarith [p1le s hs]) (by norm_num)) (fl_ge h0)
  have h0 : 0 ≤ 1 - p2 := by norm_num at p2le ⊢; linarith
  have d2le := fl_le h0
  have d1pos : (99 / 1000 : ℚ) ≤ fl (1 - p1) := le_trans (by norm_num) (d1ge 1 ht)
  refine ⟨lt_of_lt_of_le (by norm_num) d1pos, ?_, ?_⟩
  · refine lt_of_lt_of_le ?_ (fl_ge h0)
    norm_num at p2le ⊢
    linarith
  · have sqge : ∀ a : ℚ, 0 ≤ a → a ≤ fl (1 - p1) → a ^ 2 ≤ fl (1 - p1) ^ 2 := fun a h h' => pow_le_pow_left₀ h h' 2
    have d2t : fl (1 - p2) ≤ (1 + v) * (v + (1 / 1000 + v) * t) := by
      refine d2le.trans (mul_le_mul_of_nonneg_left ?_ (by norm_num))
      have hb1t : b2 ^ t ≤ 1 := pow_le_one₀ hb2' (hb2.2.trans (by norm_num))
      linarith
    have d2one : fl (1 - p2) ≤ 1 + v := d2le.trans (by
      have := mul_le_mul_of_nonneg_left (show 1 - p2 ≤ 1 by linarith) (show (0 : ℚ) ≤ 1 + v by norm_num)
      linarith)
    rcases Nat.lt_or_ge t 10 with ht9 | ht9
    · have e := sqge _ (by norm_num) d1pos
      have : (t : ℚ) ≤ 9 := by exact_mod_cast Nat.lt_succ_iff.1 ht9
      have : (1 + v) * (v + (1 / 1000 + v) * t) ≤ (1 + v) * (v + (1 / 1000 + v) * 9) := by
        refine mul_le_mul_of_nonneg_left ?_ (by norm_num)
        have := mul_le_mul_of_nonneg_left this (show (0 : ℚ) ≤ 1 / 1000 + v by norm_num)
        linarith
      norm_num at this e ⊢
      linarith
    · rcases Nat.lt_or_ge t 300 with ht3 | ht3
      · have e := sqge (6 / 10) (by norm_num) (le_trans (by norm_num) (d1ge 9 (by omega)))
        have : (t : ℚ) ≤ 300 := by exact_mod_cast ht3.le
        have : (1 + v) * (v + (1 / 1000 + v) * t) ≤ (1 + v) * (v + (1 / 1000 + v) * 300) := by
          refine mul_le_mul_of_nonneg_left ?_ (by norm_num)
          have := mul_le_mul_of_nonneg_left this (show (0 : ℚ) ≤ 1 / 1000 + v by norm_num)
          linarith
        norm_num at this e ⊢
        linarith
      · have e := sqge (9999 / 10000) (by norm_num) (le_trans (by norm_num) (d1ge 200 (by omega)))
        norm_num at d2one e ⊢
        linarith

/-- The quotient as computed is at most three quarters. -/
theorem adam_quotient {a m m2 d1 d2 s eps : ℚ} (ha : 0 ≤ a) (he : 0 ≤ eps) (hI : 9 / 5 * m ^ 2 ≤ m2) (h1 : 0 < d1)
    (h2 : 0 < d2) (hd : d2 ≤ 1001 / 1000 * d1 ^ 2) (hs0 : 0 ≤ s) (hs : (1 - v) * fl (m2 / d2) ≤ s ^ 2)
    (hne : fl (s + eps) ≠ 0) : |fl (fl (a * fl (m / d1)) / fl (s + eps))| ≤ 3 / 4 * a := by
  have hm2 : 0 ≤ m2 := le_trans (by positivity) hI
  have hden : (1 - v) * s ≤ fl (s + eps) :=
    le_trans (mul_le_mul_of_nonneg_left (by linarith) (by norm_num)) (fl_ge (by linarith))
  have hpos : 0 < fl (s + eps) := lt_of_le_of_ne (fl_nonneg (by linarith)) (Ne.symm hne)
  have k1 := fl_abs_le (fl (a * fl (m / d1)) / fl (s + eps))
  have k2 := fl_abs_le (a * fl (m / d1))
  have k3 := fl_abs_le (m / d1)
  rw [abs_div, abs_of_pos hpos] at k1
  rw [abs_mul, abs_of_nonneg ha] at k2
  rw [abs_div, abs_of_pos h1] at k3
  refine k1.trans ?_
  rw [← mul_div_assoc, div_le_iff₀ hpos]
  have hmain : (1 + v) ^ 3 * (|m| / d1) ≤ 3 / 4 * ((1 - v) * s) := by
    refine abs_le_of_sq_le_sq' ?_ (by have : (0 : ℚ) ≤ 1 - v := by norm_num
                                      positivity) |>.2
    have e1 : (1 - v) * ((1 - v) * (m2 / d2)) ≤ s ^ 2 :=
      le_trans (mul_le_mul_of_nonneg_left (fl_ge (div_nonneg hm2 h2.le)) (by norm_num)) hs
    have e2 : 9 / 5 * (m ^ 2 / (1001 / 1000 * d1 ^ 2)) ≤ m2 / d2 := by
      calc 9 / 5 * (m ^ 2 / (1001 / 1000 * d1 ^ 2)) ≤ 9 / 5 * (m ^ 2 / d2) :=
            mul_le_mul_of_nonneg_left (div_le_div_of_nonneg_left (sq_nonneg m) h2 hd) (by norm_num)
        _ = (9 / 5 * m ^ 2) / d2 := by ring
        _ ≤ _ := (div_le_div_iff_of_pos_right h2).2 hI
    have e3 : 9 / 5 * (m ^ 2 / (1001 / 1000 * d1 ^ 2)) = 9000 / 5005 * (m ^ 2 / d1 ^ 2) := by
      field_simp
      ring
    rw [e3] at e2
    have e4 : 0 ≤ m ^ 2 / d1 ^ 2 := by positivity
    have e5 : ((1 + v) ^ 3 * (|m| / d1)) ^ 2 = (1 + v) ^ 6 * (m ^ 2 / d1 ^ 2) := by
      rw [mul_pow, div_pow, sq_abs]; ring
    have e6 : (3 / 4 * ((1 - v) * s)) ^ 2 = 9 / 16 * (1 - v) ^ 2 * s ^ 2 := by ring
    rw [e5, e6]
    calc (1 + v) ^ 6 * (m ^ 2 / d1 ^ 2) ≤ (9 / 16 * (1 - v) ^ 2 * ((1 - v) * ((1 - v) * (9000 / 5005)))) *
          (m ^ 2 / d1 ^ 2) := mul_le_mul_of_nonneg_right (by norm_num) e4
      _ = 9 / 16 * (1 - v) ^ 2 * ((1 - v) * ((1 - v) * (9000 / 5005 * (m ^ 2 / d1 ^ 2)))) := by ring
      _ ≤ 9 / 16 * (1 - v) ^ 2 * ((1 - v) * ((1 - v) * (m2 / d2))) := by
        refine mul_le_mul_of_nonneg_left ?_ (by norm_num)
        refine mul_le_mul_of_nonneg_left ?_ (by norm_num)
        exact mul_le_mul_of_nonneg_left e2 (by norm_num)
      _ ≤ _ := mul_le_mul_of_nonneg_left e1 (by norm_num)
  have k4 : (1 + v) * |fl (a * fl (m / d1))| ≤ (1 + v) * ((1 + v) * (a * ((1 + v) * (|m| / d1)))) := by
    refine mul_le_mul_of_nonneg_left (k2.trans ?_) (by norm_num)
    refine mul_le_mul_of_nonneg_left ?_ (by norm_num)
    exact mul_le_mul_of_nonneg_left k3 ha
  calc _ ≤ (1 + v) * ((1 + v) * (a * ((1 + v) * (|m| / d1)))) := k4
    _ = a * ((1 + v) ^ 3 * (|m| / d1)) := by ring
    _ ≤ a * (3 / 4 * ((1 - v) * s)) := mul_le_mul_of_nonneg_left hmain ha
    _ ≤ a * (3 / 4 * fl (s + eps)) := mul_le_mul_of_nonneg_left (by linarith) ha
    _ = _ := by ring

/-! ### Runs -/

/-- `FlAdamRun pow sqrt o gs iv`: `iv` is the dictionary after a first call without stored values and further calls, each with the
dictionary of the one before, any gradient functions and any weights; `gs` are the gradients, oldest first. -/
inductive FlAdamRun (pow : ℚ → ℕ → ℚ) (sqrt : ℚ → ℚ) (o : AdamOpts ℚ) : List (Fin n → ℚ) → Iv ℚ n → Prop
  | first {gf : (Fin n → ℚ) → Except PyErr (Fin n → ℚ)} {l g x : Fin n → ℚ} {iv : Iv ℚ n} :
      flAdamStep pow sqrt gf l o none = .ok (x, iv) → gf l = .ok g → FlAdamRun pow sqrt o [g] iv
  | next {gf : (Fin n → ℚ) → Except PyErr (Fin n → ℚ)} {l g x : Fin n → ℚ} {gs : List (Fin n → ℚ)} {iv iv' : Iv ℚ n} :
      FlAdamRun pow sqrt o gs iv → flAdamStep pow sqrt gf l o (some iv) = .ok (x, iv') → gf l = .ok g →
      FlAdamRun pow sqrt o (gs ++ [g]) iv'

/-- What the moments satisfy. -/
def FlMoments (iv : Iv ℚ n) : Prop := ∀ j, 9 / 5 * iv.m1 j ^ 2 ≤ iv.m2 j

theorem flAdamBody_ok {pow : ℚ → ℕ → ℚ} {sqrt : ℚ → ℚ} {gf : (Fin n → ℚ) → Except PyErr (Fin n → ℚ)} {o : AdamOpts ℚ}
    {iv iv' : Iv ℚ n} {x : Fin n → ℚ} (h : flAdamBody pow sqrt gf o iv = .ok (x, iv')) :
    ∃ g, gf iv.lamb = .ok g ∧ iv'.t = iv.t + 1 ∧ iv'.lamb = x ∧
      (∀ j, iv'.m1 j = fl (fl (iv.m1 j * o.beta1) + fl (fl (1 - o.beta1) * g j))) ∧
      (∀ j, iv'.m2 j = fl (fl (iv.m2 j * o.beta2) + fl (fl (1 - o.beta1) * fl (g j * g j)))) ∧
      ∀ j, fl (sqrt (fl (iv'.m2 j / fl (1 - pow o.beta2 (iv.t + 1)))) + o.eps) ≠ 0 ∧
        x j = fl (iv.lamb j - fl (fl (o.alpha * fl (iv'.m1 j / fl (1 - pow o.beta1 (iv.t + 1)))) /
          fl (sqrt (fl (iv'.m2 j / fl (1 - pow o.beta2 (iv.t + 1)))) + o.eps))) := by
  unfold flAdamBody at h
  obtain ⟨g, hg, h⟩ := bind_ok h
  simp only at h
  split_ifs at h with h1 h2
  cases h
  rw [not_exists] at h2
  exact ⟨g, hg, rfl, rfl, fun _ => rfl, fun _ => rfl, fun j => ⟨fun e => h2 j (Or.inr e), rfl⟩⟩

theorem flAdamBody_step {pow : ℚ → ℕ → ℚ} {sqrt : ℚ → ℚ} {gf : (Fin n → ℚ) → Except PyErr (Fin n → ℚ)} {o : AdamOpts ℚ}
    (ho : AdamOk pow sqrt o) {iv iv' : Iv ℚ n} {x : Fin n → ℚ} (hI : FlMoments iv)
    (h : flAdamBody pow sqrt gf o iv = .ok (x, iv')) :
    FlMoments iv' ∧ ∀ j, ∃ s, |s| ≤ 3 / 4 * o.alpha ∧ x j = fl (iv.lamb j - s) ∧
      (0 ≤ iv'.m1 j → 0 ≤ s) ∧ (iv'.m1 j ≤ 0 → s ≤ 0) := by
  obtain ⟨g, -, -, -, e1, e2, ex⟩ := flAdamBody_ok h
  have hb1 : 0 ≤ o.beta1 := by have := (abs_le.1 ho.b1).1; norm_num at this; linarith
  have hb2 : 0 ≤ o.beta2 := by have := (abs_le.1 ho.b2).1; norm_num at this; linarith
  have hI' : FlMoments iv' := fun j => by
    rw [e1, e2]
    exact adam_moments ho.b1 ho.b2 (hI j)
  refine ⟨hI', fun j => ⟨_, ?_, (ex j).2, ?_, ?_⟩⟩
  all_goals
    obtain ⟨c1, c2, c3⟩ := adam_corrections (Nat.succ_pos iv.t) ho.b1 ho.b2 (ho.pw _ (iv.t + 1) hb1) (ho.pw _ (iv.t + 1) hb2)
    have hm2 : 0 ≤ iv'.m2 j := le_trans (by positivity) (hI' j)
    obtain ⟨s0, s1, -⟩ := ho.sq _ (fl_nonneg (div_nonneg hm2 c2.le))
  · exact adam_quotient ho.al ho.ep (hI' j) c1 c2 c3 s0 s1 (ex j).1
  · intro hm
    exact fl_nonneg (div_nonneg (fl_nonneg (mul_nonneg ho.al (fl_nonneg (div_nonneg hm c1.le))))
      (fl_nonneg (add_nonneg s0 ho.ep)))
  · intro hm
    have k1 : fl (iv'.m1 j / fl (1 - pow o.beta1 (iv.t + 1))) ≤ 0 := by
      have := fl_mono (div_nonpos_of_nonpos_of_nonneg hm c1.le)
      rwa [fl_zero] at this
    have k2 : fl (o.alpha * fl (iv'.m1 j / fl (1 - pow o.beta1 (iv.t + 1)))) ≤ 0 := by
      have := fl_mono (mul_nonpos_of_nonneg_of_nonpos ho.al k1)
      rwa [fl_zero] at this
    have := fl_mono (div_nonpos_of_nonpos_of_nonneg k2 (fl_nonneg (add_nonneg s0 ho.ep)))
    rwa [fl_zero] at this

theorem flMoments_zero (l : Fin n → ℚ) : FlMoments (⟨0, l, fun _ => 0, fun _ => 0⟩ : Iv ℚ n) := fun _ => by simp

theorem flAdamRun_moments {pow : ℚ → ℕ → ℚ} {sqrt : ℚ → ℚ} {o : AdamOpts ℚ} (ho : AdamOk pow sqrt o)
    {gs : List (Fin n → ℚ)} {iv : Iv ℚ n} (h : FlAdamRun pow sqrt o gs iv) : FlMoments iv := by
  induction h with
  | first h _ => exact (flAdamBody_step ho (flMoments_zero _) h).1
  | @next gf l g x gs iv iv' _ h _ ih => exact (flAdamBody_step (iv := { iv with lamb := l }) ho ih h).1

/-- C205: in doubles no weight moves by more than three quarters of `alpha` in one call, whatever the gradients so far: the new
weight lies between the doubles nearest to `lamb - 3/4 alpha` and `lamb + 3/4 alpha`. It moves, if at all, against the sign of
the first moment. -/
theorem C205_step {pow : ℚ → ℕ → ℚ} {sqrt : ℚ → ℚ} {o : AdamOpts ℚ} (ho : AdamOk pow sqrt o)
    {gf : (Fin n → ℚ) → Except PyErr (Fin n → ℚ)} {iv : Option (Iv ℚ n)}
    (hr : ∀ iv0, iv = some iv0 → ∃ gs, FlAdamRun pow sqrt o gs iv0) {l x : Fin n → ℚ} {iv' : Iv ℚ n}
    (h : flAdamStep pow sqrt gf l o iv = .ok (x, iv')) (j : Fin n) :
    fl (l j - 3 / 4 * o.alpha) ≤ x j ∧ x j ≤ fl (l j + 3 / 4 * o.alpha) ∧
    (IsFloat (l j) → (0 ≤ iv'.m1 j → x j ≤ l j) ∧ (iv'.m1 j ≤ 0 → l j ≤ x j)) := by
  obtain ⟨s, hs, hx, hp, hm⟩ : ∃ s, |s| ≤ 3 / 4 * o.alpha ∧ x j = fl (l j - s) ∧
      (0 ≤ iv'.m1 j → 0 ≤ s) ∧ (iv'.m1 j ≤ 0 → s ≤ 0) := by
    cases iv with
    | none => exact (flAdamBody_step ho (flMoments_zero l) h).2 j
    | some iv0 =>
      obtain ⟨gs, hg⟩ := hr iv0 rfl
      have hmo : FlMoments iv0 := flAdamRun_moments ho hg
      exact (flAdamBody_step (iv := { iv0 with lamb := l }) ho hmo h).2 j
  rw [abs_le] at hs
  rw [hx]
  refine ⟨fl_mono (by linarith [hs.2]), fl_mono (by linarith [hs.1]), fun hl => ⟨fun h0 => ?_, fun h0 => ?_⟩⟩
  · have := fl_mono (show l j - s ≤ l j by linarith [hp h0])
    rwa [fl_of_float hl] at this
  · have := fl_mono (show l j ≤ l j - s by linarith [hm h0])
    rwa [fl_of_float hl] at this

/-- C205: with a positive `eps` a call fails only if the gradient function does. -/
theorem C205_returns {pow : ℚ → ℕ → ℚ} {sqrt : ℚ → ℚ} {o : AdamOpts ℚ} (ho : AdamOk pow sqrt o) (he : 0 < o.eps)
    {gf : (Fin n → ℚ) → Except PyErr (Fin n → ℚ)} {iv : Option (Iv ℚ n)}
    (hr : ∀ iv0, iv = some iv0 → ∃ gs, FlAdamRun pow sqrt o gs iv0) {l g : Fin n → ℚ} (hg : gf l = .ok g) :
    ∃ x iv', flAdamStep pow sqrt gf l o iv = .ok (x, iv') := by
  have key : ∀ iv0 : Iv ℚ n, FlMoments iv0 → iv0.lamb = l → ∃ r, flAdamBody pow sqrt gf o iv0 = .ok r := by
    intro iv0 hI hl
    have hb1 : 0 ≤ o.beta1 := by have := (abs_le.1 ho.b1).1; norm_num at this; linarith
    have hb2 : 0 ≤ o.beta2 := by have := (abs_le.1 ho.b2).1; norm_num at this; linarith
    obtain ⟨c1, c2, -⟩ := adam_corrections (Nat.succ_pos iv0.t) ho.b1 ho.b2 (ho.pw _ (iv0.t + 1) hb1)
      (ho.pw _ (iv0.t + 1) hb2)
    unfold flAdamBody
    rw [hl, hg]
    simp only [bind, Except.bind]
    rw [if_neg (by rintro (e | e); exacts [c1.ne' e, c2.ne' e]), if_neg]
    · exact ⟨_, rfl⟩
    · rintro ⟨j, hj⟩
      have hm : 0 ≤ fl (fl (iv0.m2 j * o.beta2) + fl (fl (1 - o.beta1) * fl (g j * g j))) :=
        le_trans (by positivity) (adam_moments ho.b1 ho.b2 (hI j) (g := g j))
      have h2 := fl_nonneg (div_nonneg hm c2.le)
      rcases hj with hj | hj
      · linarith
      · have h3 : 0 < sqrt (fl (fl (fl (iv0.m2 j * o.beta2) + fl (fl (1 - o.beta1) * fl (g j * g j))) /
            fl (1 - pow o.beta2 (iv0.t + 1)))) + o.eps := by linarith [(ho.sq _ h2).1]
        have h4 := fl_ge h3.le
        rw [hj] at h4
        have : 0 < (1 - v) * (sqrt (fl (fl (fl (iv0.m2 j * o.beta2) + fl (fl (1 - o.beta1) * fl (g j * g j))) /
            fl (1 - pow o.beta2 (iv0.t + 1)))) + o.eps) := mul_pos (by norm_num) h3
        linarith
  cases iv with
  | none =>
    obtain ⟨⟨x, iv'⟩, h⟩ := key ⟨0, l, fun _ => 0, fun _ => 0⟩ (flMoments_zero l) rfl
    exact ⟨x, iv', h⟩
  | some iv0 =>
    obtain ⟨gs, hrun⟩ := hr iv0 rfl
    have hmo : FlMoments iv0 := flAdamRun_moments ho hrun
    obtain ⟨⟨x, iv'⟩, h⟩ := key { iv0 with lamb := l } hmo rfl
    exact ⟨x, iv', h⟩

/-- C205: an unconstrained descent with Adam in doubles moves no weight by more than `alpha` per step, if the weights and the number
of steps are not out of all proportion. -/
theorem C205_total {sum : List ℚ → ℚ} {pow : ℚ → ℕ → ℚ} {sqrt : ℚ → ℚ} {a : AdamOpts ℚ} (ha : AdamOk pow sqrt a)
    {o : SgdOpts ℚ} (ho : o.adam = some a) (hc : o.constrained = false) {rows : List (Row ℚ n)} {lamb : Fin n → ℚ}
    {choices : List ℕ} {best last : Fin n → ℚ} {costs : List ℚ} (j : Fin n) (hl : |lamb j| ≤ 2 ^ 50 * a.alpha)
    (hn : choices.length ≤ 2 ^ 50) (h : flSgdRun sum pow sqrt o rows lamb choices = .ok (best, last, costs)) :
    |last j - lamb j| ≤ choices.length * a.alpha ∧ |best j - lamb j| ≤ choices.length * a.alpha := by
  have hfold : ∀ (cs : List ℕ) (k : ℕ) (s s' : SgdState ℚ n), k + cs.length ≤ 2 ^ 50 →
      (∀ iv, s.iv = some iv → FlMoments iv) → |s.lamb j - lamb j| ≤ k * a.alpha →
      |s.lambBest j - lamb j| ≤ k * a.alpha → cs.foldlM (flSgdStep sum pow sqrt o rows) s = .ok s' →
      |s'.lamb j - lamb j| ≤ (k + cs.length : ℕ) * a.alpha ∧ |s'.lambBest j - lamb j| ≤ (k + cs.length : ℕ) * a.alpha := by
    intro cs
    induction cs with
    | nil =>
      intro k s s' _ _ h1 h2 h3
      cases h3
      exact ⟨h1, h2⟩
    | cons c cs ih =>
      intro k s s' hk hI h1 h2 h3
      rw [List.foldlM_cons] at h3
      obtain ⟨s1, hs1, h3⟩ := bind_ok h3
      unfold flSgdStep at hs1
      obtain ⟨⟨l1, iv1⟩, hm, hs1⟩ := bind_ok hs1
      obtain ⟨cc, hcc, hs1⟩ := bind_ok hs1
      unfold flSgdMove flSgdPre at hm
      simp only [ho, hc, Bool.false_eq_true, if_false] at hm
      obtain ⟨p, hp, hm⟩ := bind_ok hm
      cases hm
      obtain ⟨⟨l, iv'⟩, hq, hp⟩ := bind_ok hp
      cases hp
      have hstep : FlMoments iv' ∧ ∃ t, |t| ≤ 3 / 4 * a.alpha ∧ l j = fl (s.lamb j - t) := by
        have key : ∀ iv0 : Iv ℚ n, FlMoments iv0 → iv0.lamb = s.lamb →
            flAdamBody pow sqrt (flTakeGradient sum (rows.filter fun r => r.tree == c)) a iv0 = .ok (l, iv') →
            FlMoments iv' ∧ ∃ t, |t| ≤ 3 / 4 * a.alpha ∧ l j = fl (s.lamb j - t) := by
          intro iv0 hi hl0 hb
          obtain ⟨r1, r2⟩ := flAdamBody_step ha hi hb
          obtain ⟨t, t1, t2, -⟩ := r2 j
          rw [hl0] at t2
          exact ⟨r1, t, t1, t2⟩
        cases e : s.iv with
        | none =>
          rw [e] at hq
          exact key ⟨0, s.lamb, fun _ => 0, fun _ => 0⟩ (flMoments_zero _) rfl hq
        | some iv0 =>
          rw [e] at hq
          exact key { iv0 with lamb := s.lamb } (hI iv0 e) rfl hq
      obtain ⟨hI', t, t1, t2⟩ := hstep
      have ha0 := ha.al
      have hk' : (k : ℚ) + 1 ≤ 2 ^ 50 := by
        have : k + 1 ≤ 2 ^ 50 := by rw [List.length_cons] at hk; omega
        exact_mod_cast this
      have hmove : |l j - lamb j| ≤ (k + 1 : ℕ) * a.alpha := by
        have e1 := fl_err (s.lamb j - t)
        have e2 : |s.lamb j - t| ≤ 2 ^ 51 * a.alpha := by
          have : s.lamb j - t = (s.lamb j - lamb j) + (lamb j + -t) := by ring
          rw [this]
          refine (abs_add_le _ _).trans ?_
          have e3 := abs_add_le (lamb j) (-t)
          rw [abs_neg] at e3
          have e4 : (k + 1 : ℚ) * a.alpha ≤ 2 ^ 50 * a.alpha := mul_le_mul_of_nonneg_right hk' ha0
          linarith
        have e3 : |fl (s.lamb j - t) - (s.lamb j - t)| ≤ 1 / 4 * a.alpha := by
          refine e1.trans ?_
          calc _ ≤ 1 / 2 ^ 53 * (2 ^ 51 * a.alpha) := by
                first
                | exact mul_le_mul_of_nonneg_left e2 (by norm_num)
                | (rw [div_mul_eq_mul_div, one_mul]; linarith)
            _ = _ := by ring
        rw [t2]
        have : fl (s.lamb j - t) - lamb j = (fl (s.lamb j - t) - (s.lamb j - t)) + ((s.lamb j - lamb j) + -t) := by ring
        rw [this]
        refine (abs_add_le _ _).trans ?_
        have e4 := abs_add_le (s.lamb j - lamb j) (-t)
        rw [abs_neg] at e4
        push_cast
        linarith
      have hmono : (k : ℚ) * a.alpha ≤ (k + 1 : ℕ) * a.alpha := by push_cast; linarith
      have hres := ih (k + 1) s1 s' (by rw [List.length_cons] at hk; omega)
      rw [show k + (c :: cs).length = k + 1 + cs.length by rw [List.length_cons]; omega]
      simp only at hs1
      split_ifs at hs1 <;> cases hs1
      · exact hres (fun iv e => by cases e; exact hI') hmove hmove h3
      · exact hres (fun iv e => by cases e; exact hI') hmove (h2.trans hmono) h3
  unfold flSgdRun at h
  obtain ⟨c0, hc0, h⟩ := bind_ok h
  split_ifs at h
  obtain ⟨s, hs, h⟩ := bind_ok h
  cases h
  have := hfold choices 0 _ s (by omega) (by intro iv e; cases e) (by simp) (by simp) hs
  rwa [zero_add] at this

/-! ### Moments -/

/-- One update of the first moment: rounding adds less than `5 * 2^-53` times the bound on the gradients. -/
theorem adam_m1_err {b1 m M g G : ℚ} (h1 : |b1 - 9 / 10| ≤ v) (hG : |g| ≤ G) (hM : |M| ≤ G)
    (he : |m - M| ≤ 51 / 2 ^ 53 * G) :
    |fl (fl (m * b1) + fl (fl (1 - b1) * g)) - (b1 * M + (1 - b1) * g)| ≤ 51 / 2 ^ 53 * G ∧
    |b1 * M + (1 - b1) * g| ≤ G := by
  have hG0 : 0 ≤ G := (abs_nonneg g).trans hG
  rw [abs_le] at h1
  obtain ⟨h1, h1'⟩ := h1
  norm_num at h1 h1'
  have hb : 0 ≤ b1 := by linarith
  have hc : 0 ≤ 1 - b1 := by linarith
  have a1 : |m| ≤ 11 / 10 * G := by
    have : |m| ≤ |m - M| + |M| := by simpa using abs_add_le (m - M) M
    have h51 : (51 : ℚ) / 2 ^ 53 * G ≤ 1 / 10 * G := mul_le_mul_of_nonneg_right (by norm_num) hG0
    linarith
  have a2 : |m * b1| ≤ G := by
    rw [abs_mul, abs_of_nonneg hb]
    have : |m| * b1 ≤ 11 / 10 * G * b1 := mul_le_mul_of_nonneg_right a1 hb
    nlinarith
  have a3 := fl_err (m * b1)
  have a4 := fl_err (1 - b1)
  rw [abs_of_nonneg hc] at a4
  have a5 : |fl (1 - b1)| ≤ 2 / 10 := by
    have : |fl (1 - b1)| ≤ |fl (1 - b1) - (1 - b1)| + |1 - b1| := by
      simpa using abs_add_le (fl (1 - b1) - (1 - b1)) (1 - b1)
    rw [abs_of_nonneg hc] at this
    linarith
  have a6 : |fl (1 - b1) * g| ≤ 2 / 10 * G := by
    rw [abs_mul]
    exact mul_le_mul a5 hG (abs_nonneg g) (by norm_num)
  have a7 := fl_err (fl (1 - b1) * g)
  have a8 : |fl (1 - b1) * g - (1 - b1) * g| ≤ 1 / 2 ^ 53 * (2 / 10 * G) := by
    rw [← sub_mul, abs_mul]
    have : |fl (1 - b1) - (1 - b1)| ≤ 1 / 2 ^ 53 * (2 / 10) := by
      linarith
    calc _ ≤ 1 / 2 ^ 53 * (2 / 10) * G := mul_le_mul this hG (abs_nonneg g) (by norm_num)
      _ = _ := by ring
  have a9 := fl_err (fl (m * b1) + fl (fl (1 - b1) * g))
  have a10 : |fl (m * b1)| ≤ 11 / 10 * G := by
    have : |fl (m * b1)| ≤ |fl (m * b1) - m * b1| + |m * b1| := by simpa using abs_add_le (fl (m * b1) - m * b1) (m * b1)
    linarith
  have a11 : |fl (fl (1 - b1) * g)| ≤ 3 / 10 * G := by
    have : |fl (fl (1 - b1) * g)| ≤ |fl (fl (1 - b1) * g) - fl (1 - b1) * g| + |fl (1 - b1) * g| := by
      simpa using abs_add_le (fl (fl (1 - b1) * g) - fl (1 - b1) * g) (fl (1 - b1) * g)
    linarith
  have a12 := abs_add_le (fl (m * b1)) (fl (fl (1 - b1) * g))
  have a13 : |b1 * (m - M)| ≤ 901 / 1000 * (51 / 2 ^ 53 * G) := by
    rw [abs_mul, abs_of_nonneg hb]
    exact mul_le_mul (by linarith) he (abs_nonneg _) (by norm_num)
  constructor
  · have e : fl (fl (m * b1) + fl (fl (1 - b1) * g)) - (b1 * M + (1 - b1) * g) =
        (fl (fl (m * b1) + fl (fl (1 - b1) * g)) - (fl (m * b1) + fl (fl (1 - b1) * g))) +
        ((fl (m * b1) - m * b1) + ((fl (fl (1 - b1) * g) - fl (1 - b1) * g) + ((fl (1 - b1) * g - (1 - b1) * g) +
          b1 * (m - M)))) := by ring
    rw [e]
    refine (abs_add_le _ _).trans ((add_le_add_right (abs_add_le _ _) _).trans ?_)
    refine (add_le_add_right (add_le_add_right (abs_add_le _ _) _) _).trans ?_
    refine (add_le_add_right (add_le_add_right (add_le_add_right (abs_add_le _ _) _) _) _).trans ?_
    linarith
  · refine (abs_add_le _ _).trans ?_
    rw [abs_mul, abs_mul, abs_of_nonneg hb, abs_of_nonneg hc]
    have := mul_le_mul_of_nonneg_left hM hb
    have := mul_le_mul_of_nonneg_left hG hc
    linarith

/-- One update of the second moment. -/
theorem adam_m2_err {b1 b2 m M g G : ℚ} (h1 : |b1 - 9 / 10| ≤ v) (h2 : |b2 - 999 / 1000| ≤ v) (hG : |g| ≤ G)
    (hM : 0 ≤ M ∧ M ≤ 101 * G ^ 2) (he : |m - M| ≤ 210000 / 2 ^ 53 * G ^ 2) :
    |fl (fl (m * b2) + fl (fl (1 - b1) * fl (g * g))) - (b2 * M + (1 - b1) * g ^ 2)| ≤ 210000 / 2 ^ 53 * G ^ 2 ∧
    0 ≤ b2 * M + (1 - b1) * g ^ 2 ∧ b2 * M + (1 - b1) * g ^ 2 ≤ 101 * G ^ 2 := by
  have hg2 : g ^ 2 ≤ G ^ 2 := by
    rw [← sq_abs g]
    exact pow_le_pow_left₀ (abs_nonneg g) hG 2
  have hg0 : 0 ≤ g ^ 2 := sq_nonneg g
  generalize G ^ 2 = Q at *
  have hQ : 0 ≤ Q := hg0.trans hg2
  rw [← sq]
  generalize g ^ 2 = q at *
  rw [abs_le] at h1 h2
  obtain ⟨h1, h1'⟩ := h1
  obtain ⟨h2, h2'⟩ := h2
  norm_num at h1 h1' h2 h2'
  have hb : 0 ≤ b2 := by linarith
  have hc : 0 ≤ 1 - b1 := by linarith
  have a1 : |m| ≤ 102 * Q := by
    have : |m| ≤ |m - M| + |M| := by simpa using abs_add_le (m - M) M
    rw [abs_of_nonneg hM.1] at this
    have h51 : (210000 : ℚ) / 2 ^ 53 * Q ≤ 1 * Q := mul_le_mul_of_nonneg_right (by norm_num) hQ
    linarith [hM.2]
  have a2 : |m * b2| ≤ 102 * Q := by
    rw [abs_mul, abs_of_nonneg hb]
    have : |m| * b2 ≤ 102 * Q * b2 := mul_le_mul_of_nonneg_right a1 hb
    nlinarith
  have a3 := fl_err (m * b2)
  have a4 := fl_err (1 - b1)
  rw [abs_of_nonneg hc] at a4
  have a5 : |fl (1 - b1)| ≤ 2 / 10 := by
    have : |fl (1 - b1)| ≤ |fl (1 - b1) - (1 - b1)| + |1 - b1| := by
      simpa using abs_add_le (fl (1 - b1) - (1 - b1)) (1 - b1)
    rw [abs_of_nonneg hc] at this
    linarith
  have b0 := fl_err q
  rw [abs_of_nonneg hg0] at b0
  have b3 : |fl q| ≤ 2 * Q := by
    have : |fl q| ≤ |fl q - q| + |q| := by simpa using abs_add_le (fl q - q) q
    rw [abs_of_nonneg hg0] at this
    linarith
  have a6 : |fl (1 - b1) * fl q| ≤ 2 / 10 * (2 * Q) := by
    rw [abs_mul]
    exact mul_le_mul a5 b3 (abs_nonneg _) (by norm_num)
  have a7 := fl_err (fl (1 - b1) * fl q)
  have a8 : |fl (1 - b1) * fl q - (1 - b1) * q| ≤ 1 / 2 ^ 53 * Q := by
    have e : fl (1 - b1) * fl q - (1 - b1) * q = (fl (1 - b1) - (1 - b1)) * fl q + (1 - b1) * (fl q - q) := by ring
    rw [e]
    refine (abs_add_le _ _).trans ?_
    rw [abs_mul, abs_mul, abs_of_nonneg hc]
    have k1 : |fl (1 - b1) - (1 - b1)| ≤ 1 / 2 ^ 53 * (2 / 10) := by
      linarith
    have k2 : |fl (1 - b1) - (1 - b1)| * |fl q| ≤ 1 / 2 ^ 53 * (2 / 10) * (2 * Q) :=
      mul_le_mul k1 b3 (abs_nonneg _) (by norm_num)
    have k3 : |fl q - q| ≤ 1 / 2 ^ 53 * Q := by
      linarith
    have k4 : (1 - b1) * |fl q - q| ≤ 2 / 10 * (1 / 2 ^ 53 * Q) := mul_le_mul (by linarith) k3 (abs_nonneg _) (by norm_num)
    linarith
  have a9 := fl_err (fl (m * b2) + fl (fl (1 - b1) * fl q))
  have a10 : |fl (m * b2)| ≤ 103 * Q := by
    have : |fl (m * b2)| ≤ |fl (m * b2) - m * b2| + |m * b2| := by simpa using abs_add_le (fl (m * b2) - m * b2) (m * b2)
    linarith
  have a11 : |fl (fl (1 - b1) * fl q)| ≤ 1 / 2 * Q := by
    have : |fl (fl (1 - b1) * fl q)| ≤ |fl (fl (1 - b1) * fl q) - fl (1 - b1) * fl q| + |fl (1 - b1) * fl q| := by
      simpa using abs_add_le (fl (fl (1 - b1) * fl q) - fl (1 - b1) * fl q) (fl (1 - b1) * fl q)
    linarith
  have a12 := abs_add_le (fl (m * b2)) (fl (fl (1 - b1) * fl q))
  have a13 : |b2 * (m - M)| ≤ 9990001 / 10000000 * (210000 / 2 ^ 53 * Q) := by
    rw [abs_mul, abs_of_nonneg hb]
    exact mul_le_mul (by linarith) he (abs_nonneg _) (by norm_num)
  refine ⟨?_, add_nonneg (mul_nonneg hb hM.1) (mul_nonneg hc hg0), ?_⟩
  · have e : fl (fl (m * b2) + fl (fl (1 - b1) * fl q)) - (b2 * M + (1 - b1) * q) =
        (fl (fl (m * b2) + fl (fl (1 - b1) * fl q)) - (fl (m * b2) + fl (fl (1 - b1) * fl q))) +
        ((fl (m * b2) - m * b2) + ((fl (fl (1 - b1) * fl q) - fl (1 - b1) * fl q) + ((fl (1 - b1) * fl q - (1 - b1) * q) +
          b2 * (m - M)))) := by ring
    rw [e]
    refine (abs_add_le _ _).trans ((add_le_add_right (abs_add_le _ _) _).trans ?_)
    refine (add_le_add_right (add_le_add_right (abs_add_le _ _) _) _).trans ?_
    refine (add_le_add_right (add_le_add_right (add_le_add_right (abs_add_le _ _) _) _) _).trans ?_
    linarith
  · have k1 : b2 * M ≤ 9990001 / 10000000 * (101 * Q) := mul_le_mul (by linarith) hM.2 hM.1 (by norm_num)
    have k2 : (1 - b1) * q ≤ 10001 / 100000 * Q := mul_le_mul (by linarith) hg2 hg0 (by norm_num)
    linarith

/-- C205: the moments stored after any history of calls are the exponentially weighted sums of the gradients and of their squares,
both with the factor `1 - beta1` (the code's), up to `51 * 2^-53 G` and `210000 * 2^-53 G^2` where `G` bounds the gradients:
the errors do not grow with the number of calls. -/
theorem C205_moments {pow : ℚ → ℕ → ℚ} {sqrt : ℚ → ℚ} {o : AdamOpts ℚ} (ho : AdamOk pow sqrt o)
    {gs : List (Fin n → ℚ)} {iv : Iv ℚ n} (h : FlAdamRun pow sqrt o gs iv) {G : ℚ} (j : Fin n) (hG : ∀ g ∈ gs, |g j| ≤ G) :
    iv.t = gs.length ∧
    |iv.m1 j - (1 - o.beta1) * expSum o.beta1 id gs j| ≤ 51 / 2 ^ 53 * G ∧
    |iv.m2 j - (1 - o.beta1) * expSum o.beta2 (· ^ 2) gs j| ≤ 210000 / 2 ^ 53 * G ^ 2 := by
  suffices H : iv.t = gs.length ∧
      |iv.m1 j - (1 - o.beta1) * expSum o.beta1 id gs j| ≤ 51 / 2 ^ 53 * G ∧
      |(1 - o.beta1) * expSum o.beta1 id gs j| ≤ G ∧
      |iv.m2 j - (1 - o.beta1) * expSum o.beta2 (· ^ 2) gs j| ≤ 210000 / 2 ^ 53 * G ^ 2 ∧
      0 ≤ (1 - o.beta1) * expSum o.beta2 (· ^ 2) gs j ∧
      (1 - o.beta1) * expSum o.beta2 (· ^ 2) gs j ≤ 101 * G ^ 2 from ⟨H.1, H.2.1, H.2.2.2.1⟩
  induction h with
  | @first gf l g x iv h hg =>
    obtain ⟨g', hg', et, -, e1, e2, -⟩ := flAdamBody_ok h
    rw [hg] at hg'
    cases hg'
    have hb := hG g (by simp)
    have hG0 : 0 ≤ G := (abs_nonneg _).trans hb
    have r1 := adam_m1_err (m := 0) (M := 0) ho.b1 hb (by simpa using hG0) (by simp; positivity)
    have r2 := adam_m2_err (m := 0) (M := 0) ho.b1 ho.b2 hb ⟨le_refl _, by positivity⟩ (by simp; positivity)
    rw [e1, e2, expSum_singleton, expSum_singleton, et]
    simp only [mul_zero, zero_add] at r1 r2
    exact ⟨rfl, r1.1, r1.2, r2.1, r2.2.1, r2.2.2⟩
  | @next gf l g x gs iv iv' _ h hg ih =>
    obtain ⟨i0, i1, i2, i3, i4, i5⟩ := ih fun g hg => hG g (List.mem_append_left _ hg)
    obtain ⟨g', hg', et, -, e1, e2, -⟩ := flAdamBody_ok (iv := { iv with lamb := l }) h
    rw [hg] at hg'
    cases hg'
    have hb := hG g (by simp)
    have r1 := adam_m1_err ho.b1 hb i2 i1
    have r2 := adam_m2_err ho.b1 ho.b2 hb ⟨i4, i5⟩ i3
    rw [e1, e2, expSum_append, expSum_append, et, i0, List.length_append]
    have q1 : (1 - o.beta1) * (expSum o.beta1 id gs j * o.beta1 + id (g j)) =
        o.beta1 * ((1 - o.beta1) * expSum o.beta1 id gs j) + (1 - o.beta1) * g j := by simp only [id]; ring
    have q2 : (1 - o.beta1) * (expSum o.beta2 (· ^ 2) gs j * o.beta2 + g j ^ 2) =
        o.beta2 * ((1 - o.beta1) * expSum o.beta2 (· ^ 2) gs j) + (1 - o.beta1) * g j ^ 2 := by ring
    rw [q1, q2]
    exact ⟨rfl, r1.1, r1.2, r2.1, r2.2.1, r2.2.2⟩

/-! ### The assumptions can be met -/

/-- A square root to twelve digits. -/
def ratSqrt (x : ℚ) : ℚ := (Nat.sqrt (x.num.natAbs * x.den * 10 ^ 24) : ℚ) / ((x.den : ℚ) * 10 ^ 12)

/-- The default options as doubles, adam_sgd.py 11-15. -/
def npAdam : AdamOpts ℚ := ⟨fl (1 / 1000), fl (9 / 10), fl (999 / 1000), fl (1 / 10 ^ 8)⟩

theorem ratSqrt_ok (x : ℚ) (hx : 0 ≤ x) :
    0 ≤ ratSqrt x ∧ (1 - v) * x ≤ ratSqrt x ^ 2 ∧ ratSqrt x ^ 2 ≤ (1 + v) * x := by
  unfold ratSqrt
  have hd : (0 : ℚ) < x.den := by exact_mod_cast x.den_pos
  have hnum : (x.num.natAbs : ℚ) = x * x.den := by
    have h1 : (x.num.natAbs : ℤ) = x.num := Int.natAbs_of_nonneg (Rat.num_nonneg.2 hx)
    have h2 : (x.num.natAbs : ℚ) = (x.num : ℚ) := by rw [← Int.cast_natCast (R := ℚ), h1]
    rw [h2, Rat.mul_den_eq_num]
  have hN : ((x.num.natAbs * x.den * 10 ^ 24 : ℕ) : ℚ) = x * (x.den * 10 ^ 12) ^ 2 := by
    push_cast
    rw [hnum]
    ring
  have hle : (Nat.sqrt (x.num.natAbs * x.den * 10 ^ 24) : ℚ) ^ 2 ≤ x * (x.den * 10 ^ 12) ^ 2 := by
    rw [← hN]
    exact_mod_cast Nat.sqrt_le' _
  refine ⟨by positivity, ?_, ?_⟩
  · rw [div_pow, le_div_iff₀ (by positivity), mul_assoc, ← hN]
    rcases Nat.eq_zero_or_pos x.num.natAbs with h0 | h0
    · rw [h0]; simp
    · have hk : 10 ^ 12 ≤ Nat.sqrt (x.num.natAbs * x.den * 10 ^ 24) := by
        rw [Nat.le_sqrt']
        have : 1 ≤ x.num.natAbs * x.den := Nat.mul_pos h0 x.den_pos
        calc (10 ^ 12) ^ 2 = 1 * 10 ^ 24 := by norm_num
          _ ≤ _ := Nat.mul_le_mul_right _ this
      have hlt := Nat.lt_succ_sqrt' (x.num.natAbs * x.den * 10 ^ 24)
      generalize Nat.sqrt (x.num.natAbs * x.den * 10 ^ 24) = k at *
      generalize x.num.natAbs * x.den * 10 ^ 24 = N at *
      have hk' : (10 : ℚ) ^ 12 ≤ k := by exact_mod_cast hk
      have hlt' : (N : ℚ) < (k + 1) ^ 2 := by exact_mod_cast hlt
      have hkk : (10 : ℚ) ^ 12 * k ≤ k * k := mul_le_mul_of_nonneg_right hk' (Nat.cast_nonneg k)
      have e : ((k : ℚ) + 1) ^ 2 = k * k + 2 * k + 1 := by ring
      rw [e] at hlt'
      rw [sq]
      linarith
  · rw [div_pow, div_le_iff₀ (by positivity)]
    refine hle.trans ?_
    rw [mul_assoc]
    have : 0 ≤ x * (x.den * 10 ^ 12) ^ 2 := by positivity
    norm_num at this ⊢
    linarith

theorem npAdam_ok : AdamOk (fun x t => fl (x ^ t)) ratSqrt npAdam where
  b1 := by decide +kernel
  b2 := by decide +kernel
  pw x t hx := by
    have h := fl_near (x ^ t)
    rwa [abs_of_nonneg (pow_nonneg hx t)] at h
  sq := ratSqrt_ok
  al := by decide +kernel
  ep := by decide +kernel

/-- A first call at `(5, 1)` with the gradient of `(x - 3)^2 / 2`: both weights move by a tenth of `alpha` towards 3. -/
example : (match flAdamStep (n := 2) (fun x t => fl (x ^ t)) ratSqrt (fun l => .ok fun j => fl (l j - 3)) ![5, 1] npAdam none with
    | .ok (x, iv) => some (x 0, x 1, iv.m1 0, iv.m1 1)
    | .error _ => none) =
    some (1407346736055623 / 281474976710656, 281503124208313 / 281474976710656, 900719925474099 / 4503599627370496,
      -900719925474099 / 4503599627370496) := by decide +kernel

/-- A descent of three Adam steps on the two leaves of C198's example (weights start at `1/4`, `3/4`): it returns, and the weights
move, each by less than `3 alpha`. -/
example : ∃ best last costs, flSgdRun npSum (fun x t => fl (x ^ t)) ratSqrt ⟨1, false, some npAdam⟩
      (flRows npSum .reg false 2 [(0, exThirdLeaf), (1, exThirdLeaf)]) ![1 / 4, 3 / 4] [0, 1, 0] = .ok (best, last, costs) ∧
    last 0 ≠ 1 / 4 ∧ |last 0 - 1 / 4| ≤ 3 * npAdam.alpha := by
  have h : (match flSgdRun npSum (fun x t => fl (x ^ t)) ratSqrt ⟨1, false, some npAdam⟩
        (flRows npSum .reg false 2 [(0, exThirdLeaf), (1, exThirdLeaf)]) ![1 / 4, 3 / 4] [0, 1, 0] with
      | .ok r => decide (r.2.1 0 ≠ 1 / 4)
      | .error _ => false) = true := by decide +kernel
  cases e : flSgdRun npSum (fun x t => fl (x ^ t)) ratSqrt ⟨1, false, some npAdam⟩
      (flRows npSum .reg false 2 [(0, exThirdLeaf), (1, exThirdLeaf)]) ![1 / 4, 3 / 4] [0, 1, 0] with
  | error => rw [e] at h; cases h
  | ok r =>
    rw [e] at h
    refine ⟨r.1, r.2.1, r.2.2, rfl, of_decide_eq_true h, ?_⟩
    have := (C205_total npAdam_ok rfl rfl (0 : Fin 2) (by decide +kernel) (by decide) e).1
    simpa using this

/-- C205: a step can be lost altogether: from the weight `10^13` the call returns `10^13` although the first moment is not 0
(in exact arithmetic the weight moves whenever the first moment is not 0). -/
theorem C205_refuted : ∃ (gf : (Fin 1 → ℚ) → Except PyErr (Fin 1 → ℚ)) (x : Fin 1 → ℚ) (iv : Iv ℚ 1),
    AdamOk (fun x t => fl (x ^ t)) ratSqrt npAdam ∧
    flAdamStep (fun x t => fl (x ^ t)) ratSqrt gf (fun _ => 10 ^ 13) npAdam none = .ok (x, iv) ∧
    iv.m1 0 ≠ 0 ∧ x 0 = 10 ^ 13 := by
  have h : (match flAdamStep (n := 1) (fun x t => fl (x ^ t)) ratSqrt (fun _ => .ok fun _ => 1) (fun _ => 10 ^ 13) npAdam none with
      | .ok (x, iv) => decide (iv.m1 0 ≠ 0 ∧ x 0 = 10 ^ 13)
      | .error _ => false) = true := by decide +kernel
  cases e : flAdamStep (n := 1) (fun x t => fl (x ^ t)) ratSqrt (fun _ => .ok fun _ => 1) (fun _ => 10 ^ 13) npAdam none with
  | error => rw [e] at h; cases h
  | ok r =>
    rw [e] at h
    obtain ⟨h1, h2⟩ := of_decide_eq_true h
    exact ⟨_, r.1, r.2, npAdam_ok, e, h1, h2⟩

end SmoothRF
