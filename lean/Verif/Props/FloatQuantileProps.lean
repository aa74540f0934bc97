import Verif.Model.FloatQuantile
import Verif.Props.FloatProxProps
import Verif.Props.ImpurityProps
import Verif.Props.FloatSanityProps
import Verif.Props.FloatImpurityProps
import Mathlib.Algebra.Order.Floor.Semifield

/-!
# C178: the quantile breaks in double precision
-/

set_option linter.unusedSectionVars false

namespace SmoothRF

/-! ### Rounding -/

attribute [local irreducible] fl

/-- Rounding is monotone. -/
theorem fl_mono {x y : ℚ} (h : x ≤ y) : fl x ≤ fl y := by
  by_contra hc
  push Not at hc
  have h1 : fl y < x := by
    by_contra h2
    exact absurd (fl_le_float (fl_isFloat y) (not_lt.1 h2)) (not_le.2 hc)
  have h2 : y < fl x := by
    by_contra h3
    exact absurd (float_le_fl (fl_isFloat x) (not_lt.1 h3)) (not_le.2 hc)
  have h3 := fl_nearest x (fl y) (fl_isFloat y)
  have h4 := fl_nearest y (fl x) (fl_isFloat x)
  rw [abs_of_pos (by linarith), abs_of_neg (by linarith)] at h3
  rw [abs_of_neg (by linarith), abs_of_pos (by linarith)] at h4
  have : x = y := by linarith
  rw [this] at hc
  exact lt_irrefl _ hc

theorem fl_err_le {x B : ℚ} (h : |x| ≤ B) : |fl x - x| ≤ B / 2 ^ 53 :=
  (fl_err x).trans (div_le_div_of_nonneg_right h (by positivity))

theorem isFloat_one : IsFloat 1 := by simpa using isFloat_nat (m := 1) (by norm_num)

/-- Dropping the whole part of a double is exact. -/
theorem isFloat_frac {h : ℚ} (hf : IsFloat h) (h0 : 0 ≤ h) : IsFloat (h - (⌊h⌋₊ : ℚ)) := by
  obtain ⟨m, e, hm, rfl⟩ := hf
  rcases le_or_gt 0 e with he | he
  · have : ((m : ℚ) * 2 ^ e) = ((m * 2 ^ e.toNat : ℤ) : ℚ) := by
      push_cast
      rw [← zpow_natCast, Int.toNat_of_nonneg he]
    rw [this] at h0 ⊢
    have h1 : (0 : ℤ) ≤ m * 2 ^ e.toNat := by exact_mod_cast h0
    obtain ⟨n, hn⟩ := Int.eq_ofNat_of_zero_le h1
    rw [hn]
    have : ((n : ℤ) : ℚ) - (⌊((n : ℤ) : ℚ)⌋₊ : ℚ) = 0 := by simp
    rw [this]
    exact isFloat_zero
  · have hp : (0 : ℚ) < 2 ^ e := by positivity
    have e1 : (2 : ℚ) ^ (-e).toNat * 2 ^ e = 1 := by
      rw [← zpow_natCast, Int.toNat_of_nonneg (by omega), ← zpow_add₀ (by norm_num)]
      simp
    have h1 : (⌊(m : ℚ) * 2 ^ e⌋₊ : ℚ) ≤ m * 2 ^ e := Nat.floor_le h0
    refine ⟨m - ⌊(m : ℚ) * 2 ^ e⌋₊ * 2 ^ (-e).toNat, e, ?_, ?_⟩
    · have h2 : (0 : ℚ) ≤ ((m - ⌊(m : ℚ) * 2 ^ e⌋₊ * 2 ^ (-e).toNat : ℤ) : ℚ) := by
        push_cast
        have : ((m : ℚ) - ⌊(m : ℚ) * 2 ^ e⌋₊ * 2 ^ (-e).toNat) * 2 ^ e =
            m * 2 ^ e - ⌊(m : ℚ) * 2 ^ e⌋₊ := by
          rw [sub_mul, mul_assoc, e1, mul_one]
        nlinarith [this]
      have h3 : (0 : ℤ) ≤ m - ⌊(m : ℚ) * 2 ^ e⌋₊ * 2 ^ (-e).toNat := by exact_mod_cast h2
      have h4 : (0 : ℤ) ≤ ⌊(m : ℚ) * 2 ^ e⌋₊ * 2 ^ (-e).toNat := by positivity
      rw [abs_of_nonneg h3]
      exact le_trans (by linarith) ((le_abs_self m).trans hm)
    · push_cast
      rw [sub_mul, mul_assoc, e1, mul_one]

/-! ### The virtual index -/

theorem flVirtual_zero (n levels : ℕ) : flVirtual n levels 0 = 0 := by
  simp [flVirtual, fl_zero]

theorem flVirtual_last {n levels : ℕ} (hl : 0 < levels) (hn : n - 1 ≤ 2 ^ 53) :
    flVirtual n levels levels = ((n - 1 : ℕ) : ℚ) := by
  have : (levels : ℚ) ≠ 0 := by exact_mod_cast hl.ne'
  unfold flVirtual
  rw [div_self this, fl_of_float isFloat_one, one_mul, fl_of_float (isFloat_nat hn)]

theorem flVirtual_mono {n levels k k' : ℕ} (hk : k ≤ k') :
    flVirtual n levels k ≤ flVirtual n levels k' := by
  unfold flVirtual
  apply fl_mono
  apply mul_le_mul_of_nonneg_right _ (by positivity)
  apply fl_mono
  apply div_le_div_of_nonneg_right _ (by positivity)
  exact_mod_cast hk

theorem flVirtual_nonneg (n levels k : ℕ) : 0 ≤ flVirtual n levels k := by
  have := flVirtual_mono (n := n) (levels := levels) (Nat.zero_le k)
  rwa [flVirtual_zero] at this

theorem flVirtual_le {n levels k : ℕ} (hl : 0 < levels) (hk : k ≤ levels) (hn : n - 1 ≤ 2 ^ 53) :
    flVirtual n levels k ≤ ((n - 1 : ℕ) : ℚ) :=
  (flVirtual_mono hk).trans (flVirtual_last hl hn).le

theorem flVirtual_err {n levels k : ℕ} (hl : 0 < levels) (hk : k ≤ levels) :
    |flVirtual n levels k - (((n - 1) * k : ℕ) : ℚ) / levels| ≤ 3 / 2 ^ 53 * ((n - 1 : ℕ) : ℚ) := by
  have hl' : (0 : ℚ) < levels := by exact_mod_cast hl
  set q : ℚ := (k : ℚ) / levels with hq
  set N : ℚ := ((n - 1 : ℕ) : ℚ) with hN
  have hN0 : 0 ≤ N := by positivity
  have q0 : 0 ≤ q := by positivity
  have q1 : q ≤ 1 := by rw [hq, div_le_one hl']; exact_mod_cast hk
  have e1 : |fl q - q| ≤ 1 / 2 ^ 53 := fl_err_le (by rw [abs_of_nonneg q0]; exact q1)
  have f0 : 0 ≤ fl q := float_le_fl isFloat_zero q0
  have f1 : fl q ≤ 1 := fl_le_float isFloat_one q1
  have e2 : |fl (fl q * N) - fl q * N| ≤ N / 2 ^ 53 :=
    fl_err_le (by rw [abs_of_nonneg (by positivity)]; nlinarith)
  have e3 : |fl q * N - q * N| ≤ 1 / 2 ^ 53 * N := by
    rw [← sub_mul, abs_mul, abs_of_nonneg hN0]
    exact mul_le_mul_of_nonneg_right e1 hN0
  have e4 : (((n - 1) * k : ℕ) : ℚ) / levels = q * N := by
    rw [hq, hN]; push_cast; ring
  rw [e4]
  show |fl (fl q * N) - q * N| ≤ _
  rw [abs_le] at *
  constructor <;> nlinarith

/-! ### Exact interpolation at a virtual index -/

/-- Linear interpolation of a sorted list at a real index. -/
def interpAt (s : List ℚ) (h : ℚ) : ℚ :=
  s.getD ⌊h⌋₊ 0 + (h - ⌊h⌋₊) * (s.getD (min (⌊h⌋₊ + 1) (s.length - 1)) 0 - s.getD ⌊h⌋₊ 0)

theorem natfloor_div (v l : ℕ) : ⌊(v : ℚ) / l⌋₊ = v / l := by
  rw [Nat.floor_div_natCast, Nat.floor_natCast]

theorem quantileAt_interp (vals : List ℚ) (levels k : ℕ) (hl : 0 < levels) :
    quantileAt vals levels k = interpAt (vals.insertionSort (· ≤ ·))
      (((((vals.insertionSort (· ≤ ·)).length - 1) * k : ℕ) : ℚ) / levels) := by
  have hl' : (levels : ℚ) ≠ 0 := by exact_mod_cast hl.ne'
  unfold quantileAt interpAt
  simp only [natfloor_div]
  congr 2
  generalize ((vals.insertionSort (· ≤ ·)).length - 1) * k = v
  have h := Nat.div_add_mod v levels
  have h' : (levels : ℚ) * ((v / levels : ℕ) : ℚ) + ((v % levels : ℕ) : ℚ) = v := by exact_mod_cast h
  field_simp
  linarith

theorem interp_bounds {s : List ℚ} (hs : s.Pairwise (· ≤ ·)) {h : ℚ} (h0 : 0 ≤ h)
    (h1 : ⌊h⌋₊ < s.length) : s.getD ⌊h⌋₊ 0 ≤ interpAt s h ∧
      interpAt s h ≤ s.getD (min (⌊h⌋₊ + 1) (s.length - 1)) 0 := by
  have hm : s.getD ⌊h⌋₊ 0 ≤ s.getD (min (⌊h⌋₊ + 1) (s.length - 1)) 0 :=
    sorted_getD hs (by omega) (by omega)
  have a := Nat.floor_le h0
  have b := (Nat.lt_floor_add_one h).le
  unfold interpAt
  constructor <;> nlinarith

theorem interp_lipschitz {s : List ℚ} (hs : s.Pairwise (· ≤ ·)) {h h' R : ℚ} (h0 : 0 ≤ h) (hh : h ≤ h')
    (h1 : ⌊h'⌋₊ < s.length) (hR : ∀ i j, i ≤ j → j < s.length → s.getD j 0 - s.getD i 0 ≤ R) :
    0 ≤ interpAt s h' - interpAt s h ∧ interpAt s h' - interpAt s h ≤ R * (h' - h) := by
  have hf : ⌊h⌋₊ ≤ ⌊h'⌋₊ := Nat.floor_mono hh
  have R0 : 0 ≤ R := by simpa using hR 0 0 le_rfl (by omega)
  have b := interp_bounds hs h0 (by omega : ⌊h⌋₊ < s.length)
  have b' := interp_bounds hs (h0.trans hh) h1
  have fa := Nat.floor_le h0
  have fb := (Nat.lt_floor_add_one h).le
  have fa' := Nat.floor_le (h0.trans hh)
  have fb' := (Nat.lt_floor_add_one h').le
  have g : s.getD (min (⌊h⌋₊ + 1) (s.length - 1)) 0 - s.getD ⌊h⌋₊ 0 ≤ R := hR _ _ (by omega) (by omega)
  have g' : s.getD (min (⌊h'⌋₊ + 1) (s.length - 1)) 0 - s.getD ⌊h'⌋₊ 0 ≤ R := hR _ _ (by omega) (by omega)
  have m0 : 0 ≤ s.getD (min (⌊h⌋₊ + 1) (s.length - 1)) 0 - s.getD ⌊h⌋₊ 0 :=
    sub_nonneg.2 (sorted_getD hs (by omega) (by omega))
  have m0' : 0 ≤ s.getD (min (⌊h'⌋₊ + 1) (s.length - 1)) 0 - s.getD ⌊h'⌋₊ 0 :=
    sub_nonneg.2 (sorted_getD hs (by omega) (by omega))
  rcases eq_or_lt_of_le hf with e | e
  · have : interpAt s h' - interpAt s h = (h' - h) *
        (s.getD (min (⌊h⌋₊ + 1) (s.length - 1)) 0 - s.getD ⌊h⌋₊ 0) := by
      unfold interpAt
      rw [← e]; ring
    rw [this]
    constructor
    · exact mul_nonneg (by linarith) m0
    · nlinarith
  · have hmid : s.getD (min (⌊h⌋₊ + 1) (s.length - 1)) 0 ≤ s.getD ⌊h'⌋₊ 0 :=
      sorted_getD hs (by omega) (by omega)
    refine ⟨by linarith [b.2, b'.1], ?_⟩
    rcases Nat.lt_or_ge (⌊h⌋₊ + 1) ⌊h'⌋₊ with e2 | e2
    · have w : interpAt s h' - interpAt s h ≤ R := by
        have := hR ⌊h⌋₊ (min (⌊h'⌋₊ + 1) (s.length - 1)) (by omega) (by omega)
        linarith [b.1, b'.2]
      have : (⌊h⌋₊ : ℚ) + 2 ≤ ⌊h'⌋₊ := by exact_mod_cast e2
      nlinarith
    · have e3 : ⌊h'⌋₊ = ⌊h⌋₊ + 1 := by omega
      have e4 : min (⌊h⌋₊ + 1) (s.length - 1) = ⌊h'⌋₊ := by omega
      rw [e4] at g m0
      have e5 : (⌊h'⌋₊ : ℚ) = ⌊h⌋₊ + 1 := by exact_mod_cast e3
      have : interpAt s h' - interpAt s h = (h' - ⌊h'⌋₊) *
          (s.getD (min (⌊h'⌋₊ + 1) (s.length - 1)) 0 - s.getD ⌊h'⌋₊ 0) +
          (⌊h'⌋₊ - h) * (s.getD ⌊h'⌋₊ 0 - s.getD ⌊h⌋₊ 0) := by
        unfold interpAt
        rw [e4, e5]; ring
      rw [this]
      have i1 : (h' - ⌊h'⌋₊) * (s.getD (min (⌊h'⌋₊ + 1) (s.length - 1)) 0 - s.getD ⌊h'⌋₊ 0) ≤
          (h' - ⌊h'⌋₊) * R := mul_le_mul_of_nonneg_left g' (by linarith)
      have i2 : (⌊h'⌋₊ - h) * (s.getD ⌊h'⌋₊ 0 - s.getD ⌊h⌋₊ 0) ≤ (⌊h'⌋₊ - h) * R :=
        mul_le_mul_of_nonneg_left g (by linarith)
      linarith

/-! ### The value between two neighbours -/

theorem flBetween_err (rule : QuantileRule) {a b t M : ℚ} (ha : |a| ≤ M) (hb : |b| ≤ M) (hab : a ≤ b)
    (t0 : 0 ≤ t) (t1 : t ≤ 1) : |flBetween rule a b t - (a + t * (b - a))| ≤ 10 / 2 ^ 53 * M := by
  have M0 : 0 ≤ M := (abs_nonneg a).trans ha
  have hw : |fl (1 - t) - (1 - t)| ≤ 1 / 2 ^ 53 := fl_err_le (by rw [abs_of_nonneg (by linarith)]; linarith)
  have w0 : 0 ≤ fl (1 - t) := float_le_fl isFloat_zero (by linarith)
  have w1 : fl (1 - t) ≤ 1 := fl_le_float isFloat_one (by linarith)
  obtain ⟨w, hwe⟩ : ∃ w, fl (1 - t) = w := ⟨_, rfl⟩
  rw [hwe] at hw w0 w1
  have prod : ∀ {x y X Y : ℚ}, |x| ≤ X → |y| ≤ Y → |x * y| ≤ X * Y := fun h1 h2 => by
    rw [abs_mul]; exact mul_le_mul h1 h2 (abs_nonneg _) ((abs_nonneg _).trans h1)
  have at' : |t| ≤ 1 := by rw [abs_of_nonneg t0]; exact t1
  have aw : |w| ≤ 1 := by rw [abs_of_nonneg w0]; exact w1
  have conv : |a + t * (b - a)| ≤ M := by
    rw [abs_le] at *
    constructor <;> nlinarith
  cases rule with
  | weights =>
    have p1 := fl_err_le (prod ha aw)
    have p2 := fl_err_le (prod hb at')
    have p3 := prod ha hw
    rw [mul_one] at p1 p2
    simp only [flBetween, hwe]
    generalize fl (a * w) = p at *
    generalize fl (b * t) = q at *
    have s1 : |p + q - (a + t * (b - a))| ≤ 3 * (M / 2 ^ 53) := by
      have : p + q - (a + t * (b - a)) = (p - a * w) + (q - b * t) + a * (w - (1 - t)) := by ring
      rw [this]
      refine (abs_add_three _ _ _).trans ?_
      linarith
    have s2 : |p + q| ≤ 2 * M := by
      rw [abs_le] at *
      constructor <;> linarith
    have p4 := fl_err_le s2
    rw [abs_le] at *
    constructor <;> linarith
  | lerp =>
    have hd2 : |b - a| ≤ 2 * M := by rw [abs_le] at *; constructor <;> linarith
    have hd := fl_err_le hd2
    simp only [flBetween, hwe]
    generalize fl (b - a) = d at *
    have hd3 : |d| ≤ 3 * M := by
      rw [abs_le] at *
      constructor <;> linarith
    have dt := prod hd at'
    split_ifs with hc
    · have p1 := fl_err_le (prod hd3 aw)
      have p2 := prod hd3 hw
      have d1 : |(d - (b - a)) * (1 - t)| ≤ 2 * M / 2 ^ 53 * 1 :=
        prod hd (by rw [abs_of_nonneg (by linarith)]; linarith)
      generalize fl (d * w) = p at *
      have s1 : |b - p - (a + t * (b - a))| ≤ 8 * (M / 2 ^ 53) := by
        have : b - p - (a + t * (b - a)) = -(p - d * w) + -(d * (w - (1 - t))) + -((d - (b - a)) * (1 - t)) := by
          ring
        rw [this]
        refine (abs_add_three _ _ _).trans ?_
        rw [abs_neg, abs_neg, abs_neg]
        linarith
      have s2 : |b - p| ≤ 2 * M := by
        rw [abs_le] at *
        constructor <;> linarith
      have p4 := fl_err_le s2
      rw [abs_le] at *
      constructor <;> linarith
    · have p1 := fl_err_le (prod hd3 at')
      generalize fl (d * t) = p at *
      have s1 : |a + p - (a + t * (b - a))| ≤ 8 * (M / 2 ^ 53) := by
        have : a + p - (a + t * (b - a)) = (p - d * t) + (d - (b - a)) * t := by ring
        rw [this]
        refine (abs_add_le _ _).trans ?_
        linarith
      have s2 : |a + p| ≤ 2 * M := by
        rw [abs_le] at *
        constructor <;> linarith
      have p4 := fl_err_le s2
      rw [abs_le] at *
      constructor <;> linarith

theorem flBetween_zero (rule : QuantileRule) {a : ℚ} (b : ℚ) (ha : IsFloat a) : flBetween rule a b 0 = a := by
  cases rule with
  | weights => simp [flBetween, fl_zero, fl_of_float isFloat_one, fl_of_float ha]
  | lerp => simp [flBetween, fl_zero, fl_of_float ha]

theorem fl_upper {x : ℚ} (hx : 0 ≤ x) : fl x ≤ (1 + 1 / 2 ^ 53) * x := (fl_bounds hx).2

/-- The newer rule stays between the two neighbours. -/
theorem lerp_between {a b t : ℚ} (ha : IsFloat a) (hb : IsFloat b) (hab : a ≤ b) (t0 : 0 ≤ t) (t1 : t ≤ 1) :
    a ≤ flBetween .lerp a b t ∧ flBetween .lerp a b t ≤ b := by
  have hd0 : 0 ≤ fl (b - a) := float_le_fl isFloat_zero (by linarith)
  have hd := fl_upper (show 0 ≤ b - a by linarith)
  unfold flBetween
  simp only
  generalize fl (b - a) = d at *
  split_ifs with hc
  · have hw0 : 0 ≤ fl (1 - t) := float_le_fl isFloat_zero (by linarith)
    have hw := fl_upper (show 0 ≤ 1 - t by linarith)
    generalize fl (1 - t) = w at *
    have hp0 : 0 ≤ fl (d * w) := float_le_fl isFloat_zero (by positivity)
    have hp := fl_upper (show 0 ≤ d * w by positivity)
    have hw' : w ≤ 3 / 4 := by linarith
    have hdw : d * w ≤ (1 + 1 / 2 ^ 53) * (b - a) * (3 / 4) :=
      mul_le_mul hd hw' hw0 (mul_nonneg (by norm_num) (by linarith))
    exact ⟨float_le_fl ha (by nlinarith), fl_le_float hb (by linarith)⟩
  · have hp0 : 0 ≤ fl (d * t) := float_le_fl isFloat_zero (by positivity)
    have hp := fl_upper (show 0 ≤ d * t by positivity)
    have hdt : d * t ≤ (1 + 1 / 2 ^ 53) * (b - a) * (1 / 2) :=
      mul_le_mul hd (by linarith) t0 (mul_nonneg (by norm_num) (by linarith))
    exact ⟨float_le_fl ha (by linarith), fl_le_float hb (by nlinarith)⟩

/-- The newer rule increases with the fraction, if the two fractions are not too close. -/
theorem lerp_mono {a b t t' : ℚ} (hab : a ≤ b) (t0 : 0 ≤ t) (htt : t ≤ t') (t1 : t' ≤ 1)
    (hgap : 4 / 2 ^ 53 ≤ t' - t) : flBetween .lerp a b t ≤ flBetween .lerp a b t' := by
  have hd0 : 0 ≤ fl (b - a) := float_le_fl isFloat_zero (by linarith)
  have hd := fl_upper (show 0 ≤ b - a by linarith)
  unfold flBetween
  simp only
  generalize fl (b - a) = d at *
  split_ifs with h1 h2 h2
  · apply fl_mono
    have : fl (d * fl (1 - t')) ≤ fl (d * fl (1 - t)) :=
      fl_mono (mul_le_mul_of_nonneg_left (fl_mono (by linarith)) hd0)
    linarith
  · linarith
  · apply fl_mono
    have hw0 : 0 ≤ fl (1 - t') := float_le_fl isFloat_zero (by linarith)
    have hw := fl_upper (show 0 ≤ 1 - t' by linarith)
    have hp := fl_upper (show 0 ≤ d * t by positivity)
    have hq := fl_upper (show 0 ≤ d * fl (1 - t') by positivity)
    generalize fl (1 - t') = w at *
    have hdw : d * w ≤ d * ((1 + 1 / 2 ^ 53) * (1 - t')) := mul_le_mul_of_nonneg_left hw hd0
    have hsum : d * t + d * ((1 + 1 / 2 ^ 53) * (1 - t')) ≤ d * (1 - 3 / 2 ^ 53) := by
      rw [← mul_add]
      exact mul_le_mul_of_nonneg_left (by linarith) hd0
    have hfin : (1 + 1 / 2 ^ 53) * (d * (1 - 3 / 2 ^ 53)) ≤ b - a := by
      have : (1 + 1 / 2 ^ 53) * (d * (1 - 3 / 2 ^ 53)) ≤
          (1 + 1 / 2 ^ 53) * (((1 + 1 / 2 ^ 53) * (b - a)) * (1 - 3 / 2 ^ 53)) :=
        mul_le_mul_of_nonneg_left (mul_le_mul_of_nonneg_right hd (by norm_num)) (by norm_num)
      refine this.trans ?_
      have : (0 : ℚ) ≤ b - a := by linarith
      nlinarith
    nlinarith
  · exact fl_mono (by linarith [fl_mono (mul_le_mul_of_nonneg_left htt hd0)])

/-! ### The claims -/

theorem flQuantileAt_eq (rule : QuantileRule) (vals : List ℚ) (levels k : ℕ) :
    flQuantileAt rule vals levels k =
      let s := vals.insertionSort (· ≤ ·)
      let h := flVirtual s.length levels k
      flBetween rule (s.getD ⌊h⌋₊ 0) (s.getD (min (⌊h⌋₊ + 1) (s.length - 1)) 0) (h - ⌊h⌋₊) := by
  have hf : IsFloat (flVirtual (vals.insertionSort (· ≤ ·)).length levels k) := fl_isFloat _
  unfold flQuantileAt
  simp only [Int.floor_toNat]
  rw [fl_of_float (isFloat_frac hf (flVirtual_nonneg _ _ _))]

theorem sorted_mem {vals : List ℚ} {i : ℕ} (hi : i < (vals.insertionSort (· ≤ ·)).length) :
    (vals.insertionSort (· ≤ ·)).getD i 0 ∈ vals := by
  rw [getD_lt hi]
  exact (List.perm_insertionSort _ _).mem_iff.1 (List.getElem_mem _)

theorem flVirtual_floor {n levels k : ℕ} (h0 : 0 < n) (hl : 0 < levels) (hk : k ≤ levels) (hn : n - 1 ≤ 2 ^ 53) :
    ⌊flVirtual n levels k⌋₊ < n := by
  have : ⌊flVirtual n levels k⌋₊ ≤ n - 1 := by
    have := Nat.floor_mono (flVirtual_le hl hk hn)
    rwa [Nat.floor_natCast] at this
  omega

theorem flQuantile_ok {rule : QuantileRule} {vals breaks : List ℚ} {levels : ℕ}
    (hok : flQuantileBreaks rule vals levels = .ok breaks) :
    0 < levels ∧ vals ≠ [] ∧ breaks = (List.range (levels + 1)).map (flQuantileAt rule vals levels) := by
  unfold flQuantileBreaks at hok
  split at hok
  · cases hok
  rename_i hl
  split at hok
  · cases hok
  rename_i hv
  exact ⟨Nat.pos_of_ne_zero hl, hv, (Except.ok.inj hok).symm⟩

/-- C178: whichever of numpy's two formulas is in use, there is one break more than `levels`, and every break is
within `(6 n + 10) * 2^-53` times the largest absolute value of the exact quantile. -/
theorem C178_error (rule : QuantileRule) (vals breaks : List ℚ) (levels : ℕ) (hn : vals.length ≤ 2 ^ 53)
    (hok : flQuantileBreaks rule vals levels = .ok breaks) (M : ℚ) (hM : ∀ v ∈ vals, |v| ≤ M) :
    ∃ exact, quantileBreaks vals levels = .ok exact ∧ exact.length = levels + 1 ∧ breaks.length = levels + 1 ∧
      ∀ (k : ℕ) (b e : ℚ), breaks[k]? = some b → exact[k]? = some e →
        |b - e| ≤ (6 * vals.length + 10) / 2 ^ 53 * M := by
  obtain ⟨hl, hv, rfl⟩ := flQuantile_ok hok
  refine ⟨(List.range (levels + 1)).map (quantileAt vals levels), ?_, by simp, by simp, ?_⟩
  · unfold quantileBreaks
    rw [if_neg hl.ne', if_neg hv]
  intro k b e hb he
  rw [List.getElem?_map] at hb he
  obtain ⟨k1, hk1, rfl⟩ := Option.map_eq_some_iff.1 hb
  obtain ⟨k2, hk2, rfl⟩ := Option.map_eq_some_iff.1 he
  rw [hk1] at hk2
  obtain rfl := Option.some.inj hk2
  have hk : k1 ≤ levels := by
    have := List.mem_of_getElem? hk1
    rw [List.mem_range] at this
    omega
  clear hb he hk1 hk2
  have hs : (vals.insertionSort (· ≤ ·)).Pairwise (· ≤ ·) := List.pairwise_insertionSort _ _
  have hlen : (vals.insertionSort (· ≤ ·)).length = vals.length := List.length_insertionSort _ _
  have hpos : 0 < vals.length := List.length_pos_iff.2 hv
  have hmem : ∀ i, i < vals.length → |(vals.insertionSort (· ≤ ·)).getD i 0| ≤ M :=
    fun i hi => hM _ (sorted_mem (hlen.symm ▸ hi))
  have M0 : 0 ≤ M := (abs_nonneg _).trans (hmem 0 hpos)
  rw [flQuantileAt_eq, quantileAt_interp _ _ _ hl, hlen]
  have hfl := flVirtual_floor (n := vals.length) hpos hl hk (by omega)
  have h0 := flVirtual_nonneg vals.length levels k1
  have herr := flVirtual_err (n := vals.length) hl hk
  simp only
  rw [hlen]
  have hxl : (((vals.length - 1) * k1 : ℕ) : ℚ) / levels ≤ ((vals.length - 1 : ℕ) : ℚ) := by
    rw [div_le_iff₀ (by exact_mod_cast hl)]
    exact_mod_cast Nat.mul_le_mul_left _ hk
  have hx0 : (0 : ℚ) ≤ (((vals.length - 1) * k1 : ℕ) : ℚ) / levels := by positivity
  have hxf : ⌊(((vals.length - 1) * k1 : ℕ) : ℚ) / levels⌋₊ < vals.length := by
    have := Nat.floor_mono hxl
    rw [Nat.floor_natCast] at this
    omega
  generalize (((vals.length - 1) * k1 : ℕ) : ℚ) / levels = x at *
  generalize flVirtual vals.length levels k1 = h at *
  have b1 := flBetween_err rule (hmem _ hfl) (hmem (min (⌊h⌋₊ + 1) (vals.length - 1)) (by omega))
    (sorted_getD hs (by omega) (by omega)) (sub_nonneg.2 (Nat.floor_le h0))
    (by linarith [Nat.lt_floor_add_one h])
  have e1 : (vals.insertionSort (· ≤ ·)).getD ⌊h⌋₊ 0 + (h - ⌊h⌋₊) *
      ((vals.insertionSort (· ≤ ·)).getD (min (⌊h⌋₊ + 1) (vals.length - 1)) 0 -
        (vals.insertionSort (· ≤ ·)).getD ⌊h⌋₊ 0) = interpAt (vals.insertionSort (· ≤ ·)) h := by
    unfold interpAt
    rw [hlen]
  rw [e1] at b1
  have hR : ∀ i j, i ≤ j → j < (vals.insertionSort (· ≤ ·)).length →
      (vals.insertionSort (· ≤ ·)).getD j 0 - (vals.insertionSort (· ≤ ·)).getD i 0 ≤ 2 * M := by
    intro i j hij hj
    have a1 := hmem i (by omega)
    have a2 := hmem j (by omega)
    rw [abs_le] at a1 a2
    linarith
  have b2 : |interpAt (vals.insertionSort (· ≤ ·)) h - interpAt (vals.insertionSort (· ≤ ·)) x| ≤
      2 * M * |h - x| := by
    rcases le_total x h with c | c
    · have := interp_lipschitz hs hx0 c (by omega) hR
      rw [abs_of_nonneg this.1, abs_of_nonneg (by linarith)]
      exact this.2
    · have := interp_lipschitz hs h0 c (by omega) hR
      rw [abs_sub_comm, abs_sub_comm h, abs_of_nonneg this.1, abs_of_nonneg (by linarith)]
      exact this.2
  have hN : ((vals.length - 1 : ℕ) : ℚ) ≤ vals.length := by exact_mod_cast Nat.sub_le _ _
  have b3 : 2 * M * |h - x| ≤ 2 * M * (3 / 2 ^ 53 * vals.length) :=
    mul_le_mul_of_nonneg_left (herr.trans (mul_le_mul_of_nonneg_left hN (by norm_num))) (by linarith)
  have tri := abs_sub_le (flBetween rule ((vals.insertionSort (· ≤ ·)).getD ⌊h⌋₊ 0)
    ((vals.insertionSort (· ≤ ·)).getD (min (⌊h⌋₊ + 1) (vals.length - 1)) 0) (h - ⌊h⌋₊))
    (interpAt (vals.insertionSort (· ≤ ·)) h) (interpAt (vals.insertionSort (· ≤ ·)) x)
  calc _ ≤ _ := tri
    _ ≤ 10 / 2 ^ 53 * M + 2 * M * (3 / 2 ^ 53 * vals.length) := add_le_add b1 (b2.trans b3)
    _ = _ := by ring

/-- C178: under both formulas the first break is the smallest and the last break the largest value, exactly. -/
theorem C178_ends (rule : QuantileRule) (vals breaks : List ℚ) (levels : ℕ) (hn : vals.length ≤ 2 ^ 53)
    (hf : ∀ v ∈ vals, IsFloat v) (hok : flQuantileBreaks rule vals levels = .ok breaks) :
    (∃ lo ∈ vals, breaks.head? = some lo ∧ ∀ v ∈ vals, lo ≤ v) ∧
    (∃ hi ∈ vals, breaks.getLast? = some hi ∧ ∀ v ∈ vals, v ≤ hi) := by
  obtain ⟨hl, hv, rfl⟩ := flQuantile_ok hok
  have hs : (vals.insertionSort (· ≤ ·)).Pairwise (· ≤ ·) := List.pairwise_insertionSort _ _
  have hlen : (vals.insertionSort (· ≤ ·)).length = vals.length := List.length_insertionSort _ _
  have hpos : 0 < vals.length := List.length_pos_iff.2 hv
  have hperm : (vals.insertionSort (· ≤ ·)).Perm vals := List.perm_insertionSort _ _
  have first : flQuantileAt rule vals levels 0 = (vals.insertionSort (· ≤ ·)).getD 0 0 := by
    rw [flQuantileAt_eq]
    simp only [flVirtual_zero, Nat.floor_zero, Nat.cast_zero, sub_zero]
    exact flBetween_zero rule _ (hf _ (sorted_mem (by omega)))
  have last : flQuantileAt rule vals levels levels =
      (vals.insertionSort (· ≤ ·)).getD (vals.length - 1) 0 := by
    rw [flQuantileAt_eq]
    simp only [hlen, flVirtual_last hl (show vals.length - 1 ≤ 2 ^ 53 by omega), Nat.floor_natCast, sub_self]
    exact flBetween_zero rule _ (hf _ (sorted_mem (by omega)))
  refine ⟨⟨_, sorted_mem (i := 0) (by omega), ?_, ?_⟩, ⟨_, sorted_mem (i := vals.length - 1) (by omega), ?_, ?_⟩⟩
  · rw [List.range_succ_eq_map]
    simp [first]
  · intro v hv'
    obtain ⟨i, hi, rfl⟩ := List.mem_iff_getElem.1 (hperm.mem_iff.2 hv')
    rw [← getD_lt hi]
    exact sorted_getD hs (Nat.zero_le _) hi
  · rw [List.range_succ]
    simp [last]
  · intro v hv'
    obtain ⟨i, hi, rfl⟩ := List.mem_iff_getElem.1 (hperm.mem_iff.2 hv')
    rw [← getD_lt hi]
    exact sorted_getD hs (by omega) (by omega)

/-- C178: with numpy's newer formula the breaks increase and lie between two of the values, for every list of doubles
and up to `2^49` levels. -/
theorem C178_lerp_sorted (vals breaks : List ℚ) (levels : ℕ) (hn : vals.length ≤ 2 ^ 53) (hL : levels ≤ 2 ^ 49)
    (hf : ∀ v ∈ vals, IsFloat v) (hok : flQuantileBreaks .lerp vals levels = .ok breaks) :
    breaks.Pairwise (· ≤ ·) ∧ ∀ b ∈ breaks, ∃ x ∈ vals, ∃ y ∈ vals, x ≤ b ∧ b ≤ y := by
  obtain ⟨hl, hv, rfl⟩ := flQuantile_ok hok
  have hs : (vals.insertionSort (· ≤ ·)).Pairwise (· ≤ ·) := List.pairwise_insertionSort _ _
  have hlen : (vals.insertionSort (· ≤ ·)).length = vals.length := List.length_insertionSort _ _
  have hpos : 0 < vals.length := List.length_pos_iff.2 hv
  have hfl : ∀ i, i < vals.length → IsFloat ((vals.insertionSort (· ≤ ·)).getD i 0) :=
    fun i hi => hf _ (sorted_mem (hlen.symm ▸ hi))
  have between : ∀ k, k ≤ levels →
      (vals.insertionSort (· ≤ ·)).getD ⌊flVirtual vals.length levels k⌋₊ 0 ≤ flQuantileAt .lerp vals levels k ∧
      flQuantileAt .lerp vals levels k ≤ (vals.insertionSort (· ≤ ·)).getD
        (min (⌊flVirtual vals.length levels k⌋₊ + 1) (vals.length - 1)) 0 := by
    intro k hk
    have h1 := flVirtual_floor (n := vals.length) hpos hl hk (by omega)
    have h0 := flVirtual_nonneg vals.length levels k
    rw [flQuantileAt_eq]
    simp only [hlen]
    exact lerp_between (hfl _ h1) (hfl _ (by omega)) (sorted_getD hs (by omega) (by omega))
      (sub_nonneg.2 (Nat.floor_le h0)) (by linarith [Nat.lt_floor_add_one (flVirtual vals.length levels k)])
  constructor
  · rw [List.pairwise_map, List.pairwise_iff_getElem]
    intro i j hi hj hij
    rw [List.getElem_range, List.getElem_range]
    simp only [List.length_range] at hi hj
    have hfi := flVirtual_floor (n := vals.length) hpos hl (show i ≤ levels by omega) (by omega)
    have hfj := flVirtual_floor (n := vals.length) hpos hl (show j ≤ levels by omega) (by omega)
    have hm := flVirtual_mono (n := vals.length) (levels := levels) hij.le
    rcases eq_or_lt_of_le (Nat.floor_mono hm) with e | e
    · rcases Nat.lt_or_ge 1 vals.length with h2 | h2
      · rw [flQuantileAt_eq, flQuantileAt_eq]
        simp only [hlen]
        rw [← e]
        have ei := flVirtual_err (n := vals.length) hl (show i ≤ levels by omega)
        have ej := flVirtual_err (n := vals.length) hl (show j ≤ levels by omega)
        have hN : (1 : ℚ) ≤ ((vals.length - 1 : ℕ) : ℚ) := by exact_mod_cast (by omega)
        have hlq : (0 : ℚ) < levels := by exact_mod_cast hl
        have step : ((vals.length - 1 : ℕ) : ℚ) / levels ≤
            (((vals.length - 1) * j : ℕ) : ℚ) / levels - (((vals.length - 1) * i : ℕ) : ℚ) / levels := by
          rw [← sub_div]
          apply div_le_div_of_nonneg_right _ hlq.le
          have : ((i + 1 : ℕ) : ℚ) ≤ j := by exact_mod_cast hij
          push_cast at this ⊢
          nlinarith
        have small : ((vals.length - 1 : ℕ) : ℚ) * (16 / 2 ^ 53) ≤ ((vals.length - 1 : ℕ) : ℚ) / levels := by
          rw [le_div_iff₀ hlq, mul_assoc]
          have : (levels : ℚ) ≤ 2 ^ 49 := by exact_mod_cast hL
          have : (16 / 2 ^ 53 : ℚ) * levels ≤ 1 := by linarith
          exact mul_le_of_le_one_right (by linarith) this
        rw [abs_le] at ei ej
        have h0 := flVirtual_nonneg vals.length levels i
        have fb := Nat.lt_floor_add_one (flVirtual vals.length levels j)
        rw [← e] at fb
        refine lerp_mono (sorted_getD hs (by omega) (by omega)) (sub_nonneg.2 (Nat.floor_le h0))
          (by linarith) (by linarith) ?_
        generalize flVirtual vals.length levels i = p at *
        generalize flVirtual vals.length levels j = q at *
        linarith
      · have c1 := (between i (by omega)).2
        have c2 := (between j (by omega)).1
        refine c1.trans (le_trans ?_ c2)
        exact sorted_getD hs (by omega) (by omega)
    · have c1 := (between i (by omega)).2
      have c2 := (between j (by omega)).1
      refine c1.trans (le_trans ?_ c2)
      exact sorted_getD hs (by omega) (by omega)
  · intro b hb
    obtain ⟨k, hk, rfl⟩ := List.mem_map.1 hb
    rw [List.mem_range] at hk
    have hfk := flVirtual_floor (n := vals.length) hpos hl (show k ≤ levels by omega) (by omega)
    obtain ⟨c1, c2⟩ := between k (by omega)
    exact ⟨_, sorted_mem (by omega), _, sorted_mem (by omega), c1, c2⟩

/-- Three pure leaves of 2, 3 and 5 observations of three classes. -/
abbrev exPure : SkTree ℚ 3 :=
  { toTopo := ⟨4, ![some 1, none, some 3, none, none], ![some 2, none, some 4, none, none]⟩
    value := fun i => ![![2, 3, 5], ![2, 0, 0], ![0, 3, 5], ![0, 3, 0], ![0, 0, 5]] i
    nSamp := ![10, 2, 8, 3, 5]
    impurity := ![flGini 38 10, flGini 4 2, flGini 34 8, flGini 9 3, flGini 25 5] }

/-- C178, false under the older formula: on the forest of one classification tree of ten observations in three pure
leaves, `quantiles_distance_trees` with seven levels returns breaks that are not sorted, so the assertion
"quantiles returned should naturally be sorted" of test_quantiles_distance_trees fails. -/
theorem C178_refuted : exPure.toTopo.WF ∧ ∀ rev, ∃ breaks,
    SkTree.flQuantilesDistanceTrees .weights rev [exPure] .standard (some 7) = .ok breaks ∧
      ¬ breaks.Pairwise (· ≤ ·) := by
  refine ⟨by decide, fun rev => ⟨_, rfl, ?_⟩⟩
  cases rev <;> decide +kernel

/-- C178: for trees whose impurities are scikit-learn's Gini values the distances are exact, so
`quantiles_distance_trees` gathers the exact distances, and with `levels=None` returns them. -/
theorem C178_gini {C : ℕ} (rule : QuantileRule) (rev : Bool) (forest : List (SkTree ℚ C)) (s : Topo.Style)
    (hg : ∀ t ∈ forest, t.toTopo.WF ∧ ∃ sq W : t.Node → ℕ, (∀ i, 0 < W i ∧ W i ≤ 2 ^ 26) ∧
      (∀ i, sq i ≤ W i * W i) ∧ ∀ i, t.impurity i = flGini (sq i) (W i)) :
    SkTree.flQuantilesDistanceTrees rule rev forest s none = SkTree.quantilesDistanceTrees forest s none ∧
    ∀ n, SkTree.flQuantilesDistanceTrees rule rev forest s (some n) =
      flQuantileBreaks rule (forest.flatMap fun t => ravelM (t.distImpurity t.impurity s)) n := by
  have key : ∀ (l : List (SkTree ℚ C)), (∀ t ∈ l, t ∈ forest) → ∀ acc : List ℚ,
      l.foldl (fun acc t => acc ++ ravelM (t.flImpDist rev s)) acc =
        l.foldl (fun acc t => acc ++ ravelM (t.impDist s)) acc ∧
      l.foldl (fun acc t => acc ++ ravelM (t.flImpDist rev s)) acc =
        acc ++ l.flatMap fun t => ravelM (t.distImpurity t.impurity s) := by
    intro l
    induction l with
    | nil => intro _ acc; simp
    | cons t l ih =>
      intro hm acc
      obtain ⟨hw, sq, W, h1, h2, h3⟩ := hg t (hm t (by simp))
      have e : t.flImpDist rev s = t.impDist s := by
        funext i j
        exact (C162_gini_exact hw sq W h1 h2 t.impurity h3).2.2 rev s i j
      have := ih (fun u hu => hm u (by simp [hu])) (acc ++ ravelM (t.impDist s))
      simp only [List.foldl_cons, e, List.flatMap_cons]
      refine ⟨this.1, this.2.trans ?_⟩
      rw [List.append_assoc]
      rfl
  obtain ⟨k1, k2⟩ := key forest (fun _ h => h) []
  constructor
  · simp only [SkTree.flQuantilesDistanceTrees, SkTree.quantilesDistanceTrees, k1]
  · intro n
    simp only [SkTree.flQuantilesDistanceTrees, k2, List.nil_append]

/-- C178, false under the older formula: the spurious break moves distances to another level. On the same tree with
seven levels the distance between leaves 0 and 1 is at level 3 of 5 in exact arithmetic and under the newer
formula, and at level 4 of 6 under the older one, where no distance is at level 2 or 3. -/
theorem C178_levels_refuted : ∀ rev,
    (∃ lev, exPure.impLevels .standard (.int 7) = .ok (lev, 5) ∧ lev ⟨0, by decide⟩ ⟨1, by decide⟩ = 3) ∧
    (∃ lev, exPure.flImpLevels .lerp rev .standard 7 = .ok (lev, 5) ∧ lev ⟨0, by decide⟩ ⟨1, by decide⟩ = 3) ∧
    (∃ lev, exPure.flImpLevels .weights rev .standard 7 = .ok (lev, 6) ∧
      lev ⟨0, by decide⟩ ⟨1, by decide⟩ = 4 ∧ ∀ i j, lev i j ≠ 2 ∧ lev i j ≠ 3) := by
  have pick : ∀ {α : Type} {x : Except PyErr (α × ℕ)} {n : ℕ} {P : α → Prop} [DecidablePred P],
      (match x with | .ok v => decide (v.2 = n ∧ P v.1) | .error _ => false) = true →
        ∃ lev, x = .ok (lev, n) ∧ P lev := by
    intro α x n P _ h
    match x, h with
    | .ok (lev, m), h =>
      have h := of_decide_eq_true h
      exact ⟨lev, by rw [← h.1], h.2⟩
  intro rev
  refine ⟨pick ?_, pick ?_, pick ?_⟩
  · decide +kernel
  · cases rev <;> decide +kernel
  · cases rev <;> decide +kernel

/-- C178, false under both formulas: "a break at a whole index is that value". Of the values 0, 1, …, 42 the break 9
of 14 is the value 27, but the virtual index is computed as a number above 27. -/
theorem C178_index_refuted : quantileAt ((List.range 43).map fun i : ℕ => (i : ℚ)) 14 9 = 27 ∧
    ∀ rule, 27 < flQuantileAt rule ((List.range 43).map fun i : ℕ => (i : ℚ)) 14 9 := by
  refine ⟨by decide +kernel, fun rule => ?_⟩
  cases rule <;> decide +kernel

/-- The hypotheses of C178 on the tree of the refutation: seven levels, doubles, largest distance below 1. -/
example : (∃ b, flQuantileBreaks .lerp (ravelM (exPure.flImpDist false .standard)) 7 = .ok b) ∧
    (ravelM (exPure.flImpDist false .standard)).length = 9 ∧
    (∀ v ∈ ravelM (exPure.flImpDist false .standard), fl v = v ∧ |v| ≤ 1) ∧
    (∃ v ∈ ravelM (exPure.flImpDist false .standard), v ≠ 0) :=
  ⟨⟨_, rfl⟩, by decide +kernel, by decide +kernel, by decide +kernel⟩

end SmoothRF
