import Verif.Model.Float
import Mathlib.Algebra.Order.Field.Power
import Mathlib.Algebra.Order.Round
import Mathlib.Data.Nat.Log
import Mathlib.Algebra.Ring.Parity
import Mathlib.Tactic.Linarith
import Mathlib.Tactic.FieldSimp
import Mathlib.Tactic.Ring
import Mathlib.Tactic.Positivity
import Mathlib.Tactic.Zify

/-! # Facts about rounding to double precision -/

set_option linter.unusedSectionVars false

namespace SmoothRF

/-- Numbers with at most 53 binary digits. -/
def IsFloat (x : ℚ) : Prop := ∃ m e : ℤ, |m| ≤ 2 ^ 53 ∧ x = m * 2 ^ e

/-- `k` is the integer nearest to `x`, and even if there are two. -/
def NearInt (x : ℚ) (k : ℤ) : Prop := |(k : ℚ) - x| < 1 / 2 ∨ (|(k : ℚ) - x| = 1 / 2 ∧ Even k)

theorem NearInt.le {x : ℚ} {k : ℤ} (h : NearInt x k) : |(k : ℚ) - x| ≤ 1 / 2 := by
  rcases h with h | h
  · exact h.le
  · exact h.1.le

theorem NearInt.unique {x : ℚ} {k l : ℤ} (hk : NearInt x k) (hl : NearInt x l) : k = l := by
  by_contra hne
  have h1 : (1 : ℚ) ≤ |(k : ℚ) - l| := by
    have : (1 : ℤ) ≤ |k - l| := Int.one_le_abs (sub_ne_zero.2 hne)
    exact_mod_cast this
  have h2 : |(k : ℚ) - l| ≤ |(k : ℚ) - x| + |(l : ℚ) - x| := by
    have := abs_sub_le (k : ℚ) x l
    rwa [abs_sub_comm x l] at this
  have e1 : |(k : ℚ) - x| = 1 / 2 := le_antisymm hk.le (by linarith [hl.le])
  have e2 : |(l : ℚ) - x| = 1 / 2 := le_antisymm hl.le (by linarith [hk.le])
  have hek : Even k := by rcases hk with h | h; exact absurd e1 h.ne; exact h.2
  have hel : Even l := by rcases hl with h | h; exact absurd e2 h.ne; exact h.2
  have h3 : |k - l| ≤ 1 := by
    have : |(k : ℚ) - l| ≤ 1 := by linarith
    exact_mod_cast this
  obtain ⟨c, hc⟩ := hek.sub hel
  have h4 : k - l ≠ 0 := sub_ne_zero.2 hne
  rw [abs_le] at h3
  omega

/-- Anything at most as far from `k` as `x` is rounds to `k` as well. -/
theorem NearInt.closer {x z : ℚ} {k : ℤ} (h : NearInt x k) (hz : |(k : ℚ) - z| ≤ |(k : ℚ) - x|) :
    NearInt z k := by
  rcases h with h | ⟨h, he⟩
  · exact Or.inl (lt_of_le_of_lt hz h)
  · rcases lt_or_eq_of_le (hz.trans h.le) with h' | h'
    · exact Or.inl h'
    · exact Or.inr ⟨h', he⟩

theorem NearInt.nearest {x : ℚ} {k : ℤ} (h : NearInt x k) (l : ℤ) : |(k : ℚ) - x| ≤ |(l : ℚ) - x| := by
  by_cases e : k = l
  · rw [e]
  · have h1 : (1 : ℚ) ≤ |(k : ℚ) - l| := by
      have : (1 : ℤ) ≤ |k - l| := Int.one_le_abs (sub_ne_zero.2 e)
      exact_mod_cast this
    have h2 : |(k : ℚ) - l| ≤ |(k : ℚ) - x| + |(l : ℚ) - x| := by
      have := abs_sub_le (k : ℚ) x l
      rwa [abs_sub_comm x l] at this
    linarith [h.le]

theorem NearInt.self (k : ℤ) : NearInt (k : ℚ) k := Or.inl (by simp)

theorem rdiv_near (a b : ℕ) (hb : 0 < b) : NearInt ((a : ℚ) / b) (rdiv a b : ℕ) := by
  have hbq : (0 : ℚ) < b := by exact_mod_cast hb
  have hdiv : (a : ℚ) / b = ((a / b : ℕ) : ℚ) + ((a % b : ℕ) : ℚ) / b := by
    have := Nat.div_add_mod a b
    have h2 : ((b * (a / b) + a % b : ℕ) : ℚ) = a := by rw [this]
    rw [Nat.cast_add, Nat.cast_mul] at h2
    rw [← h2, add_div, mul_div_cancel_left₀ _ hbq.ne']
  have hr := Nat.mod_lt a hb
  have hr0 : (0 : ℚ) ≤ ((a % b : ℕ) : ℚ) / b := by positivity
  unfold NearInt rdiv
  rw [hdiv]
  split
  · rename_i h
    have e : (((a / b + 1 : ℕ) : ℤ) : ℚ) - (((a / b : ℕ) : ℚ) + ((a % b : ℕ) : ℚ) / b) = 1 - ((a % b : ℕ) : ℚ) / b := by
      rw [Int.cast_natCast, Nat.cast_add, Nat.cast_one]; ring
    have hlt : ((a % b : ℕ) : ℚ) / b < 1 := by
      rw [div_lt_one hbq]; exact_mod_cast hr
    rw [e, abs_of_pos (by linarith)]
    rcases h with h | ⟨h, ho⟩
    · left
      have : (1 : ℚ) / 2 < ((a % b : ℕ) : ℚ) / b := by
        rw [div_lt_div_iff₀ (by norm_num) hbq]
        have : (b : ℚ) < 2 * ((a % b : ℕ) : ℚ) := by exact_mod_cast h
        linarith
      linarith
    · right
      have : ((a % b : ℕ) : ℚ) / b = 1 / 2 := by
        rw [div_eq_div_iff hbq.ne' (by norm_num)]
        have : 2 * ((a % b : ℕ) : ℚ) = (b : ℚ) := by exact_mod_cast h
        linarith
      refine ⟨by rw [this]; norm_num, ?_⟩
      have : Even (a / b + 1) := Nat.even_add_one.2 (by rw [Nat.not_even_iff]; exact ho)
      exact_mod_cast this
  · rename_i h
    push Not at h
    obtain ⟨h1, h2⟩ := h
    have e : ((((a / b : ℕ) : ℤ) : ℚ)) - (((a / b : ℕ) : ℚ) + ((a % b : ℕ) : ℚ) / b) = -(((a % b : ℕ) : ℚ) / b) := by
      rw [Int.cast_natCast]; ring
    rw [e, abs_neg, abs_of_nonneg hr0]
    rcases lt_or_eq_of_le h1 with h3 | h3
    · left
      rw [div_lt_div_iff₀ hbq (by norm_num)]
      have : 2 * ((a % b : ℕ) : ℚ) < (b : ℚ) := by exact_mod_cast h3
      linarith
    · right
      constructor
      · rw [div_eq_div_iff hbq.ne' (by norm_num)]
        have : 2 * ((a % b : ℕ) : ℚ) = (b : ℚ) := by exact_mod_cast h3
        linarith
      · have := h2 h3
        have h4 : Even (a / b) := by rw [Nat.even_iff]; omega
        exact_mod_cast h4

theorem two_zpow_toNat (e : ℤ) : (2 : ℚ) ^ e * 2 ^ (-e).toNat = 2 ^ e.toNat := by
  rw [← zpow_natCast, ← zpow_natCast, ← zpow_add₀ (by norm_num)]
  congr 1
  omega

theorem ulpExp_spec (p q : ℕ) (hp : 0 < p) (hq : 0 < q) :
    2 ^ 52 * (2 : ℚ) ^ (ulpExp p q) ≤ (p : ℚ) / q ∧ (p : ℚ) / q < 2 ^ 53 * (2 : ℚ) ^ (ulpExp p q) := by
  have hqq : (0 : ℚ) < q := by exact_mod_cast hq
  have p1 : (2 : ℚ) ^ p.log2 ≤ p := by exact_mod_cast Nat.log2_self_le hp.ne'
  have p2 : (p : ℚ) < 2 ^ (p.log2 + 1) := by exact_mod_cast Nat.lt_log2_self
  have q1 : (2 : ℚ) ^ q.log2 ≤ q := by exact_mod_cast Nat.log2_self_le hq.ne'
  have q2 : (q : ℚ) < 2 ^ (q.log2 + 1) := by exact_mod_cast Nat.lt_log2_self
  set a := p.log2
  set b := q.log2
  set e : ℤ := (a : ℤ) - b - 52 with he
  have hcond : p * 2 ^ (-e).toNat < 2 ^ 52 * 2 ^ e.toNat * q ↔ (p : ℚ) / q < 2 ^ 52 * 2 ^ e := by
    have hpos : (0 : ℚ) < 2 ^ (-e).toNat := by positivity
    rw [div_lt_iff₀ hqq]
    have h1 : (p * 2 ^ (-e).toNat < 2 ^ 52 * 2 ^ e.toNat * q) ↔
        ((p : ℚ) * 2 ^ (-e).toNat < 2 ^ 52 * 2 ^ e.toNat * q) := by
      rw [← Nat.cast_lt (α := ℚ)]; push_cast; rfl
    rw [h1, ← two_zpow_toNat e,
      show (2 : ℚ) ^ 52 * (2 ^ e * 2 ^ (-e).toNat) * q = 2 ^ 52 * 2 ^ e * q * 2 ^ (-e).toNat by ring]
    exact mul_lt_mul_iff_left₀ hpos
  have hup : (p : ℚ) / q < 2 ^ 53 * 2 ^ e := by
    rw [div_lt_iff₀ hqq]
    have : (2 : ℚ) ^ (a + 1) = 2 ^ 53 * 2 ^ e * 2 ^ b := by
      rw [← zpow_natCast, ← zpow_natCast 2 53, ← zpow_natCast 2 b, ← zpow_add₀ (by norm_num),
        ← zpow_add₀ (by norm_num)]
      congr 1; push_cast; omega
    rw [this] at p2
    refine lt_of_lt_of_le p2 (mul_le_mul_of_nonneg_left q1 (by positivity))
  have hlow : 2 ^ 51 * 2 ^ e < (p : ℚ) / q := by
    rw [lt_div_iff₀ hqq]
    have : 2 ^ 51 * 2 ^ e * 2 ^ (b + 1) = (2 : ℚ) ^ a := by
      rw [← zpow_natCast, ← zpow_natCast 2 a, ← zpow_natCast 2 (b + 1), ← zpow_add₀ (by norm_num),
        ← zpow_add₀ (by norm_num)]
      congr 1; push_cast; omega
    calc 2 ^ 51 * 2 ^ e * (q : ℚ) < 2 ^ 51 * 2 ^ e * 2 ^ (b + 1) :=
          mul_lt_mul_of_pos_left q2 (by positivity)
      _ = 2 ^ a := this
      _ ≤ p := p1
  have hu : ulpExp p q = if p * 2 ^ (-e).toNat < 2 ^ 52 * 2 ^ e.toNat * q then e - 1 else e := rfl
  rw [hu]
  split
  · rename_i h
    have h' := hcond.1 h
    have e1 : (2 : ℚ) ^ (e - 1) = 2 ^ e / 2 := by rw [zpow_sub_one₀ (by norm_num)]; rfl
    rw [e1]
    constructor
    · refine le_trans (le_of_eq ?_) hlow.le; ring
    · refine lt_of_lt_of_le h' (le_of_eq ?_); ring
  · rename_i h
    exact ⟨not_lt.1 fun hl => h (hcond.2 hl), hup⟩

/-- The exponent of the last place is determined by the size of the number. -/
theorem binade_unique {x : ℚ} {e f : ℤ} (h1 : 2 ^ 52 * (2 : ℚ) ^ e ≤ x) (h2 : x < 2 ^ 53 * (2 : ℚ) ^ e)
    (h3 : 2 ^ 52 * (2 : ℚ) ^ f ≤ x) (h4 : x < 2 ^ 53 * (2 : ℚ) ^ f) : e = f := by
  have key : ∀ {e f : ℤ}, 2 ^ 52 * (2 : ℚ) ^ e ≤ x → x < 2 ^ 53 * (2 : ℚ) ^ f → e ≤ f := by
    intro e f h1 h4
    have : (2 : ℚ) ^ e < 2 ^ (f + 1) := by
      rw [zpow_add_one₀ (by norm_num)]
      have := lt_of_le_of_lt h1 h4
      nlinarith [this]
    have := (zpow_lt_zpow_iff_right₀ (by norm_num : (1 : ℚ) < 2)).1 this
    omega
  exact le_antisymm (key h1 h4) (key h3 h2)

theorem fl_zero : fl 0 = 0 := by simp [fl]

theorem fl_neg (x : ℚ) : fl (-x) = -fl x := by
  unfold fl
  by_cases h : x = 0
  · simp [h]
  · simp [h]

/-- Rounding a positive number: the nearest multiple of its last place. -/
theorem fl_pos_spec {x : ℚ} (hx : 0 < x) : ∃ (m : ℕ) (e : ℤ), fl x = m * 2 ^ e ∧
    2 ^ 52 * (2 : ℚ) ^ e ≤ x ∧ x < 2 ^ 53 * (2 : ℚ) ^ e ∧ NearInt (x / 2 ^ e) m := by
  have hnum : 0 < x.num := Rat.num_pos.2 hx
  have hp : 0 < x.num.natAbs := Int.natAbs_pos.2 hnum.ne'
  have hxe : x = (x.num.natAbs : ℚ) / x.den := by
    conv_lhs => rw [← Rat.num_div_den x]
    congr 1
    rw [Nat.cast_natAbs, abs_of_pos hnum]
  obtain ⟨h1, h2⟩ := ulpExp_spec x.num.natAbs x.den hp x.den_pos
  rw [← hxe] at h1 h2
  set e := ulpExp x.num.natAbs x.den with he
  have hb : 0 < x.den * 2 ^ e.toNat := Nat.mul_pos x.den_pos (by positivity)
  refine ⟨rdiv (x.num.natAbs * 2 ^ (-e).toNat) (x.den * 2 ^ e.toNat), e, ?_, h1, h2, ?_⟩
  · unfold fl
    rw [if_neg hx.ne']
    simp only [← he, Int.sign_eq_one_of_pos hnum, Int.cast_one, one_mul]
    push_cast
    rw [mul_div_assoc]
    congr 1
    rw [← two_zpow_toNat e, mul_div_assoc, div_self (by positivity), mul_one]
  · have := rdiv_near (x.num.natAbs * 2 ^ (-e).toNat) (x.den * 2 ^ e.toNat) hb
    convert this using 1
    push_cast
    rw [← two_zpow_toNat e]
    conv_lhs => rw [hxe]
    have hd : (x.den : ℚ) ≠ 0 := by exact_mod_cast x.den_pos.ne'
    field_simp

/-- How to recognise the rounded value. -/
theorem fl_eq_of {x : ℚ} {m : ℕ} {e : ℤ} (h1 : 2 ^ 52 * (2 : ℚ) ^ e ≤ x) (h2 : x < 2 ^ 53 * (2 : ℚ) ^ e)
    (hm : NearInt (x / 2 ^ e) m) : fl x = m * 2 ^ e := by
  have hx : 0 < x := lt_of_lt_of_le (by positivity) h1
  obtain ⟨m', e', he, h1', h2', hm'⟩ := fl_pos_spec hx
  obtain rfl := binade_unique h1 h2 h1' h2'
  have := hm.unique hm'
  rw [he]
  have h3 : m = m' := by exact_mod_cast this
  rw [h3]

/-- The significand has 53 digits. -/
theorem nearInt_range {x : ℚ} {m : ℕ} {e : ℤ} (h1 : 2 ^ 52 * (2 : ℚ) ^ e ≤ x)
    (h2 : x < 2 ^ 53 * (2 : ℚ) ^ e) (hm : NearInt (x / 2 ^ e) m) : 2 ^ 52 ≤ m ∧ m ≤ 2 ^ 53 := by
  have hpos : (0 : ℚ) < 2 ^ e := by positivity
  have a1 : (2 : ℚ) ^ 52 ≤ x / 2 ^ e := (le_div_iff₀ hpos).2 h1
  have a2 : x / 2 ^ e < (2 : ℚ) ^ 53 := (div_lt_iff₀ hpos).2 h2
  have h := hm.le
  rw [abs_le] at h
  push_cast at h
  constructor
  · by_contra hlt
    have : m + 1 ≤ 2 ^ 52 := by omega
    have : (m : ℚ) + 1 ≤ 2 ^ 52 := by exact_mod_cast this
    linarith
  · by_contra hlt
    have : 2 ^ 53 + 1 ≤ m := by omega
    have : (2 : ℚ) ^ 53 + 1 ≤ m := by exact_mod_cast this
    linarith

theorem IsFloat.neg {x : ℚ} (h : IsFloat x) : IsFloat (-x) := by
  obtain ⟨m, e, hm, rfl⟩ := h
  exact ⟨-m, e, by rwa [abs_neg], by push_cast; ring⟩

theorem isFloat_zero : IsFloat 0 := ⟨0, 0, by norm_num, by simp⟩

theorem fl_isFloat (x : ℚ) : IsFloat (fl x) := by
  have pos : ∀ {x : ℚ}, 0 < x → IsFloat (fl x) := by
    intro x hx
    obtain ⟨m, e, he, h1, h2, hm⟩ := fl_pos_spec hx
    refine ⟨m, e, ?_, by rw [he]; push_cast; ring⟩
    have := (nearInt_range h1 h2 hm).2
    rw [abs_of_nonneg (by positivity)]
    exact_mod_cast this
  rcases lt_trichotomy x 0 with h | rfl | h
  · have := (pos (neg_pos.2 h)).neg
    rwa [fl_neg, neg_neg] at this
  · rw [fl_zero]; exact isFloat_zero
  · exact pos h

/-- A float below the binade of `x` is at most the binade's lower end, otherwise it is a whole number of places. -/
theorem float_cases {x y : ℚ} {e : ℤ} (h1 : 2 ^ 52 * (2 : ℚ) ^ e ≤ x) (hy : IsFloat y) :
    (∃ k : ℤ, y = k * 2 ^ e) ∨ y ≤ 2 ^ 52 * 2 ^ e := by
  obtain ⟨m, f, hm, rfl⟩ := hy
  rcases le_or_gt e f with hef | hef
  · left
    refine ⟨m * 2 ^ (f - e).toNat, ?_⟩
    push_cast
    rw [mul_assoc, ← zpow_natCast (2 : ℚ) (f - e).toNat, ← zpow_add₀ (by norm_num)]
    congr 2
    omega
  · right
    have hm' : (m : ℚ) ≤ 2 ^ 53 := by
      have := (le_abs_self m).trans hm
      exact_mod_cast this
    have hf : (2 : ℚ) ^ f ≤ 2 ^ (e - 1) := zpow_le_zpow_right₀ (by norm_num) (by omega)
    rw [zpow_sub_one₀ (by norm_num)] at hf
    have hf0 : (0 : ℚ) < 2 ^ f := by positivity
    calc (m : ℚ) * 2 ^ f ≤ 2 ^ 53 * 2 ^ f := mul_le_mul_of_nonneg_right hm' hf0.le
      _ ≤ 2 ^ 53 * (2 ^ e * 2⁻¹) := mul_le_mul_of_nonneg_left hf (by positivity)
      _ = 2 ^ 52 * 2 ^ e := by ring

/-- Rounding returns a nearest float. -/
theorem fl_nearest (x y : ℚ) (hy : IsFloat y) : |fl x - x| ≤ |y - x| := by
  have pos : ∀ {x y : ℚ}, 0 < x → IsFloat y → |fl x - x| ≤ |y - x| := by
    intro x y hx hy
    obtain ⟨m, e, he, h1, h2, hm⟩ := fl_pos_spec hx
    have hpos : (0 : ℚ) < 2 ^ e := by positivity
    have scale : ∀ k : ℚ, |k * 2 ^ e - x| = |k - x / 2 ^ e| * 2 ^ e := by
      intro k
      rw [← abs_of_pos hpos, ← abs_mul, abs_of_pos hpos, sub_mul, div_mul_cancel₀ _ hpos.ne']
    rw [he]
    have key : ∀ k : ℤ, |(m : ℚ) * 2 ^ e - x| ≤ |(k : ℚ) * 2 ^ e - x| := by
      intro k
      rw [scale, scale]
      refine mul_le_mul_of_nonneg_right ?_ hpos.le
      have := hm.nearest k
      simpa using this
    rcases float_cases h1 hy with ⟨k, rfl⟩ | hle
    · exact key k
    · have h3 := key (2 ^ 52)
      push_cast at h3
      refine h3.trans ?_
      rw [abs_of_nonpos (by linarith), abs_of_nonpos (by linarith)]
      linarith
  rcases lt_trichotomy x 0 with h | rfl | h
  · have := pos (neg_pos.2 h) hy.neg
    rw [fl_neg] at this
    rw [← abs_neg (fl x - x), ← abs_neg (y - x)]
    convert this using 2 <;> ring
  · rw [fl_zero]; simp
  · exact pos h hy

theorem fl_of_float {x : ℚ} (h : IsFloat x) : fl x = x := by
  have := fl_nearest x x h
  rw [sub_self, abs_zero] at this
  exact sub_eq_zero.1 (abs_nonpos_iff.1 this)

/-- Relative error at most `2^-53`. -/
theorem fl_err (x : ℚ) : |fl x - x| ≤ |x| / 2 ^ 53 := by
  have pos : ∀ {x : ℚ}, 0 < x → |fl x - x| ≤ |x| / 2 ^ 53 := by
    intro x hx
    obtain ⟨m, e, he, h1, h2, hm⟩ := fl_pos_spec hx
    have hpos : (0 : ℚ) < 2 ^ e := by positivity
    have scale : |(m : ℚ) * 2 ^ e - x| = |(m : ℚ) - x / 2 ^ e| * 2 ^ e := by
      rw [← abs_of_pos hpos, ← abs_mul, abs_of_pos hpos, sub_mul, div_mul_cancel₀ _ hpos.ne']
    rw [he, scale, abs_of_pos hx]
    have h3 := hm.le
    push_cast at h3
    have : |(m : ℚ) - x / 2 ^ e| * 2 ^ e ≤ 1 / 2 * 2 ^ e := mul_le_mul_of_nonneg_right h3 hpos.le
    refine this.trans ?_
    rw [le_div_iff₀ (by positivity)]
    calc 1 / 2 * (2 : ℚ) ^ e * 2 ^ 53 = 2 ^ 52 * 2 ^ e := by ring
      _ ≤ x := h1
  rcases lt_trichotomy x 0 with h | rfl | h
  · have := pos (neg_pos.2 h)
    rw [fl_neg, abs_neg] at this
    rw [← abs_neg (fl x - x)]
    convert this using 2; ring
  · rw [fl_zero]; simp
  · exact pos h

theorem fl_bounds {x : ℚ} (hx : 0 ≤ x) : (1 - 1 / 2 ^ 53) * x ≤ fl x ∧ fl x ≤ (1 + 1 / 2 ^ 53) * x := by
  have h := fl_err x
  rw [abs_of_nonneg hx, abs_le] at h
  constructor <;> linarith [h.1, h.2]

end SmoothRF
