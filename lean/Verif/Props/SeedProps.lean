import Verif.Model.Seed
import Verif.Proofs.Float
import Verif.Props.FloatQuantileProps
import Mathlib.Order.Interval.Finset.Nat
import Mathlib.Tactic.NormNum

/-!
# C227: the seeds drawn by the experiment scripts
-/

namespace SmoothRF

theorem randomSeed_mono {j k : ℕ} (h : j ≤ k) : randomSeed j ≤ randomSeed k := by
  unfold randomSeed randomUnit
  refine Int.floor_le_floor (fl_mono ?_)
  have : (j : ℚ) ≤ k := by exact_mod_cast h
  linarith

theorem isFloat_small {s : ℕ} (h : s ≤ 1000000) : IsFloat (s : ℚ) := by
  refine ⟨s, 0, ?_, by simp⟩
  rw [abs_of_nonneg (by positivity)]
  have : (s : ℤ) ≤ 1000000 := by exact_mod_cast h
  linarith

/-- From the exact quotient on, the seed is reached. -/
theorem randomSeed_ge {s k : ℕ} (hs : s ≤ 1000000) (h : (s : ℚ) * 2 ^ 53 ≤ k * 1000000) : (s : ℤ) ≤ randomSeed k := by
  unfold randomSeed randomUnit
  rw [Int.le_floor]
  have : (s : ℚ) ≤ (k : ℚ) / 2 ^ 53 * 1000000 := by
    rw [div_mul_eq_mul_div, le_div_iff₀ (by positivity)]
    exact h
  have := fl_mono this
  rw [fl_of_float (isFloat_small hs)] at this
  exact_mod_cast this

/-- More than one draw earlier it is not. -/
theorem randomSeed_lt {s k : ℕ} (hs : s ≤ 1000000) (h : ((k : ℚ) + 1) * 1000000 ≤ (s : ℚ) * 2 ^ 53) :
    randomSeed k < (s : ℤ) := by
  unfold randomSeed randomUnit
  rw [Int.floor_lt]
  have hk : (0 : ℚ) ≤ k := Nat.cast_nonneg k
  have hs' : (s : ℚ) ≤ 1000000 := by exact_mod_cast hs
  have := (fl_bounds (x := (k : ℚ) / 2 ^ 53 * 1000000) (by positivity)).2
  refine lt_of_le_of_lt this ?_
  have e : (k : ℚ) / 2 ^ 53 * 1000000 ≤ s - 1000000 / 2 ^ 53 := by
    rw [div_mul_eq_mul_div, le_sub_iff_add_le, ← add_div, div_le_iff₀ (by positivity)]
    linarith
  have : (1 + 1 / 2 ^ 53 : ℚ) * ((k : ℚ) / 2 ^ 53 * 1000000) ≤ (1 + 1 / 2 ^ 53) * (s - 1000000 / 2 ^ 53) :=
    mul_le_mul_of_nonneg_left e (by positivity)
  refine lt_of_le_of_lt this ?_
  have : (1 + 1 / 2 ^ 53 : ℚ) * (s - 1000000 / 2 ^ 53) = s + (s - 1000000) / 2 ^ 53 - 1000000 / 2 ^ 106 := by ring
  rw [this]
  have : ((s : ℚ) - 1000000) / 2 ^ 53 ≤ 0 := div_nonpos_of_nonpos_of_nonneg (by linarith) (by positivity)
  have : (0 : ℚ) < 1000000 / 2 ^ 106 := by positivity
  push_cast
  linarith

/-- The first draw that gives at least the seed `s`. -/
theorem seed_first {s : ℕ} (hs : s ≤ 1000000) : ∃ T : ℕ, (∀ k, (s : ℤ) ≤ randomSeed k ↔ T ≤ k) ∧
    (s : ℚ) * 2 ^ 53 / 1000000 - 1 < T ∧ (T : ℚ) < (s : ℚ) * 2 ^ 53 / 1000000 + 1 := by
  classical
  obtain ⟨m, hm⟩ : ∃ m : ℕ, m = ⌈(s : ℚ) * 2 ^ 53 / 1000000⌉₊ := ⟨_, rfl⟩
  have h1 : (s : ℚ) * 2 ^ 53 / 1000000 ≤ m := hm ▸ Nat.le_ceil _
  have h2 : (m : ℚ) < (s : ℚ) * 2 ^ 53 / 1000000 + 1 := hm ▸ Nat.ceil_lt_add_one (by positivity)
  have hm' : (s : ℤ) ≤ randomSeed m := randomSeed_ge hs (by
    rw [div_le_iff₀ (by norm_num)] at h1
    exact h1)
  have hex : ∃ k, (s : ℤ) ≤ randomSeed k := ⟨m, hm'⟩
  refine ⟨Nat.find hex, fun k => ⟨fun h => Nat.find_min' hex h, fun h => le_trans (Nat.find_spec hex) (randomSeed_mono h)⟩,
    ?_, ?_⟩
  · by_contra hc
    have hc := not_lt.1 hc
    refine absurd (Nat.find_spec hex) (not_le.2 (randomSeed_lt hs ?_))
    have : (Nat.find hex : ℚ) + 1 ≤ (s : ℚ) * 2 ^ 53 / 1000000 := by linarith
    rw [le_div_iff₀ (by norm_num)] at this
    exact this
  · have : (Nat.find hex : ℚ) ≤ m := by exact_mod_cast Nat.find_min' hex hm'
    linarith

/-- C227: a seed is one of 0, …, 999999, so `np.random.seed` accepts it. -/
theorem C227_range {k : ℕ} (hk : k < 2 ^ 53) : 0 ≤ randomSeed k ∧ randomSeed k ≤ 999999 := by
  constructor
  · exact_mod_cast randomSeed_ge (s := 0) (k := k) (by norm_num) (by
      have : (0 : ℚ) ≤ k := Nat.cast_nonneg k
      push_cast
      linarith)
  · have : randomSeed k < ((1000000 : ℕ) : ℤ) := randomSeed_lt le_rfl (by
      have : (k : ℚ) + 1 ≤ 2 ^ 53 := by exact_mod_cast hk
      push_cast
      linarith)
    push_cast at this
    linarith

/-- C227: of the `2 ^ 53` equally likely draws each seed gets its share up to fewer than two. -/
theorem C227_uniform {s : ℕ} (hs : s < 1000000) :
    |(((Finset.range (2 ^ 53)).filter fun k => randomSeed k = s).card : ℚ) - 2 ^ 53 / 1000000| < 2 := by
  obtain ⟨T, h1, h2, h3⟩ := seed_first hs.le
  obtain ⟨U, g1, g2, g3⟩ := seed_first (Nat.succ_le_of_lt hs)
  obtain ⟨N, hN⟩ : ∃ N : ℕ, N = 2 ^ 53 := ⟨_, rfl⟩
  have hNq : (N : ℚ) = 2 ^ 53 := by rw [hN]; norm_num
  have hU : U ≤ N := by
    refine (g1 N).1 (randomSeed_ge (Nat.succ_le_of_lt hs) ?_)
    rw [hNq]
    have : ((s + 1 : ℕ) : ℚ) ≤ 1000000 := by exact_mod_cast hs
    rw [mul_comm]
    exact mul_le_mul_of_nonneg_left this (by positivity)
  have hTU : T ≤ U := (h1 U).1 (le_trans (by push_cast; linarith) ((g1 U).2 le_rfl))
  rw [← hN]
  have e : (Finset.range N).filter (fun k => randomSeed k = s) = Finset.Ico T U := by
    ext k
    rw [Finset.mem_filter, Finset.mem_range, Finset.mem_Ico, ← h1 k, ← not_le (a := U), ← g1 k]
    constructor
    · rintro ⟨-, h⟩
      rw [h]
      push_cast
      exact ⟨le_rfl, by linarith⟩
    · rintro ⟨ha, hb⟩
      refine ⟨?_, ?_⟩
      · by_contra hc
        exact hb ((g1 k).2 (le_trans hU (not_lt.1 hc)))
      · push_cast at hb
        omega
  rw [e, Nat.card_Ico, Nat.cast_sub hTU, abs_lt]
  push_cast at g2 g3
  constructor <;> linarith

/-- C227: every one of them can come up. -/
theorem C227_reached {s : ℕ} (hs : s < 1000000) : ∃ k < 2 ^ 53, randomSeed k = s := by
  have h := C227_uniform hs
  by_contra hc
  have e : (Finset.range (2 ^ 53)).filter (fun k => randomSeed k = s) = ∅ :=
    Finset.filter_eq_empty_iff.2 fun k hk he => hc ⟨k, Finset.mem_range.1 hk, he⟩
  rw [e, Finset.card_empty, abs_lt] at h
  norm_num at h

/-- C227: rounding decides some seeds: this draw times a million is below 524617 and gives the seed 524617. -/
theorem C227_rounding : ∃ k < 2 ^ 53, randomUnit k * 1000000 < 524617 ∧ randomSeed k = 524617 :=
  ⟨4725329851424455, by norm_num, by unfold randomUnit; norm_num, by decide +kernel⟩

/-- Smallest, middle and largest draw. -/
example : randomSeed 0 = 0 ∧ randomSeed (2 ^ 52) = 500000 ∧ randomSeed (2 ^ 53 - 1) = 999999 := by
  decide +kernel

end SmoothRF
