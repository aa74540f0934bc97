import Verif.Props.FloatScoresProps
import Verif.Props.FloatUnitsProps

/-!
# C232: the weighted numpy loss in double precision

`weighted_l2_np` under a change of the weights by a factor, with unit weights, and its zeros.
-/

set_option linter.unusedSectionVars false

namespace SmoothRF

/-- Multiplying all weights by plus or minus a power of two changes nothing, not even the last bit. Missing: other factors, for
which the loss may change (`C232_refuted`). -/
theorem C232_weights_partial {sum : List ℚ → ℚ} {a : ℚ} (ha : ExactFactor a) (hs : SumScales sum a)
    (rows : List (ℚ × ℚ × ℚ)) :
    flWeightedL2Np sum (rows.map fun r => (r.1, r.2.1, a * r.2.2)) = flWeightedL2Np sum rows := by
  unfold flWeightedL2Np
  have e1 : ((rows.map fun r => (r.1, r.2.1, a * r.2.2)).map fun r => r.2.2) = (rows.map fun r => r.2.2).map (a * ·) := by
    rw [List.map_map, List.map_map]; rfl
  have e2 : ((rows.map fun r => (r.1, r.2.1, a * r.2.2)).map fun r => fl (r.2.2 * fl (fl (r.1 - r.2.1) ^ 2))) =
      (rows.map fun r => fl (r.2.2 * fl (fl (r.1 - r.2.1) ^ 2))).map (a * ·) := by
    rw [List.map_map, List.map_map]
    apply List.map_congr_left
    intro r _
    simp only [Function.comp]
    rw [mul_assoc, ha.2]
  simp only [e1, e2, hs _, mul_eq_zero, ha.1, false_or, mul_div_mul_left _ _ ha.1]

/-- In another unit of responses and predictions, a power of two, the loss is multiplied by the square of the factor. -/
theorem C232_units {sum : List ℚ → ℚ} {a : ℚ} (ha : ExactFactor a) (hs : SumScales sum a)
    (rows : List (ℚ × ℚ × ℚ)) :
    flWeightedL2Np sum (rows.map fun r => (a * r.1, a * r.2.1, r.2.2)) =
      (flWeightedL2Np sum rows).map (a ^ 2 * ·) := by
  have ha2 : ExactFactor (a ^ 2) := by rw [sq]; exact ha.mul ha
  have hs2 : SumScales sum (a ^ 2) := by rw [sq]; exact hs.mul hs
  unfold flWeightedL2Np
  have e1 : ((rows.map fun r => (a * r.1, a * r.2.1, r.2.2)).map fun r => r.2.2) = rows.map fun r => r.2.2 := by
    rw [List.map_map]; rfl
  have e2 : ((rows.map fun r => (a * r.1, a * r.2.1, r.2.2)).map fun r => fl (r.2.2 * fl (fl (r.1 - r.2.1) ^ 2))) =
      (rows.map fun r => fl (r.2.2 * fl (fl (r.1 - r.2.1) ^ 2))).map (a ^ 2 * ·) := by
    rw [List.map_map, List.map_map]
    apply List.map_congr_left
    intro r _
    simp only [Function.comp]
    rw [← mul_sub, ha.2, mul_pow, ha2.2, mul_left_comm, ha2.2]
  simp only [e1, e2, hs2 _]
  split_ifs
  · rfl
  · simp only [Except.map]
    rw [mul_div_assoc, ha2.2]

/-- With all weights 1 the weighted loss is the unweighted one bit for bit, up to `2^53` rows. -/
theorem C232_unit_weights {sum : List ℚ → ℚ} (hsum : ∀ l, RSum l.length l (sum l)) (rows : List (ℚ × ℚ))
    (hn : rows.length ≤ 2 ^ 53) :
    flWeightedL2Np sum (rows.map fun r => (r.1, r.2, 1)) = flL2Np sum rows := by
  have e0 : ((rows.map fun r => (r.1, r.2, (1 : ℚ))).map fun r => r.2.2).sum = rows.length := by
    rw [List.map_map]
    simp [Function.comp_def]
  have e1 : sum ((rows.map fun r => (r.1, r.2, (1 : ℚ))).map fun r => r.2.2) = rows.length := by
    rw [((hsum _).exact 0 (fun x hx => ?_) ?_).1, e0]
    · rw [e0, zpow_zero, mul_one]
      exact_mod_cast hn
    · rw [List.map_map] at hx
      obtain ⟨r, _, rfl⟩ := List.mem_map.1 hx
      exact ⟨1, by simp⟩
  have e2 : ((rows.map fun r => (r.1, r.2, (1 : ℚ))).map fun r => fl (r.2.2 * fl (fl (r.1 - r.2.1) ^ 2))) =
      rows.map fun r => fl (fl (r.1 - r.2) ^ 2) := by
    rw [List.map_map]
    apply List.map_congr_left
    intro r _
    simp only [Function.comp, one_mul]
    exact fl_of_float (fl_isFloat _)
  unfold flWeightedL2Np flL2Np
  simp only [e1, e2, Nat.cast_eq_zero]

theorem fl_zero_iff_of_nonneg {x : ℚ} (hx : 0 ≤ x) : 0 ≤ fl x ∧ (fl x = 0 ↔ x = 0) := by
  obtain ⟨a, -⟩ := fl_bounds hx
  refine ⟨le_trans (mul_nonneg (by norm_num) hx) a, fun h => ?_, fun h => by rw [h, fl_zero]⟩
  rw [h] at a
  by_contra hne
  have hp : 0 < x := lt_of_le_of_ne hx (Ne.symm hne)
  exact absurd a (not_le.2 (mul_pos (by norm_num) hp))

theorem rsum_zero_iff {l : List ℚ} {d : ℕ} {s : ℚ} (h : RSum d l s) (hl : ∀ x ∈ l, 0 ≤ x) :
    0 ≤ s ∧ (s = 0 ↔ ∀ x ∈ l, x = 0) := by
  obtain ⟨a, b⟩ := h.bounds hl
  have hm : (0 : ℚ) < (1 - 1 / 2 ^ 53) ^ d := pow_pos (by norm_num) _
  have hS := List.sum_nonneg hl
  refine ⟨le_trans (mul_nonneg hm.le hS) a, fun hs x hx => ?_, fun hz => ?_⟩
  · rw [hs] at a
    have h1 := List.single_le_sum hl x hx
    by_contra hne
    have hp : 0 < x := lt_of_le_of_ne (hl x hx) (Ne.symm hne)
    exact absurd a (not_le.2 (mul_pos hm (hp.trans_le h1)))
  · rw [List.sum_eq_zero hz, mul_zero] at a b
    exact le_antisymm b a

/-- With weights that are not negative: the loss is a number exactly if some weight is positive, it is not negative, and it is
zero exactly if every row with a positive weight is predicted exactly. -/
theorem C232_zero {sum : List ℚ → ℚ} (hsum : ∀ l, RSum l.length l (sum l)) (rows : List (ℚ × ℚ × ℚ))
    (hw : ∀ r ∈ rows, 0 ≤ r.2.2) :
    ((∃ v, flWeightedL2Np sum rows = .ok v) ↔ ∃ r ∈ rows, 0 < r.2.2) ∧
    ∀ v, flWeightedL2Np sum rows = .ok v → 0 ≤ v ∧ (v = 0 ↔ ∀ r ∈ rows, 0 < r.2.2 → r.1 = r.2.1) := by
  have hsq : ∀ x : ℚ, 0 ≤ fl (fl x ^ 2) ∧ (fl (fl x ^ 2) = 0 ↔ x = 0) := by
    intro x
    obtain ⟨a, b⟩ := sq_bounds x
    refine ⟨le_trans (mul_nonneg (by norm_num) (sq_nonneg x)) a, fun h => ?_, fun h => by simp [h, fl_zero]⟩
    rw [h] at a
    by_contra hne
    have : 0 < x ^ 2 := by positivity
    exact absurd a (not_le.2 (mul_pos (by norm_num) this))
  have hT := rsum_zero_iff (hsum (rows.map fun r => r.2.2)) (fun x hx => by
    obtain ⟨r, hr, rfl⟩ := List.mem_map.1 hx
    exact hw r hr)
  have hterm : ∀ r ∈ rows, 0 ≤ fl (r.2.2 * fl (fl (r.1 - r.2.1) ^ 2)) ∧
      (fl (r.2.2 * fl (fl (r.1 - r.2.1) ^ 2)) = 0 ↔ (0 < r.2.2 → r.1 = r.2.1)) := by
    intro r hr
    obtain ⟨p, q⟩ := fl_zero_iff_of_nonneg (mul_nonneg (hw r hr) (hsq (r.1 - r.2.1)).1)
    refine ⟨p, q.trans ?_⟩
    rw [mul_eq_zero, (hsq _).2, sub_eq_zero]
    constructor
    · rintro (h | h) h0
      · exact absurd h h0.ne'
      · exact h
    · intro h
      rcases (hw r hr).eq_or_lt with h0 | h0
      · exact .inl h0.symm
      · exact .inr (h h0)
  have hS := rsum_zero_iff (hsum (rows.map fun r => fl (r.2.2 * fl (fl (r.1 - r.2.1) ^ 2)))) (fun x hx => by
    obtain ⟨r, hr, rfl⟩ := List.mem_map.1 hx
    exact (hterm r hr).1)
  simp only [List.forall_mem_map] at hT hS
  have hTz : sum (rows.map fun r => r.2.2) ≠ 0 ↔ ∃ r ∈ rows, 0 < r.2.2 := by
    rw [ne_eq, hT.2]
    push Not
    exact ⟨fun ⟨r, hr, h⟩ => ⟨r, hr, lt_of_le_of_ne (hw r hr) (Ne.symm h)⟩, fun ⟨r, hr, h⟩ => ⟨r, hr, h.ne'⟩⟩
  rw [← hTz]
  unfold flWeightedL2Np
  refine ⟨?_, fun v h => ?_⟩
  · by_cases h0 : sum (rows.map fun r => r.2.2) = 0 <;> simp [h0]
  · simp only at h
    split_ifs at h with h0
    obtain rfl := Except.ok.inj h
    obtain ⟨p, q⟩ := fl_zero_iff_of_nonneg (div_nonneg hS.1 hT.1)
    refine ⟨p, q.trans ?_⟩
    rw [div_eq_zero_iff, or_iff_left h0, hS.2]
    exact forall₂_congr fun r hr => (hterm r hr).2

/-- Three times the weights, all of them doubles, and another loss. -/
theorem C232_refuted : (∀ l : List ℚ, RSum l.length l (npSum l)) ∧ ∃ rows : List (ℚ × ℚ × ℚ),
    (∀ r ∈ rows, IsFloat r.1 ∧ IsFloat r.2.1 ∧ IsFloat r.2.2 ∧ IsFloat (3 * r.2.2) ∧ 0 < r.2.2) ∧
    ∃ v v', flWeightedL2Np npSum rows = .ok v ∧
      flWeightedL2Np npSum (rows.map fun r => (r.1, r.2.1, 3 * r.2.2)) = .ok v' ∧ v ≠ v' := by
  refine ⟨npSum_rsum, [(1 + 1 / 2 ^ 26, 0, 1), (1, 0, 1)], ?_, (67108865 / 67108864), (4503599694479361 / 4503599627370496), ok_of_toOption (by decide +kernel),
    ok_of_toOption (by decide +kernel), by norm_num⟩
  have f0 : IsFloat 0 := ⟨0, 0, by norm_num, by norm_num⟩
  have f1 : IsFloat 1 := ⟨1, 0, by norm_num, by norm_num⟩
  have f2 : IsFloat (1 + 1 / 2 ^ 26) := ⟨2 ^ 26 + 1, -26, by norm_num, by norm_num⟩
  have f3 : IsFloat (3 * 1) := ⟨3, 0, by norm_num, by norm_num⟩
  intro r hr
  simp only [List.mem_cons, List.not_mem_nil, or_false] at hr
  rcases hr with rfl | rfl
  · exact ⟨f2, f0, f1, f3, one_pos⟩
  · exact ⟨f1, f0, f1, f3, one_pos⟩

/-! ## Meeting the hypotheses -/

/-- Weights 1/10 and 1/4, these times -8, and the same rows in the unit -8: equal losses, and 64 times the loss. -/
example : let rows : List (ℚ × ℚ × ℚ) := [(fl (1 / 10), 0, fl (1 / 10)), (1, 0, 1 / 4), (3, 3, 0)]
    let v := (flWeightedL2Np npSum rows).toOption
    v = (flWeightedL2Np npSum (rows.map fun r => (r.1, r.2.1, -8 * r.2.2))).toOption ∧
    v.map (64 * ·) = (flWeightedL2Np npSum (rows.map fun r => (-8 * r.1, -8 * r.2.1, r.2.2))).toOption ∧
    v = some (6459448608399969 / 9007199254740992) := by decide +kernel

/-- The factor -8 and the sum of numpy meet the hypotheses. -/
example : ExactFactor (-8) ∧ SumScales npSum (-8) ∧ ∀ l, RSum l.length l (npSum l) :=
  have h := C206_numpy 3 (-8) (.inr (by norm_num))
  ⟨h.1, h.2.1, npSum_rsum⟩

end SmoothRF
