import Verif.Props.FloatScoresProps

/-!
# C233: order of the rows in the numpy scores in double precision

`acc_np` does not depend on the order of the rows. `l2_np` may, but not if the errors are whole multiples of a power of two
with a moderate sum of squares, as for whole numbers.
-/

set_option linter.unusedSectionVars false

namespace SmoothRF

/-- The accuracy is the same for the rows in another order, and whatever the order in which numpy adds. -/
theorem C233_accuracy {α : Type} [DecidableEq α] {sum sum' : List ℚ → ℚ} (hsum : ∀ l, RSum l.length l (sum l))
    (hsum' : ∀ l, RSum l.length l (sum' l)) (rows rows' : List (α × α)) (hp : rows.Perm rows')
    (hn : rows.length ≤ 2 ^ 52) : flAccNp sum' rows' = flAccNp sum rows := by
  have hlen := hp.length_eq
  by_cases h0 : rows.length = 0
  · simp [flAccNp, h0, ← hlen]
  have h1 : flAccNp sum rows = .ok _ := if_neg h0
  have h2 : flAccNp sum' rows' = .ok _ := if_neg (hlen ▸ h0)
  have e1 := (flAccNp_eq hsum hn h1).2
  have e2 := (flAccNp_eq hsum' (hlen ▸ hn) h2).2
  rw [h1, h2, e1, e2, ← hlen, show hits rows' = hits rows from (hp.countP_eq _).symm]

/-- If all errors are whole multiples of `2^e` and their squares add up to at most `2^53` times `2^(2e)`, only the last division
rounds. -/
theorem flL2Np_grid {sum : List ℚ → ℚ} (hsum : ∀ l, RSum l.length l (sum l)) (rows : List (ℚ × ℚ)) (e : ℤ)
    (hz : ∀ r ∈ rows, ∃ z : ℤ, r.1 - r.2 = z * 2 ^ e)
    (hS : (rows.map fun r => (r.1 - r.2) ^ 2).sum ≤ 2 ^ 53 * 2 ^ (2 * e)) (h0 : rows.length ≠ 0) :
    flL2Np sum rows = .ok (fl (mse rows)) := by
  have hpos : (0 : ℚ) < 2 ^ (2 * e) := by positivity
  have hee : ((2 : ℚ) ^ e) ^ 2 = 2 ^ (2 * e) := by rw [two_mul, zpow_add₀ (by norm_num), sq]
  have hnn : ∀ x ∈ rows.map fun r => (r.1 - r.2) ^ 2, 0 ≤ x := by
    intro x hx
    obtain ⟨r, _, rfl⟩ := List.mem_map.1 hx
    exact sq_nonneg _
  have hterm : ∀ r ∈ rows, fl (fl (r.1 - r.2) ^ 2) = (r.1 - r.2) ^ 2 ∧ ∃ n : ℕ, (r.1 - r.2) ^ 2 = n * 2 ^ (2 * e) := by
    intro r hr
    obtain ⟨z, hz⟩ := hz r hr
    have hsq : (r.1 - r.2) ^ 2 = (z : ℚ) ^ 2 * 2 ^ (2 * e) := by rw [hz, mul_pow, hee]
    have hle : (z : ℚ) ^ 2 ≤ 2 ^ 53 := by
      have := (List.single_le_sum hnn _ (List.mem_map.2 ⟨r, hr, rfl⟩)).trans hS
      rw [hsq] at this
      exact le_of_mul_le_mul_right this hpos
    have hzle : z ^ 2 ≤ 2 ^ 53 := by exact_mod_cast hle
    have habs : |z| ≤ 2 ^ 53 := by
      have : |z| ≤ |z| ^ 2 := by
        rcases (abs_nonneg z).eq_or_lt with h | h
        · rw [← h]; norm_num
        · exact le_self_pow₀ (by omega) (by norm_num)
      rw [sq_abs] at this
      exact this.trans hzle
    have f1 : fl (r.1 - r.2) = r.1 - r.2 := fl_of_float ⟨z, e, habs, hz⟩
    have f2 : fl ((r.1 - r.2) ^ 2) = (r.1 - r.2) ^ 2 := fl_of_float ⟨z ^ 2, 2 * e, by rwa [abs_of_nonneg (sq_nonneg z)], by rw [hsq]; push_cast; rfl⟩
    refine ⟨by rw [f1, f2], z.natAbs ^ 2, ?_⟩
    rw [hsq]
    congr 1
    rw [Nat.cast_pow, Nat.cast_natAbs, Int.cast_abs, sq_abs]
  have hmap : (rows.map fun r => fl (fl (r.1 - r.2) ^ 2)) = rows.map fun r => (r.1 - r.2) ^ 2 :=
    List.map_congr_left fun r hr => (hterm r hr).1
  unfold flL2Np mse
  rw [if_neg h0, hmap, ((hsum _).exact (2 * e) (fun x hx => ?_) hS).1]
  obtain ⟨r, hr, rfl⟩ := List.mem_map.1 hx
  exact (hterm r hr).2

/-- What is left for the error: rows with errors on a common grid and a moderate sum of squares may be taken, and added, in any
order. Missing: other rows, for which the order may matter (`C233_refuted`). -/
theorem C233_error_partial {sum sum' : List ℚ → ℚ} (hsum : ∀ l, RSum l.length l (sum l))
    (hsum' : ∀ l, RSum l.length l (sum' l)) (rows rows' : List (ℚ × ℚ)) (hp : rows.Perm rows') (e : ℤ)
    (hz : ∀ r ∈ rows, ∃ z : ℤ, r.1 - r.2 = z * 2 ^ e)
    (hS : (rows.map fun r => (r.1 - r.2) ^ 2).sum ≤ 2 ^ 53 * 2 ^ (2 * e)) (hne : rows ≠ []) :
    flL2Np sum' rows' = flL2Np sum rows ∧
    flL2Np sum rows = .ok (fl ((rows.map fun r => (r.1 - r.2) ^ 2).sum / rows.length)) := by
  have h0 : rows.length ≠ 0 := fun h => hne (List.length_eq_zero_iff.1 h)
  have es := (hp.map fun r => (r.1 - r.2) ^ 2).sum_eq
  have e1 := flL2Np_grid hsum rows e hz hS h0
  refine ⟨?_, e1⟩
  rw [e1, flL2Np_grid hsum' rows' e (fun r hr => hz r (hp.mem_iff.2 hr)) (es ▸ hS) (hp.length_eq ▸ h0)]
  unfold mse
  rw [es, hp.length_eq]

/-- Five rows of doubles, and another error when they are reversed. -/
theorem C233_refuted : (∀ l : List ℚ, RSum l.length l (npSum l)) ∧ (∀ r ∈ exScoreA, IsFloat r.1 ∧ IsFloat r.2) ∧
    ∃ v v', flL2Np npSum exScoreA = .ok v ∧ flL2Np npSum exScoreA.reverse = .ok v' ∧ v < v' :=
  ⟨npSum_rsum, fun r hr => C231_refuted.2.1 r (List.mem_append_left _ hr), _, _, rfl, rfl, by decide +kernel⟩

/-! ## Meeting the hypotheses -/

/-- Whole responses and halves as predictions: a rounded mean, the same in both orders. -/
example : (flL2Np npSum [(1, 1 / 2), (4, 1), (2, 2)]).toOption = some (fl (37 / 12)) ∧
    (flL2Np npSum [(2, 2), (4, 1), (1, 1 / 2)]).toOption = some (fl (37 / 12)) ∧ fl (37 / 12) ≠ 37 / 12 := by decide +kernel

example : (∀ r ∈ ([(1, 1 / 2), (4, 1), (2, 2)] : List (ℚ × ℚ)), ∃ z : ℤ, r.1 - r.2 = z * 2 ^ (-1 : ℤ)) ∧
    (([(1, 1 / 2), (4, 1), (2, 2)] : List (ℚ × ℚ)).map fun r => (r.1 - r.2) ^ 2).sum ≤ 2 ^ 53 * 2 ^ (2 * -1 : ℤ) := by
  constructor
  · intro r hr
    simp only [List.mem_cons, List.not_mem_nil, or_false] at hr
    rcases hr with rfl | rfl | rfl
    exacts [⟨1, by norm_num⟩, ⟨6, by norm_num⟩, ⟨0, by norm_num⟩]
  · norm_num

end SmoothRF
