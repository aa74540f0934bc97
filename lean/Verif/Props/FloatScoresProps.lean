import Verif.Model.FloatScores
import Verif.Proofs.FloatSum

/-!
# C231: the numpy scores in double precision

The accuracies of `acc_np` order classifiers as their numbers of hits do. The errors of `l2_np` are close to the exact ones,
but may order two forests the other way round.
-/

set_option linter.unusedSectionVars false

namespace SmoothRF

/-- The number of rows whose two labels agree. -/
def hits {α : Type} [DecidableEq α] (rows : List (α × α)) : ℕ := rows.countP fun r => r.1 = r.2

/-- The exact mean square error. -/
def mse (rows : List (ℚ × ℚ)) : ℚ := (rows.map fun r => (r.1 - r.2) ^ 2).sum / rows.length

theorem sum_hits {α : Type} [DecidableEq α] (rows : List (α × α)) :
    (rows.map fun r => if r.1 = r.2 then (1 : ℚ) else 0).sum = hits rows := by
  induction rows with
  | nil => simp [hits]
  | cons r l ih =>
    rw [List.map_cons, List.sum_cons, ih]
    unfold hits
    rw [List.countP_cons]
    by_cases h : r.1 = r.2 <;> simp [h, add_comm]

theorem flAccNp_eq {α : Type} [DecidableEq α] {sum : List ℚ → ℚ} (hsum : ∀ l, RSum l.length l (sum l))
    {rows : List (α × α)} (hn : rows.length ≤ 2 ^ 52) {v : ℚ} (h : flAccNp sum rows = .ok v) :
    0 < rows.length ∧ v = fl ((hits rows : ℚ) / rows.length) := by
  unfold flAccNp at h
  split_ifs at h with h0
  obtain rfl := Except.ok.inj h
  refine ⟨by omega, ?_⟩
  have hk : hits rows ≤ rows.length := List.countP_le_length
  rw [((hsum _).exact 0 (fun x hx => ?_) ?_).1, sum_hits]
  · rw [sum_hits]
    have : (hits rows : ℚ) ≤ ((2 ^ 52 : ℕ) : ℚ) := by exact_mod_cast hk.trans hn
    push_cast at this
    rw [zpow_zero, mul_one]
    linarith
  · obtain ⟨r, _, rfl⟩ := List.mem_map.1 hx
    by_cases hr : r.1 = r.2
    · exact ⟨1, by simp [hr]⟩
    · exact ⟨0, by simp [hr]⟩

/-- Different fractions with a common denominator up to `2^52` stay different after rounding. -/
theorem fl_frac_lt {k k' n : ℕ} (hn : n ≤ 2 ^ 52) (h : k < k') (h' : k' ≤ n) :
    fl ((k : ℚ) / n) < fl ((k' : ℚ) / n) := by
  have hn0 : (0 : ℚ) < n := by exact_mod_cast (by omega : 0 < n)
  have hk : (k : ℚ) + 1 ≤ k' := by exact_mod_cast h
  have hk' : (k' : ℚ) ≤ n := by exact_mod_cast h'
  have hN : (n : ℚ) ≤ 4503599627370496 := by exact_mod_cast hn
  have h1 := (fl_bounds (x := (k : ℚ) / n) (by positivity)).2
  have h2 := (fl_bounds (x := (k' : ℚ) / n) (by positivity)).1
  refine h1.trans_lt (lt_of_lt_of_le ?_ h2)
  rw [← mul_div_assoc, ← mul_div_assoc]
  apply div_lt_div_of_pos_right _ hn0
  norm_num
  linarith

/-- Two classifiers scored on equally many rows, up to `2^52`, are ordered by the rounded accuracy as by the number of hits;
the accuracy is 1 exactly if all rows agree and 0 exactly if none does. -/
theorem C231_accuracy {α : Type} [DecidableEq α] {sum : List ℚ → ℚ} (hsum : ∀ l, RSum l.length l (sum l))
    (rows rows' : List (α × α)) (hlen : rows.length = rows'.length) (hn : rows.length ≤ 2 ^ 52) (v v' : ℚ)
    (h : flAccNp sum rows = .ok v) (h' : flAccNp sum rows' = .ok v') :
    (v < v' ↔ rows.countP (fun r => r.1 = r.2) < rows'.countP fun r => r.1 = r.2) ∧
    (v = 1 ↔ ∀ r ∈ rows, r.1 = r.2) ∧ (v = 0 ↔ ∀ r ∈ rows, r.1 ≠ r.2) := by
  obtain ⟨h0, rfl⟩ := flAccNp_eq hsum hn h
  obtain ⟨-, rfl⟩ := flAccNp_eq hsum (hlen ▸ hn) h'
  have hk : hits rows ≤ rows.length := List.countP_le_length
  have hk' : hits rows' ≤ rows.length := hlen ▸ List.countP_le_length
  have hq : (rows.length : ℚ) ≠ 0 := by exact_mod_cast h0.ne'
  rw [← hlen]
  refine ⟨?_, ?_, ?_⟩
  · change _ ↔ hits rows < hits rows'
    refine ⟨fun hlt => ?_, fun hlt => fl_frac_lt hn hlt hk'⟩
    by_contra hge
    rcases (not_lt.1 hge).lt_or_eq with hl | he
    · exact absurd (fl_frac_lt hn hl hk) (not_lt.2 hlt.le)
    · rw [he] at hlt
      exact lt_irrefl _ hlt
  · have e1 : fl (((rows.length : ℕ) : ℚ) / rows.length) = 1 := by
      rw [div_self hq]
      exact fl_of_float ⟨1, 0, by norm_num, by norm_num⟩
    have e2 : hits rows = rows.length ↔ ∀ r ∈ rows, r.1 = r.2 := by
      unfold hits
      rw [List.countP_eq_length]
      simp
    rw [← e2]
    refine ⟨fun hv => ?_, fun hv => by rw [hv, e1]⟩
    by_contra hne
    have := fl_frac_lt hn (lt_of_le_of_ne hk hne) le_rfl
    rw [hv, e1] at this
    exact lt_irrefl _ this
  · have e2 : hits rows = 0 ↔ ∀ r ∈ rows, r.1 ≠ r.2 := by
      unfold hits
      rw [List.countP_eq_zero]
      simp
    rw [← e2]
    refine ⟨fun hv => ?_, fun hv => by rw [hv, Nat.cast_zero, zero_div, fl_zero]⟩
    by_contra hne
    have := fl_frac_lt hn (Nat.pos_of_ne_zero hne) hk
    rw [hv, Nat.cast_zero, zero_div, fl_zero] at this
    exact lt_irrefl _ this

theorem sq_bounds (x : ℚ) :
    (1 - 1 / 2 ^ 53) ^ 3 * x ^ 2 ≤ fl (fl x ^ 2) ∧ fl (fl x ^ 2) ≤ (1 + 1 / 2 ^ 53) ^ 3 * x ^ 2 := by
  have key : (1 - 1 / 2 ^ 53) ^ 2 * x ^ 2 ≤ fl x ^ 2 ∧ fl x ^ 2 ≤ (1 + 1 / 2 ^ 53) ^ 2 * x ^ 2 := by
    have base : ∀ z : ℚ, 0 ≤ z → (1 - 1 / 2 ^ 53) ^ 2 * z ^ 2 ≤ fl z ^ 2 ∧ fl z ^ 2 ≤ (1 + 1 / 2 ^ 53) ^ 2 * z ^ 2 := by
      intro z hz
      obtain ⟨a, b⟩ := fl_bounds hz
      have p : (0 : ℚ) ≤ (1 - 1 / 2 ^ 53) * z := mul_nonneg (by norm_num) hz
      rw [← mul_pow, ← mul_pow]
      exact ⟨pow_le_pow_left₀ p a 2, pow_le_pow_left₀ (p.trans a) b 2⟩
    rcases le_total 0 x with hx | hx
    · exact base x hx
    · have := base (-x) (by linarith)
      rwa [fl_neg, neg_sq, neg_sq] at this
  obtain ⟨a, b⟩ := fl_bounds (sq_nonneg (fl x))
  constructor
  · refine le_trans ?_ a
    calc (1 - 1 / 2 ^ 53) ^ 3 * x ^ 2 = (1 - 1 / 2 ^ 53) * ((1 - 1 / 2 ^ 53) ^ 2 * x ^ 2) := by ring
      _ ≤ _ := mul_le_mul_of_nonneg_left key.1 (by norm_num)
  · refine b.trans ?_
    calc (1 + 1 / 2 ^ 53) * fl x ^ 2 ≤ (1 + 1 / 2 ^ 53) * ((1 + 1 / 2 ^ 53) ^ 2 * x ^ 2) :=
          mul_le_mul_of_nonneg_left key.2 (by norm_num)
      _ = _ := by ring

theorem sum_sq_bounds (rows : List (ℚ × ℚ)) :
    (1 - 1 / 2 ^ 53) ^ 3 * (rows.map fun r => (r.1 - r.2) ^ 2).sum ≤ (rows.map fun r => fl (fl (r.1 - r.2) ^ 2)).sum ∧
    (rows.map fun r => fl (fl (r.1 - r.2) ^ 2)).sum ≤ (1 + 1 / 2 ^ 53) ^ 3 * (rows.map fun r => (r.1 - r.2) ^ 2).sum := by
  induction rows with
  | nil => simp
  | cons r l ih =>
    simp only [List.map_cons, List.sum_cons, mul_add]
    exact ⟨add_le_add (sq_bounds _).1 ih.1, add_le_add (sq_bounds _).2 ih.2⟩

/-- The rounded error of `n` rows lies within the factors `(1 ± 2^-53)^(n+4)` of the exact mean square error. -/
theorem C231_error {sum : List ℚ → ℚ} (hsum : ∀ l, RSum l.length l (sum l)) (rows : List (ℚ × ℚ)) (v : ℚ)
    (h : flL2Np sum rows = .ok v) :
    (1 - 1 / 2 ^ 53) ^ (rows.length + 4) * ((rows.map fun r => (r.1 - r.2) ^ 2).sum / rows.length) ≤ v ∧
    v ≤ (1 + 1 / 2 ^ 53) ^ (rows.length + 4) * ((rows.map fun r => (r.1 - r.2) ^ 2).sum / rows.length) := by
  unfold flL2Np at h
  split_ifs at h with h0
  obtain rfl := Except.ok.inj h
  have hnn : ∀ x ∈ rows.map fun r => fl (fl (r.1 - r.2) ^ 2), 0 ≤ x := by
    intro x hx
    obtain ⟨r, _, rfl⟩ := List.mem_map.1 hx
    exact le_trans (mul_nonneg (by norm_num) (sq_nonneg _)) (sq_bounds (r.1 - r.2)).1
  have hb := (hsum _).bounds hnn
  rw [List.length_map] at hb
  obtain ⟨s1, s2⟩ := sum_sq_bounds rows
  set S := (rows.map fun r => (r.1 - r.2) ^ 2).sum
  set T := (rows.map fun r => fl (fl (r.1 - r.2) ^ 2)).sum
  set s := sum (rows.map fun r => fl (fl (r.1 - r.2) ^ 2))
  have hm : (0 : ℚ) ≤ (1 - 1 / 2 ^ 53) ^ rows.length := pow_nonneg (by norm_num) _
  have hp : (0 : ℚ) ≤ (1 + 1 / 2 ^ 53) ^ rows.length := pow_nonneg (by norm_num) _
  have hT : 0 ≤ T := List.sum_nonneg hnn
  have hs : 0 ≤ s := le_trans (mul_nonneg hm hT) hb.1
  have hn : (0 : ℚ) ≤ rows.length := Nat.cast_nonneg _
  obtain ⟨a, b⟩ := fl_bounds (x := s / rows.length) (div_nonneg hs hn)
  constructor
  · refine le_trans ?_ a
    have : (1 - 1 / 2 ^ 53) ^ rows.length * ((1 - 1 / 2 ^ 53) ^ 3 * S) ≤ s :=
      (mul_le_mul_of_nonneg_left s1 hm).trans hb.1
    calc (1 - 1 / 2 ^ 53) ^ (rows.length + 4) * (S / rows.length)
        = (1 - 1 / 2 ^ 53) * ((1 - 1 / 2 ^ 53) ^ rows.length * ((1 - 1 / 2 ^ 53) ^ 3 * S) / rows.length) := by ring
      _ ≤ _ := mul_le_mul_of_nonneg_left (div_le_div_of_nonneg_right this hn) (by norm_num)
  · refine b.trans ?_
    have : s ≤ (1 + 1 / 2 ^ 53) ^ rows.length * ((1 + 1 / 2 ^ 53) ^ 3 * S) :=
      hb.2.trans (mul_le_mul_of_nonneg_left s2 hp)
    calc (1 + 1 / 2 ^ 53) * (s / rows.length)
        ≤ (1 + 1 / 2 ^ 53) * ((1 + 1 / 2 ^ 53) ^ rows.length * ((1 + 1 / 2 ^ 53) ^ 3 * S) / rows.length) :=
          mul_le_mul_of_nonneg_left (div_le_div_of_nonneg_right this hn) (by norm_num)
      _ = _ := by ring

/-- The rounded error is never negative, and it is zero exactly if every prediction equals its response. -/
theorem C231_zero {sum : List ℚ → ℚ} (hsum : ∀ l, RSum l.length l (sum l)) (rows : List (ℚ × ℚ)) (v : ℚ)
    (h : flL2Np sum rows = .ok v) : 0 ≤ v ∧ (v = 0 ↔ ∀ r ∈ rows, r.1 = r.2) := by
  obtain ⟨a, b⟩ := C231_error hsum rows v h
  have hl : rows.length ≠ 0 := by
    intro h0
    simp [flL2Np, h0] at h
  have hn : (0 : ℚ) < rows.length := by exact_mod_cast Nat.pos_of_ne_zero hl
  have hnn : ∀ x ∈ rows.map fun r => (r.1 - r.2) ^ 2, 0 ≤ x := by
    intro x hx
    obtain ⟨r, _, rfl⟩ := List.mem_map.1 hx
    exact sq_nonneg _
  have hS := List.sum_nonneg hnn
  have hm : (0 : ℚ) < (1 - 1 / 2 ^ 53) ^ (rows.length + 4) := pow_pos (by norm_num) _
  refine ⟨le_trans (mul_nonneg hm.le (div_nonneg hS hn.le)) a, fun hv r hr => ?_, fun hall => ?_⟩
  · rw [hv] at a
    have h1 : (r.1 - r.2) ^ 2 ≤ (rows.map fun r => (r.1 - r.2) ^ 2).sum :=
      List.single_le_sum hnn _ (List.mem_map.2 ⟨r, hr, rfl⟩)
    by_contra hne
    have h2 : 0 < (r.1 - r.2) ^ 2 := by
      have : r.1 - r.2 ≠ 0 := sub_ne_zero.2 hne
      positivity
    exact absurd a (not_le.2 (mul_pos hm (div_pos (h2.trans_le h1) hn)))
  · have h0 : (rows.map fun r => (r.1 - r.2) ^ 2).sum = 0 := by
      apply List.sum_eq_zero
      intro x hx
      obtain ⟨r, hr, rfl⟩ := List.mem_map.1 hx
      rw [hall r hr, sub_self]
      norm_num
    rw [h0, zero_div, mul_zero] at a b
    exact le_antisymm b a

/-- What is left of the order of two errors: a forest whose exact error is smaller by more than the rounding factors has the
smaller rounded error. Missing: closer errors, for which the order may turn round (`C231_refuted`). -/
theorem C231_order_partial {sum : List ℚ → ℚ} (hsum : ∀ l, RSum l.length l (sum l)) (rows rows' : List (ℚ × ℚ)) (v v' : ℚ)
    (h : flL2Np sum rows = .ok v) (h' : flL2Np sum rows' = .ok v')
    (hlt : (1 + 1 / 2 ^ 53) ^ (rows.length + 4) * mse rows < (1 - 1 / 2 ^ 53) ^ (rows'.length + 4) * mse rows') : v < v' :=
  ((C231_error hsum rows v h).2.trans_lt hlt).trans_le (C231_error hsum rows' v' h').1

/-- Five rows with errors 1 and four times `2^-27`, and five with three times `2^-27`, then 1 and 0. -/
def exScoreA : List (ℚ × ℚ) := [(1, 0), (1 / 2 ^ 27, 0), (1 / 2 ^ 27, 0), (1 / 2 ^ 27, 0), (1 / 2 ^ 27, 0)]
def exScoreB : List (ℚ × ℚ) := [(1 / 2 ^ 27, 0), (1 / 2 ^ 27, 0), (1 / 2 ^ 27, 0), (1, 0), (0, 0)]

/-- Two sets of predictions of doubles, the first with the larger exact error and the smaller rounded one. -/
theorem C231_refuted : (∀ l : List ℚ, RSum l.length l (npSum l)) ∧
    (∀ r ∈ exScoreA ++ exScoreB, IsFloat r.1 ∧ IsFloat r.2) ∧ exScoreA.length = exScoreB.length ∧
    mse exScoreB < mse exScoreA ∧
    ∃ v v', flL2Np npSum exScoreA = .ok v ∧ flL2Np npSum exScoreB = .ok v' ∧ v < v' := by
  refine ⟨npSum_rsum, ?_, rfl, by norm_num [mse, exScoreA, exScoreB], _, _, rfl, rfl, by decide +kernel⟩
  have f0 : IsFloat 0 := ⟨0, 0, by norm_num, by norm_num⟩
  have f1 : IsFloat 1 := ⟨1, 0, by norm_num, by norm_num⟩
  have f2 : IsFloat (1 / 2 ^ 27) := ⟨1, -27, by norm_num, by norm_num⟩
  intro r hr
  simp only [exScoreA, exScoreB, List.cons_append, List.nil_append, List.mem_cons, List.not_mem_nil, or_false] at hr
  rcases hr with rfl | rfl | rfl | rfl | rfl | rfl | rfl | rfl | rfl | rfl <;>
    exact ⟨by assumption, by assumption⟩

/-! ## Meeting the hypotheses -/

/-- Two of three and one of three labels right. -/
example : ((flAccNp npSum [(0, 0), (1, 2), (2, 2)]).toOption, (flAccNp npSum [(0, 1), (1, 2), (2, 2)]).toOption) =
      (some (fl (2 / 3)), some (fl (1 / 3))) ∧ fl (1 / 3) < fl (2 / 3) ∧ fl (2 / 3) ≠ 2 / 3 := by decide +kernel

/-- An error that is rounded, and one that `C231_order_partial` tells apart from it. -/
example : ((flL2Np npSum [(fl (1 / 10), 0), (1, 0), (0, 0)]).toOption, (flL2Np npSum [(2, 0), (1, 1), (0, 1)]).toOption) =
      (some (1516211874548067 / 4503599627370496), some (7505999378950827 / 4503599627370496)) ∧
    (1 + 1 / 2 ^ 53) ^ 7 * mse [(fl (1 / 10), 0), (1, 0), (0, 0)] < (1 - 1 / 2 ^ 53) ^ 7 * mse [(2, 0), (1, 1), (0, 1)] := by
  decide +kernel

end SmoothRF
