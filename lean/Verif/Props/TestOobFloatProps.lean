import Verif.Props.TestCleanProps
import Verif.Props.FloatProxProps
import Verif.Props.FloatQuantileProps
import Verif.Props.FloatSmoothProps
import Verif.Props.FloatDepthProps

/-!
# C203: test_generate_oob_info in double precision

The test (tests/test_smooth_clean.py 12-64 and its copy in smooth_clean.py 94-145) adds floating-point weights and compares
the sums with whole numbers.
-/

set_option linter.unusedSectionVars false

namespace SmoothRF

open Topo SkTree

/-- The out-of-bag trees of observation `i`. -/
def oobFlags (T : ℕ) (uns : ℕ → List ℕ) (i : ℕ) : List Bool := (List.range T).map fun t => decide (i ∈ uns t)

/-- `oob_weights` in doubles, smooth_clean.py 87-90, ravelled row by row. -/
def flOobWeights (T n : ℕ) (uns : ℕ → List ℕ) : List ℚ := (List.range n).flatMap fun i => flOobRow (oobFlags T uns i)

/-- Number of observations out of bag in some tree. -/
def everOobCount (T n : ℕ) (uns : ℕ → List ℕ) : ℕ := ((Finset.range n).filter fun i => ∃ t < T, i ∈ uns t).card

theorem oobFlags_length (T : ℕ) (uns : ℕ → List ℕ) (i : ℕ) : (oobFlags T uns i).length = T := by simp [oobFlags]

theorem oobFlags_mem {T : ℕ} {uns : ℕ → List ℕ} {i : ℕ} : true ∈ oobFlags T uns i ↔ ∃ t < T, i ∈ uns t := by
  simp [oobFlags]

theorem oobFlags_count {T : ℕ} {uns : ℕ → List ℕ} {i : ℕ} : 1 ≤ (oobFlags T uns i).count true ↔ ∃ t < T, i ∈ uns t := by
  rw [Nat.one_le_iff_ne_zero, ← Nat.pos_iff_ne_zero, List.count_pos_iff, oobFlags_mem]

theorem flOobRow_length (l : List Bool) : (flOobRow l).length = l.length := by simp [flOobRow]

theorem flatMap_slice {α : Type} {T : ℕ} {f : ℕ → List α} (hf : ∀ i, (f i).length = T) :
    ∀ (n a : ℕ), ∀ i < n, (((List.range' a n).flatMap f).drop (T * i)).take T = f (a + i) := by
  intro n
  induction n with
  | zero => intro a i hi; omega
  | succ n ih =>
    intro a i hi
    rw [List.range'_succ, List.flatMap_cons]
    cases i with
    | zero => rw [Nat.mul_zero, List.drop_zero, List.take_left' (hf a), Nat.add_zero]
    | succ i =>
      have : T * (i + 1) = (f a).length + T * i := by rw [hf]; ring
      rw [this, List.drop_length_add_append, ih (a + 1) i (by omega)]
      congr 1
      omega

/-- The weights of observation `i`: `oob_weights[(n_trees*i):(n_trees*(i+1))]`. -/
theorem flOobWeights_slice {T n : ℕ} {uns : ℕ → List ℕ} {i : ℕ} (hi : i < n) :
    ((flOobWeights T n uns).drop (T * i)).take T = flOobRow (oobFlags T uns i) := by
  unfold flOobWeights
  rw [List.range_eq_range', flatMap_slice (fun i => by rw [flOobRow_length, oobFlags_length]) n 0 i hi, Nat.zero_add]

theorem flOobWeights_length (T n : ℕ) (uns : ℕ → List ℕ) : (flOobWeights T n uns).length = n * T := by
  unfold flOobWeights
  rw [List.length_flatMap]
  simp [flOobRow_length, oobFlags_length]

/-- A weight: 0, or the double nearest to the reciprocal of a count. -/
theorem flOobRow_entry {oob : List Bool} (h : oob.length ≤ 2 ^ 53) {w : ℚ} (hw : w ∈ flOobRow oob) :
    0 ≤ w ∧ w ≤ 1 ∧ w = fl w := by
  rw [flOobRow_eq oob h] at hw
  obtain ⟨b, hb, rfl⟩ := List.mem_map.1 hw
  cases b
  · simp [fl_zero]
  · simp only [if_true]
    have hc : (1 : ℚ) ≤ (oob.count true : ℚ) := by exact_mod_cast List.count_pos_iff.2 hb
    have h1 : 1 / (oob.count true : ℚ) ≤ 1 := (div_le_one (by linarith)).2 hc
    refine ⟨fl_nonneg (by positivity), ?_, (fl_of_float (fl_isFloat _)).symm⟩
    have := fl_mono h1
    rwa [fl_of_float isFloat_one] at this

/-- C203: one weight per observation and tree, all between 0 and 1, the weights of an observation being equal over its
out-of-bag trees, positive there and 0 elsewhere; no row is divided by 0. -/
theorem C203_weights (T n : ℕ) (hT : T ≤ 2 ^ 53) (uns : ℕ → List ℕ) :
    (∀ i, flOobDivisor (oobFlags T uns i) ≠ 0) ∧
      (flOobWeights T n uns).length = n * T ∧ (∀ w ∈ flOobWeights T n uns, 0 ≤ w ∧ w ≤ 1) ∧
      ∀ i < n, ((flOobWeights T n uns).drop (T * i)).take T = (List.range T).map fun t =>
        if i ∈ uns t then fl (1 / (((List.range T).countP fun t => i ∈ uns t : ℕ) : ℚ)) else 0 := by
  refine ⟨?_, flOobWeights_length T n uns, ?_, ?_⟩
  · intro i
    rw [C153_divisor _ (by rwa [oobFlags_length])]
    split_ifs with h
    · exact_mod_cast (List.count_pos_iff.2 h).ne'
    · exact one_ne_zero
  · intro w hw
    obtain ⟨i, -, hw⟩ := List.mem_flatMap.1 hw
    have := flOobRow_entry (by rwa [oobFlags_length]) hw
    exact ⟨this.1, this.2.1⟩
  · intro i hi
    rw [flOobWeights_slice hi, flOobRow_eq _ (by rwa [oobFlags_length])]
    unfold oobFlags
    rw [List.map_map]
    refine List.map_congr_left fun t _ => ?_
    have : ((List.range T).map fun t => decide (i ∈ uns t)).count true = (List.range T).countP fun t => i ∈ uns t := by
      rw [List.count, List.countP_map]
      congr 1
      funext t
      simp
    simp only [Function.comp, this]
    by_cases h : i ∈ uns t <;> simp [h]

theorem npSum_zeros (l : List ℚ) (h : ∀ x ∈ l, x = 0) : npSum l = 0 := by
  have hs : l.sum = 0 := List.sum_eq_zero h
  rw [npSum_exact l 0 (fun x hx => ⟨0, by simp [h x hx]⟩) (by rw [hs]; positivity), hs]

/-- C203: with fewer than eight trees the weights of an observation add up to exactly 0 (never out of bag) or exactly 1, unless
it is out of bag in six or seven of them; so the test of the row sums passes for its five trees. -/
theorem C203_row_sums (T n : ℕ) (hT : T < 8) (uns : ℕ → List ℕ) {i : ℕ} (hi : i < n) :
    ((npSum (((flOobWeights T n uns).drop (T * i)).take T) = 0 ∨ npSum (((flOobWeights T n uns).drop (T * i)).take T) = 1) ↔
      ((List.range T).countP fun t => i ∈ uns t) ≤ 5) ∧
    (npSum (((flOobWeights T n uns).drop (T * i)).take T) = 0 ↔ ∀ t < T, i ∉ uns t) := by
  have h53 : (oobFlags T uns i).length ≤ 2 ^ 53 := by
    rw [oobFlags_length]
    have : (8 : ℕ) ≤ 2 ^ 53 := by norm_num
    omega
  have hc : (oobFlags T uns i).count true = (List.range T).countP fun t => i ∈ uns t := by
    unfold oobFlags
    rw [List.count, List.countP_map]
    congr 1
    funext t
    simp
  rw [flOobWeights_slice hi]
  have h1 := C153_few_trees (oobFlags T uns i) (by rw [oobFlags_length]; exact hT)
  unfold flEverOob at h1
  rw [decide_eq_true_iff] at h1
  have hzero : npSum (flOobRow (oobFlags T uns i)) = 0 ↔ ∀ t < T, i ∉ uns t := by
    constructor
    · intro h0 t ht hm
      have hb := (npSum_bounds (flOobRow (oobFlags T uns i)) fun w hw => (flOobRow_entry h53 hw).1).1
      rw [h0, flOobRow_eq _ h53, oobRow_scaled_sum] at hb
      have hcp : (1 : ℚ) ≤ ((oobFlags T uns i).count true : ℚ) := by exact_mod_cast oobFlags_count.2 ⟨t, ht, hm⟩
      have hfl : 0 < fl (1 / ((oobFlags T uns i).count true : ℚ)) :=
        lt_of_lt_of_le (mul_pos (by norm_num) (by positivity)) (fl_bounds (by positivity)).1
      have : (0 : ℚ) < (1 - 1 / 2 ^ 53) ^ ((oobFlags T uns i).map fun b => if b then
          fl (1 / ((oobFlags T uns i).count true : ℚ)) else 0).length *
          (((oobFlags T uns i).count true : ℚ) * fl (1 / ((oobFlags T uns i).count true : ℚ))) :=
        mul_pos (pow_pos (by norm_num) _) (mul_pos (by linarith) hfl)
      linarith
    · intro h
      refine npSum_zeros _ fun x hx => ?_
      rw [flOobRow_eq _ h53] at hx
      obtain ⟨b, hb, rfl⟩ := List.mem_map.1 hx
      cases b
      · rfl
      · obtain ⟨t, ht, hm⟩ := oobFlags_mem.1 hb
        exact absurd hm (h t ht)
  refine ⟨?_, hzero⟩
  rw [h1, hzero, ← hc]
  constructor
  · rintro (h | h)
    · have : (oobFlags T uns i).count true = 0 := by
        by_contra h0
        obtain ⟨t, ht, hm⟩ := oobFlags_count.1 (Nat.one_le_iff_ne_zero.2 h0)
        exact h t ht hm
      omega
    · exact h.2
  · intro h
    by_cases h0 : (oobFlags T uns i).count true = 0
    · left
      intro t ht hm
      have := oobFlags_count.2 ⟨t, ht, hm⟩
      omega
    · right
      omega

theorem flOobRow_sum_bounds {oob : List Bool} (h : oob.length ≤ 2 ^ 53) :
    (1 - 1 / 2 ^ 53) * (if true ∈ oob then 1 else 0) ≤ (flOobRow oob).sum ∧
      (flOobRow oob).sum ≤ (1 + 1 / 2 ^ 53) * (if true ∈ oob then 1 else 0) := by
  rw [flOobRow_eq _ h, oobRow_scaled_sum]
  by_cases ht : true ∈ oob
  · have hc : (1 : ℚ) ≤ (oob.count true : ℚ) := by exact_mod_cast List.count_pos_iff.2 ht
    have hb := fl_bounds (x := 1 / (oob.count true : ℚ)) (by positivity)
    rw [if_pos ht]
    have e : (oob.count true : ℚ) * (1 / (oob.count true : ℚ)) = 1 := by field_simp
    have h1 := mul_le_mul_of_nonneg_left hb.1 (by linarith : (0 : ℚ) ≤ (oob.count true : ℚ))
    have h2 := mul_le_mul_of_nonneg_left hb.2 (by linarith : (0 : ℚ) ≤ (oob.count true : ℚ))
    have e1 : (oob.count true : ℚ) * ((1 - 1 / 2 ^ 53) * (1 / (oob.count true : ℚ))) = 1 - 1 / 2 ^ 53 := by
      rw [mul_left_comm, e, mul_one]
    have e2 : (oob.count true : ℚ) * ((1 + 1 / 2 ^ 53) * (1 / (oob.count true : ℚ))) = 1 + 1 / 2 ^ 53 := by
      rw [mul_left_comm, e, mul_one]
    rw [e1] at h1
    rw [e2] at h2
    exact ⟨by linarith, by linarith⟩
  · rw [if_neg ht, List.count_eq_zero.2 ht]
    simp

/-- C203: the total of all weights, added in any order, is the number of observations that are ever out of bag up to
`(1 ± 2^-53)^(n T + 1)`; it is 0 exactly if there is none. -/
theorem C203_total {sum : List ℚ → ℚ} (hs : IsFlSum sum) (T n : ℕ) (hT : T ≤ 2 ^ 53) (uns : ℕ → List ℕ) :
    (1 - 1 / 2 ^ 53) ^ (n * T + 1) * (everOobCount T n uns : ℚ) ≤ sum (flOobWeights T n uns) ∧
    sum (flOobWeights T n uns) ≤ (1 + 1 / 2 ^ 53) ^ (n * T + 1) * (everOobCount T n uns : ℚ) ∧
    (0 < sum (flOobWeights T n uns) ↔ ∃ i < n, ∃ t < T, i ∈ uns t) := by
  have hnn : ∀ w ∈ flOobWeights T n uns, 0 ≤ w := fun w hw => ((C203_weights T n hT uns).2.2.1 w hw).1
  have hb := (hs (flOobWeights T n uns)).bounds hnn
  rw [flOobWeights_length] at hb
  have hsum : (1 - 1 / 2 ^ 53) * (everOobCount T n uns : ℚ) ≤ (flOobWeights T n uns).sum ∧
      (flOobWeights T n uns).sum ≤ (1 + 1 / 2 ^ 53) * (everOobCount T n uns : ℚ) := by
    have e : (everOobCount T n uns : ℚ) =
        ((List.range n).map fun i => if true ∈ oobFlags T uns i then (1 : ℚ) else 0).sum := by
      unfold everOobCount
      rw [sum_map_range, Finset.sum_boole]
      congr 2
      ext i
      simp only [oobFlags_mem]
    unfold flOobWeights
    rw [List.flatMap_def, List.sum_flatten, List.map_map, e, ← List.sum_map_mul_left, ← List.sum_map_mul_left]
    exact ⟨List.sum_le_sum fun i _ => (flOobRow_sum_bounds (by rwa [oobFlags_length])).1,
      List.sum_le_sum fun i _ => (flOobRow_sum_bounds (by rwa [oobFlags_length])).2⟩
  have h1 : (0 : ℚ) < 1 - 1 / 2 ^ 53 := by norm_num
  have hlo : (1 - 1 / 2 ^ 53) ^ (n * T + 1) * (everOobCount T n uns : ℚ) ≤ sum (flOobWeights T n uns) := by
    refine le_trans ?_ hb.1
    rw [pow_succ, mul_assoc]
    exact mul_le_mul_of_nonneg_left hsum.1 (pow_pos h1 _).le
  have hhi : sum (flOobWeights T n uns) ≤ (1 + 1 / 2 ^ 53) ^ (n * T + 1) * (everOobCount T n uns : ℚ) := by
    refine hb.2.trans ?_
    rw [pow_succ (1 + 1 / 2 ^ 53 : ℚ) (n * T), mul_assoc]
    exact mul_le_mul_of_nonneg_left hsum.2 (by positivity)
  refine ⟨hlo, hhi, ?_⟩
  have hcard : 0 < everOobCount T n uns ↔ ∃ i < n, ∃ t < T, i ∈ uns t := by
    unfold everOobCount
    rw [Finset.card_pos]
    simp [Finset.Nonempty]
  rw [← hcard]
  constructor
  · intro hp
    by_contra h0
    rw [Nat.pos_iff_ne_zero, not_not] at h0
    rw [h0] at hhi
    simp at hhi
    linarith
  · intro hp
    have : (0 : ℚ) < (everOobCount T n uns : ℚ) := by exact_mod_cast hp
    exact lt_of_lt_of_le (mul_pos (pow_pos h1 _) this) hlo

/-- C203: for up to `2^24` weights the total differs from a whole number by less than 1/4; it is a whole number only if it is
the number of observations ever out of bag. -/
theorem C203_nearest {sum : List ℚ → ℚ} (hs : IsFlSum sum) (T n : ℕ) (h : n * T ≤ 2 ^ 24) (hT1 : 1 ≤ T) (uns : ℕ → List ℕ) :
    |sum (flOobWeights T n uns) - everOobCount T n uns| < 1 / 4 ∧
      ∀ z : ℤ, sum (flOobWeights T n uns) = z → z = everOobCount T n uns := by
  have hm : everOobCount T n uns ≤ n := by
    unfold everOobCount
    exact (Finset.card_filter_le _ _).trans (by simp)
  have hn : n ≤ 2 ^ 24 := le_trans (Nat.le_mul_of_pos_right n hT1) h
  have key : |sum (flOobWeights T n uns) - everOobCount T n uns| < 1 / 4 := by
    by_cases hn0 : n = 0
    · subst hn0
      have hw : flOobWeights T 0 uns = [] := rfl
      have := (hs []).bounds (by simp)
      simp at this
      have h0 : everOobCount T 0 uns = 0 := by simp [everOobCount]
      rw [hw, h0]
      have : sum [] = 0 := le_antisymm this.2 this.1
      rw [this]
      norm_num
    · have hT : T ≤ 2 ^ 53 := le_trans (le_trans (Nat.le_mul_of_pos_left T (Nat.pos_of_ne_zero hn0)) h) (by norm_num)
      obtain ⟨h1, h2, -⟩ := C203_total hs T n hT uns
      have hk : n * T + 1 ≤ 2 ^ 52 := by omega
      have hp := pow_small (n * T + 1) hk
      have hq : (1 - ((n * T + 1 : ℕ) : ℚ) * (1 / 2 ^ 53)) ≤ (1 - 1 / 2 ^ 53) ^ (n * T + 1) := by
        have := one_add_mul_le_pow (a := (-(1 / 2 ^ 53) : ℚ)) (by norm_num) (n * T + 1)
        linarith
      have hmq : (everOobCount T n uns : ℚ) ≤ 2 ^ 24 := by exact_mod_cast hm.trans hn
      have hm0 : (0 : ℚ) ≤ (everOobCount T n uns : ℚ) := Nat.cast_nonneg _
      have hkq : ((n * T + 1 : ℕ) : ℚ) ≤ 2 ^ 24 + 1 := by exact_mod_cast Nat.succ_le_succ h
      have hk0 : (0 : ℚ) ≤ ((n * T + 1 : ℕ) : ℚ) := Nat.cast_nonneg _
      generalize ((n * T + 1 : ℕ) : ℚ) = k at *
      generalize (everOobCount T n uns : ℚ) = m at *
      have hkm : k * m ≤ (2 ^ 24 + 1) * 2 ^ 24 := mul_le_mul hkq hmq hm0 (by norm_num)
      have h3 := mul_le_mul_of_nonneg_right hp hm0
      have h4 := mul_le_mul_of_nonneg_right hq hm0
      rw [abs_lt]
      constructor
      · have : (1 - k * (1 / 2 ^ 53)) * m = m - k * m * (1 / 2 ^ 53) := by ring
        norm_num at *
        linarith
      · have : (1 + 2 * k * (1 / 2 ^ 53)) * m = m + 2 * (k * m) * (1 / 2 ^ 53) := by ring
        norm_num at *
        linarith
  refine ⟨key, fun z hz => ?_⟩
  rw [hz] at key
  have : |(z : ℚ) - ((everOobCount T n uns : ℤ) : ℚ)| < 1 := by
    have : (((everOobCount T n uns : ℕ) : ℤ) : ℚ) = (everOobCount T n uns : ℚ) := by push_cast; rfl
    rw [this]
    linarith
  have h2 : |z - (everOobCount T n uns : ℤ)| < 1 := by exact_mod_cast this
  have := Int.abs_lt_one_iff.1 h2
  linarith

/-- C203: if every observation's number of out-of-bag trees is a power of two (or zero), in particular for one or two trees, the total
is exact. -/
theorem C203_exact_partial {sum : List ℚ → ℚ} (hs : IsFlSum sum) (T n j : ℕ) (hT : T ≤ 2 ^ 53) (hn : n * 2 ^ j ≤ 2 ^ 53)
    (uns : ℕ → List ℕ)
    (hc : ∀ i < n, ((List.range T).countP fun t => i ∈ uns t) = 0 ∨
      ∃ k ≤ j, ((List.range T).countP fun t => i ∈ uns t) = 2 ^ k) :
    sum (flOobWeights T n uns) = everOobCount T n uns := by
  have hcount : ∀ i, (oobFlags T uns i).count true = (List.range T).countP fun t => i ∈ uns t := by
    intro i
    unfold oobFlags
    rw [List.count, List.countP_map]
    congr 1
    funext t
    simp
  have hrow : ∀ i < n, flOobRow (oobFlags T uns i) = (oobFlags T uns i).map fun b =>
      if b then 1 / ((oobFlags T uns i).count true : ℚ) else 0 := by
    intro i hi
    rw [flOobRow_eq _ (by rwa [oobFlags_length])]
    refine List.map_congr_left fun b _ => ?_
    cases b
    · rfl
    · simp only [if_true]
      rcases hc i hi with h0 | ⟨k, -, hk⟩
      · rw [hcount, h0]
        simp [fl_zero]
      · rw [hcount, hk]
        refine fl_of_float ⟨1, -(k : ℤ), by norm_num, ?_⟩
        push_cast
        rw [zpow_neg, zpow_natCast, one_div, one_mul]
  have hsum : (flOobWeights T n uns).sum = everOobCount T n uns := by
    unfold flOobWeights everOobCount
    rw [List.flatMap_def, List.sum_flatten, List.map_map]
    have : (List.range n).map (List.sum ∘ fun i => flOobRow (oobFlags T uns i)) =
        (List.range n).map fun i => if ∃ t < T, i ∈ uns t then (1 : ℚ) else 0 := by
      refine List.map_congr_left fun i hi => ?_
      simp only [Function.comp]
      rw [hrow i (List.mem_range.1 hi), oobRow_scaled_sum]
      by_cases h0 : ∃ t < T, i ∈ uns t
      · rw [if_pos h0]
        have := oobFlags_count.2 h0
        have : ((oobFlags T uns i).count true : ℚ) ≠ 0 := by exact_mod_cast (by omega)
        field_simp
      · rw [if_neg h0]
        have : (oobFlags T uns i).count true = 0 := by
          by_contra hne
          exact h0 (oobFlags_count.1 (Nat.one_le_iff_ne_zero.2 hne))
        rw [this]
        simp
    rw [this, sum_map_range, Finset.sum_boole]
  have hm : everOobCount T n uns ≤ n := by
    unfold everOobCount
    exact (Finset.card_filter_le _ _).trans (by simp)
  rw [← hsum]
  refine ((hs (flOobWeights T n uns)).exact (-(j : ℤ)) ?_ ?_).1
  · intro x hx
    obtain ⟨i, hi, hx⟩ := List.mem_flatMap.1 hx
    rw [hrow i (List.mem_range.1 hi)] at hx
    obtain ⟨b, -, rfl⟩ := List.mem_map.1 hx
    cases b
    · exact ⟨0, by simp⟩
    · simp only [if_true]
      rcases hc i (List.mem_range.1 hi) with h0 | ⟨k, hkj, hk⟩
      · exact ⟨0, by rw [hcount, h0]; simp⟩
      · refine ⟨2 ^ (j - k), ?_⟩
        rw [hcount, hk]
        push_cast
        rw [zpow_neg, zpow_natCast]
        have : (2 : ℚ) ^ j = 2 ^ (j - k) * 2 ^ k := by rw [← pow_add]; congr 1; omega
        rw [this]
        field_simp
  · rw [hsum, zpow_neg, zpow_natCast]
    have h1 : (everOobCount T n uns : ℚ) ≤ n := by exact_mod_cast hm
    have h2 : (n : ℚ) * 2 ^ j ≤ 2 ^ 53 := by exact_mod_cast hn
    refine h1.trans ?_
    rw [← div_eq_mul_inv, le_div_iff₀ (by positivity)]
    exact h2

/-- A case for `C203_exact_partial`: two trees, one observation out of bag in both, one in one, one in none. -/
example : (∀ i < 3, ((List.range 2).countP fun t => i ∈ exUns t) = 0 ∨
    ∃ k ≤ 1, ((List.range 2).countP fun t => i ∈ exUns t) = 2 ^ k) ∧ npSum (flOobWeights 2 3 exUns) = 2 := by
  decide +kernel

/-! ### The shape of the test: 200 observations, 5 trees -/

/-- Bootstrap samples: the first tree draws observation 0 two hundred times, the others observation 1. -/
def exBoot (t : ℕ) : List ℕ := List.replicate 200 (if t = 0 then 0 else 1)

/-- What they leave out. -/
def exBootUns (t : ℕ) : List ℕ := (List.range 200).filter fun i => i ∉ exBoot t

/-- C203: the test can fail: for a possible outcome of the bootstrap of 200 observations and five trees the total is
`200 + 2^-45`, which is neither at most 200 nor a whole number. -/
theorem C203_refuted : ∃ boot : ℕ → List ℕ, (∀ t, (boot t).length = 200 ∧ ∀ i ∈ boot t, i < 200) ∧
    npSum (flOobWeights 5 200 fun t => (List.range 200).filter fun i => i ∉ boot t) = 200 + 1 / 2 ^ 45 := by
  refine ⟨exBoot, fun t => ⟨List.length_replicate .., ?_⟩, ?_⟩
  · intro i hi
    rw [List.eq_of_mem_replicate hi]
    split <;> norm_num
  · show npSum (flOobWeights 5 200 exBootUns) = _
    decide +kernel

end SmoothRF
