import Verif.Model.Data
import Verif.Spec.Data
import Verif.Proofs.Smooth
import Mathlib.Analysis.Real.Pi.Bounds
import Mathlib.Analysis.SpecialFunctions.Trigonometric.Bounds
import Mathlib.Tactic.Linarith
import Mathlib.Algebra.Order.Floor.Semifield
import Mathlib.Tactic.Ring
import Mathlib.Tactic.FieldSimp
import Mathlib.Tactic.IntervalCases

/-!
# generate_data.py (C71, C72, C91-C93)
-/

set_option linter.unusedSectionVars false

namespace SmoothRF

variable {K : Type} [Field K] [LinearOrder K] [IsStrictOrderedRing K]

theorem floor_frac (a b n : ℕ) (hb : 0 < b) : ⌊(a / b : ℚ) * n⌋₊ = n * a / b := by
  rw [show (a / b : ℚ) * n = ((n * a : ℕ) : ℚ) / (b : ℕ) by push_cast; ring, Nat.floor_div_eq_div]

theorem maskKeep_fst {α β : Type} (f : α → Bool) (P : List (α × β)) :
    maskKeep ((P.map Prod.fst).map f) (P.map Prod.fst) = (P.filter fun e => f e.1).map Prod.fst := by
  induction P with
  | nil => rfl
  | cons a P ih =>
    simp only [maskKeep, List.map_cons, List.zip_cons_cons, List.filter_cons] at ih ⊢
    cases f a.1 <;> simpa using ih

theorem maskKeep_snd {α β : Type} (f : α → Bool) (P : List (α × β)) :
    maskKeep ((P.map Prod.fst).map f) (P.map Prod.snd) = (P.filter fun e => f e.1).map Prod.snd := by
  induction P with
  | nil => rfl
  | cons a P ih =>
    simp only [maskKeep, List.map_cons, List.zip_cons_cons, List.filter_cons] at ih ⊢
    cases f a.1 <;> simpa using ih

theorem rmLogic_eq (p : K × K) : (!rmLogic (1/20) p) = decide (InBox p) := by
  rw [Bool.eq_iff_iff, decide_eq_true_iff]
  simp only [rmLogic, InBox, Bool.not_eq_true', Bool.or_eq_false_iff, decide_eq_false_iff_not,
    not_lt, gt_iff_lt]
  constructor
  · rintro ⟨⟨⟨a, b⟩, c⟩, d⟩
    refine ⟨?_, ?_, ?_, ?_⟩ <;> linarith
  · rintro ⟨a, b, c, d⟩
    refine ⟨⟨⟨?_, ?_⟩, ?_⟩, ?_⟩ <;> linarith

/-- What `generate_data` returns, as one labelled list. -/
theorem generateData_eq (cosA sinA : K) {largeN : ℤ} (h : -5 < largeN) (z u : ℕ → ℕ → K × K) :
    generateData cosA sinA largeN z u = .ok
      (((labelled (dataBlocks cosA sinA ⌊(3 / 13 : ℚ) * largeN⌋₊ z u)).filter
          fun e => decide (InBox e.1)).map Prod.fst,
       ((labelled (dataBlocks cosA sinA ⌊(3 / 13 : ℚ) * largeN⌋₊ z u)).filter
          fun e => decide (InBox e.1)).map Prod.snd) := by
  have hn : ⌊(3 / 13 : ℚ) * largeN⌋₊ = ((3 * largeN).tdiv 13).toNat := by
    rcases le_or_gt 0 largeN with hp | hp
    · lift largeN to ℕ using hp
      have := floor_frac 3 13 largeN (by norm_num)
      push_cast at this ⊢
      rw [this]
      rw [show (3 * (largeN : ℤ)).tdiv 13 = ((largeN * 3 / 13 : ℕ) : ℤ) by
        rw [Int.tdiv_eq_ediv_of_nonneg (by positivity)]; push_cast; ring_nf]
      rfl
    · rw [Nat.floor_of_nonpos (by
        have : (largeN : ℚ) < 0 := by exact_mod_cast hp
        linarith)]
      have : (3 * largeN).tdiv 13 = 0 := by
        have e1 : largeN = -1 ∨ largeN = -2 ∨ largeN = -3 ∨ largeN = -4 := by omega
        rcases e1 with rfl | rfl | rfl | rfl <;> rfl
      rw [this]; rfl
  rw [hn]
  have hneg : ¬ (3 * largeN).tdiv 13 < 0 := by
    rcases le_or_gt 0 largeN with hp | hp
    · have : 0 ≤ (3 * largeN).tdiv 13 := Int.tdiv_nonneg (by omega) (by omega)
      omega
    · have e1 : largeN = -1 ∨ largeN = -2 ∨ largeN = -3 ∨ largeN = -4 := by omega
      rcases e1 with rfl | rfl | rfl | rfl <;> decide
  unfold generateData
  simp only [hneg, if_false]
  generalize ((3 * largeN).tdiv 13).toNat = n
  set P := labelled (dataBlocks cosA sinA n z u) with hP
  have f1 := floor_frac 2 5 n (by norm_num)
  have f2 := floor_frac 3 5 n (by norm_num)
  have f3 := floor_frac 4 15 n (by norm_num)
  push_cast at f1 f2 f3
  have e1 : n * 2 * 2 / (3 * 5) = n * 4 / 15 := by
    rw [show n * 2 * 2 = n * 4 by ring]
  have e2 : n * 2 * 3 / (3 * 5) = n * 2 / 5 := by omega
  have key : ∀ (D : List (K × K)) (y : List ℕ), D = P.map Prod.fst → y = P.map Prod.snd →
      (Except.ok (maskKeep (D.map fun p => !rmLogic (1/20) p) D,
        maskKeep (D.map fun p => !rmLogic (1/20) p) y) : Except PyErr (List (K × K) × List ℕ)) =
      .ok ((P.filter fun e => decide (InBox e.1)).map Prod.fst,
        (P.filter fun e => decide (InBox e.1)).map Prod.snd) := by
    rintro D y rfl rfl
    rw [maskKeep_fst, maskKeep_snd]
    simp only [rmLogic_eq]
  have q1 : ∀ w : K × K, drawRect ((0 : K), 8/10) (1, 1) w = (w.1, 4/5 + 1/5 * w.2) := by
    intro w; simp only [drawRect, drawUniform]; refine Prod.ext ?_ ?_ <;> simp only <;> ring
  have q2 : ∀ w : K × K, drawRect ((8/10 : K), 0) (1, 1) w = (4/5 + 1/5 * w.1, w.2) := by
    intro w; simp only [drawRect, drawUniform]; refine Prod.ext ?_ ?_ <;> simp only <;> ring
  have q3 : ∀ w : K × K, ((rotate cosA sinA (drawRect (0, 0) (1/2, 1/2) w)).1 + 175/1000,
      (rotate cosA sinA (drawRect (0, 0) (1/2, 1/2) w)).2 + 75/1000) =
      (7/40 + 1/2 * (cosA * w.1 + sinA * w.2), 3/40 + 1/2 * (cosA * w.2 - sinA * w.1)) := by
    intro w; simp only [rotate, drawRect, drawUniform]; refine Prod.ext ?_ ?_ <;> simp only <;> ring
  have q4 : ∀ w : K × K, drawRect ((0 : K), 0) (1, 2/10) w = (w.1, 1/5 * w.2) := by
    intro w; simp only [drawRect, drawUniform]; refine Prod.ext ?_ ?_ <;> simp only <;> ring
  have q5 : ∀ w : K × K, drawRect ((0 : K), 0) (2/10, 1) w = (1/5 * w.1, w.2) := by
    intro w; simp only [drawRect, drawUniform]; refine Prod.ext ?_ ?_ <;> simp only <;> ring
  apply key
  · rw [hP]
    simp only [labelled, dataBlocks, f1, f2, f3, e1, e2, List.flatMap_cons, List.flatMap_nil,
      List.append_nil, List.map_append, List.map_map, q1, q2, q3, q4, q5, drawNormal,
      List.append_assoc, Function.comp_def]
  · rw [hP]
    simp only [labelled, dataBlocks, f1, f2, f3, e1, e2, List.flatMap_cons, List.flatMap_nil,
      List.append_nil, List.map_append, List.map_map, Function.comp_def, List.map_const',
      List.length_map, List.length_range, List.map_cons, List.map_nil, List.sum_cons, List.sum_nil,
      List.replicate_add, List.append_assoc, List.replicate_zero]

/-- C71: for `large_n > -5`, `generate_data` returns as many labels as points, all points in
[-0.05, 1.05]² and all labels at most 3; points and labels together are the drawn blocks restricted to
that square, so every kept point has the label of its block and the order is that of the blocks. -/
theorem C71_generate_data (cosA sinA : K) {largeN : ℤ} (h : -5 < largeN) (z u : ℕ → ℕ → K × K) :
    ∃ data y, generateData cosA sinA largeN z u = .ok (data, y) ∧ data.length = y.length ∧
      (∀ p ∈ data, InBox p) ∧ (∀ l ∈ y, l ≤ 3) ∧
      data.zip y = (labelled (dataBlocks cosA sinA ⌊(3 / 13 : ℚ) * largeN⌋₊ z u)).filter
        fun e => decide (InBox e.1) := by
  refine ⟨_, _, generateData_eq cosA sinA h z u, by simp, ?_, ?_, ?_⟩
  · intro p hp
    obtain ⟨e, he, rfl⟩ := List.mem_map.1 hp
    exact of_decide_eq_true (List.mem_filter.1 he).2
  · intro l hl
    obtain ⟨e, he, rfl⟩ := List.mem_map.1 hl
    have := (List.mem_filter.1 he).1
    obtain ⟨b, hb, hx⟩ := List.mem_flatMap.1 this
    obtain ⟨i, -, rfl⟩ := List.mem_map.1 hx
    simp only [dataBlocks, List.mem_cons, List.not_mem_nil, or_false] at hb
    rcases hb with rfl | rfl | rfl | rfl | rfl | rfl | rfl | rfl | rfl <;> simp
  · rw [← List.unzip_fst, ← List.unzip_snd, List.zip_unzip]

/-- C71: a negative number of points per class raises ValueError. -/
theorem C71_negative (cosA sinA : K) {largeN : ℤ} (h : largeN ≤ -5) (z u : ℕ → ℕ → K × K) :
    generateData cosA sinA largeN z u = .error .valueError := by
  unfold generateData
  have : (3 * largeN).tdiv 13 < 0 := by
    have e : 3 * largeN = -((-(3 * largeN))) := by ring
    rw [e, Int.neg_tdiv, Int.tdiv_eq_ediv_of_nonneg (by omega)]
    omega
  simp only [this, if_true]

/-- Instance with five points per class; the normal draw of the first block lands outside. -/
example : generateData (1 : ℚ) 0 22 (fun b _ => if b = 0 then (5, 0) else (0, 0)) (fun _ _ => (1/2, 1/2)) =
    .ok ([(1/2, 9/10), (1/2, 9/10), (1/2, 9/10), (9/10, 1/2), (9/10, 1/2), (9/10, 1/2), (9/10, 1/2),
      (9/10, 1/2), (17/40, 13/40), (17/40, 13/40), (17/40, 13/40), (17/40, 13/40), (17/40, 13/40),
      (1/2, 1/10), (1/2, 1/10), (1/2, 1/10), (1/10, 1/2), (1/10, 1/2), (1/10, 1/2), (1/10, 1/2)],
      [2, 2, 2, 3, 3, 3, 3, 3, 0, 0, 0, 0, 0, 1, 1, 1, 1, 1, 1, 1]) := by
  decide +kernel

/-! ### C91: how many points -/

/-- Number of kept points of a block. -/
def keptCount (b : DataBlock K) : ℕ := ((List.range b.count).filter fun i => decide (InBox (b.point i))).length

theorem kept_labels (l : List (DataBlock K)) :
    ((labelled l).filter fun e => decide (InBox e.1)).map Prod.snd =
      l.flatMap fun b => List.replicate (keptCount b) b.label := by
  induction l with
  | nil => rfl
  | cons b l ih =>
    simp only [labelled, List.flatMap_cons, List.filter_append, List.map_append] at ih ⊢
    rw [ih]
    congr 1
    rw [List.filter_map, List.map_map, List.eq_replicate_iff]
    refine ⟨by simp [keptCount, Function.comp_def], ?_⟩
    intro x hx
    obtain ⟨i, -, rfl⟩ := List.mem_map.1 hx
    rfl

theorem keptCount_le (b : DataBlock K) : keptCount b ≤ b.count := by
  unfold keptCount
  exact (List.length_filter_le _ _).trans (by simp)

theorem keptCount_all {b : DataBlock K} (h : ∀ i, InBox (b.point i)) : keptCount b = b.count := by
  unfold keptCount
  rw [List.filter_eq_self.2 (by simp [h])]
  simp

/-- The rotation angle of `generate_data` in radians. -/
noncomputable abbrev angle : ℝ := -10 * (Real.pi / 180)

theorem angle_bounds : 0 ≤ Real.cos angle ∧ Real.cos angle ≤ 1 ∧ -(7/40) ≤ Real.sin angle ∧
    Real.sin angle ≤ 0 := by
  have hp := Real.pi_pos
  have hp2 := Real.pi_lt_d2
  have e : angle = -(Real.pi / 18) := by unfold angle; ring
  rw [e, Real.cos_neg, Real.sin_neg]
  refine ⟨Real.cos_nonneg_of_neg_pi_div_two_le_of_le (by linarith) (by linarith), Real.cos_le_one _, ?_, ?_⟩
  · have := Real.sin_le (x := Real.pi / 18) (by positivity)
    linarith
  · have := Real.sin_nonneg_of_nonneg_of_le_pi (x := Real.pi / 18) (by positivity) (by linarith)
    linarith

/-- A draw from [0, 1)². -/
def UnitPair (w : ℝ × ℝ) : Prop := 0 ≤ w.1 ∧ w.1 < 1 ∧ 0 ≤ w.2 ∧ w.2 < 1

/-- The centred square is inside the kept region. -/
theorem square_in_box {w : ℝ × ℝ} (h : UnitPair w) :
    InBox (7/40 + 1/2 * (Real.cos angle * w.1 + Real.sin angle * w.2),
      3/40 + 1/2 * (Real.cos angle * w.2 - Real.sin angle * w.1)) := by
  obtain ⟨c0, c1, s0, s1⟩ := angle_bounds
  obtain ⟨a, b, c, d⟩ := h
  have h1 := mul_nonneg c0 a
  have h2 : Real.cos angle * w.1 ≤ 1 := by nlinarith
  have h3 := mul_nonneg c0 c
  have h4 : Real.cos angle * w.2 ≤ 1 := by nlinarith
  have h5 : Real.sin angle * w.2 ≤ 0 := by nlinarith
  have h6 : -(7/40) ≤ Real.sin angle * w.2 := by nlinarith
  have h7 : Real.sin angle * w.1 ≤ 0 := by nlinarith
  have h8 : -(7/40) ≤ Real.sin angle * w.1 := by nlinarith
  refine ⟨?_, ?_, ?_, ?_⟩ <;> simp only <;> linarith

theorem size_arith (a n : ℕ) (h : n = a * 3 / 13) : 67 * a < (n * 2 / 5 + n * 3 / 5 + (n * 2 / 5 + n * 3 / 5) +
    n + (n * 4 / 15 + n * 2 / 5 + (n * 2 / 5 + n * 2 / 5))) * 65 + 650 := by
  have h1 : 3 * a ≤ 13 * n + 12 := by omega
  clear h
  obtain ⟨q, r, hr, rfl⟩ : ∃ q r, r < 15 ∧ n = 15 * q + r := ⟨n / 15, n % 15, by omega, by omega⟩
  interval_cases r <;> omega

/-- C91: with uniform draws from [0, 1), class 0 has exactly `n = int(large_n / (4 + 1/3))` points, classes
2 and 3 have between `int(.6 n)` and `n` each, class 1 between `2 int(.4 n)` and `22 n / 15`, and at
most `67/65 * large_n` points are returned; if no drawn point is removed, more than
`67/65 * large_n - 10` are. -/
theorem C91_sizes_partial {L : ℤ} (hL : 0 ≤ L) (z : ℕ → ℕ → ℝ × ℝ) {u : ℕ → ℕ → ℝ × ℝ}
    (hu : ∀ b i, UnitPair (u b i)) {n : ℕ} (hn : n = ⌊(3 / 13 : ℚ) * L⌋₊) :
    ∃ data y, generateData (Real.cos angle) (Real.sin angle) L z u = .ok (data, y) ∧
      y.count 0 = n ∧
      (∀ c, c = 2 ∨ c = 3 → ⌊(3 / 5 : ℚ) * n⌋₊ ≤ y.count c ∧ y.count c ≤ n) ∧
      2 * ⌊(2 / 5 : ℚ) * n⌋₊ ≤ y.count 1 ∧ (y.count 1 : ℚ) ≤ 22 / 15 * n ∧
      (y.length : ℚ) ≤ 67 / 65 * L ∧
      ((∀ e ∈ labelled (dataBlocks (Real.cos angle) (Real.sin angle) n z u), InBox e.1) →
        67 / 65 * (L : ℚ) - 10 < y.length) := by
  refine ⟨_, _, generateData_eq _ _ (by omega) z u, ?_⟩
  rw [← hn, kept_labels]
  have f1 := floor_frac 2 5 n (by norm_num)
  have f2 := floor_frac 3 5 n (by norm_num)
  have f3 := floor_frac 4 15 n (by norm_num)
  push_cast at f1 f2 f3
  have hnL : n = L.toNat * 3 / 13 := by
    lift L to ℕ using hL
    have := floor_frac 3 13 L (by norm_num)
    push_cast at this hn ⊢
    rw [hn, this]; rfl
  set B := dataBlocks (Real.cos angle) (Real.sin angle) n z u with hB
  obtain ⟨b1, b2, b3, b4, b5, b6, b7, b8, b9, hBB, hl1, hl2, hl3, hl4, hl5, hl6, hl7, hl8, hl9,
      k1, k2, k3, k4, k5, k6, k7, k8, k9⟩ :
      ∃ b1 b2 b3 b4 b5 b6 b7 b8 b9 : DataBlock ℝ, B = [b1, b2, b3, b4, b5, b6, b7, b8, b9] ∧
        b1.label = 2 ∧ b2.label = 2 ∧ b3.label = 3 ∧ b4.label = 3 ∧ b5.label = 0 ∧ b6.label = 1 ∧
        b7.label = 1 ∧ b8.label = 1 ∧ b9.label = 1 ∧
        b1.count = n * 2 / 5 ∧ keptCount b2 = n * 3 / 5 ∧ b3.count = n * 2 / 5 ∧
        keptCount b4 = n * 3 / 5 ∧ keptCount b5 = n ∧ b6.count = n * 4 / 15 ∧
        keptCount b7 = n * 2 / 5 ∧ b8.count = n * 2 / 5 ∧ keptCount b9 = n * 2 / 5 := by
    refine ⟨_, _, _, _, _, _, _, _, _, rfl, rfl, rfl, rfl, rfl, rfl, rfl, rfl, rfl, rfl, f1, ?_, f1, ?_,
      ?_, f3, ?_, f1, ?_⟩
    · rw [keptCount_all, f2]
      intro i
      obtain ⟨a, b, c, d⟩ := hu 1 i
      refine ⟨?_, ?_, ?_, ?_⟩ <;> simp only <;> linarith
    · rw [keptCount_all, f2]
      intro i
      obtain ⟨a, b, c, d⟩ := hu 3 i
      refine ⟨?_, ?_, ?_, ?_⟩ <;> simp only <;> linarith
    · rw [keptCount_all]
      exact fun i => square_in_box (hu 4 i)
    · rw [keptCount_all, f1]
      intro i
      obtain ⟨a, b, c, d⟩ := hu 6 i
      refine ⟨?_, ?_, ?_, ?_⟩ <;> simp only <;> linarith
    · rw [keptCount_all, f1]
      intro i
      obtain ⟨a, b, c, d⟩ := hu 8 i
      refine ⟨?_, ?_, ?_, ?_⟩ <;> simp only <;> linarith
  have l1 := keptCount_le b1
  have l3 := keptCount_le b3
  have l6 := keptCount_le b6
  have l8 := keptCount_le b8
  rw [f1, f2]
  have cnt : ∀ c, (B.flatMap fun b => List.replicate (keptCount b) b.label).count c =
      (if 2 = c then keptCount b1 + n * 3 / 5 else 0) + (if 3 = c then keptCount b3 + n * 3 / 5 else 0) +
      (if 0 = c then n else 0) +
      (if 1 = c then keptCount b6 + n * 2 / 5 + (keptCount b8 + n * 2 / 5) else 0) := by
    intro c
    rw [hBB]
    simp only [List.flatMap_cons, List.flatMap_nil, List.append_nil, List.count_append,
      List.count_replicate, hl1, hl2, hl3, hl4, hl5, hl6, hl7, hl8, hl9, k2, k4, k5, k7, k9,
      beq_iff_eq]
    split_ifs <;> omega
  have len : (B.flatMap fun b => List.replicate (keptCount b) b.label).length =
      keptCount b1 + n * 3 / 5 + (keptCount b3 + n * 3 / 5) + n +
        (keptCount b6 + n * 2 / 5 + (keptCount b8 + n * 2 / 5)) := by
    rw [hBB]
    simp only [List.flatMap_cons, List.flatMap_nil, List.append_nil, List.length_append,
      List.length_replicate, k2, k4, k5, k7, k9]
    omega
  have hLq : (L : ℚ) = (L.toNat : ℚ) := by
    rw [← Int.cast_natCast, Int.toNat_of_nonneg hL]
  rw [len, hLq, cnt, cnt]
  refine ⟨by simp, ?_, ?_, ?_, ?_, ?_⟩
  · rintro c (rfl | rfl) <;> rw [cnt] <;> simp <;> omega
  · simp; omega
  · rw [show (22 / 15 * (n : ℚ)) = ((22 * n : ℕ) : ℚ) / 15 by push_cast; ring, le_div_iff₀ (by norm_num)]
    norm_cast
    simp; omega
  · rw [show (67 / 65 * (L.toNat : ℚ)) = ((67 * L.toNat : ℕ) : ℚ) / 65 by push_cast; ring,
      le_div_iff₀ (by norm_num)]
    norm_cast
    omega
  · intro hall
    have hk : ∀ b ∈ B, keptCount b = b.count := by
      intro b hb
      unfold keptCount
      rw [List.filter_eq_self.2, List.length_range]
      intro i hi
      exact decide_eq_true (hall (b.point i, b.label)
        (List.mem_flatMap.2 ⟨b, hb, List.mem_map.2 ⟨i, hi, rfl⟩⟩))
    rw [hBB] at hk
    have m1 := hk b1 (by simp)
    have m3 := hk b3 (by simp)
    have m6 := hk b6 (by simp)
    have m8 := hk b8 (by simp)
    rw [m1, m3, m6, m8, k1, k3, k6, k8, show (67 / 65 * (L.toNat : ℚ)) - 10 =
      (((67 * L.toNat : ℕ) : ℚ) - 650) / 65 by push_cast; ring, div_lt_iff₀ (by norm_num), sub_lt_iff_lt_add]
    have := size_arith _ _ hnL
    norm_cast

/-- C91, the full claim "about `large_n` points" read as an upper bound fails: the left normal block is
drawn without the factor 2/3, so 65 requested points can give 67. -/
theorem C91_refuted : ¬ ∀ (L : ℤ) (z u : ℕ → ℕ → ℝ × ℝ) (data : List (ℝ × ℝ)) (y : List ℕ), 0 ≤ L →
    (∀ b i, UnitPair (u b i)) →
    generateData (Real.cos angle) (Real.sin angle) L z u = .ok (data, y) → (y.length : ℤ) ≤ L := by
  intro h
  have hu : ∀ b i : ℕ, UnitPair ((fun _ _ => (0, 0) : ℕ → ℕ → ℝ × ℝ) b i) := by
    intro b i; simp [UnitPair]
  have hn : (15 : ℕ) = ⌊(3 / 13 : ℚ) * (65 : ℤ)⌋₊ := by norm_num
  obtain ⟨data, y, hy, -⟩ := C91_sizes_partial (L := 65) (by norm_num) (fun _ _ => (0, 0)) hu hn
  have := h 65 _ _ data y (by norm_num) hu hy
  rw [generateData_eq _ _ (by norm_num), ← hn, kept_labels] at hy
  simp only [Except.ok.injEq, Prod.mk.injEq] at hy
  rw [← hy.2] at this
  have hk : ∀ b ∈ dataBlocks (Real.cos angle) (Real.sin angle) 15 (fun _ _ => (0, 0)) (fun _ _ => (0, 0)),
      keptCount b = b.count := by
    intro b hb
    apply keptCount_all
    intro i
    simp only [dataBlocks, List.mem_cons, List.not_mem_nil, or_false] at hb
    rcases hb with rfl | rfl | rfl | rfl | rfl | rfl | rfl | rfl | rfl <;> norm_num [InBox]
  have hs : ∀ l : List (DataBlock ℝ), (∀ b ∈ l, keptCount b = b.count) →
      (l.flatMap fun b => List.replicate (keptCount b) b.label).length = (l.map DataBlock.count).sum := by
    intro l hl
    induction l with
    | nil => rfl
    | cons b l ih =>
      simp only [List.flatMap_cons, List.length_append, List.length_replicate, List.map_cons,
        List.sum_cons]
      rw [ih (fun b hb => hl b (by simp [hb])), hl b (by simp)]
  rw [hs _ hk] at this
  simp only [dataBlocks, List.map_cons, List.map_nil, List.sum_cons, List.sum_nil] at this
  norm_num at this

/-! ### generate_data_knn -/

theorem maskWrite_get (mask : List Bool) : ∀ (y : List ℕ) (vals : ℕ → ℕ) (i : ℕ), mask.length = y.length →
    (maskWrite mask y vals)[i]? =
      if mask[i]? = some true then some (vals ((mask.take i).count true)) else y[i]? := by
  induction mask with
  | nil => intro y vals i h; cases y <;> simp [maskWrite] at h ⊢
  | cons m mask ih =>
    intro y vals i h
    cases y with
    | nil => simp at h
    | cons a y =>
      have h' : mask.length = y.length := by simpa using h
      cases m
      · cases i with
        | zero => simp [maskWrite]
        | succ i => simp [maskWrite, ih y vals i h']
      · cases i with
        | zero => simp [maskWrite]
        | succ i => simp [maskWrite, ih y _ i h']

theorem maskWrite_length (mask : List Bool) : ∀ (y : List ℕ) (vals : ℕ → ℕ),
    (maskWrite mask y vals).length = y.length := by
  induction mask with
  | nil => intro y vals; simp [maskWrite]
  | cons m mask ih =>
    intro y vals
    cases y with
    | nil => cases m <;> simp [maskWrite]
    | cons a y => cases m <;> simp [maskWrite, ih]

theorem foldl_min_least (l : List K) : ∀ a, IsLeast {x | x = a ∨ x ∈ l} (l.foldl min a) := by
  induction l with
  | nil => intro a; simp [IsLeast, lowerBounds]
  | cons b l ih =>
    intro a
    obtain ⟨h1, h2⟩ := ih (min a b)
    rw [List.foldl_cons]
    have hm := h2 (Or.inl rfl)
    refine ⟨?_, ?_⟩
    · rcases h1 with h | h
      · rcases min_choice a b with e | e
        · exact Or.inl (h.trans e)
        · exact Or.inr (by rw [h, e]; simp)
      · exact Or.inr (List.mem_cons_of_mem _ h)
    · rintro x (rfl | hx)
      · exact hm.trans (min_le_left _ _)
      · rcases List.mem_cons.1 hx with rfl | hx
        · exact hm.trans (min_le_right _ _)
        · exact h2 (Or.inr hx)

theorem foldl_max_greatest (l : List K) : ∀ a, IsGreatest {x | x = a ∨ x ∈ l} (l.foldl max a) := by
  induction l with
  | nil => intro a; simp [IsGreatest, upperBounds]
  | cons b l ih =>
    intro a
    obtain ⟨h1, h2⟩ := ih (max a b)
    rw [List.foldl_cons]
    have hm := h2 (Or.inl rfl)
    refine ⟨?_, ?_⟩
    · rcases h1 with h | h
      · rcases max_choice a b with e | e
        · exact Or.inl (h.trans e)
        · exact Or.inr (by rw [h, e]; simp)
      · exact Or.inr (List.mem_cons_of_mem _ h)
    · rintro x (rfl | hx)
      · exact (le_max_left _ _).trans hm
      · rcases List.mem_cons.1 hx with rfl | hx
        · exact (le_max_right _ _).trans hm
        · exact h2 (Or.inr hx)

theorem listMin_least {l : List K} (h : l ≠ []) : IsLeast {x | x ∈ l} (listMin l) := by
  obtain ⟨a, l, rfl⟩ := List.exists_cons_of_ne_nil h
  have := foldl_min_least (a :: l) a
  simpa [listMin] using this

theorem listMax_greatest {l : List K} (h : l ≠ []) : IsGreatest {x | x ∈ l} (listMax l) := by
  obtain ⟨a, l, rfl⟩ := List.exists_cons_of_ne_nil h
  have := foldl_max_greatest (a :: l) a
  simpa [listMax] using this

theorem listMin_three {a b c : List K} (ha : a ≠ []) (hb : b ≠ []) (hc : c ≠ []) :
    IsLeast {x | x ∈ a ∨ x ∈ b ∨ x ∈ c} (listMin [listMin a, listMin b, listMin c]) := by
  obtain ⟨h1, h2⟩ := listMin_least (l := [listMin a, listMin b, listMin c]) (by simp)
  have a1 := listMin_least ha
  have b1 := listMin_least hb
  have c1 := listMin_least hc
  refine ⟨?_, ?_⟩
  · simp only [Set.mem_setOf_eq, List.mem_cons, List.not_mem_nil, or_false] at h1
    rcases h1 with h | h | h <;> rw [h]
    · exact Or.inl a1.1
    · exact Or.inr (Or.inl b1.1)
    · exact Or.inr (Or.inr c1.1)
  · rintro x (hx | hx | hx)
    · exact (h2 (by simp)).trans (a1.2 hx)
    · exact (h2 (by simp)).trans (b1.2 hx)
    · exact (h2 (by simp)).trans (c1.2 hx)

theorem listMax_three {a b c : List K} (ha : a ≠ []) (hb : b ≠ []) (hc : c ≠ []) :
    IsGreatest {x | x ∈ a ∨ x ∈ b ∨ x ∈ c} (listMax [listMax a, listMax b, listMax c]) := by
  obtain ⟨h1, h2⟩ := listMax_greatest (l := [listMax a, listMax b, listMax c]) (by simp)
  have a1 := listMax_greatest ha
  have b1 := listMax_greatest hb
  have c1 := listMax_greatest hc
  refine ⟨?_, ?_⟩
  · simp only [Set.mem_setOf_eq, List.mem_cons, List.not_mem_nil, or_false] at h1
    rcases h1 with h | h | h <;> rw [h]
    · exact Or.inl a1.1
    · exact Or.inr (Or.inl b1.1)
    · exact Or.inr (Or.inr c1.1)
  · rintro x (hx | hx | hx)
    · exact (a1.2 hx).trans (h2 (by simp))
    · exact (b1.2 hx).trans (h2 (by simp))
    · exact (c1.2 hx).trans (h2 (by simp))

theorem take_count (value : List ℕ) (w i : ℕ) :
    ((value.map fun v => v == w).take i).count true = (value.take i).count w := by
  rw [← List.map_take, List.count_eq_countP, List.count_eq_countP, List.countP_map]
  congr 1
  funext v
  simp

theorem knnLabels_spec {value : List ℕ} {p : List K} {b : ℕ → ℕ → ℕ} (e0 : knnProb p 0 = .ok ())
    (e1 : knnProb p 1 = .ok ()) :
    ∃ y, knnLabels value p b = .ok y ∧ y.length = value.length ∧ ∀ i v, value[i]? = some v →
      y[i]? = some (if v = 3 then 1 else if v = 1 ∨ v = 2 then b v ((value.take i).count v) else 0) := by
  simp only [knnLabels, e0, e1, bind, Except.bind, pure, Except.pure]
  refine ⟨_, rfl, by simp [maskWrite_length], fun i v hv => ?_⟩
  have hi : i < value.length := by
    by_contra hc
    rw [List.getElem?_eq_none (by omega)] at hv
    cases hv
  rw [maskWrite_get _ _ _ _ (by simp [maskWrite_length]), maskWrite_get _ _ _ _ (by simp [maskWrite_length]),
    maskWrite_get _ _ _ _ (by simp)]
  simp only [List.getElem?_map, hv, take_count, List.getElem?_replicate, hi, Option.map_some,
    Option.some.injEq, beq_iff_eq, if_true]
  by_cases h3 : v = 3
  · simp [h3]
  · by_cases h2 : v = 2
    · simp [h2]
    · by_cases h1 : v = 1
      · simp [h1]
      · simp [h1, h2, h3]

/-- C92: for valid probabilities `generate_data_knn` returns `n` points, labels and values. Point `i` is
its draw stretched over the smallest box: horizontally from the least to the greatest abscissa of the
constants, vertically from 0.1 below the least `lower` ordinate to 0.1 above the greatest `upper` one.
Its value counts the polygons containing it; its label is 0 for value 0, 1 for value 3, and otherwise
the next unused binomial draw of that value. -/
theorem C92_knn {lower mid upper : List (K × K)} (hl : lower ≠ []) (hm : mid ≠ []) (hup : upper ≠ [])
    (inL inC inU : K × K → Bool) (n : ℕ) {p : List K} {p0 p1 : K} (hp0 : p[0]? = some p0)
    (hp1 : p[1]? = some p1) (h0 : 0 ≤ p0 ∧ p0 ≤ 1) (h1 : 0 ≤ p1 ∧ p1 ≤ 1) (u : ℕ → K × K)
    (b : ℕ → ℕ → ℕ) :
    ∃ new y value, generateKnn lower mid upper inL inC inU n p u b = .ok (new, y, value) ∧
      new.length = n ∧ y.length = n ∧ value.length = n ∧
      (∃ left right below above,
        IsLeast {x | ∃ q, (q ∈ lower ∨ q ∈ mid ∨ q ∈ upper) ∧ q.1 = x} left ∧
        IsGreatest {x | ∃ q, (q ∈ lower ∨ q ∈ mid ∨ q ∈ upper) ∧ q.1 = x} right ∧
        IsLeast {x | ∃ q ∈ lower, q.2 = x} below ∧ IsGreatest {x | ∃ q ∈ upper, q.2 = x} above ∧
        ∀ i < n, new[i]? = some (left + (right - left) * (u i).1,
          below - 1/10 + (above + 1/10 - (below - 1/10)) * (u i).2)) ∧
      ∀ i < n, ∃ q v l, new[i]? = some q ∧ value[i]? = some v ∧ y[i]? = some l ∧
        v = [inL q, inC q, inU q].count true ∧ (v = 0 → l = 0) ∧ (v = 3 → l = 1) ∧
        (v = 1 ∨ v = 2 → l = b v ((value.take i).count v)) := by
  have e0 : knnProb p 0 = .ok () := by
    simp only [knnProb, hp0]
    rw [if_neg (by push Not; exact ⟨h0.1, h0.2⟩)]
  have e1 : knnProb p 1 = .ok () := by
    simp only [knnProb, hp1]
    rw [if_neg (by push Not; exact ⟨h1.1, h1.2⟩)]
  have hneg : ¬ ((n : ℤ) < 0) := by omega
  set left := listMin [listMin (lower.map Prod.fst), listMin (upper.map Prod.fst),
    listMin (mid.map Prod.fst)] with hleft
  set right := listMax [listMax (lower.map Prod.fst), listMax (upper.map Prod.fst),
    listMax (mid.map Prod.fst)] with hright
  set new := (List.range n).map fun i => (drawUniform left right (u i).1,
    drawUniform (listMin (lower.map Prod.snd) - 1/10) (listMax (upper.map Prod.snd) + 1/10) (u i).2)
    with hnew
  set value := new.map fun q => (inL q).toNat * 1 + (inC q).toNat * 1 + (inU q).toNat * 1 with hvalue
  obtain ⟨y, hy, hlen, hspec⟩ := knnLabels_spec (value := value) (b := b) e0 e1
  have hrun : generateKnn lower mid upper inL inC inU n p u b = .ok (new, y, value) := by
    simp only [generateKnn, hneg, if_false, Int.toNat_natCast, ← hleft, ← hright, ← hnew, ← hvalue, hy,
      bind, Except.bind, pure, Except.pure]
  have hl' : lower.map Prod.fst ≠ [] := by simpa using hl
  have hm' : mid.map Prod.fst ≠ [] := by simpa using hm
  have hu' : upper.map Prod.fst ≠ [] := by simpa using hup
  have hx : {x | ∃ q, (q ∈ lower ∨ q ∈ mid ∨ q ∈ upper) ∧ q.1 = x} =
      {x | x ∈ lower.map Prod.fst ∨ x ∈ upper.map Prod.fst ∨ x ∈ mid.map Prod.fst} := by
    ext x
    simp only [Set.mem_setOf_eq, List.mem_map]
    constructor
    · rintro ⟨q, hq | hq | hq, rfl⟩
      · exact Or.inl ⟨q, hq, rfl⟩
      · exact Or.inr (Or.inr ⟨q, hq, rfl⟩)
      · exact Or.inr (Or.inl ⟨q, hq, rfl⟩)
    · rintro (⟨q, hq, rfl⟩ | ⟨q, hq, rfl⟩ | ⟨q, hq, rfl⟩)
      · exact ⟨q, Or.inl hq, rfl⟩
      · exact ⟨q, Or.inr (Or.inr hq), rfl⟩
      · exact ⟨q, Or.inr (Or.inl hq), rfl⟩
  have hyl := listMin_least (l := lower.map Prod.snd) (by simpa using hl)
  have hyu := listMax_greatest (l := upper.map Prod.snd) (by simpa using hup)
  simp only [List.mem_map] at hyl hyu
  refine ⟨new, y, value, hrun, by simp [hnew], by simp [hlen, hvalue, hnew], by simp [hvalue, hnew],
    ⟨left, right, _, _, ?_, ?_, hyl, hyu, ?_⟩, ?_⟩
  · rw [hx]; exact listMin_three hl' hu' hm'
  · rw [hx]; exact listMax_three hl' hu' hm'
  · intro i hi
    simp [hnew, hi, drawUniform]
  · intro i hi
    have h2 : new[i]? = some (new[i]'(by simp [hnew, hi])) := List.getElem?_eq_getElem _
    generalize new[i]'(by simp [hnew, hi]) = q at h2
    have h3 : value[i]? = some ((inL q).toNat * 1 + (inC q).toNat * 1 + (inU q).toNat * 1) := by
      rw [hvalue, List.getElem?_map, h2]; rfl
    have h4 := hspec i _ h3
    refine ⟨q, _, _, h2, h3, h4, ?_, ?_, ?_, ?_⟩
    · cases inL q <;> cases inC q <;> cases inU q <;> rfl
    · intro hv; rw [hv]; rfl
    · intro hv; rw [if_pos hv]
    · intro hv
      rw [if_neg (by rcases hv with h | h <;> omega), if_pos hv]

/-- C92, errors in order: negative `n`, then `p[0]`, then `p[1]`. -/
theorem C92_errors (lower mid upper : List (K × K)) (inL inC inU : K × K → Bool) (n : ℤ) (p : List K)
    (u : ℕ → K × K) (b : ℕ → ℕ → ℕ) :
    (n < 0 → generateKnn lower mid upper inL inC inU n p u b = .error .valueError) ∧
    (0 ≤ n → p = [] → generateKnn lower mid upper inL inC inU n p u b = .error .indexError) ∧
    (0 ≤ n → ∀ p0 ps, p = p0 :: ps → (p0 < 0 ∨ 1 < p0) →
      generateKnn lower mid upper inL inC inU n p u b = .error .valueError) ∧
    (0 ≤ n → ∀ p0, p = [p0] → 0 ≤ p0 → p0 ≤ 1 →
      generateKnn lower mid upper inL inC inU n p u b = .error .indexError) ∧
    (0 ≤ n → ∀ p0 p1 ps, p = p0 :: p1 :: ps → 0 ≤ p0 → p0 ≤ 1 → (p1 < 0 ∨ 1 < p1) →
      generateKnn lower mid upper inL inC inU n p u b = .error .valueError) := by
  refine ⟨?_, ?_, ?_, ?_, ?_⟩
  · intro h
    simp [generateKnn, h]
  · rintro h rfl
    simp [generateKnn, not_lt.2 h, knnLabels, knnProb, bind, Except.bind]
  · rintro h p0 ps rfl hp
    simp [generateKnn, not_lt.2 h, knnLabels, knnProb, bind, Except.bind, hp]
  · rintro h p0 rfl a1 a2
    simp [generateKnn, not_lt.2 h, knnLabels, knnProb, bind, Except.bind, not_lt.2 a1, not_lt.2 a2]
  · rintro h p0 p1 ps rfl a1 a2 hp
    simp [generateKnn, not_lt.2 h, knnLabels, knnProb, bind, Except.bind, not_lt.2 a1, not_lt.2 a2, hp]

/-- Instance: four points with values 3, 1, 0, 1; the two binomial draws for value 1 are used in order. -/
example : generateKnn [((0 : ℚ), 1/10), (1, 1/10)] [(0, 1/2), (1, 1/2)] [(0, 9/10), (1, 9/10)]
    (fun q => q.2 > 1/10) (fun q => q.2 > 1/2) (fun q => q.2 > 9/10) 4 [2/5, 3/5]
    (fun i => (1/2, if i = 0 then 19/20 else if i = 2 then 0 else 1/4)) (fun v k => if v = 1 then k else 0) =
    .ok ([(1/2, 19/20), (1/2, 1/4), (1/2, 0), (1/2, 1/4)], [1, 0, 0, 1], [3, 1, 0, 1]) := by
  decide +kernel

/-! ### spirals -/

/-- C72: with at least one class, nonnegative sizes, uniform draws that are not negative and
`t_shift >= 0`, `spirals` returns `int(n_total / n_classes)` rows for each class `0, 1, ...`, class by
class; row `i` of class `c` has `t = 2 pi u + 2 pi c / n_classes + t_shift` and lies at radius
`sqrt (2 pi u + t_shift)` and angle `t`, plus the noise. -/
theorem C72_spirals (cos sin sqrt : K → K) {twoPi : K} (hpi : 0 ≤ twoPi) (nTotal : ℕ) {nClasses : ℕ}
    (hc : 0 < nClasses) (noiseSd : K) {tShift : K} (ht : 0 ≤ tShift) {u : ℕ → ℕ → K}
    (hu : ∀ c i, 0 ≤ u c i) (nx ny : ℕ → ℕ → K) {nEach : ℕ} (hn : nEach = ⌊(nTotal : ℚ) / nClasses⌋₊) :
    ∃ rows, spirals cos sin sqrt twoPi nTotal nClasses noiseSd tShift u nx ny = .ok rows ∧
      rows.length = nClasses * nEach ∧
      rows.map SpiralRow.cls = (List.range nClasses).flatMap (fun c => List.replicate nEach c) ∧
      ∀ c < nClasses, ∀ i < nEach, ∃ r, rows[c * nEach + i]? = some r ∧
        r.t = twoPi * u c i + twoPi * c / nClasses + tShift ∧
        r.x = sqrt (twoPi * u c i + tShift) * cos r.t + noiseSd * nx c i ∧
        r.y = sqrt (twoPi * u c i + tShift) * sin r.t + noiseSd * ny c i := by
  have hn' : nEach = nTotal / nClasses := by rw [hn, Nat.floor_div_eq_div]
  have hq : (nTotal : ℤ).tdiv nClasses = nEach := by
    rw [hn', Int.tdiv_eq_ediv_of_nonneg (by positivity)]; rfl
  let row : ℕ → ℕ → SpiralRow K := fun c i =>
    ⟨twoPi * u c i + twoPi * c / nClasses + tShift,
     sqrt (twoPi * u c i + tShift) * cos (twoPi * u c i + twoPi * c / nClasses + tShift) + noiseSd * nx c i,
     sqrt (twoPi * u c i + tShift) * sin (twoPi * u c i + twoPi * c / nClasses + tShift) + noiseSd * ny c i,
     c⟩
  have hrow : ∀ c i : ℕ, spiralRow cos sin sqrt noiseSd tShift ((c : K) * (twoPi / (nClasses : K)) + 0) c
      (drawUniform 0 twoPi (u c i)) (nx c i) (ny c i) = .ok (row c i) := by
    intro c i
    have e1 : drawUniform 0 twoPi (u c i) = twoPi * u c i := by simp [drawUniform]
    have e2 : (c : K) * (twoPi / nClasses) + 0 = twoPi * c / nClasses := by ring
    have e3 : twoPi * u c i + twoPi * c / nClasses + tShift - twoPi * c / nClasses =
        twoPi * u c i + tShift := by ring
    simp only [spiralRow, e1, e2, e3]
    rw [if_neg (not_lt.2 (add_nonneg (mul_nonneg hpi (hu c i)) ht))]
  have hrun : spirals cos sin sqrt twoPi nTotal nClasses noiseSd tShift u nx ny =
      .ok ((List.range nClasses).flatMap fun c => (List.range nEach).map (row c)) := by
    unfold spirals
    rw [if_neg (by omega), if_neg (by omega)]
    simp only [hq]
    rw [if_neg (by omega)]
    simp only [Int.toNat_natCast, Int.cast_natCast]
    have hz : ((List.range nClasses).map fun c : ℕ => (c : K) * (twoPi / (nClasses : K)) + 0).zipIdx =
        (List.range nClasses).map fun c : ℕ => ((c : K) * (twoPi / (nClasses : K)) + 0, c) := by
      apply List.ext_getElem?
      intro i
      by_cases hi : i < nClasses <;> simp [List.getElem?_zipIdx, hi]
    rw [hz]
    suffices H : ∀ (l : List ℕ) (acc : List (SpiralRow K)),
        (l.map fun c : ℕ => ((c : K) * (twoPi / (nClasses : K)) + 0, c)).foldlM
          (fun acc sc => do
            let inner ← (List.range nEach).mapM fun i =>
              spiralRow cos sin sqrt noiseSd tShift sc.1 sc.2 (drawUniform 0 twoPi (u sc.2 i)) (nx sc.2 i)
                (ny sc.2 i)
            pure (acc ++ inner)) acc =
        (.ok (acc ++ l.flatMap fun c => (List.range nEach).map (row c)) : Except PyErr _) by
      simpa using H (List.range nClasses) []
    intro l
    induction l with
    | nil => intro acc; simp [pure, Except.pure]
    | cons c l ih =>
      intro acc
      rw [List.map_cons, List.foldlM_cons, SkTree.mapM_ok _ _ (row c) (fun i _ => hrow c i)]
      simp only [bind, Except.bind, pure, Except.pure] at ih ⊢
      rw [ih, List.flatMap_cons, List.append_assoc]
  refine ⟨_, hrun, ?_, ?_, ?_⟩
  · simp
  · rw [List.map_flatMap]
    congr 1
    funext c
    simp [row, Function.comp_def]
  · intro c hc' i hi
    refine ⟨row c i, ?_, rfl, rfl, rfl⟩
    have := flatMap_block (List.range nEach) (fun i c => row c i) (List.range nClasses) c i (by simpa using hi)
    simp only [List.length_range] at this
    rw [this, List.getElem?_range hc']
    simp

/-- C72, refused sizes: a negative number of classes, no class, a negative number of rows per class. -/
theorem C72_errors (cos sin sqrt : K → K) (twoPi : K) (nTotal nClasses : ℤ) (noiseSd tShift : K)
    (u nx ny : ℕ → ℕ → K) :
    (nClasses < 0 → spirals cos sin sqrt twoPi nTotal nClasses noiseSd tShift u nx ny =
      .error .valueError) ∧
    (nClasses = 0 → spirals cos sin sqrt twoPi nTotal nClasses noiseSd tShift u nx ny =
      .error .zeroDivisionError) ∧
    (0 < nClasses → nTotal ≤ -nClasses →
      spirals cos sin sqrt twoPi nTotal nClasses noiseSd tShift u nx ny = .error .valueError) := by
  refine ⟨fun h => by simp [spirals, h], fun h => by simp [spirals, h], fun h1 h2 => ?_⟩
  have : nTotal.tdiv nClasses < 0 := by
    rw [show nTotal = -(-nTotal) by ring, Int.neg_tdiv, Int.tdiv_eq_ediv_of_nonneg (by omega)]
    have : 1 ≤ (-nTotal) / nClasses := (Int.le_ediv_iff_mul_le h1).2 (by omega)
    omega
  simp [spirals, not_lt.2 h1.le, h1.ne', this]

/-- Instance with integer stand-ins for the functions: seven rows requested for three classes give two
each. -/
example : (match spirals (K := ℚ) id id id 6 7 3 0 1 (fun _ i => i / 2) (fun _ _ => 0) (fun _ _ => 0) with
    | .ok rows => some (rows.map fun r => (r.t, r.x, r.cls))
    | .error _ => none) =
      some [(1, 1, 0), (4, 16, 0), (3, 3, 1), (6, 24, 1), (5, 5, 2), (8, 32, 2)] := by decide +kernel

/-- C93: without noise, every row of `spirals` lies at squared radius `2 pi u + t_shift` (between
`t_shift` and `2 pi + t_shift`), and it is the point of class 0 for the same draw rotated by
`2 pi c / n_classes`. -/
theorem C93_spiral_geometry (nTotal : ℕ) {nClasses : ℕ} (hc : 0 < nClasses) {tShift : ℝ} (ht : 0 ≤ tShift)
    {u : ℕ → ℕ → ℝ} (hu : ∀ c i, 0 ≤ u c i ∧ u c i < 1) (nx ny : ℕ → ℕ → ℝ) {nEach : ℕ}
    (hn : nEach = ⌊(nTotal : ℚ) / nClasses⌋₊) :
    ∃ rows, spirals Real.cos Real.sin Real.sqrt (2 * Real.pi) nTotal nClasses 0 tShift u nx ny = .ok rows ∧
      ∀ c < nClasses, ∀ i < nEach, ∃ r, rows[c * nEach + i]? = some r ∧
        r.x ^ 2 + r.y ^ 2 = 2 * Real.pi * u c i + tShift ∧
        tShift ≤ r.x ^ 2 + r.y ^ 2 ∧ r.x ^ 2 + r.y ^ 2 < 2 * Real.pi + tShift ∧
        ∃ x0 y0, x0 = √(2 * Real.pi * u c i + tShift) * Real.cos (2 * Real.pi * u c i + tShift) ∧
          y0 = √(2 * Real.pi * u c i + tShift) * Real.sin (2 * Real.pi * u c i + tShift) ∧
          r.x = x0 * Real.cos (2 * Real.pi * c / nClasses) - y0 * Real.sin (2 * Real.pi * c / nClasses) ∧
          r.y = x0 * Real.sin (2 * Real.pi * c / nClasses) + y0 * Real.cos (2 * Real.pi * c / nClasses) := by
  have hpi := Real.pi_pos
  obtain ⟨rows, h1, -, -, h4⟩ := C72_spirals Real.cos Real.sin Real.sqrt (twoPi := 2 * Real.pi) (by positivity)
    nTotal hc 0 ht (fun c i => (hu c i).1) nx ny hn
  refine ⟨rows, h1, fun c hc' i hi => ?_⟩
  obtain ⟨r, hr, e1, e2, e3⟩ := h4 c hc' i hi
  have hpos : 0 ≤ 2 * Real.pi * u c i + tShift := by
    have := (hu c i).1
    positivity
  have hsq : r.x ^ 2 + r.y ^ 2 = 2 * Real.pi * u c i + tShift := by
    rw [e2, e3]
    have := Real.sin_sq_add_cos_sq r.t
    have hs := Real.sq_sqrt hpos
    linear_combination (2 * Real.pi * u c i + tShift) * this +
      (Real.cos r.t ^ 2 + Real.sin r.t ^ 2) * hs
  refine ⟨r, hr, hsq, ?_, ?_, _, _, rfl, rfl, ?_, ?_⟩
  · rw [hsq]
    have := (hu c i).1
    have : 0 ≤ 2 * Real.pi * u c i := by positivity
    linarith
  · rw [hsq]
    have := (hu c i).2
    nlinarith
  · rw [e2, e1, show 2 * Real.pi * u c i + 2 * Real.pi * c / nClasses + tShift =
      2 * Real.pi * u c i + tShift + 2 * Real.pi * c / nClasses by ring, Real.cos_add]
    ring
  · rw [e3, e1, show 2 * Real.pi * u c i + 2 * Real.pi * c / nClasses + tShift =
      2 * Real.pi * u c i + tShift + 2 * Real.pi * c / nClasses by ring, Real.sin_add]
    ring

/-- C93: a negative `t_shift` below a draw gives NaN. -/
theorem C93_negative_shift (cos sin sqrt : K → K) (shift noiseSd tShift u nx ny : K) (c : ℕ)
    (h : u + tShift < 0) : spiralRow cos sin sqrt noiseSd tShift shift c u nx ny = .error .nonFinite := by
  simp only [spiralRow]
  rw [if_pos (by linarith)]

example : ∃ u : ℕ → ℕ → ℝ, ∀ c i, 0 ≤ u c i ∧ u c i < 1 := ⟨fun _ _ => 1/2, by norm_num⟩

end SmoothRF
