import Verif.Props.DataProps

/-!
# Assertions of test_generate_data.py (C170)
-/

set_option linter.unusedSectionVars false

namespace SmoothRF

variable {K : Type} [Field K] [LinearOrder K] [IsStrictOrderedRing K]

/-- Number of `i < m` whose point lies in the kept square. -/
noncomputable def inBoxCount (m : ℕ) (p : ℕ → ℝ × ℝ) : ℕ := ((List.range m).filter fun i => decide (InBox (p i))).length

/-- C170, `test_generate_data`: for uniform draws from [0, 1) and any normal draws `generate_data(100)`
returns as many labels as points, and their number is 67 plus the number of the 9 + 9 + 6 + 9 normal
points that fall in the square. So it is below 110 always, and above 90 iff at least 24 of the 33 normal
points are kept. -/
theorem C170_generate_data_partial (z : ℕ → ℕ → ℝ × ℝ) {u : ℕ → ℕ → ℝ × ℝ}
    (hu : ∀ b i, UnitPair (u b i)) {k : ℕ}
    (hk : k = inBoxCount 9 (fun i => (1/2 + 33/100 * (z 0 i).1, 9/10 + 1/20 * (z 0 i).2)) +
      inBoxCount 9 (fun i => (9/10 + 1/20 * (z 2 i).1, 1/2 + 33/100 * (z 2 i).2)) +
      inBoxCount 6 (fun i => (1/2 + 33/100 * (z 5 i).1, 1/10 + 1/20 * (z 5 i).2)) +
      inBoxCount 9 (fun i => (1/10 + 1/20 * (z 7 i).1, 1/2 + 33/100 * (z 7 i).2))) :
    ∃ data y, generateData (Real.cos angle) (Real.sin angle) 100 z u = .ok (data, y) ∧
      data.length = y.length ∧ y.length = 67 + k ∧ (y.length : ℚ) < 100 * (11/10) ∧
      ((y.length : ℚ) > 100 * (9/10) ↔ 24 ≤ k) := by
  have hn : (23 : ℕ) = ⌊(3 / 13 : ℚ) * (100 : ℤ)⌋₊ := by norm_num
  have len : (((labelled (dataBlocks (Real.cos angle) (Real.sin angle) 23 z u)).filter
      fun e => decide (InBox e.1)).map Prod.snd).length = 67 + k := by
    rw [kept_labels]
    have f1 : ⌊(2 / 5 : ℚ) * (23 : ℕ)⌋₊ = 9 := by norm_num
    have f2 : ⌊(3 / 5 : ℚ) * (23 : ℕ)⌋₊ = 13 := by norm_num
    have f3 : ⌊(4 / 15 : ℚ) * (23 : ℕ)⌋₊ = 6 := by norm_num
    have s1 : ∀ i, InBox ((u 1 i).1, 4/5 + 1/5 * (u 1 i).2) := by
      intro i
      obtain ⟨a, b, c, d⟩ := hu 1 i
      refine ⟨?_, ?_, ?_, ?_⟩ <;> simp only <;> linarith
    have s3 : ∀ i, InBox (4/5 + 1/5 * (u 3 i).1, (u 3 i).2) := by
      intro i
      obtain ⟨a, b, c, d⟩ := hu 3 i
      refine ⟨?_, ?_, ?_, ?_⟩ <;> simp only <;> linarith
    have s6 : ∀ i, InBox ((u 6 i).1, 1/5 * (u 6 i).2) := by
      intro i
      obtain ⟨a, b, c, d⟩ := hu 6 i
      refine ⟨?_, ?_, ?_, ?_⟩ <;> simp only <;> linarith
    have s8 : ∀ i, InBox (1/5 * (u 8 i).1, (u 8 i).2) := by
      intro i
      obtain ⟨a, b, c, d⟩ := hu 8 i
      refine ⟨?_, ?_, ?_, ?_⟩ <;> simp only <;> linarith
    simp only [dataBlocks, List.flatMap_cons, List.flatMap_nil, List.append_nil, List.length_append,
      List.length_replicate, f1, f2, f3]
    rw [keptCount_all (b := ⟨2, 13, fun i => ((u 1 i).1, 4/5 + 1/5 * (u 1 i).2)⟩) s1,
      keptCount_all (b := ⟨3, 13, fun i => (4/5 + 1/5 * (u 3 i).1, (u 3 i).2)⟩) s3,
      keptCount_all (b := ⟨1, 9, fun i => ((u 6 i).1, 1/5 * (u 6 i).2)⟩) s6,
      keptCount_all (b := ⟨1, 9, fun i => (1/5 * (u 8 i).1, (u 8 i).2)⟩) s8,
      keptCount_all (b := ⟨0, 23, fun i => (7/40 + 1/2 * (Real.cos angle * (u 4 i).1 +
        Real.sin angle * (u 4 i).2), 3/40 + 1/2 * (Real.cos angle * (u 4 i).2 -
        Real.sin angle * (u 4 i).1))⟩) (fun i => square_in_box (hu 4 i)), hk]
    simp only [keptCount, inBoxCount]
    omega
  have le : ∀ m p, inBoxCount m p ≤ m := fun m p => (List.length_filter_le _ _).trans (by simp)
  have hk33 : k ≤ 33 := by
    have a := le 9 (fun i => (1/2 + 33/100 * (z 0 i).1, 9/10 + 1/20 * (z 0 i).2))
    have b := le 9 (fun i => (9/10 + 1/20 * (z 2 i).1, 1/2 + 33/100 * (z 2 i).2))
    have c := le 6 (fun i => (1/2 + 33/100 * (z 5 i).1, 1/10 + 1/20 * (z 5 i).2))
    have d := le 9 (fun i => (1/10 + 1/20 * (z 7 i).1, 1/2 + 33/100 * (z 7 i).2))
    omega
  refine ⟨_, _, generateData_eq _ _ (by norm_num) z u, by simp, ?_⟩
  rw [← hn, len]
  refine ⟨rfl, ?_, ?_⟩
  · have : ((67 + k : ℕ) : ℚ) ≤ 100 := by exact_mod_cast (by omega : 67 + k ≤ 100)
    linarith
  · constructor
    · intro h
      by_contra hc
      have : ((67 + k : ℕ) : ℚ) ≤ 90 := by exact_mod_cast (by omega : 67 + k ≤ 90)
      linarith
    · intro h
      have : (91 : ℚ) ≤ ((67 + k : ℕ) : ℚ) := by exact_mod_cast (by omega : 91 ≤ 67 + k)
      linarith

/-- C170, `test_generate_data`: the assertion on the number of rows fails for some draws: with every
normal draw 10 deviations out only 67 of 100 requested points are returned. -/
theorem C170_generate_data_refuted : ¬ ∀ (z u : ℕ → ℕ → ℝ × ℝ) (data : List (ℝ × ℝ)) (y : List ℕ),
    (∀ b i, UnitPair (u b i)) →
    generateData (Real.cos angle) (Real.sin angle) 100 z u = .ok (data, y) →
    (y.length : ℚ) < 100 * (11/10) ∧ (y.length : ℚ) > 100 * (9/10) := by
  intro h
  have hu : ∀ b i : ℕ, UnitPair ((fun _ _ => (0, 0) : ℕ → ℕ → ℝ × ℝ) b i) := by
    intro b i; simp [UnitPair]
  have z0 : ∀ (m : ℕ) (p : ℕ → ℝ × ℝ), (∀ i, ¬ InBox (p i)) → inBoxCount m p = 0 := by
    intro m p hp
    simp [inBoxCount, hp]
  obtain ⟨data, y, hy, -, hl, -⟩ := C170_generate_data_partial (fun _ _ => (10, 10)) hu rfl
  have := (h _ _ data y hu hy).2
  rw [hl, z0 _ _ (by norm_num [InBox]), z0 _ _ (by norm_num [InBox]), z0 _ _ (by norm_num [InBox]),
    z0 _ _ (by norm_num [InBox])] at this
  norm_num at this

/-- C170, `test_generate_data_knn`: for valid probabilities the three arrays have `n` rows and every
value is 0, 1, 2 or 3; the largest value is 3 and the smallest 0 iff some point lies in all three polygons
and some point in none. -/
theorem C170_knn_partial {lower mid upper : List (K × K)} (hl : lower ≠ []) (hm : mid ≠ []) (hup : upper ≠ [])
    (inL inC inU : K × K → Bool) (n : ℕ) {p : List K} {p0 p1 : K} (hp0 : p[0]? = some p0)
    (hp1 : p[1]? = some p1) (h0 : 0 ≤ p0 ∧ p0 ≤ 1) (h1 : 0 ≤ p1 ∧ p1 ≤ 1) (u : ℕ → K × K)
    (b : ℕ → ℕ → ℕ) :
    ∃ new y value, generateKnn lower mid upper inL inC inU n p u b = .ok (new, y, value) ∧
      y.length = n ∧ new.length = y.length ∧ value.length = y.length ∧ (∀ v ∈ value, v ≤ 3) ∧
      ((IsGreatest {v | v ∈ value} 3 ∧ IsLeast {v | v ∈ value} 0) ↔
        (∃ q ∈ new, inL q ∧ inC q ∧ inU q) ∧ ∃ q ∈ new, ¬ inL q ∧ ¬ inC q ∧ ¬ inU q) := by
  obtain ⟨new, y, value, hrun, e1, e2, e3, -, hv⟩ :=
    C92_knn hl hm hup inL inC inU n hp0 hp1 h0 h1 u b
  have key : ∀ v, v ∈ value ↔ ∃ q ∈ new, v = [inL q, inC q, inU q].count true := by
    intro v
    constructor
    · intro h
      obtain ⟨i, hi, rfl⟩ := List.mem_iff_getElem.1 h
      obtain ⟨q, v', l, hq, hv', -, hc, -⟩ := hv i (by omega)
      rw [List.getElem?_eq_getElem hi, Option.some.injEq] at hv'
      exact ⟨q, List.mem_of_getElem? hq, hv' ▸ hc⟩
    · rintro ⟨q, hq, rfl⟩
      obtain ⟨i, hi, rfl⟩ := List.mem_iff_getElem.1 hq
      obtain ⟨q', v', l, hq', hv', -, hc, -⟩ := hv i (by omega)
      rw [List.getElem?_eq_getElem hi, Option.some.injEq] at hq'
      rw [hq', ← hc]
      exact List.mem_of_getElem? hv'
  have le3 : ∀ v ∈ value, v ≤ 3 := by
    intro v h
    obtain ⟨q, -, rfl⟩ := (key v).1 h
    exact List.count_le_length
  refine ⟨new, y, value, hrun, e2, by omega, by omega, le3, ?_⟩
  have m3 : (3 ∈ value) ↔ ∃ q ∈ new, inL q ∧ inC q ∧ inU q := by
    rw [key]
    refine exists_congr fun q => and_congr_right fun _ => ?_
    cases inL q <;> cases inC q <;> cases inU q <;> simp
  have m0 : (0 ∈ value) ↔ ∃ q ∈ new, ¬ inL q ∧ ¬ inC q ∧ ¬ inU q := by
    rw [key]
    refine exists_congr fun q => and_congr_right fun _ => ?_
    cases inL q <;> cases inC q <;> cases inU q <;> simp
  rw [← m3, ← m0]
  exact ⟨fun h => ⟨h.1.1, h.2.1⟩, fun h => ⟨⟨h.1, fun v hv => le3 v hv⟩, h.2, fun v _ => Nat.zero_le v⟩⟩

/-- C170, `test_generate_data_knn`: whatever the polygons, the assertion on the largest and smallest
value fails for some draws: with equal draws all points coincide and all values are equal. -/
theorem C170_knn_refuted {lower mid upper : List (K × K)} (hl : lower ≠ []) (hm : mid ≠ []) (hup : upper ≠ [])
    (inL inC inU : K × K → Bool) : ¬ ∀ (u : ℕ → K × K) (b : ℕ → ℕ → ℕ) (new : List (K × K)) (y value : List ℕ),
    (∀ i, 0 ≤ (u i).1 ∧ (u i).1 < 1 ∧ 0 ≤ (u i).2 ∧ (u i).2 < 1) →
    generateKnn lower mid upper inL inC inU 100 [1/2, 1/2] u b = .ok (new, y, value) →
    IsGreatest {v | v ∈ value} 3 ∧ IsLeast {v | v ∈ value} 0 := by
  intro h
  obtain ⟨new, y, value, hrun, e1, -, -, ⟨left, right, below, above, -, -, -, -, hq⟩, -⟩ :=
    C92_knn hl hm hup inL inC inU 100 (p := [1/2, 1/2]) (p0 := 1/2) (p1 := 1/2) rfl rfl
      (by constructor <;> norm_num) (by constructor <;> norm_num) (fun _ => (0, 0)) (fun _ _ => 0)
  obtain ⟨new', y', value', hrun', -, -, -, -, hiff⟩ :=
    C170_knn_partial hl hm hup inL inC inU 100 (p := [1/2, 1/2]) (p0 := 1/2) (p1 := 1/2) rfl rfl
      (by constructor <;> norm_num) (by constructor <;> norm_num) (fun _ => (0, 0)) (fun _ _ => 0)
  rw [hrun] at hrun'
  cases hrun'
  obtain ⟨⟨q, hq1, a1, -⟩, ⟨q', hq2, a2, -⟩⟩ :=
    hiff.1 (h _ _ new y value (by intro i; simp) hrun)
  have same : ∀ q ∈ new, q = (left + (right - left) * 0, below - 1/10 + (above + 1/10 - (below - 1/10)) * 0) := by
    intro q hm
    obtain ⟨i, hi, rfl⟩ := List.mem_iff_getElem.1 hm
    have := hq i (by omega)
    rw [List.getElem?_eq_getElem hi, Option.some.injEq] at this
    exact this
  rw [same q hq1] at a1
  rw [same q' hq2] at a2
  exact a2 a1

/-- C170, `test_spirals`: for nonnegative draws the number of rows is the requested one iff the number of
classes divides it; as soon as there is a row, the classes range from 0 to `n_classes - 1`. -/
theorem C170_spirals (cos sin sqrt : K → K) {twoPi : K} (hpi : 0 ≤ twoPi) (nTotal : ℕ) {nClasses : ℕ}
    (hc : 0 < nClasses) (noiseSd : K) {tShift : K} (ht : 0 ≤ tShift) {u : ℕ → ℕ → K}
    (hu : ∀ c i, 0 ≤ u c i) (nx ny : ℕ → ℕ → K) :
    ∃ rows, spirals cos sin sqrt twoPi nTotal nClasses noiseSd tShift u nx ny = .ok rows ∧
      rows.length ≤ nTotal ∧ nTotal < rows.length + nClasses ∧
      (rows.length = nTotal ↔ nClasses ∣ nTotal) ∧ (rows ≠ [] ↔ nClasses ≤ nTotal) ∧
      (rows ≠ [] → IsGreatest {c | c ∈ rows.map SpiralRow.cls} (nClasses - 1) ∧
        IsLeast {c | c ∈ rows.map SpiralRow.cls} 0) := by
  obtain ⟨rows, hrun, hlen, hcls, -⟩ := C72_spirals cos sin sqrt hpi nTotal hc noiseSd ht hu nx ny rfl
  rw [Nat.floor_div_eq_div] at hlen hcls
  have hdm := Nat.div_add_mod nTotal nClasses
  have hlt := Nat.mod_lt nTotal hc
  have hne : rows ≠ [] ↔ nClasses ≤ nTotal := by
    rw [← List.length_pos_iff, hlen, Nat.mul_pos_iff_of_pos_left hc, Nat.div_pos_iff]
    exact ⟨fun h => h.2, fun h => ⟨hc, h⟩⟩
  refine ⟨rows, hrun, by omega, by omega, ?_, hne, fun h => ?_⟩
  · rw [hlen, Nat.dvd_iff_mod_eq_zero]
    omega
  · have hq : nTotal / nClasses ≠ 0 := by
      have := Nat.div_pos (hne.1 h) hc
      omega
    have key : ∀ c, c ∈ rows.map SpiralRow.cls ↔ c < nClasses := by
      intro c
      rw [hcls, List.mem_flatMap]
      simp [hq]
    simp only [key]
    exact ⟨⟨by simp; omega, fun c hc' => by simp at hc'; omega⟩, ⟨hc, fun c _ => Nat.zero_le c⟩⟩

/-- The case of the test: 90 rows, classes 0 to 2. -/
example (u nx ny : ℕ → ℕ → ℚ) (hu : ∀ c i, 0 ≤ u c i) :
    ∃ rows, spirals id id id (6 : ℚ) 90 3 (1/10) 0 u nx ny = .ok rows ∧ rows.length = 90 ∧
      IsGreatest {c | c ∈ rows.map SpiralRow.cls} 2 ∧ IsLeast {c | c ∈ rows.map SpiralRow.cls} 0 := by
  obtain ⟨rows, h1, -, -, h2, h3, h4⟩ :=
    C170_spirals id id id (twoPi := (6 : ℚ)) (by norm_num) 90 (nClasses := 3) (by norm_num) (1/10)
      (tShift := 0) le_rfl hu nx ny
  exact ⟨rows, h1, h2.2 (by norm_num), h4 (h3.2 (by norm_num))⟩

/-- Seven rows requested for three classes give six. -/
example : ∃ rows, spirals id id id (6 : ℚ) 7 3 0 0 (fun _ _ => 0) (fun _ _ => 0) (fun _ _ => 0) = .ok rows ∧
    rows.length ≠ 7 := by
  obtain ⟨rows, h1, -, -, h2, -⟩ :=
    C170_spirals id id id (twoPi := (6 : ℚ)) (by norm_num) 7 (nClasses := 3) (by norm_num) 0
      (tShift := 0) le_rfl (u := fun _ _ => 0) (by simp) (fun _ _ => 0) (fun _ _ => 0)
  exact ⟨rows, h1, fun h => by have := h2.1 h; revert this; decide⟩

/-- One point in all polygons and one in none: the assertion of the knn test holds. -/
example : (generateKnn [((0 : ℚ), 0)] [(1, 0)] [(1, 1)] (fun q => q.1 < 1/2) (fun q => q.1 < 1/2)
    (fun q => q.1 < 1/2) 2 [1/2, 1/2] (fun i => if i = 0 then (0, 0) else (3/4, 0)) (fun _ _ => 0)).toOption =
      some ([(0, -1/10), (3/4, -1/10)], [1, 0], [3, 0]) := by
  decide +kernel

end SmoothRF
