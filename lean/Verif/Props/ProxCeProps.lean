import Verif.Model.ProxCe
import Verif.Model.Float
import Mathlib.Analysis.Real.Sqrt
import Verif.Props.ReturnProps
import Verif.Props.DescentProps

/-!
# C183, C184: prox_project_ce and the cross-entropy descent without the `assert False`
-/

set_option linter.unusedSectionVars false

namespace SmoothRF
open SkTree Topo

variable {K : Type} [Field K] [LinearOrder K] [IsStrictOrderedRing K]

theorem excess_append (t : K) (a b : List K) : excess t (a ++ b) = excess t a + excess t b := by
  simp [excess]

theorem excess_ge (t : K) : ∀ l : List K, (∀ a ∈ l, t ≤ a) → excess t l = l.sum - l.length * t
  | [], _ => by simp [excess]
  | a :: l, h => by
    have := excess_ge t l fun b hb => h b (List.mem_cons_of_mem _ hb)
    have ha := h a List.mem_cons_self
    unfold excess at this ⊢
    rw [List.map_cons, List.sum_cons, this, max_eq_left (by linarith), List.sum_cons, List.length_cons]
    push_cast
    ring

theorem excess_le (t : K) : ∀ l : List K, (∀ a ∈ l, a ≤ t) → excess t l = 0
  | [], _ => by simp [excess]
  | a :: l, h => by
    have := excess_le t l fun b hb => h b (List.mem_cons_of_mem _ hb)
    have ha := h a List.mem_cons_self
    unfold excess at this ⊢
    rw [List.map_cons, List.sum_cons, this, max_eq_right (by linarith), zero_add]

/-- The loop finds the threshold with excess one. -/
theorem ceTmax_spec (m : ℕ) : ∀ (rest pre : List K), rest ≠ [] → (∀ a ∈ pre, ∀ b ∈ rest, b ≤ a) →
    rest.Pairwise (· ≥ ·) → pre.length + rest.length = m →
    (∀ x ∈ rest.head?, pre.sum - 1 < pre.length * x) →
    ∃ t, ceTmax m pre.length pre.sum rest = .ok t ∧ excess t (pre ++ rest) = 1
  | [], _, h, _, _, _, _ => (h rfl).elim
  | [x], pre, _, h1, _, hm, hx => by
    have hx := hx x rfl
    have e : (m : K) = pre.length + 1 := by rw [← hm]; simp
    have hp : (0 : K) < pre.length + 1 := by positivity
    refine ⟨(pre.sum + x - 1) / m, rfl, ?_⟩
    set t := (pre.sum + x - 1) / (m : K) with ht
    have ht' : t * (pre.length + 1) = pre.sum + x - 1 := by rw [ht, e, div_mul_cancel₀ _ hp.ne']
    have hlt : t < x := by
      rw [ht, e, div_lt_iff₀ hp]; linarith
    rw [excess_ge]
    · rw [List.sum_append, List.length_append]
      simp only [List.sum_cons, List.sum_nil, List.length_cons, List.length_nil]
      push_cast
      linarith
    · intro a ha
      rw [List.mem_append, List.mem_singleton] at ha
      rcases ha with ha | rfl
      · exact hlt.le.trans (h1 a ha x (by simp))
      · exact hlt.le
  | x :: y :: rest, pre, _, h1, h2, hm, hx => by
    have hx := hx x rfl
    have hp : (0 : K) < pre.length + 1 := by positivity
    have hxy : y ≤ x := (List.pairwise_cons.1 h2).1 y List.mem_cons_self
    have h3 := (List.pairwise_cons.1 h2).2
    unfold ceTmax
    dsimp only
    have e : ((pre.length + 1 : ℕ) : K) = pre.length + 1 := by push_cast; ring
    rw [e]
    set t := (pre.sum + x - 1) / ((pre.length : K) + 1) with ht
    have ht' : t * (pre.length + 1) = pre.sum + x - 1 := by rw [ht, div_mul_cancel₀ _ hp.ne']
    have hlt : t < x := by
      rw [ht, div_lt_iff₀ hp]; linarith
    split_ifs with hy
    · refine ⟨t, rfl, ?_⟩
      rw [show pre ++ x :: y :: rest = (pre ++ [x]) ++ (y :: rest) by simp, excess_append, excess_ge, excess_le]
      · rw [List.sum_append, List.length_append]
        simp only [List.sum_cons, List.sum_nil, List.length_cons, List.length_nil]
        push_cast
        linarith
      · intro a ha
        rcases List.mem_cons.1 ha with rfl | ha
        · exact hy
        · exact ((List.pairwise_cons.1 h3).1 a ha).trans hy
      · intro a ha
        rw [List.mem_append, List.mem_singleton] at ha
        rcases ha with ha | rfl
        · exact hlt.le.trans (h1 a ha x (by simp))
        · exact hlt.le
    · obtain ⟨u, hu, hs⟩ := ceTmax_spec m (y :: rest) (pre ++ [x]) (by simp) (by
        intro a ha b hb
        rw [List.mem_append, List.mem_singleton] at ha
        rcases ha with ha | rfl
        · exact h1 a ha b (List.mem_cons_of_mem _ hb)
        · exact (List.pairwise_cons.1 h2).1 b hb) h3 (by simp at hm ⊢; omega) (by
        intro z hz
        simp only [List.head?_cons, Option.mem_def, Option.some.injEq] at hz
        subst hz
        rw [not_le, ht, div_lt_iff₀ hp] at hy
        simp only [List.sum_append, List.sum_cons, List.sum_nil, List.length_append, List.length_cons, List.length_nil]
        push_cast
        linarith)
      refine ⟨u, ?_, by simpa using hs⟩
      rw [← hu]
      simp

theorem ceClip_eq {n : ℕ} (y : Fin n → K) (t : K) (i : Fin n) : ceClip y t i = max (y i - t) 0 := by
  unfold ceClip
  split_ifs with h
  · rw [mul_one, max_eq_left h.le]
  · rw [mul_zero, max_eq_right (not_lt.1 h)]

/-- The loop of `prox_project_ce` computes the Euclidean projection onto the simplex. -/
theorem ceClip_projection {n : ℕ} (y : Fin (n + 1) → K) :
    ∃ t, ceTmax (n + 1) 0 0 (sortDesc y) = .ok t ∧ IsProjection y (ceClip y t) := by
  obtain ⟨t, ht, hs⟩ := ceTmax_spec (n + 1) (sortDesc y) []
    (fun h => by have := sortDesc_length y; rw [h] at this; simp at this) (by simp) (sortDesc_sorted y)
    (by simp [sortDesc_length]) (by simp)
  refine ⟨t, by simpa using ht, ?_⟩
  rw [List.nil_append, excess_eq_sum] at hs
  have := isProjection_of_threshold y t hs
  rwa [show ceClip y t = fun i => max (y i - t) 0 from funext fun i => ceClip_eq y t i]

theorem proxProjectCeOpt_eq {n : ℕ} (y : Fin (n + 1) → K) {eps : K} (he : 0 ≤ eps) :
    ∃ p, IsProjection y p ∧
      proxProjectCeOpt y eps = .ok fun i => (p i + eps / ((n + 1 : ℕ) : K)) / (1 + eps) := by
  obtain ⟨t, ht, hp⟩ := ceClip_projection y
  have h1 : (0 : K) < 1 + eps := by linarith
  have hn : ((n + 1 : ℕ) : K) ≠ 0 := by positivity
  have hs : ∑ i, (ceClip y t i + 1 * eps / ((n + 1 : ℕ) : K)) = 1 + eps := by
    rw [Finset.sum_add_distrib, hp.1.2, Finset.sum_const, Finset.card_univ, Fintype.card_fin, nsmul_eq_mul, one_mul,
      mul_div_cancel₀ _ hn]
  refine ⟨ceClip y t, hp, ?_⟩
  unfold proxProjectCeOpt
  rw [ht]
  simp only [bind, Except.bind, normalise]
  rw [hs, if_neg h1.ne']
  simp only
  rw [← Finset.sum_div, hs, div_self h1.ne', if_neg one_ne_zero]
  simp

/-! ### C183: the projection -/

/-- C183: without its first statement `prox_project_ce` returns, for every non-empty vector in any order and
`class_eps` ≥ 0, the mixture `(p + class_eps/n) / (1 + class_eps)` of the Euclidean projection `p` onto the simplex and
the uniform vector. It lies in the space named in the docstring, and no coordinate is further than
`class_eps/(1 + class_eps)` from `p`. -/
theorem C183_projection {n : ℕ} (y : Fin (n + 1) → K) {eps : K} (he : 0 ≤ eps) :
    ∃ p x, IsProjection y p ∧ proxProjectCeOpt y eps = .ok x ∧
      (∀ i, x i = (p i + eps / ((n + 1 : ℕ) : K)) / (1 + eps)) ∧
      (∀ i, eps / ((n + 1 : ℕ) : K) / (1 + eps) ≤ x i) ∧ ∑ i, x i = 1 ∧
      ∀ i, |x i - p i| ≤ eps / (1 + eps) := by
  obtain ⟨p, hp, h⟩ := proxProjectCeOpt_eq y he
  have h1 : (0 : K) < 1 + eps := by linarith
  have hn : (0 : K) < ((n + 1 : ℕ) : K) := by positivity
  have hn1 : (1 : K) ≤ ((n + 1 : ℕ) : K) := by push_cast; linarith [(Nat.cast_nonneg n : (0 : K) ≤ n)]
  refine ⟨p, _, hp, h, fun i => rfl, fun i => ?_, ?_, fun i => ?_⟩
  · exact div_le_div_of_nonneg_right (by linarith [hp.1.1 i]) h1.le
  · rw [← Finset.sum_div, Finset.sum_add_distrib, hp.1.2, Finset.sum_const, Finset.card_univ, Fintype.card_fin,
      nsmul_eq_mul, mul_div_cancel₀ _ hn.ne', div_self h1.ne']
  · have hp1 : p i ≤ 1 := by
      rw [← hp.1.2]; exact Finset.single_le_sum (fun j _ => hp.1.1 j) (Finset.mem_univ i)
    have hp0 := hp.1.1 i
    have hu : 1 / ((n + 1 : ℕ) : K) ≤ 1 := by rw [div_le_one hn]; exact hn1
    have hu0 : 0 ≤ 1 / ((n + 1 : ℕ) : K) := by positivity
    have e : (p i + eps / ((n + 1 : ℕ) : K)) / (1 + eps) - p i = eps / (1 + eps) * (1 / ((n + 1 : ℕ) : K) - p i) := by
      field_simp
      ring
    rw [e, abs_mul, abs_of_nonneg (by positivity)]
    exact mul_le_of_le_one_right (by positivity) (abs_le.2 ⟨by linarith, by linarith⟩)

/-- C183, the empty vector: IndexError. -/
theorem C183_empty (y : Fin 0 → K) (eps : K) : proxProjectCeOpt y eps = .error .indexError := rfl

/-- C183: one division by the sum gives the same result. -/
theorem C183_once {n : ℕ} (y : Fin (n + 1) → K) {eps : K} (he : 0 ≤ eps) :
    proxProjectCeOpt y eps = (do
      let tmax ← ceTmax (n + 1) 0 0 (sortDesc y)
      normalise fun i => ceClip y tmax i + 1 * eps / ((n + 1 : ℕ) : K)) := by
  obtain ⟨t, ht, hp⟩ := ceClip_projection y
  have h1 : (0 : K) < 1 + eps := by linarith
  have hs : ∑ i, (ceClip y t i + 1 * eps / ((n + 1 : ℕ) : K)) = 1 + eps := by
    rw [Finset.sum_add_distrib, hp.1.2, Finset.sum_const, Finset.card_univ, Fintype.card_fin, nsmul_eq_mul, one_mul,
      mul_div_cancel₀ _ (by positivity)]
  unfold proxProjectCeOpt
  rw [ht]
  simp only [bind, Except.bind, normalise]
  rw [hs, if_neg h1.ne']
  simp only
  rw [← Finset.sum_div, hs, div_self h1.ne', if_neg one_ne_zero]
  simp

/-- C183, "it should be close geometrically": the distance from `y` to the result exceeds the distance to any point of
the desired space by at most `class_eps/(1 + class_eps)`. -/
theorem C183_nearly_nearest {n : ℕ} (y x : Fin (n + 1) → ℝ) {eps : ℝ} (he : 0 ≤ eps)
    (h : proxProjectCeOpt y eps = .ok x) (z : Fin (n + 1) → ℝ)
    (hz : ∀ i, eps / ((n + 1 : ℕ) : ℝ) / (1 + eps) ≤ z i) (hz1 : ∑ i, z i = 1) :
    √(∑ i, (y i - x i) ^ 2) ≤ √(∑ i, (y i - z i) ^ 2) + eps / (1 + eps) := by
  obtain ⟨p, x', hp, h', hx, -, -, -⟩ := C183_projection y he
  cases Except.ok.inj (h'.symm.trans h)
  have h1 : (0 : ℝ) < 1 + eps := by linarith
  have hn : (0 : ℝ) < ((n + 1 : ℕ) : ℝ) := by positivity
  have hle : ∑ i, (y i - p i) ^ 2 ≤ ∑ i, (y i - z i) ^ 2 :=
    hp.2 z ⟨fun i => le_trans (by positivity) (hz i), hz1⟩
  set c := eps / (1 + eps) with hc
  have hc0 : 0 ≤ c := by positivity
  have e : ∀ i, p i - x i = c * (p i - 1 / ((n + 1 : ℕ) : ℝ)) := fun i => by
    rw [hx i, hc]; field_simp; ring
  have hpp : ∑ i, (p i) ^ 2 ≤ 1 := by
    rw [← hp.1.2]
    refine Finset.sum_le_sum fun i _ => ?_
    have hp1 : p i ≤ 1 := by
      rw [← hp.1.2]; exact Finset.single_le_sum (fun j _ => hp.1.1 j) (Finset.mem_univ i)
    nlinarith [hp.1.1 i]
  have hu : ∑ i, (p i - 1 / ((n + 1 : ℕ) : ℝ)) ^ 2 ≤ 1 := by
    have : ∑ i, (p i - 1 / ((n + 1 : ℕ) : ℝ)) ^ 2 = ∑ i, (p i) ^ 2 - 1 / ((n + 1 : ℕ) : ℝ) := by
      have : ∀ i, (p i - 1 / ((n + 1 : ℕ) : ℝ)) ^ 2 =
          (p i) ^ 2 - 2 / ((n + 1 : ℕ) : ℝ) * p i + 1 / ((n + 1 : ℕ) : ℝ) ^ 2 := fun i => by ring
      simp only [this]
      rw [Finset.sum_add_distrib, Finset.sum_sub_distrib, ← Finset.mul_sum, hp.1.2, Finset.sum_const, Finset.card_univ,
        Fintype.card_fin, nsmul_eq_mul]
      field_simp
      ring
    rw [this]
    have : (0 : ℝ) < 1 / ((n + 1 : ℕ) : ℝ) := by positivity
    linarith
  have hd : √(∑ i, (p i - x i) ^ 2) ≤ c := by
    rw [Real.sqrt_le_left hc0]
    simp only [e, mul_pow]
    rw [← Finset.mul_sum]
    exact mul_le_of_le_one_right (by positivity) hu
  have hcs := Real.sum_mul_le_sqrt_mul_sqrt Finset.univ (fun i => y i - p i) (fun i => p i - x i)
  have hA : 0 ≤ ∑ i, (y i - p i) ^ 2 := Finset.sum_nonneg fun i _ => sq_nonneg _
  have hB : 0 ≤ ∑ i, (p i - x i) ^ 2 := Finset.sum_nonneg fun i _ => sq_nonneg _
  have htri : √(∑ i, (y i - x i) ^ 2) ≤ √(∑ i, (y i - p i) ^ 2) + √(∑ i, (p i - x i) ^ 2) := by
    rw [Real.sqrt_le_left (by positivity), add_sq, Real.sq_sqrt hA, Real.sq_sqrt hB]
    have : ∀ i, (y i - x i) ^ 2 = (y i - p i) ^ 2 + 2 * ((y i - p i) * (p i - x i)) + (p i - x i) ^ 2 :=
      fun i => by ring
    simp only [this]
    rw [Finset.sum_add_distrib, Finset.sum_add_distrib, ← Finset.mul_sum]
    linarith
  have := Real.sqrt_le_sqrt hle
  linarith

/-- C183: it is not the nearest point of that space: a vector of the simplex stays where it is only if it is
uniform. -/
theorem C183_moves {n : ℕ} (y : Fin (n + 1) → K) (hy : Simplex y) {eps : K} (he : 0 < eps) :
    proxProjectCeOpt y eps = .ok y ↔ ∀ i, y i = 1 / ((n + 1 : ℕ) : K) := by
  obtain ⟨p, x, hp, h, hx, -⟩ := C183_projection y he.le
  have h1 : (0 : K) < 1 + eps := by linarith
  have hn : (0 : K) < ((n + 1 : ℕ) : K) := by positivity
  have hpy : p = y := by
    have := hp.2 y hy
    simp only [sub_self, ne_eq, OfNat.ofNat_ne_zero, not_false_eq_true, zero_pow, Finset.sum_const_zero] at this
    have h0 := (Finset.sum_eq_zero_iff_of_nonneg fun i _ => sq_nonneg (y i - p i)).1
      (le_antisymm this (Finset.sum_nonneg fun i _ => sq_nonneg _))
    funext i
    have := pow_eq_zero_iff (two_ne_zero) |>.1 (h0 i (Finset.mem_univ i))
    linarith
  subst hpy
  rw [h]
  have key : ∀ i, x i - p i = eps / (1 + eps) * (1 / ((n + 1 : ℕ) : K) - p i) := fun i => by
    rw [hx i]; field_simp; ring
  have hq : eps / (1 + eps) ≠ 0 := by positivity
  constructor
  · intro e i
    cases Except.ok.inj e
    have := key i
    rw [sub_self, eq_comm, mul_eq_zero] at this
    rcases this with h | h
    · exact absurd h hq
    · linarith
  · intro e
    congr 1
    funext i
    have := key i
    rw [e i, sub_self, mul_zero] at this
    rw [e i]
    linarith

/-- C183, the vector `[1, 0, 1]` on which `prox_project` fails (`C20_refuted`), negative entries, and a deficient
vector. -/
theorem C183_cases :
    (match proxProjectCeOpt ![(1 : ℚ), 0, 1] 0 with | .ok x => some (List.ofFn x) | .error _ => none) =
      some [1 / 2, 0, 1 / 2] ∧
    (match proxProjectCeOpt ![(1 / 4 : ℚ), -1, 1 / 4] (1 / 10) with | .ok x => some (List.ofFn x) | .error _ => none) =
      some [16 / 33, 1 / 33, 16 / 33] ∧
    (match proxProjectCeOpt ![(3 / 4 : ℚ), 1 / 4] (1 / 10) with | .ok x => some (List.ofFn x) | .error _ => none) =
      some [8 / 11, 3 / 11] := by
  refine ⟨by decide +kernel, by decide +kernel, by decide +kernel⟩

/-- C183, "needs to be done twice", in doubles with the default `class_eps = 1e-4`: after one division the entries of
the result for the projection `[0, 1]` do not add up to 1, after two they do; for `[0, 1/4, 1/2, 1/4, 0]` two are not
enough. -/
theorem C183_twice :
    npSum (flNormalise ([0, 1].map fun x => fl (x + fl (fl (1 * fl (1 / 10000)) / 2)))) ≠ 1 ∧
    npSum (flClassLamb (fl (1 / 10000)) [0, 1]) = 1 ∧
    npSum (flClassLamb (fl (1 / 10000)) [0, 1 / 4, 1 / 2, 1 / 4, 0]) ≠ 1 := by
  refine ⟨by decide +kernel, by decide +kernel, by decide +kernel⟩

/-! ### C184: the cross-entropy descent -/

/-- What the rows of a forest in which every class occurs in every tree satisfy. -/
def CeRows {k : ℕ} (rows : List (Row ℝ k)) : Prop :=
  ∀ r ∈ rows, (∀ j, 0 ≤ r.gam j ∧ 0 ≤ r.eta j ∧ (r.eta j = 0 → r.gam j = 0)) ∧ ∃ j, 0 < r.gam j

theorem pHat_pos {k : ℕ} {r : Row ℝ k} (h : (∀ j, 0 ≤ r.gam j ∧ 0 ≤ r.eta j ∧ (r.eta j = 0 → r.gam j = 0)) ∧
    ∃ j, 0 < r.gam j) {lamb : Fin k → ℝ} (hl : ∀ j, 0 < lamb j) : 0 < pHat r lamb := by
  obtain ⟨h1, j, hj⟩ := h
  have hg : 0 < dot r.gam lamb :=
    Finset.sum_pos' (fun i _ => mul_nonneg (h1 i).1 (hl i).le) ⟨j, Finset.mem_univ _, mul_pos hj (hl j)⟩
  have he : 0 < r.eta j := lt_of_le_of_ne (h1 j).2.1 fun h0 => hj.ne' ((h1 j).2.2 h0.symm)
  have hd : 0 < dot r.eta lamb :=
    Finset.sum_pos' (fun i _ => mul_nonneg (h1 i).2.1 (hl i).le) ⟨j, Finset.mem_univ _, mul_pos he (hl j)⟩
  unfold pHat
  rw [etaFill_of_ne _ _ hd.ne']
  exact div_pos hg hd

theorem takeGradientCe_returns {k : ℕ} {rows : List (Row ℝ k)} (h : CeRows rows) {lamb : Fin k → ℝ}
    (hl : ∀ j, 0 < lamb j) : ∃ g, takeGradientCe rows lamb = .ok g := by
  refine ⟨_, by
    rw [takeGradientCe, if_pos (fillAssert_of_nonneg _ _ (fun r hr j => ((h r hr).1 j).2) fun j => (hl j).le), if_neg]
    rw [List.any_eq_true]
    rintro ⟨r, hr, h0⟩
    exact (pHat_pos (h r hr) hl).ne' (by simpa using h0)⟩

theorem calcCostCe_returns {k : ℕ} {rows : List (Row ℝ k)} (h : CeRows rows) {lamb : Fin k → ℝ}
    (hl : ∀ j, 0 < lamb j) : ∃ z, calcCostCe rows lamb = .ok z := by
  refine ⟨_, by
    unfold calcCostCe
    rw [if_pos ⟨fun r hr j => ((h r hr).1 j).1, fun j => (hl j).le⟩]
    dsimp only
    rw [if_neg]
    rintro ⟨r, hr, h0⟩
    exact absurd h0 (not_le.2 (pHat_pos (h r (List.mem_filter.1 hr).1) hl))⟩

/-- Weights in the interior of the simplex. -/
def Inner {k : ℕ} (lamb : Fin k → ℝ) : Prop := (∀ j, 0 < lamb j) ∧ ∑ j, lamb j = 1

theorem sgdPre_ce_returns {k : ℕ} {sqrt : ℝ → ℝ} (hsq : ∀ x, 0 ≤ x → 0 ≤ sqrt x) (o : SgdOpts ℝ)
    (ho : ∀ a, o.adam = some a → AdamRange a) {rows : List (Row ℝ k)} (h : CeRows rows) (c : ℕ) (lamb : Fin k → ℝ)
    (iv : Option (Iv ℝ k)) (hl : ∀ j, 0 < lamb j) (hv : ∀ v, iv = some v → ∀ j, 0 ≤ v.m2 j) :
    ∃ x iv', sgdPre sqrt takeGradientCe o rows c lamb iv = .ok (x, iv') ∧ ∀ v, iv' = some v → ∀ j, 0 ≤ v.m2 j := by
  obtain ⟨g, hg⟩ := takeGradientCe_returns (rows := rows.filter fun r => r.tree == c)
    (fun r hr => h r (List.mem_filter.1 hr).1) hl
  unfold sgdPre
  cases ha : o.adam with
  | none =>
    simp only [hg, bind, Except.bind]
    exact ⟨_, _, rfl, hv⟩
  | some a =>
    have hstep : ∃ x iv', adamStep sqrt (takeGradientCe (rows.filter fun r => r.tree == c)) (some lamb) a iv =
        .ok (x, iv') ∧ ∀ j, 0 ≤ iv'.m2 j := by
      cases iv with
      | none => exact adamBody_returns hsq (ho a ha) (iv := ⟨0, lamb, _, _⟩) (fun _ => le_rfl) hg
      | some v => exact adamBody_returns hsq (ho a ha) (iv := { v with lamb := lamb }) (hv v rfl) hg
    obtain ⟨x, iv', e, hm⟩ := hstep
    simp only [e, bind, Except.bind]
    exact ⟨x, some iv', rfl, fun v hv => by cases hv; exact hm⟩

theorem sgdStep_ce_returns {k : ℕ} {sqrt : ℝ → ℝ} (hsq : ∀ x, 0 ≤ x → 0 ≤ sqrt x) (o : SgdOpts ℝ)
    (ho : ∀ a, o.adam = some a → AdamRange a) (hc : o.constrained = true) {eps : ℝ} (he : 0 < eps)
    {rows : List (Row ℝ (k + 1))} (h : CeRows rows) (c : ℕ) (s : SgdState ℝ (k + 1)) (hl : Inner s.lamb)
    (hb : Inner s.lambBest) (hv : ∀ v, s.iv = some v → ∀ j, 0 ≤ v.m2 j) :
    ∃ s', sgdStep sqrt takeGradientCe calcCostCe (proxProjectCeOpt · eps) o rows s c = .ok s' ∧ Inner s'.lamb ∧
      Inner s'.lambBest ∧ ∀ v, s'.iv = some v → ∀ j, 0 ≤ v.m2 j := by
  obtain ⟨y, iv', e1, hv'⟩ := sgdPre_ce_returns hsq o ho h c s.lamb s.iv hl.1 hv
  obtain ⟨p, x, -, e2, -, hx, hx1, -⟩ := C183_projection y he.le
  have hx0 : Inner x := ⟨fun i => lt_of_lt_of_le (by positivity) (hx i), hx1⟩
  obtain ⟨z, hz⟩ := calcCostCe_returns h hx0.1
  have hm : sgdMove sqrt takeGradientCe (proxProjectCeOpt · eps) o rows c s.lamb s.iv = .ok (x, iv') := by
    unfold sgdMove
    rw [e1]
    simp only [bind, Except.bind, hc, if_true, e2]
    rfl
  unfold sgdStep
  rw [hm]
  simp only [bind, Except.bind, hz]
  split_ifs
  · exact ⟨_, rfl, hx0, hx0, hv'⟩
  · exact ⟨_, rfl, hx0, hb, hv'⟩

theorem sgdFold_ce_returns {k : ℕ} {sqrt : ℝ → ℝ} (hsq : ∀ x, 0 ≤ x → 0 ≤ sqrt x) (o : SgdOpts ℝ)
    (ho : ∀ a, o.adam = some a → AdamRange a) (hc : o.constrained = true) {eps : ℝ} (he : 0 < eps)
    {rows : List (Row ℝ (k + 1))} (h : CeRows rows) : ∀ (cs : List ℕ) (s : SgdState ℝ (k + 1)), Inner s.lamb →
    Inner s.lambBest → (∀ v, s.iv = some v → ∀ j, 0 ≤ v.m2 j) →
    ∃ s', cs.foldlM (sgdStep sqrt takeGradientCe calcCostCe (proxProjectCeOpt · eps) o rows) s = .ok s' ∧
      Inner s'.lamb ∧ Inner s'.lambBest
  | [], s, h1, h2, _ => ⟨s, rfl, h1, h2⟩
  | c :: cs, s, h1, h2, h3 => by
    obtain ⟨s1, e, a1, a2, a3⟩ := sgdStep_ce_returns hsq o ho hc he h c s h1 h2 h3
    obtain ⟨s', e', b⟩ := sgdFold_ce_returns hsq o ho hc he h cs s1 a1 a2 a3
    exact ⟨s', by rw [List.foldlM_cons, e]; exact e', b⟩

/-- C184: under `python -O`, constrained cross-entropy descent from positive weights that sum to one returns for every
list of tree choices, step size and Adam setting in the usual ranges; all weights it returns are positive with sum
one, and `lamb_best` has the least of the `num_steps + 1` costs. -/
theorem C184_descent {k : ℕ} {sqrt : ℝ → ℝ} (hsq : ∀ x, 0 ≤ x → 0 ≤ sqrt x) {approxOne : ℝ → Bool}
    (h1 : approxOne 1 = true) (o : SgdOpts ℝ) (ho : ∀ a, o.adam = some a → AdamRange a) (hc : o.constrained = true)
    {eps : ℝ} (he : 0 < eps) {rows : List (Row ℝ (k + 1))} (hne : rows ≠ []) (h : CeRows rows)
    (lambInit : List ℝ) (hlen : lambInit.length = k + 1) (hsum : lambInit.sum = 1) (hpos : ∀ x ∈ lambInit, 0 < x)
    (choices : List ℕ) :
    ∃ best last costs c, sgdCeOpt sqrt approxOne o eps rows lambInit choices = .ok (best, last, costs) ∧
      Inner best ∧ Inner last ∧ costs.length = choices.length + 1 ∧ calcCostCe rows best = .ok c ∧
      ∀ c' ∈ costs, c ≤ c' := by
  have h0 : Inner fun j : Fin (k + 1) => lambInit[j] := by
    refine ⟨fun j => hpos _ (List.getElem_mem _), ?_⟩
    rw [← hsum, ← List.sum_ofFn]
    congr 1
    have : List.ofFn (fun j : Fin (k + 1) => lambInit[j.val]'(by rw [hlen]; exact j.2)) = lambInit :=
      List.ext_getElem (by simp [hlen]) fun i _ _ => by rw [List.getElem_ofFn]
    exact this
  obtain ⟨c0, hc0⟩ := calcCostCe_returns h h0.1
  obtain ⟨s', hs', a1, a2⟩ := sgdFold_ce_returns hsq o ho hc he h choices
    ⟨fun j : Fin (k + 1) => lambInit[j], none, fun j : Fin (k + 1) => lambInit[j], c0, [c0]⟩ h0 h0
    (fun v h => by cases h)
  have hrun : sgdRun sqrt takeGradientCe calcCostCe (proxProjectCeOpt · eps) o rows (fun j => lambInit[j]) choices =
      .ok (s'.lambBest, s'.lamb, s'.costAll) := by
    unfold sgdRun
    rw [hc0]
    simp only [bind, Except.bind] at hs' ⊢
    rw [if_neg (by simpa using hne), hs']
    rfl
  obtain ⟨vs, hvs, hf, -, i, v, c, b1, b2, b3, b4, -⟩ := sgdRun_spec _ _ _ _ _ _ hrun
  refine ⟨s'.lambBest, s'.lamb, s'.costAll, c, ?_, a2, a1, ?_, ?_, b4⟩
  · unfold sgdCeOpt
    rw [dif_pos hlen, if_neg]
    · exact hrun
    · rintro ⟨-, h2 | ⟨x, hx, hx0⟩⟩
      · rw [hsum, h1] at h2
        exact absurd h2 (by simp)
      · exact absurd (hpos x hx) (not_lt.2 hx0.le)
  · have := hf.length_eq
    rw [List.length_cons, hvs.length] at this
    exact this.symm
  · rw [List.forall₂_iff_get] at hf
    obtain ⟨hi, e1⟩ := List.getElem?_eq_some_iff.1 b1
    obtain ⟨hi2, e2⟩ := List.getElem?_eq_some_iff.1 b2
    have := hf.2 i hi hi2
    simp only [List.get_eq_getElem, e1, e2] at this
    rw [← b3]; exact this

theorem initLamb_cls_pos {n : ℕ} (seed : Option (ℕ → K)) {classEps : K}
    (hs : ∀ u, seed = some u → ∀ i, 0 ≤ u i) (he : 0 < classEps) {l : Fin (n + 1) → K}
    (h : initLamb .cls seed classEps = .ok l) : ∀ i, 0 < l i := by
  unfold initLamb at h
  obtain ⟨l0, h0, h⟩ := bind_ok h
  have f0 : ∀ i, 0 ≤ l0 i :=
    (initLamb_feasible .reg seed classEps hs he.le (by unfold initLamb; rw [h0]; rfl)).2
  obtain ⟨l1, h1, h2⟩ := bind_ok h
  obtain ⟨-, e1, -⟩ := normalise_ok h1
  obtain ⟨-, e2, -⟩ := normalise_ok h2
  have g : ∀ i : Fin (n + 1), 0 < l0 i + 1 * classEps / ((n + 1 : ℕ) : K) := fun i =>
    add_pos_of_nonneg_of_pos (f0 i) (by rw [one_mul]; positivity)
  have g1 : ∀ i, 0 < l1 i := fun i => by
    rw [e1]; exact div_pos (g i) (Finset.sum_pos (fun j _ => g j) ⟨0, Finset.mem_univ _⟩)
  intro i
  rw [e2]; exact div_pos (g1 i) (Finset.sum_pos (fun j _ => g1 j) ⟨0, Finset.mem_univ _⟩)

variable {C : ℕ}

theorem leafListI_mem_forest {forest : List (SkTree K C)} {q : ((t : SkTree K C) × Fin t.nLeaves) × ℕ}
    (hq : q ∈ leafListI forest) : q.1.1 ∈ forest := by
  have : q.1 ∈ leafList forest := by rw [← leafListI_fst]; exact List.mem_map_of_mem hq
  simp only [leafList, List.mem_flatMap, List.mem_map] at this
  obtain ⟨t, ht, r, -, e⟩ := this
  rw [← e]; exact ht

/-- A leaf of positive mass makes an entry of the row positive. -/
theorem exists_levelSum_pos {t : SkTree K C} (h : t.WF) (s : Style) (pa : Bool) {v : Fin t.nLeaves → K} (hv : ∀ j, 0 ≤ v j)
    {j : Fin t.nLeaves} (hj : 0 < v j) (i : Fin t.nLeaves) {n : ℕ} (hn : npMax t.depthPerNode < n) :
    ∃ k : Fin n, 0 < levelSum pa (t.distDepth s) v i k := by
  have h1 := t.maxDist_le (t.distDepth s) i j
  have h2 := maxDist_le_depth t h s
  have h0 := distDepth_nonneg h s i j
  refine ⟨⟨(t.distDepth s i j).toNat, by omega⟩, ?_⟩
  unfold levelSum
  have e : ((t.distDepth s i j).toNat : ℤ) = t.distDepth s i j := Int.toNat_of_nonneg h0
  split_ifs
  · exact Finset.sum_pos' (fun l _ => hv l) ⟨j, by simp [e], hj⟩
  · exact Finset.sum_pos' (fun l _ => hv l) ⟨j, by simp [e], hj⟩

/-- C184: under `python -O`, `smooth` of a classification forest with its default loss returns, for every list of tree
choices, step size and Adam setting in the usual ranges and every start drawn from non-negative numbers that are not
all zero, if every class occurs in the bootstrap sample of every tree and every tree has tuning rows (with every class
among them unless they were given). The weights returned are positive with sum one. -/
theorem C184_smooth {sqrt : ℝ → ℝ} (hsq : ∀ x, 0 ≤ x → 0 ≤ sqrt x) {approxOne : ℝ → Bool} (h1 : approxOne 1 = true)
    (hC : 0 < C) {forest : List (SkTree ℝ C)} (hne : forest ≠ []) (hwf : ∀ t ∈ forest, t.WF)
    (hpos : ∀ t ∈ forest, ∀ r, 0 < t.nSamp (t.leafNode r)) (hv : ∀ t ∈ forest, ∀ r c, 0 ≤ t.value (t.leafNode r) c)
    (hall : ∀ t ∈ forest, ∀ c, ∃ r, 0 < t.value (t.leafNode r) c) (cfg : SmoothCfg ℝ)
    (hloss : cfg.lossL2 = false) (ha : ∀ a, cfg.adam = some a → AdamRange a) (hc : cfg.noConstraint = false)
    (hseed : ∀ u, cfg.seed = some u → (∀ i, 0 ≤ u i) ∧ ∃ i ≤ forestDepth forest, u i ≠ 0)
    (he : 0 < cfg.classEps) {src : TuneSrc} (hsrc : tuneSource cfg.data = .ok src)
    (sources : TuneSrc → ℕ → List (TuneRow ℝ C)) (hrows : ∀ tt ∈ forest.zipIdx, sources src tt.2 ≠ [])
    (hcls : src ≠ .given → ∀ tt ∈ forest.zipIdx, ∀ c, ∃ r ∈ sources src tt.2, r.y c ≠ 0) :
    ∃ out, smooth sqrt (fun _ => sgdCeOpt sqrt approxOne) (some .cls) forest cfg sources = .ok out ∧
      Inner out.lamb1 ∧ Inner out.lamb2 := by
  have h2 : tuneSummaries (decide (Kind.cls = .cls) && decide (src ≠ .given)) forest (sources src) =
      .ok (forest.zipIdx.flatMap (summaryBlock (sources src))) := by
    rw [tuneSummaries_eq, if_neg]
    rintro (⟨tt, htt, e⟩ | ⟨h1, tt, htt, c, hr⟩)
    · exact hrows tt htt e
    simp only [Bool.and_eq_true, decide_eq_true_eq] at h1
    obtain ⟨r, hr1, hr2⟩ := hcls h1.2 tt htt c
    exact hr2 (hr r hr1)
  obtain ⟨lamb, h3⟩ := initLamb_returns .cls (n := forestDepth forest) cfg.seed cfg.classEps hseed he.le
  have hf := initLamb_feasible .cls cfg.seed cfg.classEps (fun u hu => (hseed u hu).1) he.le h3
  have hp := initLamb_cls_pos cfg.seed (fun u hu => (hseed u hu).1) he h3
  have hopt : ∃ l1 l2 cs, smoothOptimise sqrt (sgdCeOpt sqrt approxOne) .cls cfg (flatRows (forestDepth forest + 1)
      cfg.allTrees (gammaEtaForest .cls forest cfg.style cfg.parentsAll)
      (forest.zipIdx.flatMap (summaryBlock (sources src)))) lamb = .ok (l1, l2, cs) ∧ Inner l1 ∧ Inner l2 := by
    unfold smoothOptimise
    by_cases hsan : cfg.sanityCheck = true
    · rw [if_pos hsan]
      exact ⟨_, _, _, rfl, ⟨hp, hf.1⟩, ⟨hp, hf.1⟩⟩
    rw [if_neg hsan]
    dsimp only
    rw [if_neg (by simp [hloss]), flatRows_eq .cls forest hwf]
    obtain ⟨best, last, costs, c, e, i1, i2, -⟩ := C184_descent hsq h1 ⟨cfg.tFix, !cfg.noConstraint, cfg.adam⟩ ha
      (by simp [hc]) he (rows := (List.finRange C).flatMap fun c => (leafListI forest).map
        (specRow .cls cfg.style cfg.parentsAll cfg.allTrees (sources src) (forestDepth forest + 1) c)) (by
        intro hnil
        rw [List.flatMap_eq_nil_iff] at hnil
        have := hnil ⟨0, hC⟩ (List.mem_finRange _)
        rw [List.map_eq_nil_iff] at this
        have e := leafListI_fst forest
        rw [this] at e
        obtain ⟨t, ht⟩ := List.exists_mem_of_ne_nil _ hne
        have := nLeaves_le_leafList ht
        rw [← e] at this
        have := nLeaves_pos (hwf t ht)
        simp at *
        omega) (by
        intro row hrow
        simp only [List.mem_flatMap, List.mem_map] at hrow
        obtain ⟨c, -, q, hq, rfl⟩ := hrow
        have hm := leafListI_mem_forest hq
        have hp := hpos _ hm
        have hmass : ∀ j, 0 ≤ q.1.1.mass .cls (q.1.1.leafNode j) c := fun j => by
          simpa [SkTree.mass] using hv _ hm j c
        refine ⟨fun j => ⟨levelSum_nonneg _ _ _ hmass _ _, levelSum_nonneg _ _ _ (fun l => (hp l).le) _ _, ?_⟩, ?_⟩
        · intro h0
          simp only [specRow] at h0 ⊢
          unfold levelSum at h0 ⊢
          split_ifs at h0 ⊢ <;>
          · have hemp := (Finset.sum_eq_zero_iff_of_nonneg fun l _ => (hp l).le).1 h0
            exact Finset.sum_eq_zero fun l hl => absurd (hemp l hl) (hp l).ne'
        · obtain ⟨r, hr⟩ := hall _ hm c
          exact exists_levelSum_pos (hwf _ hm) cfg.style cfg.parentsAll hmass (j := r)
            (by simpa [SkTree.mass] using hr) q.1.2 (Nat.lt_succ_of_le (forestDepth_ge forest _ hm)))
      (List.ofFn lamb) (by simp) (by rw [List.sum_ofFn]; exact hf.1) (by
        intro x hx
        obtain ⟨i, rfl⟩ := (List.mem_ofFn' _ _).1 hx
        exact hp i) cfg.steps
    exact ⟨best, last, costs, e, i1, i2⟩
  obtain ⟨l1, l2, cs, h4, i1, i2⟩ := hopt
  obtain ⟨out, ho, e1, e2, -⟩ := smooth_returns (sqrt := sqrt) (ce := fun _ => sgdCeOpt sqrt approxOne) hC hwf
    (sources := sources) (smoothCheck_ok.2 ⟨rfl, hsrc, by simp [hc]⟩) h2 h3 (l1 := l1) (l2 := l2) (cs := cs) h4
  exact ⟨out, ho, by rw [e1]; exact i1, by rw [e2]; exact i2⟩

/-- A run that returns took every chosen tree's gradient. -/
theorem visits_grad {k : ℕ} {sqrt : ℝ → ℝ} {prox : (Fin k → ℝ) → Except PyErr (Fin k → ℝ)} {o : SgdOpts ℝ}
    {rows : List (Row ℝ k)} {s : (Fin k → ℝ) × Option (Iv ℝ k)} {cs : List ℕ} {vs : List ((Fin k → ℝ) × Option (Iv ℝ k))}
    (h : Visits (moveStep sqrt takeGradientCe prox o rows) s cs vs) :
    ∀ c ∈ cs, ∃ lamb g, takeGradientCe (rows.filter fun r => r.tree == c) lamb = .ok g := by
  induction h with
  | nil => intro c hc; cases hc
  | @cons s s' c' cs vs h1 _ ih =>
    intro c hc
    rcases List.mem_cons.1 hc with rfl | hc
    · have h1 : sgdMove sqrt takeGradientCe prox o rows c s.1 s.2 = .ok s' := h1
      unfold sgdMove at h1
      obtain ⟨q, h2, -⟩ := bind_ok h1
      unfold sgdPre at h2
      dsimp only at h2
      cases ha : o.adam with
      | none =>
        rw [ha] at h2
        obtain ⟨g, hg, -⟩ := bind_ok h2
        exact ⟨_, g, hg⟩
      | some a =>
        rw [ha] at h2
        obtain ⟨w, h3, -⟩ := bind_ok h2
        have hbody : ∀ iv : Iv ℝ k, adamBody sqrt (takeGradientCe (rows.filter fun r => r.tree == c)) a iv = .ok w →
            ∃ lamb g, takeGradientCe (rows.filter fun r => r.tree == c) lamb = .ok g := by
          intro iv h4
          unfold adamBody at h4
          obtain ⟨g, hg, -⟩ := bind_ok h4
          exact ⟨_, g, hg⟩
        unfold adamStep at h3
        cases hiv : s.2 with
        | none => rw [hiv] at h3; exact hbody _ h3
        | some iv => rw [hiv] at h3; exact hbody _ h3
    · exact ih c hc

theorem takeGradientCe_pHat {k : ℕ} {rows : List (Row ℝ k)} {l g : Fin k → ℝ} (h : takeGradientCe rows l = .ok g) :
    ∀ r ∈ rows, pHat r l ≠ 0 := by
  unfold takeGradientCe at h
  split_ifs at h with ha hb
  intro r hr h0
  exact hb (List.any_eq_true.2 ⟨r, hr, by simpa using h0⟩)

/-- C184, the condition is needed: if a class is missing from the bootstrap sample of a tree, `smooth` meets a non-finite
gradient in every run that chooses this tree (or any tree, with `all_trees`), whatever the tuning data. -/
theorem C184_missing_class {sqrt : ℝ → ℝ} {approxOne : ℝ → Bool} {forest : List (SkTree ℝ C)}
    (hwf : ∀ t ∈ forest, t.WF) (cfg : SmoothCfg ℝ) (hloss : cfg.lossL2 = false) (hs : cfg.sanityCheck = false)
    {tt : SkTree ℝ C × ℕ} (htt : tt ∈ forest.zipIdx) (c : Fin C) (hmiss : ∀ r, tt.1.value (tt.1.leafNode r) c = 0)
    (hstep : (if cfg.allTrees then 0 else tt.2) ∈ cfg.steps) (sources : TuneSrc → ℕ → List (TuneRow ℝ C)) :
    ¬ ∃ out, smooth sqrt (fun _ => sgdCeOpt sqrt approxOne) (some .cls) forest cfg sources = .ok out := by
  rintro ⟨out, h⟩
  obtain ⟨kind', src, yw, lamb, h0, h1, h2, h3, h4, -, -⟩ := smooth_ok h
  cases h0
  rw [tuneSummaries_eq] at h2
  split_ifs at h2
  cases h2
  unfold smoothOptimise at h4
  rw [if_neg (by simp [hs]), if_neg (by simp [hloss]), flatRows_eq .cls forest hwf] at h4
  unfold sgdCeOpt at h4
  split_ifs at h4
  obtain ⟨vs, hvs, -⟩ := sgdRun_spec _ _ _ _ _ _ h4
  obtain ⟨l, g, hg⟩ := visits_grad hvs _ hstep
  have hnl := nLeaves_pos (hwf tt.1 (List.fst_mem_of_mem_zipIdx htt))
  refine takeGradientCe_pHat hg (specRow .cls cfg.style cfg.parentsAll cfg.allTrees (sources src)
    (forestDepth forest + 1) c (⟨tt.1, ⟨0, hnl⟩⟩, tt.2)) ?_ ?_
  · rw [List.mem_filter]
    constructor
    · rw [List.mem_flatMap]
      refine ⟨c, List.mem_finRange _, List.mem_map_of_mem ?_⟩
      unfold leafListI
      rw [List.mem_flatMap]
      exact ⟨tt, htt, List.mem_map.2 ⟨_, List.mem_finRange _, rfl⟩⟩
    · simp [specRow]
  · have : dot (specRow .cls cfg.style cfg.parentsAll cfg.allTrees (sources src) (forestDepth forest + 1) c
        (⟨tt.1, ⟨0, hnl⟩⟩, tt.2)).gam l = 0 := by
      unfold dot
      refine Finset.sum_eq_zero fun j _ => ?_
      have : (specRow .cls cfg.style cfg.parentsAll cfg.allTrees (sources src) (forestDepth forest + 1) c
        (⟨tt.1, ⟨0, hnl⟩⟩, tt.2)).gam j = 0 := by
        simp [specRow, levelSum, SkTree.mass, hmiss]
      rw [this, zero_mul]
    simp [pHat, this]

/-- The two-class stump over the reals. -/
noncomputable abbrev exClsReal : SkTree ℝ 2 :=
  { toTopo := exClsStump.toTopo
    value := fun i c => (exClsStump.value i c : ℝ)
    nSamp := fun i => (exClsStump.nSamp i : ℝ)
    impurity := fun i => (exClsStump.impurity i : ℝ) }

/-- Instance of the assumptions of C184: three steps of size 1/10 on the stump. -/
example : ∃ out, smooth Real.sqrt (fun _ => sgdCeOpt Real.sqrt fun x => decide (x = 1)) (some .cls) [exClsReal]
      ⟨⟨false, false, true, true, false⟩, false, false, [0, 0, 0], 1 / 10, false, none, false, .standard, 1 / 10000, false,
        none⟩ (fun _ _ => [⟨0, ![1, 0]⟩, ⟨1, ![0, 1]⟩]) = .ok out ∧ Inner out.lamb1 ∧ Inner out.lamb2 := by
  refine C184_smooth (fun x _ => Real.sqrt_nonneg x) (by simp) (by norm_num) (by simp) (fun t ht => ?_) (fun t ht => ?_)
    (fun t ht => ?_) (fun t ht => ?_) _ rfl (by simp) rfl (by simp) (by norm_num) rfl _ (by simp) (by simp)
  all_goals rw [List.mem_singleton] at ht; subst ht
  · exact (by decide : exClsStump.WF)
  · exact fun r => Rat.cast_pos.2 ((by decide +kernel : ∀ r, 0 < exClsStump.nSamp (exClsStump.leafNode r)) r)
  · exact fun r c => Rat.cast_nonneg.2
      ((by decide +kernel : ∀ r c, 0 ≤ exClsStump.value (exClsStump.leafNode r) c) r c)
  · intro c
    obtain ⟨r, hr⟩ := (by decide +kernel : ∀ c, ∃ r, 0 < exClsStump.value (exClsStump.leafNode r) c) c
    exact ⟨r, Rat.cast_pos.2 hr⟩

/-- Instance of `C184_missing_class`: a bootstrap sample without the second class. -/
example : ¬ ∃ out, smooth Real.sqrt (fun _ => sgdCeOpt Real.sqrt fun x => decide (x = 1)) (some .cls)
      [{ exClsReal with value := fun _ c => ![1, 0] c }]
      ⟨⟨false, false, true, true, false⟩, false, false, [0], 1 / 10, false, none, false, .standard, 1 / 10000, false, none⟩
      (fun _ _ => [⟨0, ![1, 0]⟩, ⟨1, ![0, 1]⟩]) = .ok out := by
  refine C184_missing_class (fun t ht => ?_) _ rfl rfl (tt := (_, 0)) (by simp [List.zipIdx]; rfl) 1 (fun r => by simp)
    (by simp) _
  rw [List.mem_singleton] at ht
  subst ht
  exact (by decide : exClsStump.WF)

end SmoothRF
