import Verif.Proofs.Cost
import Verif.Props.GammaProps

/-!
# C17, C23–C26: losses and gradients
-/

set_option linter.unusedSectionVars false

namespace SmoothRF
open Topo SkTree

section field
variable {K : Type} [Field K] [LinearOrder K] [IsStrictOrderedRing K] {k : ℕ}

/-- C17: rows taken (aligned) from the forest arrays of `create_Gamma_eta_forest` never trip the
assertion when leaf counts are positive and `lamb` is non-negative. -/
theorem C17_assertion_never_fires {C : ℕ} (kind : Kind) (forest : List (SkTree K C))
    (hwf : ∀ t ∈ forest, t.WF) (hpos : ∀ t ∈ forest, ∀ i, 0 < t.nSamp (t.leafNode i))
    (s : Style) (pa : Bool) (lamb : Fin k → K) (hl : ∀ j, 0 ≤ lamb j) (rows : List (Row K k))
    (hrows : ∀ r ∈ rows, ∃ (c : Fin C) (i : ℕ),
      ((gammaEtaForest kind forest s pa).gamma c)[i]? = some (List.ofFn r.gam) ∧
      ((gammaEtaForest kind forest s pa).eta)[i]? = some (List.ofFn r.eta)) :
    (∃ c, calcCost rows lamb = .ok c) ∧ (∃ g, takeGradient rows lamb = .ok g) := by
  have hA : fillAssert rows lamb = true := by
    rw [fillAssert_iff]
    intro r hr h0
    obtain ⟨c, i, hg, he⟩ := hrows r hr
    obtain ⟨h1, h2, -⟩ := C16_forest_stacking kind forest hwf s pa
    generalize (calcDepthForForest (forest.map SkTree.toTopo)).2 = D at h1 h2
    rw [h1 c] at hg
    rw [h2] at he
    let L : List (Σ t : SkTree K C, Fin t.nLeaves) :=
      forest.flatMap fun t => (List.finRange t.nLeaves).map fun i => ⟨t, i⟩
    have eL : ∀ F : (t : SkTree K C) → Fin t.nLeaves → List K,
        (forest.flatMap fun t => (List.finRange t.nLeaves).map fun i => F t i) =
          L.map fun p => F p.1 p.2 := by
      intro F; simp only [L, List.map_flatMap, List.map_map]; rfl
    rw [eL, List.getElem?_map] at hg he
    obtain ⟨p, hp, hg⟩ := Option.map_eq_some_iff.1 hg
    rw [hp] at he
    simp only [Option.map_some, Option.some.injEq] at he
    have hpm : p.1 ∈ forest := by
      have := List.mem_of_getElem? hp
      simp only [L, List.mem_flatMap, List.mem_map] at this
      obtain ⟨t, ht, i, -, rfl⟩ := this
      exact ht
    have ent : ∀ (a : Fin k → K) (f : ℕ → K), (List.range (D + 1)).map f = List.ofFn a →
        ∀ j, a j = f j.val := by
      intro a f h j
      have := congrArg (fun l => l[j.val]?) h
      have hk : D + 1 = k := by simpa using congrArg List.length h
      have hj : j.val < D + 1 := by omega
      simp only [List.getElem?_map, List.getElem?_range hj, Option.map_some,
        List.getElem?_ofFn, j.isLt, dite_true, Option.some.injEq] at this
      exact this.symm
    have eg := ent _ _ hg
    have ee := ent _ _ he
    have hn : ∀ j, 0 ≤ r.eta j := by
      intro j; rw [ee]; unfold levelSum
      split <;> exact Finset.sum_nonneg fun l _ => (hpos _ hpm l).le
    have hz : ∀ j, r.eta j = 0 → r.gam j = 0 := by
      intro j hj
      rw [ee] at hj; rw [eg]
      unfold levelSum at hj ⊢
      split_ifs at hj ⊢ <;>
      · have hemp := (Finset.sum_eq_zero_iff_of_nonneg fun l _ => (hpos _ hpm l).le).1 hj
        refine Finset.sum_eq_zero fun l hl => ?_
        exact absurd (hemp l hl) (hpos _ hpm l).ne'
    have := (Finset.sum_eq_zero_iff_of_nonneg fun j _ => mul_nonneg (hn j) (hl j)).1 h0
    refine Finset.sum_eq_zero fun j _ => ?_
    rcases mul_eq_zero.1 (this j (Finset.mem_univ _)) with h | h
    · rw [hz j h, zero_mul]
    · rw [h, mul_zero]
  exact ⟨⟨_, by rw [calcCost, if_pos hA]⟩, ⟨_, by rw [takeGradient, if_pos hA]⟩⟩

/-- C17, second half: with a negative entry in `lamb` both functions can raise AssertionError on rows
of a forest with positive counts (the stump, `lamb = (1, -1)`). -/
theorem C17_negative_lambda_can_raise :
    let r : Row ℚ 2 := ⟨0, 1, ![1, 4], ![1, 1], 0⟩
    ((gammaEtaForest .reg [exStump] .standard false).gamma 0)[0]? = some (List.ofFn r.gam) ∧
    (gammaEtaForest .reg [exStump] .standard false).eta[0]? = some (List.ofFn r.eta) ∧
    (match calcCost [r] ![1, -1] with | .error e => some e | .ok _ => none) = some .assertionError ∧
    (match takeGradient [r] ![1, -1] with | .error e => some e | .ok _ => none)
      = some .assertionError := by
  refine ⟨?_, ?_, ?_, ?_⟩ <;> decide +kernel

/-- Instance of the hypotheses of C17, including a zero denominator with `lamb = 0`. -/
example : exStump.WF ∧ (∀ i, 0 < exStump.nSamp (exStump.leafNode i)) ∧
    (gammaEtaForest .reg [exStump] .standard false).eta[0]? =
      some (List.ofFn (![1, 1] : Fin 2 → ℚ)) := by
  refine ⟨by decide, by decide +kernel, by decide +kernel⟩

/-- C23: value, sign, zero set and scale invariance of `calc_cost`. -/
theorem C23_calc_cost (rows : List (Row K k)) (lamb : Fin k → K) :
    ((∀ r ∈ rows, ∑ j, r.eta j * lamb j ≠ 0) →
      calcCost rows lamb = .ok (rows.map fun r =>
        r.w * (r.y - (∑ j, r.gam j * lamb j) / (∑ j, r.eta j * lamb j)) ^ 2).sum) ∧
    ((∀ r ∈ rows, 0 ≤ r.w) → ∀ c, calcCost rows lamb = .ok c → 0 ≤ c) ∧
    ((∀ r ∈ rows, 0 ≤ r.w) → (∀ r ∈ rows, ∑ j, r.eta j * lamb j ≠ 0) →
      (calcCost rows lamb = .ok 0 ↔ ∀ r ∈ rows, 0 < r.w →
        (∑ j, r.gam j * lamb j) / (∑ j, r.eta j * lamb j) = r.y)) ∧
    (∀ a : K, a ≠ 0 → calcCost rows (fun j => a * lamb j) = calcCost rows lamb) := by
  have val : (∀ r ∈ rows, ∑ j, r.eta j * lamb j ≠ 0) →
      calcCost rows lamb = .ok (rows.map fun r =>
        r.w * (r.y - (∑ j, r.gam j * lamb j) / (∑ j, r.eta j * lamb j)) ^ 2).sum := by
    intro h
    rw [calcCost, if_pos (fillAssert_of_ne rows lamb h)]
    congr 2
    refine List.map_congr_left fun r hr => ?_
    rw [residual, etaFill_of_ne r lamb (h r hr), mul_comm]
    rfl
  refine ⟨val, ?_, ?_, ?_⟩
  · intro hw c hc
    unfold calcCost at hc
    split_ifs at hc
    simp only [Except.ok.injEq] at hc
    rw [← hc]
    refine List.sum_nonneg fun x hx => ?_
    obtain ⟨r, hr, rfl⟩ := List.mem_map.1 hx
    exact mul_nonneg (sq_nonneg _) (hw r hr)
  · intro hw h
    rw [val h, Except.ok.injEq, list_sum_eq_zero_iff]
    · constructor
      · intro h0 r hr hwr
        have := h0 _ (List.mem_map.2 ⟨r, hr, rfl⟩)
        rcases mul_eq_zero.1 this with h1 | h1
        · exact absurd h1 hwr.ne'
        · have := pow_eq_zero_iff (two_ne_zero) |>.1 h1
          linarith
      · intro h0 x hx
        obtain ⟨r, hr, rfl⟩ := List.mem_map.1 hx
        rcases (hw r hr).lt_or_eq with hlt | heq
        · rw [h0 r hr hlt]; simp
        · rw [← heq]; simp
    · intro x hx
      obtain ⟨r, hr, rfl⟩ := List.mem_map.1 hx
      exact mul_nonneg (hw r hr) (sq_nonneg _)
  · intro a ha
    unfold calcCost
    rw [fillAssert_smul rows lamb a ha]
    split_ifs with hA
    · congr 2
      refine List.map_congr_left fun r hr => ?_
      unfold residual
      rw [ratio_smul r lamb a ha ((fillAssert_iff rows lamb).1 hA r hr)]
    · rfl

/-- Two rows used as the running instance: a fitted one and an unfitted one. -/
abbrev exRows : List (Row ℚ 2) :=
  [⟨2, 1, ![1, 4], ![1, 1], 0⟩, ⟨3, 2, ![4, 1], ![1, 1], 0⟩]

example : (∀ r ∈ exRows, 0 ≤ r.w) ∧
    (∀ r ∈ exRows, ∑ j, r.eta j * (![2/3, 1/3] : Fin 2 → ℚ) j ≠ 0) ∧
    (match calcCost exRows ![2/3, 1/3] with | .ok c => some c | .error _ => none) = some 0 ∧
    (match calcCost exRows ![1, 0] with | .ok c => some c | .error _ => none) = some 3 := by
  refine ⟨by decide +kernel, by decide +kernel, by decide +kernel, by decide +kernel⟩

/-- C25: the gradient is orthogonal to `lamb` (also where denominators vanish, if it is defined). -/
theorem C25_gradient_orthogonal (rows : List (Row K k)) (lamb : Fin k → K) (g : Fin k → K)
    (hg : takeGradient rows lamb = .ok g) : ∑ j, g j * lamb j = 0 := by
  unfold takeGradient at hg
  split_ifs at hg with hA
  simp only [Except.ok.injEq] at hg
  subst hg
  have hA := (fillAssert_iff rows lamb).1 hA
  simp only [← List.sum_map_mul_right]
  rw [sum_list_finset']
  apply List.sum_eq_zero
  intro x hx
  obtain ⟨r, hr, rfl⟩ := List.mem_map.1 hx
  have : ∀ j, -2 * residual r lamb * r.w *
      (1 / etaFill r lamb * r.gam j - dot r.gam lamb / etaFill r lamb ^ 2 * r.eta j) * lamb j =
      -2 * residual r lamb * r.w * (1 / etaFill r lamb * (r.gam j * lamb j)
        - dot r.gam lamb / etaFill r lamb ^ 2 * (r.eta j * lamb j)) := fun j => by ring
  simp only [this]
  rw [← Finset.mul_sum, Finset.sum_sub_distrib, ← Finset.mul_sum, ← Finset.mul_sum]
  change -2 * residual r lamb * r.w * (1 / etaFill r lamb * dot r.gam lamb
        - dot r.gam lamb / etaFill r lamb ^ 2 * dot r.eta lamb) = 0
  by_cases h0 : dot r.eta lamb = 0
  · rw [hA r hr h0]; simp
  · rw [etaFill_of_ne r lamb h0]; field_simp; ring

/-- Non-trivial instance: a defined, non-zero gradient. -/
example : (match takeGradient exRows ![1, 0] with | .ok g => some (g 0, g 1) | .error _ => none)
    = some (0, -18) := by decide +kernel

end field

section real
variable {k : ℕ}

/-- C24: where all denominators are non-zero, `take_gradient` succeeds and is the (Fréchet) gradient
of `calc_cost`, which is defined in a neighbourhood. -/
theorem C24_gradient_l2 (rows : List (Row ℝ k)) (lamb : Fin k → ℝ)
    (h : ∀ r ∈ rows, ∑ j, r.eta j * lamb j ≠ 0) :
    ∃ (f : (Fin k → ℝ) → ℝ) (L : (Fin k → ℝ) →L[ℝ] ℝ) (g : Fin k → ℝ),
      (∀ᶠ x in nhds lamb, calcCost rows x = .ok (f x)) ∧ HasFDerivAt f L lamb ∧
      takeGradient rows lamb = .ok g ∧ ∀ v, L v = ∑ j, g j * v j := by
  have hd := hasFDerivAt_list_sum rows
    (fun r x => (r.y - dot r.gam x / dot r.eta x) ^ 2 * r.w) _ lamb
    (fun r hr => (((hasFDerivAt_ratio r.gam r.eta lamb (h r hr)).const_sub r.y).pow 2).mul_const r.w)
  refine ⟨_, _, _, ?_, hd,
    by rw [takeGradient, if_pos (fillAssert_of_ne rows lamb h)], ?_⟩
  · have : ∀ᶠ x in nhds lamb, ∀ r ∈ rows, dot r.eta x ≠ 0 :=
      eventually_all_list rows _ _ fun r hr =>
        (continuous_dot r.eta).continuousAt.eventually_ne (h r hr)
    filter_upwards [this] with x hx
    rw [calcCost, if_pos (fillAssert_of_ne rows x hx)]
    congr 2
    refine List.map_congr_left fun r hr => ?_
    rw [residual, etaFill_of_ne r x (hx r hr)]
  · intro v
    rw [list_sum_clm_apply]
    simp only [← List.sum_map_mul_right]
    rw [sum_list_finset']
    refine congrArg List.sum (List.map_congr_left fun r hr => ?_)
    have hne : dot r.eta lamb ≠ 0 := h r hr
    have : ∀ j, -2 * residual r lamb * r.w *
        (1 / etaFill r lamb * r.gam j - dot r.gam lamb / etaFill r lamb ^ 2 * r.eta j) * v j =
        -2 * residual r lamb * r.w * (1 / etaFill r lamb * (r.gam j * v j)
          - dot r.gam lamb / etaFill r lamb ^ 2 * (r.eta j * v j)) := fun j => by ring
    simp only [this]
    rw [← Finset.mul_sum, Finset.sum_sub_distrib, ← Finset.mul_sum, ← Finset.mul_sum]
    rw [residual, etaFill_of_ne r lamb hne]
    simp [dotL_apply]
    unfold dot
    ring

/-- C26: where all denominators and predicted probabilities are positive (`Gamma`, `lamb`
non-negative as the code asserts), `take_gradient_ce` succeeds and is the gradient of
`calc_cost_ce`; the cost is compared inside the non-negative orthant, outside which it stops in the
debugger. -/
theorem C26_gradient_ce (rows : List (Row ℝ k)) (lamb : Fin k → ℝ)
    (hG : ∀ r ∈ rows, ∀ j, 0 ≤ r.gam j) (hl : ∀ j, 0 ≤ lamb j)
    (hE : ∀ r ∈ rows, 0 < ∑ j, r.eta j * lamb j) (hP : ∀ r ∈ rows, 0 < ∑ j, r.gam j * lamb j) :
    ∃ (f : (Fin k → ℝ) → ℝ) (L : (Fin k → ℝ) →L[ℝ] ℝ) (g : Fin k → ℝ),
      (∀ᶠ x in nhdsWithin lamb {x | ∀ j, 0 ≤ x j}, calcCostCe rows x = .ok (f x)) ∧
      calcCostCe rows lamb = .ok (f lamb) ∧ HasFDerivAt f L lamb ∧
      takeGradientCe rows lamb = .ok g ∧ ∀ v, L v = ∑ j, g j * v j := by
  classical
  have hval : ∀ x : Fin k → ℝ, (∀ j, 0 ≤ x j) → (∀ r ∈ rows, 0 < dot r.eta x) →
      (∀ r ∈ rows, 0 < dot r.gam x) → calcCostCe rows x =
      .ok (rows.map fun r => -(r.w * r.y) * Real.log (dot r.gam x / dot r.eta x)).sum := by
    intro x hx hxe hxg
    rw [calcCostCe, if_pos ⟨hG, hx⟩]
    have hp : ∀ r ∈ rows, pHat r x = dot r.gam x / dot r.eta x := fun r hr => by
      rw [pHat, etaFill_of_ne r x (hxe r hr).ne']
    dsimp only
    rw [if_neg]
    · congr 1
      clear hE hP hG
      induction rows with
      | nil => simp
      | cons a l ih =>
        have ih := ih (fun r hr => hxe r (List.mem_cons_of_mem _ hr))
          (fun r hr => hxg r (List.mem_cons_of_mem _ hr))
          (fun r hr => hp r (List.mem_cons_of_mem _ hr))
        have ha := hp a List.mem_cons_self
        rw [List.filter_cons]
        by_cases hw : a.w = 0
        · simp [hw]; simpa using ih
        · by_cases hy : a.y = 0
          · simp [hy]; simpa using ih
          · simp only [hw, hy, decide_false, Bool.not_false, Bool.and_self, if_true,
              List.map_cons, List.sum_cons, neg_add, ih, ha]
            ring
    · rintro ⟨r, hr, hle⟩
      have hr := (List.mem_filter.1 hr).1
      rw [hp r hr] at hle
      exact absurd hle (not_le.2 (div_pos (hxg r hr) (hxe r hr)))
  have hA := fillAssert_of_ne rows lamb fun r hr => (hE r hr).ne'
  have hany : (rows.any fun r => decide (pHat r lamb = 0)) = false := by
    rw [List.any_eq_false]
    intro r hr
    rw [pHat, etaFill_of_ne r lamb (hE r hr).ne']
    simpa using ⟨(hP r hr).ne', (hE r hr).ne'⟩
  have hd := hasFDerivAt_list_sum rows
    (fun r x => -(r.w * r.y) * Real.log (dot r.gam x / dot r.eta x)) _ lamb
    (fun r hr => ((hasFDerivAt_ratio r.gam r.eta lamb (hE r hr).ne').log
      (div_pos (hP r hr) (hE r hr)).ne').const_mul (-(r.w * r.y)))
  refine ⟨_, _, _, ?_, hval lamb hl hE hP, hd,
    by rw [takeGradientCe, if_pos hA, hany]; rfl, ?_⟩
  · have h1 : ∀ᶠ x in nhds lamb, ∀ r ∈ rows, 0 < dot r.eta x :=
      eventually_all_list rows _ _ fun r hr =>
        (continuous_dot r.eta).continuousAt.eventually (lt_mem_nhds (hE r hr))
    have h2 : ∀ᶠ x in nhds lamb, ∀ r ∈ rows, 0 < dot r.gam x :=
      eventually_all_list rows _ _ fun r hr =>
        (continuous_dot r.gam).continuousAt.eventually (lt_mem_nhds (hP r hr))
    filter_upwards [nhdsWithin_le_nhds h1, nhdsWithin_le_nhds h2, self_mem_nhdsWithin] with x a b c
    exact hval x c a b
  · intro v
    rw [list_sum_clm_apply]
    simp only [← List.sum_map_mul_right]
    rw [sum_list_finset']
    refine congrArg List.sum (List.map_congr_left fun r hr => ?_)
    have hne : dot r.eta lamb ≠ 0 := (hE r hr).ne'
    have hpne : dot r.gam lamb ≠ 0 := (hP r hr).ne'
    have : ∀ j, (r.gam j * etaFill r lamb - r.eta j * dot r.gam lamb) / etaFill r lamb ^ 2 *
        (-r.w * r.y / pHat r lamb) * v j =
        (-r.w * r.y / pHat r lamb) / etaFill r lamb ^ 2 *
        (etaFill r lamb * (r.gam j * v j) - dot r.gam lamb * (r.eta j * v j)) := fun j => by ring
    simp only [this]
    rw [← Finset.mul_sum, Finset.sum_sub_distrib, ← Finset.mul_sum, ← Finset.mul_sum]
    rw [pHat, etaFill_of_ne r lamb hne]
    simp [dotL_apply]
    change _ = -(r.w * r.y) / (dot r.gam lamb / dot r.eta lamb) / dot r.eta lamb ^ 2 *
      (dot r.eta lamb * dot r.gam v - dot r.gam lamb * dot r.eta v)
    field_simp

/-- Instance of the hypotheses of C24 and C26. -/
example : let r : Row ℝ 2 := ⟨1/2, 3, ![1, 2], ![2, 3], 0⟩
    (∀ j, 0 ≤ r.gam j) ∧ 0 < ∑ j, r.eta j * (![1/2, 1/2] : Fin 2 → ℝ) j ∧
    0 < ∑ j, r.gam j * (![1/2, 1/2] : Fin 2 → ℝ) j := by
  refine ⟨fun j => by fin_cases j <;> simp, ?_, ?_⟩ <;>
  · simp [Fin.sum_univ_two]; norm_num

/-- Boundary of C26: a row with observed share 0 and predicted share 0 leaves the cost finite (the row
is skipped) but makes the gradient non-finite. -/
theorem C26_zero_probability_gradient :
    ∃ (rows : List (Row ℝ 2)) (lamb : Fin 2 → ℝ), (∀ r ∈ rows, ∀ j, 0 ≤ r.gam j) ∧
      (∀ j, 0 < lamb j) ∧ (∀ r ∈ rows, 0 < ∑ j, r.eta j * lamb j) ∧
      calcCostCe rows lamb = .ok 0 ∧ takeGradientCe rows lamb = .error .nonFinite := by
  refine ⟨[⟨0, 1, fun _ => 0, fun _ => 1, 0⟩], fun _ => 1, by simp, by simp, by simp, ?_, ?_⟩
  · simp [calcCostCe]
  · simp [takeGradientCe, fillAssert, pHat, dot]

end real

end SmoothRF
