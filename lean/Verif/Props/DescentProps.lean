import Verif.Props.CostProps
import Verif.Props.SgdProps
import Mathlib.Analysis.Calculus.Deriv.Slope
import Mathlib.Analysis.Calculus.Deriv.Comp
import Mathlib.Analysis.Calculus.Deriv.Add
import Mathlib.Analysis.Calculus.Deriv.Mul

/-!
# C109, C110: the direction of a plain descent step, and the mean of its random gradient
-/

set_option linter.unusedSectionVars false

namespace SmoothRF

/-! ### C110 -/

section alg
variable {K : Type} [Field K] [LinearOrder K] {k : ℕ}

theorem sum_by_tree (rows : List (Row K k)) (f : Row K k → K) (T : ℕ) (hT : ∀ r ∈ rows, r.tree < T) :
    ∑ c ∈ Finset.range T, ((rows.filter fun r => r.tree == c).map f).sum = (rows.map f).sum := by
  induction rows with
  | nil => simp
  | cons r rows ih =>
    have e : ∀ c, (((r :: rows).filter fun r => r.tree == c).map f).sum =
        (if r.tree = c then f r else 0) + ((rows.filter fun r => r.tree == c).map f).sum := by
      intro c
      rw [List.filter_cons]
      by_cases h : r.tree = c
      · simp [h]
      · have : (r.tree == c) = false := by simpa using h
        simp [this, h]
    rw [Finset.sum_congr rfl fun c _ => e c, Finset.sum_add_distrib,
      ih fun r' hr' => hT r' (by simp [hr']), Finset.sum_ite_eq, if_pos (Finset.mem_range.2 (hT r (by simp)))]
    simp

theorem fillAssert_filter {rows : List (Row K k)} {lamb : Fin k → K} (p : Row K k → Bool)
    (h : fillAssert rows lamb = true) : fillAssert (rows.filter p) lamb = true := by
  rw [fillAssert_iff] at *
  exact fun r hr => h r (List.mem_filter.1 hr).1

/-- C110: if the whole forest's gradient exists then so does every tree's, and over the `T` equally
likely tree choices they add up to the whole gradient (so their mean is the whole gradient over `T`). -/
theorem C110_unbiased (rows : List (Row K k)) (lamb g : Fin k → K) (T : ℕ)
    (hT : ∀ r ∈ rows, r.tree < T) (hg : takeGradient rows lamb = .ok g) :
    ∃ gs : ℕ → Fin k → K,
      (∀ c, takeGradient (rows.filter fun r => r.tree == c) lamb = .ok (gs c)) ∧
      ∀ j, ∑ c ∈ Finset.range T, gs c j = g j := by
  unfold takeGradient at hg
  split_ifs at hg with hA
  cases hg
  refine ⟨fun c j => ((rows.filter fun r => r.tree == c).map fun r =>
      -2 * residual r lamb * r.w *
        (1 / etaFill r lamb * r.gam j - dot r.gam lamb / etaFill r lamb ^ 2 * r.eta j)).sum, ?_, ?_⟩
  · intro c
    rw [takeGradient, if_pos (fillAssert_filter _ hA)]
  · intro j
    rw [sum_by_tree rows _ T hT]

/-- C110 for the cross-entropy. -/
theorem C110_unbiased_ce (rows : List (Row K k)) (lamb g : Fin k → K) (T : ℕ)
    (hT : ∀ r ∈ rows, r.tree < T) (hg : takeGradientCe rows lamb = .ok g) :
    ∃ gs : ℕ → Fin k → K,
      (∀ c, takeGradientCe (rows.filter fun r => r.tree == c) lamb = .ok (gs c)) ∧
      ∀ j, ∑ c ∈ Finset.range T, gs c j = g j := by
  unfold takeGradientCe at hg
  split_ifs at hg with hA hP
  cases hg
  refine ⟨fun c j => ((rows.filter fun r => r.tree == c).map fun r =>
      (r.gam j * etaFill r lamb - r.eta j * dot r.gam lamb) / etaFill r lamb ^ 2 *
        (-r.w * r.y / pHat r lamb)).sum, ?_, ?_⟩
  · intro c
    rw [takeGradientCe, if_pos (fillAssert_filter _ hA), if_neg]
    simp only [List.any_eq_true, decide_eq_true_eq, not_exists, not_and] at hP ⊢
    exact fun r hr => hP r (List.mem_filter.1 hr).1
  · intro j
    rw [sum_by_tree rows _ T hT]

/-- Instance of the hypotheses of C110: two trees with different gradients. -/
example : (∀ r ∈ ([⟨1, 1, ![0, 1], ![1, 1], 0⟩, ⟨0, 2, ![1, 3], ![1, 2], 1⟩] : List (Row ℚ 2)), r.tree < 2) ∧
    (match takeGradient ([⟨1, 1, ![0, 1], ![1, 1], 0⟩, ⟨0, 2, ![1, 3], ![1, 2], 1⟩] : List (Row ℚ 2)) ![1, 0] with
      | .ok g => some (g 0, g 1) | .error _ => none) = some (0, 2) ∧
    (match takeGradient ([⟨1, 1, ![0, 1], ![1, 1], 0⟩] : List (Row ℚ 2)) ![1, 0] with
      | .ok g => some (g 0, g 1) | .error _ => none) = some (0, -2) := by
  refine ⟨by simp, by decide +kernel, by decide +kernel⟩

end alg

/-! ### C109 -/

section real
variable {k : ℕ}

/-- C109: where the loss is smooth and the gradient is not zero, all sufficiently short steps against
the gradient lower the loss. -/
theorem C109_descent (rows : List (Row ℝ k)) (lamb g : Fin k → ℝ)
    (h : ∀ r ∈ rows, ∑ j, r.eta j * lamb j ≠ 0) (hg : takeGradient rows lamb = .ok g) (hne : g ≠ 0) :
    ∃ t0 > 0, ∀ t, 0 < t → t < t0 → ∃ c c', calcCost rows lamb = .ok c ∧
      calcCost rows (fun j => lamb j - t * g j) = .ok c' ∧ c' < c := by
  obtain ⟨f, L, g', hf, hd, hg', hL⟩ := C24_gradient_l2 rows lamb h
  rw [hg] at hg'
  cases hg'
  have hneg : L (fun j => -g j) < 0 := by
    rw [hL]
    have : ∑ j, g j * -g j = -∑ j, g j ^ 2 := by
      rw [← Finset.sum_neg_distrib]; exact Finset.sum_congr rfl fun j _ => by ring
    rw [this, neg_lt_zero]
    obtain ⟨j, hj⟩ : ∃ j, g j ≠ 0 := by
      by_contra hall; push Not at hall; exact hne (funext hall)
    refine Finset.sum_pos' (fun j _ => sq_nonneg _) ⟨j, Finset.mem_univ _, by positivity⟩
  let p : ℝ → Fin k → ℝ := fun t => lamb + t • fun j => -g j
  have hp0 : p 0 = lamb := by simp [p]
  have hpd : HasDerivAt p (fun j => -g j) 0 := by
    have := ((hasDerivAt_id (0 : ℝ)).smul_const (fun j => -g j)).const_add lamb
    rw [one_smul] at this
    exact this
  have hcomp : HasDerivAt (f ∘ p) (L fun j => -g j) 0 := by
    apply HasFDerivAt.comp_hasDerivAt (x := (0 : ℝ)) _ hpd
    rw [hp0]; exact hd
  have hslope := hcomp.tendsto_slope_zero_right
  have hev : ∀ᶠ t in nhdsWithin (0 : ℝ) (Set.Ioi 0), t⁻¹ • ((f ∘ p) (0 + t) - (f ∘ p) 0) < 0 :=
    hslope.eventually (gt_mem_nhds hneg)
  have hcont : Filter.Tendsto p (nhdsWithin 0 (Set.Ioi 0)) (nhds lamb) := by
    have := hpd.continuousAt.tendsto
    rw [hp0] at this
    exact this.mono_left nhdsWithin_le_nhds
  have hev2 := hcont.eventually hf
  obtain ⟨t0, ht0, hI⟩ := mem_nhdsGT_iff_exists_Ioo_subset.1 (hev.and hev2)
  refine ⟨t0, ht0, fun t h1 h2 => ?_⟩
  obtain ⟨a, b⟩ := hI ⟨h1, h2⟩
  refine ⟨f lamb, f (p t), hf.self_of_nhds, ?_, ?_⟩
  · have : (fun j => lamb j - t * g j) = p t := by funext j; simp [p]; ring
    rw [this]; exact b
  · simp only [zero_add, Function.comp, hp0, smul_eq_mul] at a
    have hinv : 0 < t⁻¹ := inv_pos.2 h1
    have := (mul_neg_iff.1 a).resolve_right (fun hh => absurd hinv (not_lt.2 hh.1.le))
    linarith [this.2]

/-- C109, in the descent: with `all_trees` (all rows in tree 0), no constraint and a short enough step,
one step of `stocastic_grad_descent` from a point with non-zero gradient returns strictly better
weights than its start. -/
theorem C109_one_step (sqrt : ℝ → ℝ) (rows : List (Row ℝ k)) (hrows : rows ≠ [])
    (h0 : ∀ r ∈ rows, r.tree = 0) (lamb g : Fin k → ℝ)
    (h : ∀ r ∈ rows, ∑ j, r.eta j * lamb j ≠ 0) (hg : takeGradient rows lamb = .ok g) (hne : g ≠ 0) :
    ∃ t0 > 0, ∀ t, 0 < t → t < t0 → ∃ best costs c c',
      sgd sqrt ⟨t, false, none⟩ rows (List.ofFn lamb) [0] = .ok (best, best, costs) ∧
      calcCost rows lamb = .ok c ∧ calcCost rows best = .ok c' ∧ c' < c ∧ costs = [c, c'] := by
  obtain ⟨t0, ht0, ht⟩ := C109_descent rows lamb g h hg hne
  refine ⟨t0, ht0, fun t h1 h2 => ?_⟩
  obtain ⟨c, c', hc, hc', hlt⟩ := ht t h1 h2
  refine ⟨_, [c, c'], c, c', ?_, hc, hc', hlt, rfl⟩
  have hfil : (rows.filter fun r => r.tree == 0) = rows := by
    rw [List.filter_eq_self]; intro r hr; simp [h0 r hr]
  have hinit : (fun j : Fin k => (List.ofFn lamb)[j]'(by simp)) = lamb := by funext j; simp
  have hemp : rows.isEmpty = false := by simpa using hrows
  rw [sgd, dif_pos (by simp)]
  simp only [Bool.false_and, Bool.false_eq_true, if_false, hinit]
  simp only [sgdRun, hc, bind, Except.bind, pure, Except.pure, hemp, Bool.false_eq_true,
    if_false, List.foldlM_cons, List.foldlM_nil, sgdStep, sgdMove, sgdPre, hfil, hg, hc', hlt, if_true]
  rfl

/-- Instance: the gradient of `exSgdRows` at `(1, 0)` is not zero. -/
example : (∀ r ∈ ([⟨1, 1, ![0, 1], ![1, 1], 0⟩] : List (Row ℝ 2)), ∑ j, r.eta j * (![1, 0] : Fin 2 → ℝ) j ≠ 0) ∧
    ∃ g, takeGradient ([⟨1, 1, ![0, 1], ![1, 1], 0⟩] : List (Row ℝ 2)) ![1, 0] = .ok g ∧ g ≠ 0 := by
  refine ⟨by simp, ![0, -2], ?_, ?_⟩
  · rw [takeGradient, if_pos (by simp [fillAssert, dot, Fin.sum_univ_two])]
    congr 1
    funext j
    fin_cases j <;> norm_num [residual, etaFill, dot, Fin.sum_univ_two]
  · intro e
    have := congrFun e 1
    norm_num at this

end real

end SmoothRF
