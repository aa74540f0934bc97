import Verif.Props.SgdProps
import Verif.Props.CostProps

/-!
# smooth_base.py: the unconstrained plain descent never shrinks the weights (C104)
-/

set_option linter.unusedSectionVars false

namespace SmoothRF

variable {K : Type} [Field K] [LinearOrder K] [IsStrictOrderedRing K] {k : ℕ}

/-- The gradient of the cross-entropy is orthogonal to the weights, as is that of the squared error
(`C25_gradient_orthogonal`). -/
theorem C104_ce_orthogonal (rows : List (Row K k)) (lamb g : Fin k → K)
    (hg : takeGradientCe rows lamb = .ok g) : ∑ j, g j * lamb j = 0 := by
  unfold takeGradientCe at hg
  split_ifs at hg with hA hP
  cases hg
  have hA' := (fillAssert_iff rows lamb).1 hA
  simp only [← List.sum_map_mul_right]
  rw [sum_list_finset']
  apply List.sum_eq_zero
  intro x hx
  obtain ⟨r, hr, rfl⟩ := List.mem_map.1 hx
  have e : ∀ j, (r.gam j * etaFill r lamb - r.eta j * dot r.gam lamb) / etaFill r lamb ^ 2 *
      (-r.w * r.y / pHat r lamb) * lamb j =
      (-r.w * r.y / pHat r lamb) / etaFill r lamb ^ 2 *
        (etaFill r lamb * (r.gam j * lamb j) - dot r.gam lamb * (r.eta j * lamb j)) := by
    intro j; ring
  simp only [e]
  rw [← Finset.mul_sum, Finset.sum_sub_distrib, ← Finset.mul_sum, ← Finset.mul_sum]
  show _ * (etaFill r lamb * dot r.gam lamb - dot r.gam lamb * dot r.eta lamb) = 0
  by_cases h0 : dot r.eta lamb = 0
  · rw [hA' r hr h0]; ring
  · have : etaFill r lamb = dot r.eta lamb := by unfold etaFill; rw [if_neg h0]
    rw [this]; ring

/-- A step along a vector orthogonal to the weights. -/
theorem sq_step (l g : Fin k → K) (w : K) (h : ∑ j, g j * l j = 0) :
    ∑ j, (l j - w * g j) ^ 2 = ∑ j, l j ^ 2 + w ^ 2 * ∑ j, g j ^ 2 := by
  have e : ∀ j, (l j - w * g j) ^ 2 = l j ^ 2 + w ^ 2 * g j ^ 2 - 2 * w * (g j * l j) := fun j => by ring
  simp only [e]
  rw [Finset.sum_sub_distrib, Finset.sum_add_distrib, ← Finset.mul_sum, ← Finset.mul_sum, h]
  ring

/-- Runs of the plain unconstrained loop with a gradient orthogonal to the weights. -/
theorem sgdRun_norm {sqrt : K → K} {grad : List (Row K k) → (Fin k → K) → Except PyErr (Fin k → K)}
    (horth : ∀ rows l g, grad rows l = .ok g → ∑ j, g j * l j = 0)
    {cost : List (Row K k) → (Fin k → K) → Except PyErr K}
    {prox : (Fin k → K) → Except PyErr (Fin k → K)} {o : SgdOpts K} (ho : o.adam = none)
    (hc : o.constrained = false) {rows : List (Row K k)} {l0 best last : Fin k → K} {costs : List K}
    {choices : List ℕ} (h : sgdRun sqrt grad cost prox o rows l0 choices = .ok (best, last, costs)) :
    ∑ j, l0 j ^ 2 ≤ ∑ j, best j ^ 2 ∧ ∑ j, best j ^ 2 ≤ ∑ j, last j ^ 2 := by
  obtain ⟨vs, hv, -, hlast, i, v, -, hi, -, hb, -⟩ := sgdRun_spec _ _ _ _ _ _ h
  have hstep : ∀ c (s s' : (Fin k → K) × Option (Iv K k)), moveStep sqrt grad prox o rows c s = .ok s' →
      ∑ j, s.1 j ^ 2 ≤ ∑ j, s'.1 j ^ 2 := by
    intro c s s' hs
    unfold moveStep sgdMove sgdPre at hs
    simp only [ho, hc] at hs
    obtain ⟨p, hp, hs⟩ := bind_ok hs
    obtain ⟨g, hg, hp⟩ := bind_ok hp
    cases hp
    cases hs
    have := sq_step s.1 g o.tFix (horth _ _ _ hg)
    simp only
    rw [this]
    have : 0 ≤ o.tFix ^ 2 * ∑ j, g j ^ 2 := mul_nonneg (sq_nonneg _) (Finset.sum_nonneg fun j _ => sq_nonneg _)
    linarith
  have key : ∀ {s : (Fin k → K) × Option (Iv K k)} {cs : List ℕ} {vs : List ((Fin k → K) × Option (Iv K k))},
      Visits (moveStep sqrt grad prox o rows) s cs vs →
      (s :: vs).Pairwise fun a b => ∑ j, a.1 j ^ 2 ≤ ∑ j, b.1 j ^ 2 := by
    intro s cs vs hv
    induction hv with
    | nil => simp
    | cons h1 hv ih =>
      refine List.pairwise_cons.2 ⟨?_, ih⟩
      have h1' := hstep _ _ _ h1
      intro b hb
      rcases List.mem_cons.1 hb with rfl | hb
      · exact h1'
      · exact h1'.trans ((List.pairwise_cons.1 ih).1 b hb)
  have hp := key hv
  subst hb
  have hmem := List.mem_of_getElem? hi
  constructor
  · rcases List.mem_cons.1 hmem with rfl | hm
    · exact le_rfl
    · exact (List.pairwise_cons.1 hp).1 v hm
  · obtain ⟨w, hw, rfl⟩ := Option.map_eq_some_iff.1 hlast
    rw [List.getLast?_eq_getElem?] at hw
    have hlen := (List.getElem?_eq_some_iff.1 hi).1
    rcases Nat.lt_or_ge i (((l0, none) :: vs).length - 1) with hlt | hge
    · obtain ⟨h1, e1⟩ := List.getElem?_eq_some_iff.1 hi
      obtain ⟨h2, e2⟩ := List.getElem?_eq_some_iff.1 hw
      have := List.pairwise_iff_getElem.1 hp i _ h1 h2 hlt
      rw [e1, e2] at this
      exact this
    · have : i = ((l0, none) :: vs).length - 1 := by omega
      rw [this, hw] at hi
      cases hi
      exact le_rfl

/-- C104: without constraint and without Adam the Euclidean norm of the weights never decreases: the
initial weights are at most as long as the best and these at most as long as the last. So a run that
starts away from 0 never returns zero weights. -/
theorem C104_norm_never_shrinks (sqrt : K → K) (o : SgdOpts K) (ho : o.adam = none)
    (hc : o.constrained = false) (rows : List (Row K k)) (lambInit : List K) (choices : List ℕ)
    (best last : Fin k → K) (costs : List K)
    (h : sgd sqrt o rows lambInit choices = .ok (best, last, costs)) :
    (lambInit.map (· ^ 2)).sum ≤ ∑ j, best j ^ 2 ∧ ∑ j, best j ^ 2 ≤ ∑ j, last j ^ 2 ∧
    ((∃ x ∈ lambInit, x ≠ 0) → best ≠ 0 ∧ last ≠ 0) := by
  unfold sgd at h
  split_ifs at h with h1
  have e : (lambInit.map (· ^ 2)).sum = ∑ j : Fin k, lambInit[j] ^ 2 := by
    subst h1
    rw [← List.sum_ofFn]
    congr 1
    refine List.ext_getElem (by simp) fun i h1 h2 => by simp
  have hn := sgdRun_norm (fun rows l g hg => C25_gradient_orthogonal rows l g hg) ho hc h
  rw [e]
  refine ⟨hn.1, hn.2, ?_⟩
  rintro ⟨x, hx, hx0⟩
  have hpos : 0 < ∑ j : Fin k, lambInit[j] ^ 2 := by
    rw [← e]
    obtain ⟨i, hi, rfl⟩ := List.getElem_of_mem hx
    refine lt_of_lt_of_le (by positivity : (0 : K) < lambInit[i] ^ 2) ?_
    exact List.single_le_sum (by
      intro y hy
      obtain ⟨z, -, rfl⟩ := List.mem_map.1 hy
      positivity) _ (List.mem_map.2 ⟨_, List.getElem_mem hi, rfl⟩)
  constructor
  · rintro rfl
    have := hpos.trans_le hn.1
    simp at this
  · rintro rfl
    have := hpos.trans_le (hn.1.trans hn.2)
    simp at this

/-- C104 for the cross-entropy descent. -/
theorem C104_norm_never_shrinks_ce {k : ℕ} (sqrt : ℝ → ℝ) (ao : ℝ → Bool) (o : SgdOpts ℝ) (ho : o.adam = none)
    (hc : o.constrained = false) (eps : ℝ) (rows : List (Row ℝ k)) (lambInit : List ℝ) (choices : List ℕ)
    (best last : Fin k → ℝ) (costs : List ℝ)
    (h : sgdCe sqrt ao o eps rows lambInit choices = .ok (best, last, costs)) :
    (lambInit.map (· ^ 2)).sum ≤ ∑ j, best j ^ 2 ∧ ∑ j, best j ^ 2 ≤ ∑ j, last j ^ 2 := by
  unfold sgdCe at h
  split_ifs at h with h1
  · have e : (lambInit.map (· ^ 2)).sum = ∑ j : Fin k, lambInit[j] ^ 2 := by
      subst h1
      rw [← List.sum_ofFn]
      congr 1
      refine List.ext_getElem (by simp) fun i h1 h2 => by simp
    rw [e]
    exact sgdRun_norm (fun rows l g hg => C104_ce_orthogonal rows l g hg) ho hc h

/-- One run: squared length 1 at the start and 410/324 at the end. -/
example : (match sgd (fun x => x) ⟨1/12, false, none⟩ exSgdRows [1, 0] [0, 1] with
    | .ok (b, l, _) => some (List.ofFn b, List.ofFn l)
    | .error _ => none) = some ([19 / 18, 7 / 18], [19 / 18, 7 / 18]) := by decide +kernel

end SmoothRF
