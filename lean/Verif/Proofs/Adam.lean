import Verif.Spec.Adam
import Verif.Proofs.Sgd
import Mathlib.Algebra.Field.GeomSum

set_option linter.unusedSectionVars false

namespace SmoothRF

variable {K : Type} [Field K] [LinearOrder K] {k : ℕ}

theorem expSum_singleton (b : K) (f : K → K) (g : Fin k → K) (j : Fin k) :
    expSum b f [g] j = f (g j) := by simp [expSum]

theorem expSum_eq_range (b : K) (f : K → K) (gs : List (Fin k → K)) (j : Fin k) :
    expSum b f gs j = ∑ i ∈ Finset.range gs.length,
      b ^ (gs.length - 1 - i) * (gs[i]?.elim 0 fun g => f (g j)) := by
  unfold expSum
  rw [Finset.sum_range]
  refine Finset.sum_congr rfl fun i _ => ?_
  simp

theorem expSum_append (b : K) (f : K → K) (gs : List (Fin k → K)) (g : Fin k → K) (j : Fin k) :
    expSum b f (gs ++ [g]) j = expSum b f gs j * b + f (g j) := by
  rw [expSum_eq_range, expSum_eq_range, List.length_append, List.length_singleton,
    Finset.sum_range_succ, Finset.sum_mul]
  congr 1
  · refine Finset.sum_congr rfl fun i hi => ?_
    have hi := Finset.mem_range.1 hi
    rw [List.getElem?_append_left hi]
    have : gs.length + 1 - 1 - i = (gs.length - 1 - i) + 1 := by omega
    rw [this, pow_succ]; ring
  · simp

theorem adamBody_ok {sqrt : K → K} {gf : (Fin k → K) → Except PyErr (Fin k → K)} {o : AdamOpts K}
    {iv iv' : Iv K k} {x : Fin k → K} (h : adamBody sqrt gf o iv = .ok (x, iv')) :
    ∃ g, gf iv.lamb = .ok g ∧ iv'.t = iv.t + 1 ∧ iv'.lamb = x ∧
      iv'.m1 = (fun j => iv.m1 j * o.beta1 + (1 - o.beta1) * g j) ∧
      iv'.m2 = (fun j => iv.m2 j * o.beta2 + (1 - o.beta1) * g j ^ 2) ∧
      1 - o.beta1 ^ iv'.t ≠ 0 ∧ 1 - o.beta2 ^ iv'.t ≠ 0 ∧
      x = fun j => iv.lamb j - o.alpha * (iv'.m1 j / (1 - o.beta1 ^ iv'.t)) /
        (sqrt (iv'.m2 j / (1 - o.beta2 ^ iv'.t)) + o.eps) := by
  unfold adamBody at h
  obtain ⟨g, hg, h⟩ := bind_ok h
  simp only at h
  split_ifs at h with h1 h2
  cases h
  push Not at h1
  exact ⟨g, hg, rfl, rfl, rfl, rfl, h1.1, h1.2, rfl⟩

theorem adamRun_spec {sqrt : K → K} {o : AdamOpts K} {gs : List (Fin k → K)} {iv : Iv K k}
    (h : AdamRun sqrt o gs iv) :
    iv.t = gs.length ∧ 1 - o.beta1 ^ iv.t ≠ 0 ∧ 1 - o.beta2 ^ iv.t ≠ 0 ∧
      (∀ j, iv.m1 j = (1 - o.beta1) * expSum o.beta1 id gs j) ∧
      (∀ j, iv.m2 j = (1 - o.beta1) * expSum o.beta2 (· ^ 2) gs j) := by
  induction h with
  | first h hg =>
    obtain ⟨g', hg', e1, -, e2, e3, e4, e5, -⟩ := adamBody_ok h
    simp only at hg' e1 e2 e3
    rw [hg] at hg'; cases hg'
    refine ⟨by simp [e1], e4, e5, fun j => ?_, fun j => ?_⟩
    · rw [e2, expSum_singleton]; simp
    · rw [e3, expSum_singleton]; simp
  | @next gf li g x gs iv iv' _ h hg ih =>
    obtain ⟨i1, -, -, i2, i3⟩ := ih
    have hb : adamBody sqrt gf o { iv with lamb := li.getD iv.lamb } = .ok (x, iv') := by
      cases li <;> exact h
    obtain ⟨g', hg', e1, -, e2, e3, e4, e5, -⟩ := adamBody_ok hb
    simp only at hg' e1 e2 e3
    rw [hg] at hg'; cases hg'
    refine ⟨by simp [e1, i1], e4, e5, fun j => ?_, fun j => ?_⟩
    · rw [e2, expSum_append]; simp only [i2, id]; ring
    · rw [e3, expSum_append]; simp only [i3]; ring

theorem expSum_const (b : K) (f : K → K) (gs : List (Fin k → K)) (j : Fin k) (c : Fin k → K)
    (h : ∀ g ∈ gs, g = c) : (1 - b) * expSum b f gs j = (1 - b ^ gs.length) * f (c j) := by
  unfold expSum
  have : ∀ i : Fin gs.length, b ^ (gs.length - 1 - i.val) * f (gs[i] j) =
      b ^ (gs.length - 1 - i.val) * f (c j) := fun i => by rw [h gs[i] (List.getElem_mem i.isLt)]
  rw [Finset.sum_congr rfl fun i _ => this i, ← Finset.sum_mul,
    ← Finset.sum_range (fun i => b ^ (gs.length - 1 - i)), Finset.sum_range_reflect (fun i => b ^ i)]
  have := mul_neg_geom_sum b gs.length
  rw [← mul_assoc, this]

end SmoothRF
