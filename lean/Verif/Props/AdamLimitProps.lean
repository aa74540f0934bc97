import Verif.Model.AdamTest
import Verif.Proofs.Adam
import Verif.Props.CostProps
import Mathlib.Analysis.SpecificLimits.Basic
import Mathlib.Analysis.SpecialFunctions.Pow.Real
import Mathlib.Analysis.Calculus.Deriv.Pow
import Mathlib.Analysis.Calculus.Deriv.Mul
import Mathlib.Analysis.Calculus.Deriv.Add

/-!
# C173: where Adam can settle

If the weights of an Adam run converge and the gradient function is continuous at the limit, the gradient is zero
there. For the function of `test_adam_step` the only such point is the minimum the test asks for.
-/

set_option linter.unusedSectionVars false

namespace SmoothRF

open Filter Topology

/-- Weighted averages of a convergent sequence, one step at a time. -/
theorem tendsto_average {b c : ℝ} (h0 : 0 ≤ b) (h1 : b < 1) {a u : ℕ → ℝ} (hu : Tendsto u atTop (𝓝 c))
    (ha : ∀ n, a (n + 1) = a n * b + (1 - b) * u n) : Tendsto a atTop (𝓝 c) := by
  rw [Metric.tendsto_atTop]
  intro ε hε
  obtain ⟨N, hN⟩ := (Metric.tendsto_atTop.1 hu) (ε / 2) (by linarith)
  have hpow : ∀ i, |a (N + i) - c| ≤ b ^ i * |a N - c| + ε / 2 := by
    intro i
    induction i with
    | zero => simp only [Nat.add_zero, pow_zero, one_mul]; linarith
    | succ i ih =>
      have hu' := hN (N + i) (Nat.le_add_right _ _)
      rw [Real.dist_eq] at hu'
      have e : a (N + (i + 1)) - c = b * (a (N + i) - c) + (1 - b) * (u (N + i) - c) := by
        rw [← Nat.add_assoc, ha]; ring
      rw [e]
      calc |b * (a (N + i) - c) + (1 - b) * (u (N + i) - c)|
          ≤ |b * (a (N + i) - c)| + |(1 - b) * (u (N + i) - c)| := abs_add_le _ _
        _ = b * |a (N + i) - c| + (1 - b) * |u (N + i) - c| := by
            rw [abs_mul, abs_mul, abs_of_nonneg h0, abs_of_nonneg (by linarith : (0:ℝ) ≤ 1 - b)]
        _ ≤ b * (b ^ i * |a N - c| + ε / 2) + (1 - b) * (ε / 2) := by
            have := mul_le_mul_of_nonneg_left ih h0
            have := mul_le_mul_of_nonneg_left hu'.le (by linarith : (0:ℝ) ≤ 1 - b)
            linarith
        _ = b ^ (i + 1) * |a N - c| + ε / 2 := by ring
  have hz : Tendsto (fun i : ℕ => b ^ i * |a N - c|) atTop (𝓝 0) := by
    simpa using (tendsto_pow_atTop_nhds_zero_of_lt_one h0 h1).mul_const |a N - c|
  obtain ⟨M, hM⟩ := (Metric.tendsto_atTop.1 hz) (ε / 2) (by linarith)
  refine ⟨N + M, fun n hn => ?_⟩
  obtain ⟨i, rfl⟩ := Nat.exists_eq_add_of_le hn
  have h2 := hM (M + i) (Nat.le_add_right _ _)
  rw [Real.dist_eq, sub_zero] at h2
  have h3 := le_abs_self (b ^ (M + i) * |a N - c|)
  have h4 := hpow (M + i)
  rw [Real.dist_eq, Nat.add_assoc]
  linarith

/-- Everything a run of `adamLoop` fixes about its iterates. -/
theorem adamLoop_spec {k : ℕ} {o : AdamOpts ℝ} {gf : (Fin k → ℝ) → Except PyErr (Fin k → ℝ)} {start : Fin k → ℝ}
    {x : ℕ → Fin k → ℝ} {iv : ℕ → Option (Iv ℝ k)}
    (hrun : ∀ n, adamLoop Real.sqrt gf o start n = .ok (x n, iv n)) :
    x 0 = start ∧ ∃ g m1 m2 : ℕ → Fin k → ℝ, (∀ n, gf (x n) = .ok (g n)) ∧ ∀ n j,
      m1 (n + 1) j = m1 n j * o.beta1 + (1 - o.beta1) * g n j ∧
      m2 (n + 1) j = m2 n j * o.beta2 + (1 - o.beta1) * g n j ^ 2 ∧
      x (n + 1) j = x n j - o.alpha * (m1 (n + 1) j / (1 - o.beta1 ^ (n + 1))) /
        (Real.sqrt (m2 (n + 1) j / (1 - o.beta2 ^ (n + 1))) + o.eps) := by
  have h0 := hrun 0
  simp only [adamLoop, Except.ok.injEq, Prod.mk.injEq] at h0
  have step : ∀ n, ∃ i', iv (n + 1) = some i' ∧
      adamStep Real.sqrt gf (some (x n)) o (iv n) = .ok (x (n + 1), i') := by
    intro n
    have h := hrun (n + 1)
    rw [adamLoop, hrun n] at h
    have h' : (adamStep Real.sqrt gf (some (x n)) o (iv n) >>=
        fun p => (.ok (p.1, some p.2) : Except PyErr _)) = .ok (x (n + 1), iv (n + 1)) := h
    obtain ⟨⟨l, i'⟩, h1, h2⟩ := bind_ok h'
    simp only [Except.ok.injEq, Prod.mk.injEq] at h2
    rw [← h2.1, ← h2.2]
    exact ⟨i', rfl, h1⟩
  have time : ∀ n i, iv n = some i → i.t = n := by
    intro n
    induction n with
    | zero => intro i hi; rw [← h0.2] at hi; cases hi
    | succ n ih =>
      intro i hi
      obtain ⟨i', e, hs⟩ := step n
      rw [e] at hi
      cases hi
      cases hn : iv n with
      | none =>
        rw [hn] at hs
        unfold adamStep at hs
        obtain ⟨-, -, et, -⟩ := adamBody_ok hs
        cases n with
        | zero => exact et
        | succ n => obtain ⟨i'', e', -⟩ := step n; rw [e'] at hn; cases hn
      | some i0 =>
        rw [hn] at hs
        unfold adamStep at hs
        obtain ⟨-, -, et, -⟩ := adamBody_ok hs
        rw [et, ih i0 hn]
  have grad : ∀ n, ∃ g, gf (x n) = .ok g := by
    intro n
    obtain ⟨i', -, hs⟩ := step n
    cases hn : iv n with
    | none =>
      rw [hn] at hs
      unfold adamStep at hs
      obtain ⟨g', hg, -⟩ := adamBody_ok hs
      exact ⟨g', hg⟩
    | some i0 =>
      rw [hn] at hs
      unfold adamStep at hs
      obtain ⟨g', hg, -⟩ := adamBody_ok hs
      exact ⟨g', hg⟩
  choose g hg using grad
  refine ⟨h0.1.symm, g, fun n j => ((iv n).map fun i => i.m1 j).getD 0,
    fun n j => ((iv n).map fun i => i.m2 j).getD 0, hg, ?_⟩
  intro n j
  obtain ⟨i', e, hs⟩ := step n
  have ht := time _ _ e
  dsimp only
  rw [e]
  cases hn : iv n with
  | none =>
    rw [hn] at hs
    unfold adamStep at hs
    obtain ⟨g', hg', et, -, e1, e2, -, -, ex⟩ := adamBody_ok hs
    have hg'' := (hg n).symm.trans hg'
    cases hg''
    rw [ht] at ex
    refine ⟨?_, ?_, ?_⟩
    · simp only [Option.map_some, Option.getD_some, Option.map_none, Option.getD_none, e1]
    · simp only [Option.map_some, Option.getD_some, Option.map_none, Option.getD_none, e2]
    · exact congrFun ex j
  | some i0 =>
    rw [hn] at hs
    unfold adamStep at hs
    obtain ⟨g', hg', et, -, e1, e2, -, -, ex⟩ := adamBody_ok hs
    have hg'' := (hg n).symm.trans hg'
    cases hg''
    rw [ht] at ex
    refine ⟨?_, ?_, ?_⟩
    · simp only [Option.map_some, Option.getD_some, e1]
    · simp only [Option.map_some, Option.getD_some, e2]
    · exact congrFun ex j

/-- C173: if the weights of an Adam run converge, the gradient at the limit is zero. -/
theorem C173_limit_stationary {k : ℕ} {o : AdamOpts ℝ} (ha : o.alpha ≠ 0) (h10 : 0 ≤ o.beta1) (h11 : o.beta1 < 1)
    (h20 : 0 ≤ o.beta2) (h21 : o.beta2 < 1) (he : 0 ≤ o.eps) {gf : (Fin k → ℝ) → Except PyErr (Fin k → ℝ)}
    {start lim : Fin k → ℝ} {x : ℕ → Fin k → ℝ} {iv : ℕ → Option (Iv ℝ k)}
    (hrun : ∀ n, adamLoop Real.sqrt gf o start n = .ok (x n, iv n)) (hx : Tendsto x atTop (𝓝 lim))
    {g : (Fin k → ℝ) → Fin k → ℝ} (hgf : ∀ᶠ l in 𝓝 lim, gf l = .ok (g l)) (hg : ContinuousAt g lim) :
    gf lim = .ok 0 := by
  obtain ⟨-, gs, m1, m2, hgs, hs⟩ := adamLoop_spec hrun
  have heqv : (fun n => g (x n)) =ᶠ[atTop] gs := by
    filter_upwards [hx.eventually hgf] with n hn
    exact Except.ok.inj (hn.symm.trans (hgs n))
  rw [hgf.self_of_nhds]
  refine congrArg Except.ok (funext fun j => ?_)
  by_contra hne
  have hne' : g lim j ≠ 0 := hne
  have hG : Tendsto (fun n => gs n j) atTop (𝓝 (g lim j)) :=
    ((continuous_apply j).tendsto _).comp ((hg.tendsto.comp hx).congr' heqv)
  have hm1 : Tendsto (fun n => m1 n j) atTop (𝓝 (g lim j)) := tendsto_average h10 h11 hG fun n => (hs n j).1
  set κ : ℝ := (1 - o.beta1) / (1 - o.beta2) with hκ
  have hκ0 : 0 < κ := div_pos (by linarith) (by linarith)
  have hm2 : Tendsto (fun n => m2 n j) atTop (𝓝 (κ * g lim j ^ 2)) := by
    refine tendsto_average h20 h21 ((hG.pow 2).const_mul κ) fun n => ?_
    rw [(hs n j).2.1, hκ]
    have : 1 - o.beta2 ≠ 0 := by linarith
    field_simp
  have hb : ∀ b : ℝ, 0 ≤ b → b < 1 → Tendsto (fun n : ℕ => 1 - b ^ (n + 1)) atTop (𝓝 1) := by
    intro b b0 b1
    have := ((tendsto_pow_atTop_nhds_zero_of_lt_one b0 b1).comp (tendsto_add_atTop_nat 1)).const_sub 1
    simpa using this
  have hh1 : Tendsto (fun n => m1 (n + 1) j / (1 - o.beta1 ^ (n + 1))) atTop (𝓝 (g lim j)) := by
    have := (hm1.comp (tendsto_add_atTop_nat 1)).div (hb _ h10 h11) one_ne_zero
    rw [div_one] at this
    exact this
  have hh2 : Tendsto (fun n => Real.sqrt (m2 (n + 1) j / (1 - o.beta2 ^ (n + 1))) + o.eps) atTop
      (𝓝 (Real.sqrt (κ * g lim j ^ 2) + o.eps)) := by
    have := (hm2.comp (tendsto_add_atTop_nat 1)).div (hb _ h20 h21) one_ne_zero
    rw [div_one] at this
    exact ((Real.continuous_sqrt.tendsto _).comp this).add_const _
  have hpos : 0 < Real.sqrt (κ * g lim j ^ 2) + o.eps := by
    have : 0 < Real.sqrt (κ * g lim j ^ 2) := Real.sqrt_pos.2 (mul_pos hκ0 (by positivity))
    linarith
  have hmove := (hh1.const_mul o.alpha).div hh2 hpos.ne'
  have hxj : Tendsto (fun n => x n j) atTop (𝓝 (lim j)) := ((continuous_apply j).tendsto _).comp hx
  have hdiff := hxj.sub (hxj.comp (tendsto_add_atTop_nat 1))
  rw [sub_self] at hdiff
  have heq : (fun n => x n j - ((fun n => x n j) ∘ fun a => a + 1) n) =
      fun n => o.alpha * (m1 (n + 1) j / (1 - o.beta1 ^ (n + 1))) /
        (Real.sqrt (m2 (n + 1) j / (1 - o.beta2 ^ (n + 1))) + o.eps) := by
    funext n
    simp only [Function.comp]
    rw [(hs n j).2.2]
    ring
  rw [heq] at hdiff
  have := tendsto_nhds_unique hmove hdiff
  rw [div_eq_zero_iff] at this
  rcases this with h | h
  · rcases mul_eq_zero.1 h with h | h
    · exact ha h
    · exact hne' h
  · exact hpos.ne' h

/-- C173: with betas in `[0, 1)` and positive `eps`, the loop never fails, so the run exists. -/
theorem C173_runs {k : ℕ} {o : AdamOpts ℝ} (h10 : 0 ≤ o.beta1) (h11 : o.beta1 < 1)
    (h20 : 0 ≤ o.beta2) (h21 : o.beta2 < 1) (he : 0 < o.eps) (g : (Fin k → ℝ) → Fin k → ℝ) (start : Fin k → ℝ) :
    ∃ (x : ℕ → Fin k → ℝ) (iv : ℕ → Option (Iv ℝ k)),
      ∀ n, adamLoop Real.sqrt (fun l => .ok (g l)) o start n = .ok (x n, iv n) := by
  have body : ∀ i : Iv ℝ k, (∀ j, 0 ≤ i.m2 j) → ∃ x i', adamBody Real.sqrt (fun l => .ok (g l)) o i = .ok (x, i') ∧
      ∀ j, 0 ≤ i'.m2 j := by
    intro i hi
    have p1 : o.beta1 ^ (i.t + 1) < 1 := pow_lt_one₀ h10 h11 (Nat.succ_ne_zero _)
    have p2 : o.beta2 ^ (i.t + 1) < 1 := pow_lt_one₀ h20 h21 (Nat.succ_ne_zero _)
    have hm : ∀ j, 0 ≤ i.m2 j * o.beta2 + (1 - o.beta1) * g i.lamb j ^ 2 := fun j =>
      add_nonneg (mul_nonneg (hi j) h20) (mul_nonneg (by linarith) (sq_nonneg _))
    have c1 : ¬ (1 - o.beta1 ^ (i.t + 1) = 0 ∨ 1 - o.beta2 ^ (i.t + 1) = 0) := by
      rintro (h | h) <;> linarith
    have c2 : ¬ ∃ j, (i.m2 j * o.beta2 + (1 - o.beta1) * g i.lamb j ^ 2) / (1 - o.beta2 ^ (i.t + 1)) < 0 ∨
        Real.sqrt ((i.m2 j * o.beta2 + (1 - o.beta1) * g i.lamb j ^ 2) / (1 - o.beta2 ^ (i.t + 1))) + o.eps = 0 := by
      rintro ⟨j, h | h⟩
      · have := div_nonneg (hm j) (by linarith : (0:ℝ) ≤ 1 - o.beta2 ^ (i.t + 1))
        linarith
      · have := Real.sqrt_nonneg ((i.m2 j * o.beta2 + (1 - o.beta1) * g i.lamb j ^ 2) / (1 - o.beta2 ^ (i.t + 1)))
        linarith
    let y : Fin k → ℝ := fun j => i.lamb j - o.alpha * ((i.m1 j * o.beta1 + (1 - o.beta1) * g i.lamb j) / (1 - o.beta1 ^ (i.t + 1))) /
        (Real.sqrt ((i.m2 j * o.beta2 + (1 - o.beta1) * g i.lamb j ^ 2) / (1 - o.beta2 ^ (i.t + 1))) + o.eps)
    refine ⟨y, ⟨i.t + 1, y, fun j => i.m1 j * o.beta1 + (1 - o.beta1) * g i.lamb j,
      fun j => i.m2 j * o.beta2 + (1 - o.beta1) * g i.lamb j ^ 2⟩, ?_, hm⟩
    unfold adamBody
    show (if _ then _ else if _ then _ else _) = _
    rw [if_neg c1, if_neg c2]
    rfl
  have all : ∀ n, ∃ x iv, adamLoop Real.sqrt (fun l => .ok (g l)) o start n = .ok (x, iv) ∧
      ∀ i, iv = some i → ∀ j, 0 ≤ i.m2 j := by
    intro n
    induction n with
    | zero => exact ⟨start, none, rfl, fun i hi => by cases hi⟩
    | succ n ih =>
      obtain ⟨x, iv, e, hiv⟩ := ih
      have : ∃ x' i', adamStep Real.sqrt (fun l => .ok (g l)) (some x) o iv = .ok (x', i') ∧ ∀ j, 0 ≤ i'.m2 j := by
        cases iv with
        | none => exact body ⟨0, x, fun _ => 0, fun _ => 0⟩ fun j => le_rfl
        | some i => exact body { i with lamb := x } (hiv i rfl)
      obtain ⟨x', i', e', hm⟩ := this
      refine ⟨x', some i', ?_, fun i hi => by cases hi; exact hm⟩
      rw [adamLoop, e]
      show (adamStep Real.sqrt (fun l => .ok (g l)) (some x) o iv >>= _) = _
      rw [e']
      rfl
  choose x iv h using all
  exact ⟨x, iv, fun n => (h n).1⟩

/-- The gradient of `take_gradient` without the replacement of zeros. -/
noncomputable def plainGrad {k : ℕ} (rows : List (Row ℝ k)) (l : Fin k → ℝ) : Fin k → ℝ := fun j =>
  (rows.map fun r => -2 * residual r l * r.w *
    (1 / etaFill r l * r.gam j - dot r.gam l / etaFill r l ^ 2 * r.eta j)).sum

theorem continuousAt_list_sum {α : Type} {X : Type} [TopologicalSpace X] (l : List α) (f : α → X → ℝ) (x : X)
    (h : ∀ a ∈ l, ContinuousAt (f a) x) : ContinuousAt (fun y => (l.map fun a => f a y).sum) x := by
  induction l with
  | nil => simpa using continuousAt_const
  | cons a l ih =>
    simp only [List.map_cons, List.sum_cons]
    exact (h a List.mem_cons_self).add (ih fun b hb => h b (List.mem_cons_of_mem _ hb))

theorem takeGradient_near {k : ℕ} (rows : List (Row ℝ k)) (lim : Fin k → ℝ)
    (h : ∀ r ∈ rows, ∑ j, r.eta j * lim j ≠ 0) :
    (∀ᶠ l in 𝓝 lim, takeGradient rows l = .ok (plainGrad rows l)) ∧ ContinuousAt (plainGrad rows) lim := by
  have near : ∀ᶠ x in 𝓝 lim, ∀ r ∈ rows, dot r.eta x ≠ 0 :=
    eventually_all_list rows _ _ fun r hr => (continuous_dot r.eta).continuousAt.eventually_ne (h r hr)
  constructor
  · filter_upwards [near] with x hx
    rw [takeGradient, if_pos (fillAssert_of_ne rows x hx)]
    rfl
  · refine continuousAt_pi.2 fun j => continuousAt_list_sum rows _ lim fun r hr => ?_
    have hf : ContinuousAt (etaFill r) lim := by
      refine (continuous_dot r.eta).continuousAt.congr ?_
      filter_upwards [(continuous_dot r.eta).continuousAt.eventually_ne (h r hr)] with x hx
      rw [etaFill, if_neg hx]
    have h0 : etaFill r lim ≠ 0 := by
      have h' : dot r.eta lim ≠ 0 := h r hr
      rw [etaFill, if_neg h']
      exact h'
    have hgam := (continuous_dot r.gam).continuousAt (x := lim)
    have hres : ContinuousAt (residual r) lim := continuousAt_const.sub (hgam.div hf h0)
    exact ((continuousAt_const.mul hres).mul continuousAt_const).mul
      (((continuousAt_const.div hf h0).mul continuousAt_const).sub
        ((hgam.div (hf.pow 2) (pow_ne_zero 2 h0)).mul continuousAt_const))

/-- C173, for the squared error: if Adam on the rows converges to weights under which no leaf has total weight
zero, `take_gradient` there is zero, and so is the derivative of `calc_cost`. -/
theorem C173_l2_limit {k : ℕ} {o : AdamOpts ℝ} (ha : o.alpha ≠ 0) (h10 : 0 ≤ o.beta1) (h11 : o.beta1 < 1)
    (h20 : 0 ≤ o.beta2) (h21 : o.beta2 < 1) (he : 0 ≤ o.eps) {rows : List (Row ℝ k)}
    {start lim : Fin k → ℝ} {x : ℕ → Fin k → ℝ} {iv : ℕ → Option (Iv ℝ k)}
    (hrun : ∀ n, adamLoop Real.sqrt (takeGradient rows) o start n = .ok (x n, iv n))
    (hx : Tendsto x atTop (𝓝 lim)) (h : ∀ r ∈ rows, ∑ j, r.eta j * lim j ≠ 0) :
    takeGradient rows lim = .ok 0 ∧ ∃ f : (Fin k → ℝ) → ℝ, (∀ᶠ l in 𝓝 lim, calcCost rows l = .ok (f l)) ∧
      HasFDerivAt f (0 : (Fin k → ℝ) →L[ℝ] ℝ) lim := by
  obtain ⟨h1, h2⟩ := takeGradient_near rows lim h
  have hz := C173_limit_stationary ha h10 h11 h20 h21 he hrun hx h1 h2
  refine ⟨hz, ?_⟩
  obtain ⟨f, L, g, hf, hd, hg, hL⟩ := C24_gradient_l2 rows lim h
  rw [hz, Except.ok.injEq] at hg
  have : L = 0 := by
    ext v
    rw [hL, ← hg]
    simp
  exact ⟨f, hf, this ▸ hd⟩

theorem sum_over_trees {k : ℕ} (rows : List (Row ℝ k)) (f : Row ℝ k → ℝ) (S : Finset ℕ) (h : ∀ r ∈ rows, r.tree ∈ S) :
    ∑ c ∈ S, ((rows.filter fun r => r.tree == c).map f).sum = (rows.map f).sum := by
  induction rows with
  | nil => simp
  | cons r rows ih =>
    have e : ∀ c, (((r :: rows).filter fun r => r.tree == c).map f).sum =
        (if r.tree = c then f r else 0) + ((rows.filter fun r => r.tree == c).map f).sum := by
      intro c
      rw [List.filter_cons]
      by_cases hc : r.tree = c
      · simp [hc]
      · simp [hc]
    simp only [e, Finset.sum_add_distrib, ih fun q hq => h q (List.mem_cons_of_mem _ hq), List.map_cons, List.sum_cons]
    rw [Finset.sum_ite_eq, if_pos (h r List.mem_cons_self)]

/-- C173, plain steps: if the unconstrained descent with plain steps on randomly chosen trees converges, every tree
with rows being chosen infinitely often, then the gradient over all rows is zero at the limit, and already the
gradient of every single tree is. -/
theorem C173_plain_limit {k : ℕ} {sqrt : ℝ → ℝ} {t : ℝ} (ht : t ≠ 0) {rows : List (Row ℝ k)} {choices : ℕ → ℕ}
    {x : ℕ → Fin k → ℝ} {lim : Fin k → ℝ}
    (hrun : ∀ n, sgdMove sqrt takeGradient proxProject ⟨t, false, none⟩ rows (choices n) (x n) none =
      .ok (x (n + 1), none))
    (hall : ∀ r ∈ rows, ∃ᶠ n in atTop, choices n = r.tree)
    (hx : Tendsto x atTop (𝓝 lim)) (h : ∀ r ∈ rows, ∑ j, r.eta j * lim j ≠ 0) :
    takeGradient rows lim = .ok 0 ∧
      ∀ r ∈ rows, takeGradient (rows.filter fun q => q.tree == r.tree) lim = .ok 0 := by
  have single : ∀ r ∈ rows, plainGrad (rows.filter fun q => q.tree == r.tree) lim = 0 := by
    intro r hr
    obtain ⟨h1, h2⟩ := takeGradient_near (rows.filter fun q => q.tree == r.tree) lim
      fun q hq => h q (List.mem_of_mem_filter hq)
    have hstep : ∃ᶠ n in atTop, plainGrad (rows.filter fun q => q.tree == r.tree) (x n) =
        fun j => (x n j - x (n + 1) j) / t := by
      refine ((hall r hr).and_eventually (hx.eventually h1)).mono ?_
      rintro n ⟨hn, hok⟩
      have hm := hrun n
      rw [hn] at hm
      unfold sgdMove sgdPre at hm
      simp only [Bool.false_eq_true, if_false] at hm
      obtain ⟨⟨l, i⟩, e1, e2⟩ := bind_ok hm
      obtain ⟨g, e3, e4⟩ := bind_ok e1
      rw [hok] at e3
      cases e3
      cases e4
      have e5 := (Prod.mk.inj (Except.ok.inj e2)).1
      funext j
      rw [← e5]
      field_simp
      ring
    have hlim : Tendsto (fun n => fun j => (x n j - x (n + 1) j) / t) atTop (𝓝 (0 : Fin k → ℝ)) := by
      have := (hx.sub (hx.comp (tendsto_add_atTop_nat 1))).const_smul t⁻¹
      rw [sub_self, smul_zero] at this
      refine this.congr fun n => ?_
      funext j
      simp only [Pi.smul_apply, Pi.sub_apply, Function.comp, smul_eq_mul]
      ring
    have hg := h2.tendsto.comp hx
    by_contra hne
    have hd := hg.sub hlim
    rw [sub_zero] at hd
    have hev : ∀ᶠ n in atTop, ((plainGrad (rows.filter fun q => q.tree == r.tree)) ∘ x) n -
        (fun j => (x n j - x (n + 1) j) / t) ≠ 0 := hd.eventually_ne hne
    obtain ⟨n, hn1, hn2⟩ := (hstep.and_eventually hev).exists
    exact hn2 (by rw [Function.comp, hn1, sub_self])
  refine ⟨?_, fun r hr => ?_⟩
  · rw [(takeGradient_near rows lim h).1.self_of_nhds]
    refine congrArg Except.ok (funext fun j => ?_)
    have e := sum_over_trees rows (fun r => -2 * residual r lim * r.w *
      (1 / etaFill r lim * r.gam j - dot r.gam lim / etaFill r lim ^ 2 * r.eta j)) (rows.map Row.tree).toFinset
      fun r hr => List.mem_toFinset.2 (List.mem_map.2 ⟨r, hr, rfl⟩)
    show _ = (0 : ℝ)
    rw [plainGrad, ← e]
    refine Finset.sum_eq_zero fun c hc => ?_
    obtain ⟨r, hr, rfl⟩ := List.mem_map.1 (List.mem_toFinset.1 hc)
    exact congrFun (single r hr) j
  · rw [(takeGradient_near (rows.filter fun q => q.tree == r.tree) lim
      fun q hq => h q (List.mem_of_mem_filter hq)).1.self_of_nhds, single r hr]

/-- C173: the code of `_d_rosenbrock` is the gradient of `_rosenbrock`: every directional derivative agrees. -/
theorem C173_rosenbrock_gradient (a b : ℝ) (v h : Fin 2 → ℝ) :
    HasDerivAt (fun s : ℝ => rosenbrock a b fun i => v i + s * h i) (∑ i, dRosenbrock a b v i * h i) 0 := by
  have h0 : HasDerivAt (fun s : ℝ => v 0 + s * h 0) (h 0) 0 := by
    simpa using ((hasDerivAt_id (0:ℝ)).mul_const (h 0)).const_add (v 0)
  have h1 : HasDerivAt (fun s : ℝ => v 1 + s * h 1) (h 1) 0 := by
    simpa using ((hasDerivAt_id (0:ℝ)).mul_const (h 1)).const_add (v 1)
  have := ((h0.const_sub a).pow 2).add (((h1.sub (h0.pow 2)).pow 2).const_mul b)
  refine this.congr_deriv ?_
  simp only [Fin.sum_univ_two, dRosenbrock, Matrix.cons_val_zero, Matrix.cons_val_one, zero_mul, add_zero]
  simp
  ring

/-- C173: the formula in its docstring is not. -/
theorem C173_docstring_refuted : ¬ ∀ (a b : ℝ) (v h : Fin 2 → ℝ),
    HasDerivAt (fun s : ℝ => rosenbrock a b fun i => v i + s * h i) (∑ i, docRosenbrock a b v i * h i) 0 := by
  intro h
  have e := (h 1 100 ![1, 2] ![1, 0]).unique (C173_rosenbrock_gradient 1 100 ![1, 2] ![1, 0])
  simp only [Fin.sum_univ_two, dRosenbrock, docRosenbrock, Matrix.cons_val_zero, Matrix.cons_val_one] at e
  norm_num at e

/-- C173: `(a, a^2)` is the global minimum and, for `b > 0`, the only one. -/
theorem C173_rosenbrock_minimum {a b : ℝ} (hb : 0 < b) (v : Fin 2 → ℝ) :
    rosenbrock a b ![a, a ^ 2] ≤ rosenbrock a b v ∧ (rosenbrock a b v ≤ rosenbrock a b ![a, a ^ 2] ↔ v = ![a, a ^ 2]) := by
  have e : rosenbrock a b ![a, a ^ 2] = 0 := by simp [rosenbrock]
  have n1 : 0 ≤ (a - v 0) ^ 2 := sq_nonneg _
  have n2 : 0 ≤ b * (v 1 - v 0 ^ 2) ^ 2 := mul_nonneg hb.le (sq_nonneg _)
  rw [e]
  refine ⟨add_nonneg n1 n2, fun h => ?_, fun h => by rw [h, e]⟩
  unfold rosenbrock at h
  have z1 : a - v 0 = 0 := pow_eq_zero_iff (two_ne_zero) |>.1 (le_antisymm (by linarith) n1)
  have z2 : v 1 - v 0 ^ 2 = 0 := by
    have : b * (v 1 - v 0 ^ 2) ^ 2 = 0 := le_antisymm (by linarith) n2
    rcases mul_eq_zero.1 this with h | h
    · exact absurd h hb.ne'
    · exact pow_eq_zero_iff (two_ne_zero) |>.1 h
  have e0 : v 0 = a := by linarith
  have e1 : v 1 = a ^ 2 := by rw [← e0]; linarith
  funext i
  match i with
  | 0 => exact e0
  | 1 => exact e1

/-- C173: what `test_adam_step` asserts about the end point holds for the limit: if an Adam run on this function
converges, its limit is `(a, a^2)`. -/
theorem C173_rosenbrock_limit {o : AdamOpts ℝ} (ha : o.alpha ≠ 0) (h10 : 0 ≤ o.beta1) (h11 : o.beta1 < 1)
    (h20 : 0 ≤ o.beta2) (h21 : o.beta2 < 1) (he : 0 ≤ o.eps) {a b : ℝ} (hb : b ≠ 0) {start lim : Fin 2 → ℝ}
    {x : ℕ → Fin 2 → ℝ} {iv : ℕ → Option (Iv ℝ 2)}
    (hrun : ∀ n, adamLoop Real.sqrt (fun l => .ok (dRosenbrock a b l)) o start n = .ok (x n, iv n))
    (hx : Tendsto x atTop (𝓝 lim)) : lim = ![a, a ^ 2] := by
  have hc : Continuous (dRosenbrock a b) := by
    refine continuous_pi fun i => ?_
    match i with
    | 0 => simp only [dRosenbrock, Matrix.cons_val_zero]; fun_prop
    | 1 => simp only [dRosenbrock, Matrix.cons_val_one]; fun_prop
  have h := C173_limit_stationary ha h10 h11 h20 h21 he hrun hx (Eventually.of_forall fun _ => rfl) hc.continuousAt
  rw [Except.ok.injEq] at h
  have z0 := congrFun h 0
  have z1 := congrFun h 1
  simp only [dRosenbrock, Matrix.cons_val_zero, Matrix.cons_val_one, Pi.zero_apply] at z0 z1
  have y : lim 1 - lim 0 ^ 2 = 0 := by
    rcases mul_eq_zero.1 z1 with h | h
    · exact absurd h (mul_ne_zero two_ne_zero hb)
    · exact h
  rw [y] at z0
  have e0 : lim 0 = a := by linarith
  have e1 : lim 1 = a ^ 2 := by rw [← e0]; linarith
  funext i
  match i with
  | 0 => exact e0
  | 1 => exact e1

/-- A run that moves and settles: gradient 1 at 0 and 0 elsewhere, `beta_1 = beta_2 = 0`, `alpha = eps = 1`. It
steps from 0 to -1/2 and stays there. -/
example : ∃ (x : ℕ → Fin 1 → ℝ) (iv : ℕ → Option (Iv ℝ 1)),
    (∀ n, adamLoop Real.sqrt (fun l => .ok fun _ => if l 0 = 0 then 1 else 0) ⟨1, 0, 0, 1⟩ (fun _ => 0) n =
      .ok (x n, iv n)) ∧ x 0 = (fun _ => 0) ∧ Tendsto x atTop (𝓝 fun _ => -1 / 2) := by
  obtain ⟨x, iv, h⟩ := C173_runs (o := ⟨1, 0, 0, 1⟩) le_rfl zero_lt_one le_rfl zero_lt_one zero_lt_one
    (fun l : Fin 1 → ℝ => fun _ => if l 0 = 0 then 1 else 0) (fun _ => 0)
  obtain ⟨h0, g, m1, m2, hg, hs⟩ := adamLoop_spec h
  have hg' : ∀ n, g n = fun _ => if x n 0 = 0 then 1 else 0 := fun n => (Except.ok.inj (hg n)).symm
  refine ⟨x, iv, h, h0, ?_⟩
  have hx : ∀ n, x (n + 1) = fun _ => -1 / 2 := by
    intro n
    induction n with
    | zero =>
      funext j
      obtain ⟨e1, e2, e3⟩ := hs 0 j
      rw [e3, e1, e2, hg' 0, h0]
      norm_num
    | succ n ih =>
      funext j
      obtain ⟨e1, e2, e3⟩ := hs (n + 1) j
      rw [e3, e1, e2, hg' (n + 1), ih]
      norm_num
  exact (tendsto_add_atTop_iff_nat 1).1 (tendsto_const_nhds.congr fun n => (hx n).symm)

/-- Two leaves of one tree whose rows are fitted exactly by the weights (1, 1): the gradient is zero there, so plain
steps from (1, 1) stay, and the hypotheses of `C173_plain_limit` hold. -/
example : ∃ rows : List (Row ℝ 2), rows ≠ [] ∧ (∀ r ∈ rows, ∑ j, r.eta j * (![1, 1] : Fin 2 → ℝ) j ≠ 0) ∧
    sgdMove Real.sqrt takeGradient proxProject ⟨1, false, none⟩ rows 0 ![1, 1] none = .ok (![1, 1], none) := by
  refine ⟨[⟨2, 1, ![1, 3], ![1, 1], 0⟩, ⟨2, 1, ![3, 1], ![1, 1], 0⟩], by simp, ?_, ?_⟩
  · intro r hr
    simp only [List.mem_cons, List.not_mem_nil, or_false] at hr
    rcases hr with rfl | rfl <;> norm_num [Fin.sum_univ_two]
  · have e : takeGradient ([⟨2, 1, ![1, 3], ![1, 1], 0⟩, ⟨2, 1, ![3, 1], ![1, 1], 0⟩] : List (Row ℝ 2)) ![1, 1] =
        .ok fun _ => 0 := by
      rw [takeGradient, if_pos]
      · refine congrArg Except.ok (funext fun j => ?_)
        simp only [residual, etaFill, dot, Fin.sum_univ_two]
        norm_num
      · simp only [fillAssert, dot, Fin.sum_univ_two]
        norm_num
    unfold sgdMove sgdPre
    simp only [Bool.false_eq_true, if_false]
    rw [show (([⟨2, 1, ![1, 3], ![1, 1], 0⟩, ⟨2, 1, ![3, 1], ![1, 1], 0⟩] : List (Row ℝ 2)).filter fun r => r.tree == 0)
      = [⟨2, 1, ![1, 3], ![1, 1], 0⟩, ⟨2, 1, ![3, 1], ![1, 1], 0⟩] from rfl, e]
    show Except.ok ((fun j => (![1, 1] : Fin 2 → ℝ) j - 1 * 0), none) = _
    simp

end SmoothRF
