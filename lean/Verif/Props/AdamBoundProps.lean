import Verif.Proofs.Adam
import Verif.Props.SgdProps
import Mathlib.Tactic.LinearCombination
import Mathlib.Data.Real.Sqrt
import Mathlib.Algebra.Order.Ring.Pow

/-!
# C108: size of an Adam step
-/

set_option linter.unusedSectionVars false

namespace SmoothRF

variable {K : Type} [Field K] [LinearOrder K] [IsStrictOrderedRing K] {k : ℕ}

/-- Moments reachable by `adam_step`: none yet, or those of a history of calls. -/
def MomentsOk (o : AdamOpts K) (m1 m2 : Fin k → K) : Prop :=
  ∀ j, 0 ≤ m2 j ∧ (o.beta2 - o.beta1 ^ 2) * m1 j ^ 2 ≤ (1 - o.beta1) * o.beta2 * m2 j

theorem momentsOk_zero (o : AdamOpts K) : MomentsOk o (fun _ : Fin k => 0) (fun _ => 0) :=
  fun j => ⟨le_rfl, by simp⟩

theorem momentsOk_step {o : AdamOpts K} (h0 : 0 ≤ o.beta1) (h1 : o.beta1 < 1)
    (h2 : o.beta1 ^ 2 < o.beta2) {m1 m2 g : Fin k → K} (h : MomentsOk o m1 m2) :
    MomentsOk o (fun j => m1 j * o.beta1 + (1 - o.beta1) * g j)
      (fun j => m2 j * o.beta2 + (1 - o.beta1) * g j ^ 2) := by
  intro j
  obtain ⟨hp, hm⟩ := h j
  have hb2 : 0 < o.beta2 := lt_of_le_of_lt (sq_nonneg _) h2
  have hs : 0 < o.beta2 - o.beta1 ^ 2 := sub_pos.2 h2
  have h1' : 0 < 1 - o.beta1 := sub_pos.2 h1
  refine ⟨add_nonneg (mul_nonneg hp hb2.le) (mul_nonneg h1'.le (sq_nonneg _)), ?_⟩
  -- (β₂-β₁²)(β₁ m + (1-β₁) g)² ≤ β₂ (β₂-β₁²) m² + β₂ (1-β₁)² g², the difference being a square
  have key : (o.beta2 - o.beta1 ^ 2) * (m1 j * o.beta1 + (1 - o.beta1) * g j) ^ 2 =
      o.beta2 * ((o.beta2 - o.beta1 ^ 2) * m1 j ^ 2) + o.beta2 * (1 - o.beta1) ^ 2 * g j ^ 2 -
        ((o.beta2 - o.beta1 ^ 2) * m1 j - o.beta1 * (1 - o.beta1) * g j) ^ 2 := by ring
  have := mul_le_mul_of_nonneg_left hm hb2.le
  show (o.beta2 - o.beta1 ^ 2) * (m1 j * o.beta1 + (1 - o.beta1) * g j) ^ 2 ≤
    (1 - o.beta1) * o.beta2 * (m2 j * o.beta2 + (1 - o.beta1) * g j ^ 2)
  rw [key]
  have := sq_nonneg ((o.beta2 - o.beta1 ^ 2) * m1 j - o.beta1 * (1 - o.beta1) * g j)
  nlinarith

theorem adamBody_move {sqrt : K → K} (hsq : ∀ x, 0 ≤ x → 0 ≤ sqrt x ∧ sqrt x ^ 2 = x)
    {gf : (Fin k → K) → Except PyErr (Fin k → K)} {o : AdamOpts K}
    (h0 : 0 ≤ o.beta1) (h1 : o.beta1 < 1) (h2 : o.beta1 ^ 2 < o.beta2) (h3 : o.beta2 < 1)
    (he : 0 ≤ o.eps) {iv iv' : Iv K k} {x : Fin k → K} (hm : MomentsOk o iv.m1 iv.m2)
    (h : adamBody sqrt gf o iv = .ok (x, iv')) :
    MomentsOk o iv'.m1 iv'.m2 ∧ ∀ j, (x j - iv.lamb j) ^ 2 *
      ((o.beta2 - o.beta1 ^ 2) * (1 - o.beta1 ^ iv'.t) ^ 2) ≤
        o.alpha ^ 2 * ((1 - o.beta1) * o.beta2 * (1 - o.beta2 ^ iv'.t)) := by
  have hb2 : 0 < o.beta2 := lt_of_le_of_lt (sq_nonneg _) h2
  unfold adamBody at h
  obtain ⟨g, hg, h⟩ := bind_ok h
  simp only at h
  split_ifs at h with a1 a2
  cases h
  have hm' := momentsOk_step h0 h1 h2 (g := g) hm
  refine ⟨hm', fun j => ?_⟩
  push Not at a2
  obtain ⟨hnn, hne⟩ := a2 j
  obtain ⟨hp, hq⟩ := hm' j
  simp only at hp hq
  show (iv.lamb j - o.alpha * ((iv.m1 j * o.beta1 + (1 - o.beta1) * g j) / (1 - o.beta1 ^ (iv.t + 1))) /
      (sqrt ((iv.m2 j * o.beta2 + (1 - o.beta1) * g j ^ 2) / (1 - o.beta2 ^ (iv.t + 1))) + o.eps) -
      iv.lamb j) ^ 2 * ((o.beta2 - o.beta1 ^ 2) * (1 - o.beta1 ^ (iv.t + 1)) ^ 2) ≤
    o.alpha ^ 2 * ((1 - o.beta1) * o.beta2 * (1 - o.beta2 ^ (iv.t + 1)))
  generalize iv.m1 j * o.beta1 + (1 - o.beta1) * g j = m at *
  generalize iv.m2 j * o.beta2 + (1 - o.beta1) * g j ^ 2 = v at *
  have t1 : 0 < 1 - o.beta1 ^ (iv.t + 1) := sub_pos.2 (pow_lt_one₀ h0 h1 (by omega))
  have t2 : 0 < 1 - o.beta2 ^ (iv.t + 1) := sub_pos.2 (pow_lt_one₀ hb2.le h3 (by omega))
  generalize 1 - o.beta1 ^ (iv.t + 1) = T1 at *
  generalize 1 - o.beta2 ^ (iv.t + 1) = T2 at *
  obtain ⟨s0, s2⟩ := hsq _ hnn
  generalize sqrt (v / T2) = s at *
  have hden : 0 < s + o.eps := lt_of_le_of_ne (add_nonneg s0 he) (Ne.symm hne)
  have hv : v = s ^ 2 * T2 := by rw [s2]; field_simp
  have e : (iv.lamb j - o.alpha * (m / T1) / (s + o.eps) - iv.lamb j) ^ 2 *
      ((o.beta2 - o.beta1 ^ 2) * T1 ^ 2) =
      o.alpha ^ 2 * ((o.beta2 - o.beta1 ^ 2) * m ^ 2) / (s + o.eps) ^ 2 := by
    field_simp
    ring
  rw [e, div_le_iff₀ (by positivity)]
  have hs2 : s ^ 2 ≤ (s + o.eps) ^ 2 := by
    apply pow_le_pow_left₀ s0; linarith
  calc o.alpha ^ 2 * ((o.beta2 - o.beta1 ^ 2) * m ^ 2)
      ≤ o.alpha ^ 2 * ((1 - o.beta1) * o.beta2 * v) := by gcongr
    _ = o.alpha ^ 2 * ((1 - o.beta1) * o.beta2 * T2) * s ^ 2 := by rw [hv]; ring
    _ ≤ _ := by
      have : 0 ≤ 1 - o.beta1 := by linarith
      gcongr

theorem adamRun_moments {sqrt : K → K} {o : AdamOpts K} (h0 : 0 ≤ o.beta1) (h1 : o.beta1 < 1)
    (h2 : o.beta1 ^ 2 < o.beta2) {gs : List (Fin k → K)} {iv : Iv K k} (h : AdamRun sqrt o gs iv) :
    MomentsOk o iv.m1 iv.m2 := by
  induction h with
  | first h _ =>
    obtain ⟨g, -, -, -, e1, e2, -⟩ := adamBody_ok h
    rw [e1, e2]
    exact momentsOk_step h0 h1 h2 (momentsOk_zero o)
  | @next gf li g x gs iv iv' _ h hg ih =>
    have hb : adamBody sqrt gf o { iv with lamb := li.getD iv.lamb } = .ok (x, iv') := by
      cases li <;> exact h
    obtain ⟨g, -, -, -, e1, e2, -⟩ := adamBody_ok hb
    rw [e1, e2]
    exact momentsOk_step h0 h1 h2 ih

/-- C108: in any history of calls, a call of `adam_step` that starts from `start` and ends at `x` moves
coordinate `j` by at most `alpha * sqrt((1-b1) b2 (1-b2^t) / (b2-b1^2)) / (1-b1^t)` (`t` the number of
the call), whatever the gradients are. Stated squared, without divisions. -/
theorem C108_step_bound {sqrt : K → K} (hsq : ∀ x, 0 ≤ x → 0 ≤ sqrt x ∧ sqrt x ^ 2 = x)
    {o : AdamOpts K} (h0 : 0 ≤ o.beta1) (h1 : o.beta1 < 1) (h2 : o.beta1 ^ 2 < o.beta2)
    (h3 : o.beta2 < 1) (he : 0 ≤ o.eps) {gf : (Fin k → K) → Except PyErr (Fin k → K)} :
    (∀ (start x : Fin k → K) (iv' : Iv K k), adamStep sqrt gf (some start) o none = .ok (x, iv') →
      ∀ j, (x j - start j) ^ 2 * ((o.beta2 - o.beta1 ^ 2) * (1 - o.beta1) ^ 2) ≤
        o.alpha ^ 2 * ((1 - o.beta1) * o.beta2 * (1 - o.beta2))) ∧
    (∀ (gs : List (Fin k → K)) (iv : Iv K k), AdamRun sqrt o gs iv →
      ∀ (li : Option (Fin k → K)) (x : Fin k → K) (iv' : Iv K k),
      adamStep sqrt gf li o (some iv) = .ok (x, iv') →
      ∀ j, (x j - li.getD iv.lamb j) ^ 2 *
        ((o.beta2 - o.beta1 ^ 2) * (1 - o.beta1 ^ (gs.length + 1)) ^ 2) ≤
        o.alpha ^ 2 * ((1 - o.beta1) * o.beta2 * (1 - o.beta2 ^ (gs.length + 1)))) := by
  constructor
  · intro start x iv' h j
    have hb : adamBody sqrt gf o ⟨0, start, fun _ => 0, fun _ => 0⟩ = .ok (x, iv') := h
    obtain ⟨-, hmove⟩ := adamBody_move hsq h0 h1 h2 h3 he (momentsOk_zero o) hb
    obtain ⟨g, -, et, -⟩ := adamBody_ok hb
    have := hmove j
    rw [et] at this
    simpa using this
  · intro gs iv hr li x iv' h j
    have hb : adamBody sqrt gf o { iv with lamb := li.getD iv.lamb } = .ok (x, iv') := by
      cases li <;> exact h
    have hmom := adamRun_moments h0 h1 h2 hr
    obtain ⟨-, hmove⟩ := adamBody_move hsq h0 h1 h2 h3 he
      (iv := { iv with lamb := li.getD iv.lamb }) hmom hb
    obtain ⟨g, -, et, -⟩ := adamBody_ok hb
    have := hmove j
    rw [et, show ({ iv with lamb := li.getD iv.lamb } : Iv K k).t = iv.t from rfl,
      (adamRun_spec hr).1] at this
    exact this

/-- The default betas of adam_sgd.py 13 give at most `alpha` per call. -/
theorem default_bound {t : ℕ} (ht : 0 < t) :
    (1 - 9 / 10 : K) * (999 / 1000) * (1 - (999 / 1000) ^ t) ≤
      (999 / 1000 - (9 / 10) ^ 2) * (1 - (9 / 10) ^ t) ^ 2 := by
  have hp : (0 : K) < 9 / 10 := by norm_num
  rcases Nat.lt_or_ge t 19 with h | h
  · have hb : 1 - (999 / 1000 : K) ^ t ≤ t * (1 / 1000) := by
      have := one_add_mul_le_pow (R := K) (a := -1 / 1000) (by norm_num) t
      have e : (1 + -1 / 1000 : K) = 999 / 1000 := by norm_num
      rw [e] at this
      linarith
    have ht' : (t : K) ≤ 18 := by exact_mod_cast (by omega : t ≤ 18)
    have hq : (1 / 10 : K) ≤ 1 - (9 / 10) ^ t := by
      have : (9 / 10 : K) ^ t ≤ (9 / 10) ^ 1 := pow_le_pow_of_le_one hp.le (by norm_num) ht
      linarith
    have hq2 : (1 / 100 : K) ≤ (1 - (9 / 10) ^ t) ^ 2 := by nlinarith
    linarith
  · have hb : 1 - (999 / 1000 : K) ^ t ≤ 1 := by
      have : (0 : K) < (999 / 1000) ^ t := pow_pos (by norm_num) t
      linarith
    have hq : (86 / 100 : K) ≤ 1 - (9 / 10) ^ t := by
      have : (9 / 10 : K) ^ t ≤ (9 / 10) ^ 19 := pow_le_pow_of_le_one hp.le (by norm_num) h
      have : (9 / 10 : K) ^ 19 ≤ 14 / 100 := by norm_num
      linarith
    have hq2 : (86 / 100 : K) ^ 2 ≤ (1 - (9 / 10) ^ t) ^ 2 := by
      apply pow_le_pow_left₀ _ hq; norm_num
    linarith

theorem adamBody_default {sqrt : K → K} (hsq : ∀ x, 0 ≤ x → 0 ≤ sqrt x ∧ sqrt x ^ 2 = x)
    {gf : (Fin k → K) → Except PyErr (Fin k → K)} {o : AdamOpts K} (h0 : o.beta1 = 9 / 10)
    (h1 : o.beta2 = 999 / 1000) (ha : 0 ≤ o.alpha) (he : 0 ≤ o.eps) {iv iv' : Iv K k} {x : Fin k → K}
    (hm : MomentsOk o iv.m1 iv.m2) (h : adamBody sqrt gf o iv = .ok (x, iv')) :
    MomentsOk o iv'.m1 iv'.m2 ∧ ∀ j, |x j - iv.lamb j| ≤ o.alpha := by
  obtain ⟨h1', h2'⟩ := adamBody_move hsq (by rw [h0]; norm_num) (by rw [h0]; norm_num)
    (by rw [h0, h1]; norm_num) (by rw [h1]; norm_num) he hm h
  refine ⟨h1', fun j => ?_⟩
  have hj := h2' j
  obtain ⟨g, -, et, -⟩ := adamBody_ok h
  have hb := default_bound (K := K) (t := iv'.t) (by omega)
  rw [h0, h1] at hj
  have hpos : (0 : K) < (999 / 1000 - (9 / 10) ^ 2) * (1 - (9 / 10) ^ iv'.t) ^ 2 := by
    have : (9 / 10 : K) ^ iv'.t < 1 := pow_lt_one₀ (by norm_num) (by norm_num) (by omega)
    have : (0 : K) < 1 - (9 / 10) ^ iv'.t := by linarith
    have : (0 : K) < 999 / 1000 - (9 / 10) ^ 2 := by norm_num
    positivity
  have : (x j - iv.lamb j) ^ 2 ≤ o.alpha ^ 2 := by
    refine le_of_mul_le_mul_right (hj.trans ?_) hpos
    exact mul_le_mul_of_nonneg_left hb (sq_nonneg _)
  exact abs_le_of_sq_le_sq this ha

/-- C108, one call with the default betas, first or after any history: no coordinate moves by more than
`alpha`. -/
theorem C108_default_step {sqrt : K → K} (hsq : ∀ x, 0 ≤ x → 0 ≤ sqrt x ∧ sqrt x ^ 2 = x)
    {o : AdamOpts K} (h0 : o.beta1 = 9 / 10) (h1 : o.beta2 = 999 / 1000) (ha : 0 ≤ o.alpha) (he : 0 ≤ o.eps)
    {gf : (Fin k → K) → Except PyErr (Fin k → K)} :
    (∀ (start x : Fin k → K) (iv' : Iv K k), adamStep sqrt gf (some start) o none = .ok (x, iv') →
      ∀ j, |x j - start j| ≤ o.alpha) ∧
    ∀ (gs : List (Fin k → K)) (iv : Iv K k), AdamRun sqrt o gs iv →
      ∀ (li : Option (Fin k → K)) (x : Fin k → K) (iv' : Iv K k),
      adamStep sqrt gf li o (some iv) = .ok (x, iv') → ∀ j, |x j - li.getD iv.lamb j| ≤ o.alpha := by
  constructor
  · intro start x iv' h
    exact (adamBody_default (iv := ⟨0, start, fun _ => 0, fun _ => 0⟩) hsq h0 h1 ha he (momentsOk_zero o) h).2
  · intro gs iv hr li x iv' h
    have hb : adamBody sqrt gf o { iv with lamb := li.getD iv.lamb } = .ok (x, iv') := by
      cases li <;> exact h
    have hmom := adamRun_moments (by rw [h0]; norm_num) (by rw [h0]; norm_num) (by rw [h0, h1]; norm_num) hr
    exact (adamBody_default (iv := { iv with lamb := li.getD iv.lamb }) hsq h0 h1 ha he hmom hb).2

/-- C108, whole run: with the default betas, an unconstrained descent with Adam never moves a weight by
more than `alpha` per step, so after `n` steps by at most `n * alpha`. -/
theorem C108_total_move {sqrt : K → K} (hsq : ∀ x, 0 ≤ x → 0 ≤ sqrt x ∧ sqrt x ^ 2 = x)
    {a : AdamOpts K} (h0 : a.beta1 = 9 / 10) (h1 : a.beta2 = 999 / 1000) (ha : 0 ≤ a.alpha)
    (he : 0 ≤ a.eps) {o : SgdOpts K} (ho : o.adam = some a) (hc : o.constrained = false)
    {rows : List (Row K k)} {lambInit : List K} {choices : List ℕ} {best last : Fin k → K}
    {costs : List K} (h : sgd sqrt o rows lambInit choices = .ok (best, last, costs)) (j : Fin k) :
    ∃ l0, lambInit[j]? = some l0 ∧ |last j - l0| ≤ choices.length * a.alpha ∧
      |best j - l0| ≤ choices.length * a.alpha := by
  let inv : (Fin k → K) × Option (Iv K k) → Prop := fun s => ∀ iv, s.2 = some iv → MomentsOk a iv.m1 iv.m2
  have hstep : ∀ c s s', inv s → sgdMove sqrt takeGradient proxProject o rows c s.1 s.2 = .ok s' →
      inv s' ∧ |s'.1 j - s.1 j| ≤ a.alpha := by
    intro c s s' hs hm
    unfold sgdMove sgdPre at hm
    simp only [ho, hc, Bool.false_eq_true, if_false] at hm
    obtain ⟨p, hp, hm⟩ := bind_ok hm
    cases hm
    obtain ⟨⟨l, iv'⟩, hq, hp⟩ := bind_ok hp
    cases hp
    have key : ∀ iv : Iv K k, MomentsOk a iv.m1 iv.m2 → iv.lamb = s.1 →
        adamBody sqrt (takeGradient (rows.filter fun r => r.tree == c)) a iv = .ok (l, iv') →
        inv (l, some iv') ∧ |l j - s.1 j| ≤ a.alpha := by
      intro iv hi hl hb
      obtain ⟨r1, r2⟩ := adamBody_default hsq h0 h1 ha he hi hb
      refine ⟨fun iv2 e => by cases e; exact r1, ?_⟩
      have := r2 j
      rwa [hl] at this
    cases e : s.2 with
    | none =>
      rw [e] at hq
      exact key ⟨0, s.1, fun _ => 0, fun _ => 0⟩ (momentsOk_zero a) rfl hq
    | some iv =>
      rw [e] at hq
      exact key { iv with lamb := s.1 } (hs iv e) rfl hq
  have hvis : ∀ (s : (Fin k → K) × Option (Iv K k)) (cs : List ℕ) (vs : List ((Fin k → K) × Option (Iv K k))),
      Visits (fun c s => sgdMove sqrt takeGradient proxProject o rows c s.1 s.2) s cs vs → inv s →
      ∀ v ∈ s :: vs, |v.1 j - s.1 j| ≤ cs.length * a.alpha := by
    intro s cs vs hv
    induction hv with
    | nil s =>
      intro _ v hv
      simp only [List.mem_cons, List.not_mem_nil, or_false] at hv
      subst hv; simp
    | @cons s s' c cs vs hm _ ih =>
      intro hi v hv
      obtain ⟨i1, i2⟩ := hstep c s s' hi hm
      rcases List.mem_cons.1 hv with rfl | hv
      · simp only [sub_self, abs_zero]; positivity
      · have := ih i1 v hv
        have tri := abs_sub_le (v.1 j) (s'.1 j) (s.1 j)
        rw [List.length_cons]
        push_cast
        linarith
  obtain ⟨l0, vs, hl0, hv, -, -, hlast, i, v, c, hi, -, hb, -⟩ :=
    C27_sgd_returns_best sqrt o rows lambInit choices best last costs h
  have hall := hvis _ _ _ hv (by intro iv e; cases e)
  refine ⟨l0 j, by rw [← hl0]; simp, ?_, ?_⟩
  · obtain ⟨w, hw, hwl⟩ := Option.map_eq_some_iff.1 hlast
    rw [← hwl]
    exact hall w (List.mem_of_getLast? hw)
  · rw [← hb]
    exact hall v (List.mem_of_getElem? hi)

/-- An unconstrained Adam descent of one step that returns (the second weight moves by `2/25000`). -/
example : ∃ costs, sgd Real.sqrt ⟨1, false, some ⟨1 / 1000, 9 / 10, 999 / 1000, 5⟩⟩
    ([⟨1, 1, ![0, 1], ![1, 1], 0⟩] : List (Row ℝ 2)) [1, 0] [0] =
      .ok (![1, 2 / 25000], ![1, 2 / 25000], costs) := by
  have hs : √(400 : ℝ) = 20 := by
    rw [show (400 : ℝ) = 20 ^ 2 by norm_num]; exact Real.sqrt_sq (by norm_num)
  have hg : takeGradient ([⟨1, 1, ![0, 1], ![1, 1], 0⟩] : List (Row ℝ 2)) ![1, 0] = .ok ![0, -2] := by
    rw [takeGradient, if_pos (by simp [fillAssert, dot, Fin.sum_univ_two])]
    congr 1
    funext j
    fin_cases j <;> norm_num [residual, etaFill, dot, Fin.sum_univ_two]
  have hstep : adamStep Real.sqrt (takeGradient ([⟨1, 1, ![0, 1], ![1, 1], 0⟩] : List (Row ℝ 2)))
      (some ![1, 0]) ⟨1 / 1000, 9 / 10, 999 / 1000, 5⟩ none =
      .ok (![1, 2 / 25000], ⟨1, ![1, 2 / 25000], ![0, -2 / 10], ![0, 4 / 10]⟩) := by
    simp only [adamStep, adamBody, hg, bind, Except.bind, pure, Except.pure]
    rw [if_neg (by norm_num), if_neg]
    · have e : (fun j : Fin 2 => (![1, 0] : Fin 2 → ℝ) j - 1 / 1000 *
          ((0 * (9 / 10) + (1 - 9 / 10) * (![0, -2] : Fin 2 → ℝ) j) / (1 - (9 / 10) ^ (0 + 1))) /
          (√((0 * (999 / 1000) + (1 - 9 / 10) * (![0, -2] : Fin 2 → ℝ) j ^ 2) /
          (1 - (999 / 1000) ^ (0 + 1))) + 5)) = ![1, 2 / 25000] := by
        funext j
        fin_cases j <;> norm_num [hs]
      simp only [e]
      congr 3 <;> (funext j; fin_cases j <;> norm_num)
    · rintro ⟨j, hj⟩
      fin_cases j <;> norm_num [hs] at hj
  have hinit : (fun j : Fin 2 => ([1, 0] : List ℝ)[j]) = ![1, 0] := by funext j; fin_cases j <;> rfl
  have hc : ∀ l : Fin 2 → ℝ, 0 < l 0 → 0 ≤ l 1 →
      ∃ x, calcCost ([⟨1, 1, ![0, 1], ![1, 1], 0⟩] : List (Row ℝ 2)) l = .ok x ∧
        x = (1 - l 1 / (l 0 + l 1)) ^ 2 := by
    intro l h0 h1
    have : l 0 + l 1 ≠ 0 := by positivity
    refine ⟨_, by rw [calcCost, if_pos (by simp [fillAssert, dot, Fin.sum_univ_two, this])], ?_⟩
    simp [residual, etaFill, dot, Fin.sum_univ_two, this]
  obtain ⟨c0, e0, v0⟩ := hc ![1, 0] (by norm_num) (by norm_num)
  obtain ⟨c1, e1, v1⟩ := hc ![1, 2 / 25000] (by norm_num) (by norm_num)
  have hlt : c1 < c0 := by rw [v0, v1]; norm_num
  refine ⟨[c0, c1], ?_⟩
  rw [sgd, dif_pos (by rfl)]
  simp only [Bool.false_and, Bool.false_eq_true, if_false, hinit]
  simp only [sgdRun, e0, bind, Except.bind, pure, Except.pure, List.isEmpty_cons, Bool.false_eq_true,
    if_false, List.foldlM_cons, List.foldlM_nil, sgdStep, sgdMove, sgdPre, List.filter_cons,
    beq_self_eq_true, if_true, List.filter_nil, hstep, e1, hlt]
  rfl

/-- C108, first call: with `eps = 0` the first step is `alpha * sqrt((1-b2)/(1-b1))` in every coordinate
with a non-zero gradient, against its sign. (Adam as published gives `alpha`; with the default betas
this is `alpha / 10`.) -/
theorem C108_first_step {sqrt : K → K} (hsq : ∀ x, 0 ≤ x → 0 ≤ sqrt x ∧ sqrt x ^ 2 = x)
    {o : AdamOpts K} (h1 : o.beta1 < 1) (h3 : o.beta2 < 1)
    (ha : 0 < o.alpha) (he : o.eps = 0) {gf : (Fin k → K) → Except PyErr (Fin k → K)}
    {start x g : Fin k → K} {iv' : Iv K k} (hg : gf start = .ok g)
    (h : adamStep sqrt gf (some start) o none = .ok (x, iv')) (j : Fin k) (hj : g j ≠ 0) :
    (x j - start j) ^ 2 * (1 - o.beta1) = o.alpha ^ 2 * (1 - o.beta2) ∧ (x j - start j) * g j < 0 := by
  have hb : adamBody sqrt gf o ⟨0, start, fun _ => 0, fun _ => 0⟩ = .ok (x, iv') := h
  obtain ⟨g', hg', et, -, e1, e2, -, -, ex⟩ := adamBody_ok hb
  simp only at hg' et e1 e2
  rw [hg] at hg'
  cases hg'
  have t1 : 0 < 1 - o.beta1 := by linarith
  have t2 : 0 < 1 - o.beta2 := by linarith
  rw [ex, e1, e2, et, he]
  simp only [zero_mul, zero_add, pow_one, add_zero]
  have hv : 0 < (1 - o.beta1) * g j ^ 2 / (1 - o.beta2) := by
    have := pow_pos (abs_pos.2 hj) 2
    rw [sq_abs] at this
    positivity
  obtain ⟨s0, s2⟩ := hsq _ hv.le
  generalize sqrt ((1 - o.beta1) * g j ^ 2 / (1 - o.beta2)) = s at *
  have hs : 0 < s := lt_of_le_of_ne s0 (by rintro rfl; rw [← s2] at hv; simp at hv)
  have hm : (1 - o.beta1) * g j / (1 - o.beta1) = g j := by field_simp
  rw [hm]
  have hs2 : s ^ 2 * (1 - o.beta2) = (1 - o.beta1) * g j ^ 2 := by rw [s2]; field_simp
  constructor
  · have : (start j - o.alpha * g j / s - start j) ^ 2 * (1 - o.beta1) =
        o.alpha ^ 2 * ((1 - o.beta1) * g j ^ 2) / s ^ 2 := by field_simp; ring
    rw [this, ← hs2]
    field_simp
  · have : (start j - o.alpha * g j / s - start j) * g j = -(o.alpha * (g j ^ 2 / s)) := by ring
    rw [this, neg_lt_zero]
    have := pow_pos (abs_pos.2 hj) 2
    rw [sq_abs] at this
    positivity

/-- Instances: `Real.sqrt` is a square root; a first call with the default parameters but `eps = 0`
moves the weight from 0 to `-1/10000` (`alpha = 1/1000`). -/
example : ∀ x : ℝ, 0 ≤ x → 0 ≤ √x ∧ √x ^ 2 = x := fun x hx => ⟨Real.sqrt_nonneg x, Real.sq_sqrt hx⟩

example : ∃ iv, adamStep (k := 1) Real.sqrt (fun _ => .ok ![3]) (some ![0])
    (⟨1 / 1000, 9 / 10, 999 / 1000, 0⟩ : AdamOpts ℝ) none = .ok (![-1 / 10000], iv) := by
  have hs : √(900 : ℝ) = 30 := by
    rw [show (900 : ℝ) = 30 ^ 2 by norm_num]; exact Real.sqrt_sq (by norm_num)
  refine ⟨⟨1, ![-1 / 10000], ![3 / 10], ![9 / 10]⟩, ?_⟩
  simp only [adamStep, adamBody, bind, Except.bind, pure, Except.pure]
  rw [if_neg (by norm_num), if_neg]
  · have e : (fun j : Fin 1 => (![0] : Fin 1 → ℝ) j - 1 / 1000 * ((0 * (9 / 10) + (1 - 9 / 10) * (![3] : Fin 1 → ℝ) j) /
        (1 - (9 / 10) ^ (0 + 1))) / (√((0 * (999 / 1000) + (1 - 9 / 10) * (![3] : Fin 1 → ℝ) j ^ 2) /
        (1 - (999 / 1000) ^ (0 + 1))) + 0)) = ![-1 / 10000] := by
      funext j
      fin_cases j
      norm_num [hs]
    simp only [e]
    congr 3 <;> (funext j; fin_cases j; norm_num)
  · rintro ⟨j, hj⟩
    fin_cases j
    norm_num [hs] at hj

end SmoothRF
