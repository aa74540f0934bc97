import Verif.Proofs.Sgd
import Verif.Spec.Affine

/-! Descent on a rescaled loss. -/

set_option linter.unusedSectionVars false

namespace SmoothRF

variable {K : Type} [Field K] [LinearOrder K] [IsStrictOrderedRing K] {k : ℕ}

/-- Moments after the gradients were multiplied by `s`. -/
def scaleIv (s : K) (iv : Iv K k) : Iv K k :=
  ⟨iv.t, iv.lamb, fun j => s * iv.m1 j, fun j => s ^ 2 * iv.m2 j⟩

theorem adamBody_scale {sqrt : K → K} {s : K} (hs : 0 < s)
    (hsq : ∀ x, 0 ≤ x → sqrt (s ^ 2 * x) = s * sqrt x)
    {gf gf' : (Fin k → K) → Except PyErr (Fin k → K)} {o : AdamOpts K} {iv iv' : Iv K k} {l : Fin k → K}
    (hg : ∀ g, gf iv.lamb = .ok g → gf' iv.lamb = .ok fun j => s * g j)
    (h : adamBody sqrt gf o iv = .ok (l, iv')) :
    adamBody sqrt gf' (affAdam s o) (scaleIv s iv) = .ok (l, scaleIv s iv') := by
  unfold adamBody at h ⊢
  obtain ⟨g, h1, h⟩ := bind_ok h
  dsimp only at h
  split_ifs at h with c1 c2
  cases h
  have e1 : ∀ j, s * iv.m1 j * o.beta1 + (1 - o.beta1) * (s * g j) =
      s * (iv.m1 j * o.beta1 + (1 - o.beta1) * g j) := fun j => by ring
  have e2 : ∀ j, s ^ 2 * iv.m2 j * o.beta2 + (1 - o.beta1) * (s * g j) ^ 2 =
      s ^ 2 * (iv.m2 j * o.beta2 + (1 - o.beta1) * g j ^ 2) := fun j => by ring
  push Not at c2
  have hnn : ∀ j, 0 ≤ (iv.m2 j * o.beta2 + (1 - o.beta1) * g j ^ 2) / (1 - o.beta2 ^ (iv.t + 1)) :=
    fun j => (c2 j).1
  have e3 : ∀ j, s ^ 2 * (iv.m2 j * o.beta2 + (1 - o.beta1) * g j ^ 2) / (1 - o.beta2 ^ (iv.t + 1)) =
      s ^ 2 * ((iv.m2 j * o.beta2 + (1 - o.beta1) * g j ^ 2) / (1 - o.beta2 ^ (iv.t + 1))) :=
    fun j => mul_div_assoc _ _ _
  have hgl : gf' (scaleIv s iv).lamb = .ok fun j => s * g j := hg g h1
  rw [hgl]
  simp only [bind, Except.bind, pure, Except.pure, scaleIv, affAdam, e1, e2, e3]
  rw [if_neg c1, if_neg]
  · simp only [Except.ok.injEq, Prod.mk.injEq, Iv.mk.injEq, and_true, true_and]
    have : ∀ j, o.alpha * (s * (iv.m1 j * o.beta1 + (1 - o.beta1) * g j) / (1 - o.beta1 ^ (iv.t + 1))) /
          (sqrt (s ^ 2 * ((iv.m2 j * o.beta2 + (1 - o.beta1) * g j ^ 2) / (1 - o.beta2 ^ (iv.t + 1)))) +
            s * o.eps) =
        o.alpha * ((iv.m1 j * o.beta1 + (1 - o.beta1) * g j) / (1 - o.beta1 ^ (iv.t + 1))) /
          (sqrt ((iv.m2 j * o.beta2 + (1 - o.beta1) * g j ^ 2) / (1 - o.beta2 ^ (iv.t + 1))) + o.eps) := by
      intro j
      rw [hsq _ (hnn j), ← mul_add, mul_div_assoc s, mul_left_comm, mul_div_mul_left _ _ hs.ne']
    simp only [this, and_self]
  · push Not
    intro j
    refine ⟨mul_nonneg (by positivity) (hnn j), ?_⟩
    rw [hsq _ (hnn j), ← mul_add]
    exact mul_ne_zero hs.ne' (c2 j).2

/-- The options in the new units. -/
def scaleOpts (s : K) (o : SgdOpts K) : SgdOpts K :=
  { o with tFix := o.tFix / s, adam := o.adam.map (affAdam s) }

theorem sgdMove_scale {sqrt : K → K} {s : K} (hs : 0 < s)
    {grad : List (Row K k) → (Fin k → K) → Except PyErr (Fin k → K)}
    {prox : (Fin k → K) → Except PyErr (Fin k → K)} {o : SgdOpts K}
    (hsq : o.adam ≠ none → ∀ x, 0 ≤ x → sqrt (s ^ 2 * x) = s * sqrt x) {rows rows' : List (Row K k)} {c : ℕ}
    {lamb l : Fin k → K} {iv iv' : Option (Iv K k)}
    (hg : ∀ g, grad (rows.filter fun r => r.tree == c) lamb = .ok g →
      grad (rows'.filter fun r => r.tree == c) lamb = .ok fun j => s * g j)
    (h : sgdMove sqrt grad prox o rows c lamb iv = .ok (l, iv')) :
    sgdMove sqrt grad prox (scaleOpts s o) rows' c lamb (iv.map (scaleIv s)) =
      .ok (l, iv'.map (scaleIv s)) := by
  unfold sgdMove at h ⊢
  obtain ⟨⟨l1, iv1⟩, h1, h⟩ := bind_ok h
  have key : sgdPre sqrt grad (scaleOpts s o) rows' c lamb (iv.map (scaleIv s)) =
      .ok (l1, iv1.map (scaleIv s)) := by
    unfold sgdPre at h1 ⊢
    cases ha : o.adam with
    | none =>
      simp only [ha, scaleOpts, Option.map_none] at h1 ⊢
      obtain ⟨g, hg1, h1⟩ := bind_ok h1
      cases h1
      rw [hg g hg1]
      simp only [bind, Except.bind, pure, Except.pure, Except.ok.injEq, Prod.mk.injEq, and_true]
      funext j
      rw [← mul_assoc, div_mul_cancel₀ _ hs.ne']
    | some a =>
      simp only [ha, scaleOpts, Option.map_some] at h1 ⊢
      obtain ⟨⟨l2, iv2⟩, h2, h1⟩ := bind_ok h1
      cases h1
      have : adamStep sqrt (grad (rows'.filter fun r => r.tree == c)) (some lamb) (affAdam s a)
          (iv.map (scaleIv s)) = .ok (l2, scaleIv s iv2) := by
        cases iv with
        | none =>
          have h0 : scaleIv s (⟨0, lamb, fun _ => 0, fun _ => 0⟩ : Iv K k) = ⟨0, lamb, fun _ => 0, fun _ => 0⟩ := by
            simp [scaleIv]
          have := adamBody_scale hs (hsq (by simp [ha])) (gf' := grad (rows'.filter fun r => r.tree == c))
            (iv := ⟨0, lamb, fun _ => 0, fun _ => 0⟩) hg h2
          rw [h0] at this
          exact this
        | some v =>
          exact adamBody_scale hs (hsq (by simp [ha])) (gf' := grad (rows'.filter fun r => r.tree == c))
            (iv := { v with lamb := lamb }) hg h2
      rw [this]
      rfl
  rw [key]
  show (if (scaleOpts s o).constrained then _ else _) = _
  have hcc : (scaleOpts s o).constrained = o.constrained := rfl
  rw [hcc]
  dsimp only at h
  split_ifs at h ⊢ with hc
  · obtain ⟨l2, h2, h⟩ := bind_ok h
    cases h
    simp only [bind, Except.bind, h2]
    rfl
  · cases h
    rfl

/-- A whole run: if at the start and at every point reached the gradients and costs on `rows'` are `s`
times those on `rows`, the run on `rows'` in the new units visits the same weights. -/
theorem sgdRun_scale {sqrt : K → K} {s : K} (hs : 0 < s)
    {grad : List (Row K k) → (Fin k → K) → Except PyErr (Fin k → K)}
    {cost : List (Row K k) → (Fin k → K) → Except PyErr K}
    {prox : (Fin k → K) → Except PyErr (Fin k → K)} {o : SgdOpts K}
    (hsq : o.adam ≠ none → ∀ x, 0 ≤ x → sqrt (s ^ 2 * x) = s * sqrt x) {rows rows' : List (Row K k)}
    (hemp : rows'.isEmpty = rows.isEmpty) (Good : (Fin k → K) → Prop)
    (hg : ∀ l, Good l → ∀ c g, grad (rows.filter fun r => r.tree == c) l = .ok g →
      grad (rows'.filter fun r => r.tree == c) l = .ok fun j => s * g j)
    (hc : ∀ l, Good l → ∀ x, cost rows l = .ok x → cost rows' l = .ok (s * x))
    {lamb best last : Fin k → K} {costs : List K} {choices : List ℕ} (h0 : Good lamb)
    (hgood : ∀ vs, Visits (moveStep sqrt grad prox o rows) (lamb, none) choices vs → ∀ v ∈ vs, Good v.1)
    (h : sgdRun sqrt grad cost prox o rows lamb choices = .ok (best, last, costs)) :
    sgdRun sqrt grad cost prox (scaleOpts s o) rows' lamb choices = .ok (best, last, costs.map (s * ·)) := by
  have fold : ∀ (choices : List ℕ) (st st' : SgdState K k) (_ : Good st.lamb)
      (_ : ∀ vs, Visits (moveStep sqrt grad prox o rows) (st.lamb, st.iv) choices vs → ∀ v ∈ vs, Good v.1)
      (_ : choices.foldlM (sgdStep sqrt grad cost prox o rows) st = .ok st'),
      choices.foldlM (sgdStep sqrt grad cost prox (scaleOpts s o) rows')
        ⟨st.lamb, st.iv.map (scaleIv s), st.lambBest, s * st.costBest, st.costAll.map (s * ·)⟩ =
        .ok ⟨st'.lamb, st'.iv.map (scaleIv s), st'.lambBest, s * st'.costBest, st'.costAll.map (s * ·)⟩ := by
    intro choices
    induction choices with
    | nil => intro st st' _ _ h; cases h; rfl
    | cons c cs ih =>
      intro st st' hG hV h
      rw [List.foldlM_cons] at h ⊢
      obtain ⟨st1, h1, h2⟩ := bind_ok h
      obtain ⟨vs2, -, hv2, -⟩ : ∃ (vs : List ((Fin k → K) × Option (Iv K k))) (_ : List K),
          Visits (moveStep sqrt grad prox o rows) (st1.lamb, st1.iv) cs vs ∧ True := by
        obtain ⟨vs, cs', hv, -⟩ := sgd_fold sqrt grad cost prox o rows h2
        exact ⟨vs, cs', hv, trivial⟩
      obtain ⟨x, hm, hx, -⟩ := sgdStep_ok sqrt grad cost prox o rows h1
      have hG1 : Good st1.lamb := hV _ (.cons hm hv2) (st1.lamb, st1.iv) (by simp)
      have hstep : sgdStep sqrt grad cost prox (scaleOpts s o) rows'
          ⟨st.lamb, st.iv.map (scaleIv s), st.lambBest, s * st.costBest, st.costAll.map (s * ·)⟩ c =
          .ok ⟨st1.lamb, st1.iv.map (scaleIv s), st1.lambBest, s * st1.costBest, st1.costAll.map (s * ·)⟩ := by
        unfold sgdStep at h1 ⊢
        obtain ⟨⟨l, iv⟩, hm1, h1⟩ := bind_ok h1
        obtain ⟨y, hy, h1⟩ := bind_ok h1
        have hmv := sgdMove_scale hs hsq (rows' := rows') (hg _ hG c) hm1
        have hl : l = st1.lamb := by
          have : moveStep sqrt grad prox o rows c (st.lamb, st.iv) = .ok (l, iv) := hm1
          rw [hm] at this
          cases this
          rfl
        have hcy : cost rows' l = .ok (s * y) := hc l (hl ▸ hG1) y hy
        simp only [hmv, bind, Except.bind, hcy]
        by_cases hlt : y < st.costBest
        · rw [if_pos hlt] at h1
          cases h1
          rw [if_pos ((mul_lt_mul_iff_right₀ hs).2 hlt)]
          simp [pure, Except.pure]
        · rw [if_neg hlt] at h1
          cases h1
          rw [if_neg (fun hh => hlt ((mul_lt_mul_iff_right₀ hs).1 hh))]
          simp [pure, Except.pure]
      rw [hstep]
      refine ih st1 st' hG1 (fun vs hvs v hv => hV _ (.cons hm hvs) v (List.mem_cons_of_mem _ hv)) h2
  unfold sgdRun at h ⊢
  obtain ⟨c0, h1, h⟩ := bind_ok h
  rw [hc lamb h0 c0 h1]
  simp only [bind, Except.bind, hemp]
  split_ifs at h ⊢ with he
  obtain ⟨st, h2, h⟩ := bind_ok h
  cases h
  have := fold choices ⟨lamb, none, lamb, c0, [c0]⟩ st h0 hgood h2
  simp only [Option.map_none, List.map_cons, List.map_nil] at this
  rw [this]
  rfl

end SmoothRF
