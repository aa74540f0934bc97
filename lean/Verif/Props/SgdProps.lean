import Verif.Proofs.SgdHeap
import Verif.Proofs.Adam
import Mathlib.Data.Rat.Floor
import Mathlib.Tactic.NormNum
import Mathlib.Data.Fin.VecNotation

/-!
# C27–C30, C32–C34: stochastic gradient descent and Adam
-/

set_option linter.unusedSectionVars false

namespace SmoothRF

variable {K : Type} [Field K] [LinearOrder K] {k : ℕ}

/-- C27: facts about every successful run of `stocastic_grad_descent`. `vs` are the points visited
after the start. `cost_all` lists the costs of the start and the visited points; the second component
is the last point; the first is the earliest visited point of minimal cost. -/
theorem C27_sgd_returns_best (sqrt : K → K) (o : SgdOpts K) (rows : List (Row K k))
    (lambInit : List K) (choices : List ℕ) (best last : Fin k → K) (costs : List K)
    (h : sgd sqrt o rows lambInit choices = .ok (best, last, costs)) :
    ∃ (l0 : Fin k → K) (vs : List ((Fin k → K) × Option (Iv K k))),
      List.ofFn l0 = lambInit ∧
      Visits (fun c s => sgdMove sqrt takeGradient proxProject o rows c s.1 s.2) (l0, none) choices vs ∧
      costs.length = choices.length + 1 ∧
      List.Forall₂ (fun v c => calcCost rows v.1 = .ok c) ((l0, none) :: vs) costs ∧
      (((l0, none) :: vs).getLast?).map Prod.fst = some last ∧
      ∃ (i : ℕ) (v : (Fin k → K) × Option (Iv K k)) (c : K),
        ((l0, none) :: vs)[i]? = some v ∧ costs[i]? = some c ∧ v.1 = best ∧
        calcCost rows best = .ok c ∧ (∀ c' ∈ costs, c ≤ c') ∧
        (∀ (i' : ℕ) (c' : K), i' < i → costs[i']? = some c' → c < c') := by
  unfold sgd at h
  split_ifs at h with hl
  obtain ⟨vs, hv, hf, hlast, i, v, c, h1, h2, h3, h4, h5⟩ :=
    sgdRun_spec sqrt takeGradient calcCost proxProject o rows h
  refine ⟨_, vs, ?_, hv, ?_, hf, hlast, i, v, c, h1, h2, h3, ?_, h4, h5⟩
  · subst hl; exact List.ofFn_getElem
  · have := hf.length_eq
    rw [List.length_cons, hv.length] at this
    exact this.symm
  · have hlen := hf.length_eq
    rw [List.forall₂_iff_get] at hf
    obtain ⟨hi, e1⟩ := List.getElem?_eq_some_iff.1 h1
    obtain ⟨hi2, e2⟩ := List.getElem?_eq_some_iff.1 h2
    have := hf.2 i hi hi2
    simp only [List.get_eq_getElem, e1, e2] at this
    rw [← h3]; exact this

/-- C27, meaning of one visited step without Adam: a gradient step on the rows of the chosen tree,
followed by the projection if constrained. -/
theorem C27_plain_step (sqrt : K → K) (o : SgdOpts K) (ho : o.adam = none) (rows : List (Row K k))
    (c : ℕ) (l l' : Fin k → K) (iv iv' : Option (Iv K k)) :
    sgdMove sqrt takeGradient proxProject o rows c l iv = .ok (l', iv') ↔
      iv' = iv ∧ ∃ g, takeGradient (rows.filter fun r => r.tree == c) l = .ok g ∧
        (if o.constrained then proxProject (fun j => l j - o.tFix * g j) = .ok l'
          else l' = fun j => l j - o.tFix * g j) := by
  have e : sgdMove sqrt takeGradient proxProject o rows c l iv =
      (takeGradient (rows.filter fun r => r.tree == c) l).bind fun g =>
        if o.constrained then (proxProject (fun j => l j - o.tFix * g j)).bind fun x => .ok (x, iv)
        else .ok (fun j => l j - o.tFix * g j, iv) := by
    unfold sgdMove sgdPre
    rw [ho]
    simp only [bind, Except.bind, pure, Except.pure]
    cases takeGradient (rows.filter fun r => r.tree == c) l <;> rfl
  rw [e]
  cases hg : takeGradient (rows.filter fun r => r.tree == c) l with
  | error e =>
    simp only [Except.bind, reduceCtorEq, false_and, exists_false, and_false]
  | ok g =>
    simp only [Except.bind, Except.ok.injEq, exists_eq_left']
    by_cases hc : o.constrained = true
    · simp only [hc, if_true]
      cases hp : proxProject (fun j => l j - o.tFix * g j) with
      | error e => simp
      | ok x => simp only [Except.ok.injEq, Prod.mk.injEq]; exact and_comm.trans (and_congr_left' eq_comm)
    · simp only [hc, Bool.false_eq_true, if_false, Except.ok.injEq, Prod.mk.injEq]
      exact and_comm.trans (and_congr eq_comm eq_comm)

/-- C27, no exception: for data whose rows have non-negative `eta` and `Gamma = 0` where `eta = 0`
(which C17's proof shows for forest arrays) constrained plain SGD from a feasible start always
returns. -/
theorem C27_plain_constrained_returns [IsStrictOrderedRing K] {k : ℕ} (sqrt : K → K) (o : SgdOpts K)
    (ho : o.adam = none) (hc : o.constrained = true) (rows : List (Row K (k + 1))) (hne : rows ≠ [])
    (hrows : ∀ r ∈ rows, ∀ j, 0 ≤ r.eta j ∧ (r.eta j = 0 → r.gam j = 0))
    (lambInit : List K) (hlen : lambInit.length = k + 1) (hsum : lambInit.sum = 1)
    (hpos : ∀ x ∈ lambInit, 0 ≤ x) (choices : List ℕ) :
    ∃ r, sgd sqrt o rows lambInit choices = .ok r := by
  have hfold : ∀ (cs : List ℕ) (s : SgdState K (k + 1)), (∀ j, 0 ≤ s.lamb j) →
      ∃ s', cs.foldlM (sgdStep sqrt takeGradient calcCost proxProject o rows) s = .ok s' := by
    intro cs
    induction cs with
    | nil => intro s _; exact ⟨s, rfl⟩
    | cons c cs ih =>
      intro s hs
      have hin : ∀ r ∈ rows.filter (fun r => r.tree == c), ∀ j, 0 ≤ r.eta j ∧ (r.eta j = 0 → r.gam j = 0) :=
        fun r hr => hrows r (List.mem_filter.1 hr).1
      have hg : ∃ g, takeGradient (rows.filter fun r => r.tree == c) s.lamb = .ok g :=
        ⟨_, by rw [takeGradient, if_pos (fillAssert_of_nonneg _ _ hin hs)]⟩
      obtain ⟨g, hg⟩ := hg
      obtain ⟨θ, j, hx, -⟩ := proxProject_form (fun j => s.lamb j - o.tFix * g j)
      generalize hxe : (fun i => max (clip0 (fun j => s.lamb j - o.tFix * g j) i - max θ 0) 0) = x at hx
      have hxpos : ∀ j, 0 ≤ x j := by subst hxe; exact fun j => le_max_right _ _
      have hm := (C27_plain_step sqrt o ho rows c s.lamb x s.iv s.iv).2
        ⟨rfl, g, hg, by rw [if_pos hc]; exact hx⟩
      have hcost : ∃ y, calcCost rows x = .ok y :=
        ⟨_, by rw [calcCost, if_pos (fillAssert_of_nonneg _ _ hrows hxpos)]⟩
      obtain ⟨y, hy⟩ := hcost
      have hstep : ∃ s1, sgdStep sqrt takeGradient calcCost proxProject o rows s c = .ok s1 ∧
          s1.lamb = x := by
        unfold sgdStep
        rw [hm]
        simp only [bind, Except.bind, hy]
        split_ifs
        · exact ⟨_, rfl, rfl⟩
        · exact ⟨_, rfl, rfl⟩
      obtain ⟨s1, hs1, hs1x⟩ := hstep
      obtain ⟨s', hs'⟩ := ih s1 (by rw [hs1x]; exact hxpos)
      exact ⟨s', by rw [List.foldlM_cons, hs1]; exact hs'⟩
  unfold sgd
  rw [dif_pos hlen, if_neg]
  · unfold sgdRun
    have h0 : ∀ j : Fin (k + 1), 0 ≤ (fun j : Fin (k + 1) => lambInit[j]) j :=
      fun j => hpos _ (List.getElem_mem _)
    have hcost : ∃ y, calcCost rows (fun j : Fin (k + 1) => lambInit[j]) = .ok y :=
      ⟨_, by rw [calcCost, if_pos (fillAssert_of_nonneg _ _ hrows h0)]⟩
    obtain ⟨y, hy⟩ := hcost
    rw [hy]
    obtain ⟨s', hs'⟩ := hfold choices ⟨_, none, _, y, [y]⟩ h0
    refine ⟨(s'.lambBest, s'.lamb, s'.costAll), ?_⟩
    simp only [bind, Except.bind] at hs' ⊢
    rw [if_neg (by simpa using hne), hs']
    rfl
  · simp only [hc, hsum, Bool.true_and, Bool.or_eq_true, decide_eq_true_eq, ne_eq, not_true,
      List.any_eq_true, false_or, not_exists, not_and, not_lt]
    exact hpos

/-- Data on which two steps are taken; the second choice overshoots. -/
abbrev exSgdRows : List (Row ℚ 2) :=
  [⟨2, 1, ![1, 4], ![1, 1], 0⟩, ⟨7/2, 1, ![4, 1], ![1, 1], 1⟩]

/-- Instance: the best point is neither the first nor the last visited. -/
example : (match sgd (fun x => x) ⟨1/12, true, none⟩ exSgdRows [1, 0] [0, 1] with
    | .ok (b, l, cs) => some (List.ofFn b, List.ofFn l, cs)
    | .error _ => none) = some ([3/4, 1/4], [25/32, 5/32], [5/4, 1/8, 1/4]) := by decide +kernel

/-- C28 (what holds): with `constrained=True` every visited lambda and both returned lambdas are
non-negative, and each is the value of `prox_project` at some vector, so it has the properties of C19
and C20.
Missing: they need not sum to one (`C28_refuted`). -/
theorem C28_iterates_nonneg_partial [IsStrictOrderedRing K] {k : ℕ} (sqrt : K → K) (o : SgdOpts K)
    (hc : o.constrained = true) (rows : List (Row K (k + 1))) (lambInit : List K) (choices : List ℕ)
    (best last : Fin (k + 1) → K) (costs : List K)
    (h : sgd sqrt o rows lambInit choices = .ok (best, last, costs)) :
    ∃ vs, Visits (fun c s => sgdMove sqrt takeGradient proxProject o rows c s.1 s.2)
        ((fun j => lambInit.getD j 0), none) choices vs ∧
      (∀ v ∈ vs, (∃ y, proxProject y = .ok v.1) ∧ ∀ j, 0 ≤ v.1 j) ∧
      (∀ j, 0 ≤ best j) ∧ (∀ j, 0 ≤ last j) := by
  have hfeas : lambInit.length = k + 1 ∧ ∀ x ∈ lambInit, 0 ≤ x := by
    unfold sgd at h
    split_ifs at h with h1 h2
    refine ⟨h1, fun x hx => ?_⟩
    simp only [hc, Bool.true_and, Bool.or_eq_true, List.any_eq_true, decide_eq_true_eq, not_or,
      not_exists, not_and, not_lt] at h2
    exact h2.2 x hx
  obtain ⟨l0, vs, e0, hv, -, -, hlast, i, v, c, h1, -, h3, -⟩ :=
    C27_sgd_returns_best sqrt o rows lambInit choices best last costs h
  have el : (fun j : Fin (k + 1) => lambInit.getD j 0) = l0 := by
    funext j; simp only [← e0, List.getD_eq_getElem?_getD, List.getElem?_ofFn]; simp [j.isLt]
  have h0 : ∀ j, 0 ≤ l0 j := fun j => hfeas.2 _ (by rw [← e0]; exact (List.mem_ofFn' _ _).2 ⟨j, rfl⟩)
  have hall : ∀ v ∈ vs, (∃ y, proxProject y = .ok v.1) ∧ ∀ j, 0 ≤ v.1 j := by
    have hstep : ∀ c (s s' : (Fin (k + 1) → K) × Option (Iv K (k + 1))), True →
        sgdMove sqrt takeGradient proxProject o rows c s.1 s.2 = .ok s' →
        (∃ y, proxProject y = .ok s'.1) ∧ ∀ j, 0 ≤ s'.1 j := by
      intro c s s' _ hs
      obtain ⟨y, hy⟩ := moveStep_constrained sqrt takeGradient proxProject o rows hc (s := s) (c := c) hs
      refine ⟨⟨y, hy⟩, ?_⟩
      obtain ⟨θ, j, e, -⟩ := proxProject_form y
      rw [hy, Except.ok.injEq] at e
      rw [e]
      exact fun j => le_max_right _ _
    clear hlast h1 h
    generalize ((l0, none) : (Fin (k + 1) → K) × Option (Iv K (k + 1))) = s0 at hv
    induction hv with
    | nil => simp
    | cons hs _ ih =>
      intro v hv'
      rcases List.mem_cons.1 hv' with rfl | hv'
      · exact hstep _ _ _ trivial hs
      · exact ih v hv'
  have hmem : ∀ v ∈ ((l0, none) :: vs), ∀ j, 0 ≤ v.1 j := by
    intro v hv'
    rcases List.mem_cons.1 hv' with rfl | hv'
    · exact h0
    · exact (hall v hv').2
  refine ⟨vs, by rw [el]; exact hv, hall, ?_, ?_⟩
  · rw [← h3]; exact hmem v (List.mem_of_getElem? h1)
  · obtain ⟨w, hw, rfl⟩ := Option.map_eq_some_iff.1 hlast
    exact hmem w (List.mem_of_getLast? hw)

/-- C28 (refuted): one step from `(1,0,0)` reaches `(2/3, 0, 2/3)`, which is also returned as best. -/
theorem C28_refuted : ¬ ∀ (k : ℕ) (o : SgdOpts ℚ) (rows : List (Row ℚ k)) (lambInit : List ℚ)
    (choices : List ℕ) (best last : Fin k → ℚ) (costs : List ℚ), o.constrained = true →
    sgd (fun x => x) o rows lambInit choices = .ok (best, last, costs) →
    ∑ j, best j = 1 ∧ ∑ j, last j = 1 := by
  intro hall
  have key : (match sgd (fun x => x) ⟨1, true, none⟩
      ([⟨1, 1/2, ![0, 0, 1], ![1, 1, 1], 0⟩] : List (Row ℚ 3)) [1, 0, 0] [0] with
    | .ok (b, l, _) => some (∑ j, b j, ∑ j, l j) | .error _ => none) = some (4/3, 4/3) := by
    decide +kernel
  generalize hr : sgd (fun x => x) ⟨1, true, none⟩
      ([⟨1, 1/2, ![0, 0, 1], ![1, 1, 1], 0⟩] : List (Row ℚ 3)) [1, 0, 0] [0] = r at key
  rcases r with e | ⟨b, l, cs⟩
  · simp at key
  · have := hall 3 _ _ _ _ b l cs rfl hr
    simp only [this.1, Option.some.injEq, Prod.mk.injEq] at key
    norm_num at key

/-- C29: TypeError exactly for a wrong length or (constrained) an infeasible start, whatever the data
(so nothing else is evaluated first). -/
theorem C29_rejects_bad_start (sqrt : K → K) (o : SgdOpts K) (rows : List (Row K k))
    (lambInit : List K) (choices : List ℕ) :
    sgd sqrt o rows lambInit choices = .error .typeError ↔
      lambInit.length ≠ k ∨ (o.constrained = true ∧ (lambInit.sum ≠ 1 ∨ ∃ x ∈ lambInit, x < 0)) := by
  unfold sgd
  by_cases hl : lambInit.length = k
  · rw [dif_pos hl]
    by_cases hb : (o.constrained && (decide (lambInit.sum ≠ 1) || lambInit.any fun x => decide (x < 0))) = true
    · rw [if_pos hb]
      simp only [Bool.and_eq_true, Bool.or_eq_true, decide_eq_true_eq, List.any_eq_true] at hb
      exact ⟨fun _ => Or.inr hb, fun _ => rfl⟩
    · rw [if_neg hb]
      have hb' : ¬ (o.constrained = true ∧ (lambInit.sum ≠ 1 ∨ ∃ x ∈ lambInit, x < 0)) := by
        simpa only [Bool.and_eq_true, Bool.or_eq_true, decide_eq_true_eq, List.any_eq_true] using hb
      simp only [hl, ne_eq, not_true, false_or, hb', iff_false]
      exact sgdRun_ne_typeError sqrt o rows _ choices
  · rw [dif_neg hl]
    exact ⟨fun _ => Or.inl hl, fun _ => rfl⟩

example : (match sgd (fun x => x) ⟨1, true, none⟩ exSgdRows [1/2, 1/4] [0] with
    | .error e => some e | .ok _ => none) = some PyErr.typeError := by decide +kernel

/-- C30: running the loop on array references (in-place clipping in `prox_project`, aliasing through
`iv["lamb"]`) raises exactly when the pure loop does, returns references whose final contents are the
pure results, and leaves every array the caller owned (in particular `lamb_init`) unchanged. -/
theorem C30_no_corruption (sqrt : K → K) (o : SgdOpts K) (rows : List (Row K k)) (h0 : Heap K k)
    (r0 : ℕ) (hr : r0 < h0.length) (choices : List ℕ) :
    match heapSgd sqrt o rows h0 r0 choices,
      sgdRun sqrt takeGradient calcCost proxProject o rows (h0.read r0) choices with
    | .ok S, .ok (best, last, costs) =>
        S.heap.read S.bestRef = best ∧ S.heap.read S.lambRef = last ∧ S.costAll = costs ∧
        ∀ r < h0.length, S.heap.read r = h0.read r
    | .error e, .error e' => e = e'
    | _, _ => False := by
  have := heapSgd_sim sqrt o rows h0 r0 hr choices
  revert this
  generalize heapSgd sqrt o rows h0 r0 choices = X
  generalize sgdRun sqrt takeGradient calcCost proxProject o rows (h0.read r0) choices = Y
  cases X <;> cases Y <;> intro h <;> exact h

/-- Instance: the in-place clipping really happens (address 1 holds a clipped intermediate), the
caller's array at address 0 is intact. -/
example : (match heapSgd (fun x => x) ⟨-1, true, none⟩ exSgdRows [![1, 0]] 0 [0] with
    | .ok S => some (S.heap.map List.ofFn, S.bestRef, S.lambRef) | .error _ => none)
    = some ([[1, 0], [1, 0], [1, 0]], 0, 2) := by decide +kernel

/-! ### Adam -/

/-- C32: the first moment after any history of calls; under a constant gradient the bias-corrected
first moment is that gradient. -/
theorem C32_first_moment (sqrt : K → K) (o : AdamOpts K) (gs : List (Fin k → K)) (iv : Iv K k)
    (h : AdamRun sqrt o gs iv) :
    (∀ j, iv.m1 j = (1 - o.beta1) * ∑ i : Fin gs.length, o.beta1 ^ (gs.length - 1 - i.val) * gs[i] j) ∧
    (∀ g : Fin k → K, (∀ x ∈ gs, x = g) → ∀ j, iv.m1 j / (1 - o.beta1 ^ iv.t) = g j) := by
  obtain ⟨ht, h1, -, hm, -⟩ := adamRun_spec h
  refine ⟨hm, fun g hg j => ?_⟩
  rw [hm j, expSum_const _ _ _ _ _ hg, ht]
  rw [ht] at h1
  exact mul_div_cancel_left₀ _ h1

/-- Instance: two calls with different gradients succeed. -/
theorem exAdamRun : ∃ iv, AdamRun (fun x => x) (⟨1, 1/2, 1/4, 1⟩ : AdamOpts ℚ) [![2], ![6]] iv ∧
    iv.m1 0 = 7/2 := by
  have h : (match (adamStep (k := 1) (fun x => x) (fun _ => .ok ![2]) (some ![0])
        (⟨1, 1/2, 1/4, 1⟩ : AdamOpts ℚ) none >>= fun p =>
      adamStep (fun x => x) (fun _ => .ok ![6]) none ⟨1, 1/2, 1/4, 1⟩ (some p.2)) with
      | .ok p => some (p.2.m1 0) | .error _ => none) = some (7/2) := by decide +kernel
  generalize hr : (adamStep (k := 1) (fun x => x) (fun _ => .ok ![2]) (some ![0])
        (⟨1, 1/2, 1/4, 1⟩ : AdamOpts ℚ) none >>= fun p =>
      adamStep (fun x => x) (fun _ => .ok ![6]) none ⟨1, 1/2, 1/4, 1⟩ (some p.2)) = r at h
  rcases r with e | ⟨x, iv⟩
  · simp at h
  · obtain ⟨⟨x1, iv1⟩, h1, h2⟩ := bind_ok hr
    exact ⟨iv, .next (.first h1 rfl) h2 rfl, by simpa using h⟩

/-- C33 (what holds): the second moment after any history of calls is the exponentially weighted sum
of squared gradients with the factor `(1 - beta_1)`; so under a constant gradient the bias-corrected
value is `g² (1-beta_1)/(1-beta_2)`.
Missing: Adam's factor `(1 - beta_2)`; the claim is false when the two betas differ
(`C33_refuted`). -/
theorem C33_second_moment_partial (sqrt : K → K) (o : AdamOpts K) (gs : List (Fin k → K)) (iv : Iv K k)
    (h : AdamRun sqrt o gs iv) :
    (∀ j, iv.m2 j = (1 - o.beta1) *
      ∑ i : Fin gs.length, o.beta2 ^ (gs.length - 1 - i.val) * gs[i] j ^ 2) ∧
    (o.beta2 ≠ 1 → ∀ g : Fin k → K, (∀ x ∈ gs, x = g) → ∀ j,
      iv.m2 j / (1 - o.beta2 ^ iv.t) = g j ^ 2 * ((1 - o.beta1) / (1 - o.beta2))) := by
  obtain ⟨ht, -, h1, -, hm⟩ := adamRun_spec h
  refine ⟨hm, fun hb g hg j => ?_⟩
  have hc := expSum_const o.beta2 (· ^ 2) gs j g hg
  have hb' : 1 - o.beta2 ≠ 0 := sub_ne_zero.2 (Ne.symm hb)
  rw [ht] at h1 ⊢
  rw [hm j]
  have : expSum o.beta2 (· ^ 2) gs j = (1 - o.beta2 ^ gs.length) * g j ^ 2 / (1 - o.beta2) := by
    rw [eq_div_iff hb', mul_comm]; exact hc
  rw [this]
  field_simp

/-- C33 (refuted): after one step with gradient 1 and betas (9/10, 999/1000) — the defaults. -/
theorem C33_refuted : ¬ ∀ (o : AdamOpts ℚ) (gs : List (Fin 1 → ℚ)) (iv : Iv ℚ 1),
    AdamRun (fun x => x) o gs iv → ∀ j, iv.m2 j = (1 - o.beta2) *
      ∑ i : Fin gs.length, o.beta2 ^ (gs.length - 1 - i.val) * gs[i] j ^ 2 := by
  intro h
  have hok : (adamStep (k := 1) (fun x => x) (fun _ => .ok ![1]) (some ![0])
      (⟨1/1000, 9/10, 999/1000, 1/100000000⟩ : AdamOpts ℚ) none).isOk = true := by decide +kernel
  obtain ⟨iv, hr⟩ : ∃ iv, AdamRun (fun x => x)
      (⟨1/1000, 9/10, 999/1000, 1/100000000⟩ : AdamOpts ℚ) [![1]] (iv : Iv ℚ 1) := by
    generalize hr : adamStep (k := 1) (fun x => x) (fun _ => .ok ![1]) (some ![0])
      (⟨1/1000, 9/10, 999/1000, 1/100000000⟩ : AdamOpts ℚ) none = r at hok
    rcases r with e | ⟨x, iv⟩
    · simp [Except.isOk, Except.toBool] at hok
    · exact ⟨iv, .first hr rfl⟩
  have h2 := (C33_second_moment_partial _ _ _ _ hr).1 0
  rw [h _ _ _ hr 0] at h2
  revert h2
  decide +kernel

/-- C34: argument handling of `adam_step`. NameError exactly when both are None (for gradient
functions that do not raise it themselves); `lamb_init` overrides the stored lambda; the counter
grows by one. -/
theorem C34_argument_handling (sqrt : K → K) (gf : (Fin k → K) → Except PyErr (Fin k → K))
    (hgf : ∀ l, gf l ≠ .error .nameError) (li : Option (Fin k → K)) (o : AdamOpts K)
    (iv : Option (Iv K k)) :
    (adamStep sqrt gf li o iv = .error .nameError ↔ li = none ∧ iv = none) ∧
    (∀ l i, li = some l → iv = some i → ∀ other,
      adamStep sqrt gf li o iv = adamStep sqrt gf li o (some { i with lamb := other })) ∧
    (∀ x iv', adamStep sqrt gf li o iv = .ok (x, iv') →
      iv'.t = (match iv with | none => 0 | some i => i.t) + 1 ∧ iv'.lamb = x ∧
      ∃ start g, gf start = .ok g ∧ (∀ l, li = some l → start = l) ∧
        (∀ i, li = none → iv = some i → start = i.lamb) ∧
        x = fun j => start j - o.alpha * (iv'.m1 j / (1 - o.beta1 ^ iv'.t)) /
          (sqrt (iv'.m2 j / (1 - o.beta2 ^ iv'.t)) + o.eps)) := by
  have hbody : ∀ i, adamBody sqrt gf o i ≠ .error .nameError := by
    intro i h
    unfold adamBody at h
    cases hg : gf i.lamb with
    | error e =>
      rw [hg] at h
      have : e = .nameError := by cases h; rfl
      exact hgf i.lamb (this ▸ hg)
    | ok g =>
      rw [hg] at h
      simp only [bind, Except.bind] at h
      split_ifs at h <;> cases h
  refine ⟨?_, ?_, ?_⟩
  · cases li <;> cases iv <;> simp [adamStep, hbody]
  · rintro l i rfl rfl other
    rfl
  · intro x iv' h
    cases iv with
    | none =>
      cases li with
      | none => cases h
      | some l =>
        obtain ⟨g, hg, e1, e2, -, -, -, -, e3⟩ := adamBody_ok h
        exact ⟨e1, e2, l, g, hg, by rintro _ ⟨⟩; rfl, by rintro _ ⟨⟩, e3⟩
    | some i =>
      cases li with
      | none =>
        obtain ⟨g, hg, e1, e2, -, -, -, -, e3⟩ := adamBody_ok h
        exact ⟨e1, e2, i.lamb, g, hg, by rintro _ ⟨⟩, by rintro _ _ ⟨⟩; rfl, e3⟩
      | some l =>
        obtain ⟨g, hg, e1, e2, -, -, -, -, e3⟩ := adamBody_ok h
        exact ⟨e1, e2, l, g, hg, by rintro _ ⟨⟩; rfl, by rintro _ ⟨⟩, e3⟩

end SmoothRF
