import Verif.Props.SmoothProps
import Verif.Props.ProxProps

/-!
# C134: constrained smoothing always returns, with or without Adam and from every drawn start
-/

set_option linter.unusedSectionVars false

namespace SmoothRF
open SkTree Topo

variable {K : Type} [Field K] [LinearOrder K] [IsStrictOrderedRing K]

/-- Adam parameters in their usual ranges. -/
structure AdamRange (a : AdamOpts K) : Prop where
  beta1_nonneg : 0 ≤ a.beta1
  beta1_lt : a.beta1 < 1
  beta2_nonneg : 0 ≤ a.beta2
  beta2_lt : a.beta2 < 1
  eps_pos : 0 < a.eps

theorem adamBody_returns {k : ℕ} {sqrt : K → K} (hsq : ∀ x, 0 ≤ x → 0 ≤ sqrt x)
    {gf : (Fin k → K) → Except PyErr (Fin k → K)} {a : AdamOpts K} (ha : AdamRange a) {iv : Iv K k}
    (hm : ∀ j, 0 ≤ iv.m2 j) {g : Fin k → K} (hg : gf iv.lamb = .ok g) :
    ∃ x iv', adamBody sqrt gf a iv = .ok (x, iv') ∧ ∀ j, 0 ≤ iv'.m2 j := by
  have h1 : 0 < 1 - a.beta1 ^ (iv.t + 1) :=
    sub_pos.2 (pow_lt_one₀ ha.beta1_nonneg ha.beta1_lt (by omega))
  have h2 : 0 < 1 - a.beta2 ^ (iv.t + 1) :=
    sub_pos.2 (pow_lt_one₀ ha.beta2_nonneg ha.beta2_lt (by omega))
  have h3 : ∀ j, 0 ≤ iv.m2 j * a.beta2 + (1 - a.beta1) * g j ^ 2 := fun j =>
    add_nonneg (mul_nonneg (hm j) ha.beta2_nonneg)
      (mul_nonneg (sub_nonneg.2 ha.beta1_lt.le) (sq_nonneg _))
  have hdiv : ∀ j, 0 ≤ (iv.m2 j * a.beta2 + (1 - a.beta1) * g j ^ 2) / (1 - a.beta2 ^ (iv.t + 1)) :=
    fun j => div_nonneg (h3 j) h2.le
  unfold adamBody
  simp only [hg, bind, Except.bind]
  rw [if_neg (by rintro (h | h); exacts [h1.ne' h, h2.ne' h]), if_neg]
  · exact ⟨_, _, rfl, h3⟩
  · rintro ⟨j, h | h⟩
    · exact absurd (hdiv j) (not_le.2 h)
    · have := add_pos_of_nonneg_of_pos (hsq _ (hdiv j)) ha.eps_pos
      exact this.ne' h

/-- C134: constrained descent with a valid start returns for every list of tree choices, every step size
and every Adam setting in the usual ranges. -/
theorem C134_descent_returns {k : ℕ} {sqrt : K → K} (hsq : ∀ x, 0 ≤ x → 0 ≤ sqrt x) (o : SgdOpts K)
    (ho : ∀ a, o.adam = some a → AdamRange a) (hc : o.constrained = true) (rows : List (Row K (k + 1)))
    (hne : rows ≠ []) (hrows : ∀ r ∈ rows, ∀ j, 0 ≤ r.eta j ∧ (r.eta j = 0 → r.gam j = 0))
    (lambInit : List K) (hlen : lambInit.length = k + 1) (hsum : lambInit.sum = 1)
    (hpos : ∀ x ∈ lambInit, 0 ≤ x) (choices : List ℕ) :
    ∃ r, sgd sqrt o rows lambInit choices = .ok r := by
  have hpre : ∀ (c : ℕ) (lamb : Fin (k + 1) → K) (iv : Option (Iv K (k + 1))), (∀ j, 0 ≤ lamb j) →
      (∀ v, iv = some v → ∀ j, 0 ≤ v.m2 j) →
      ∃ x iv', sgdPre sqrt takeGradient o rows c lamb iv = .ok (x, iv') ∧
        ∀ v, iv' = some v → ∀ j, 0 ≤ v.m2 j := by
    intro c lamb iv hl hv
    have hin : ∀ r ∈ rows.filter (fun r => r.tree == c), ∀ j, 0 ≤ r.eta j ∧ (r.eta j = 0 → r.gam j = 0) :=
      fun r hr => hrows r (List.mem_filter.1 hr).1
    have hg : ∃ g, takeGradient (rows.filter fun r => r.tree == c) lamb = .ok g :=
      ⟨_, by rw [takeGradient, if_pos (fillAssert_of_nonneg _ _ hin hl)]⟩
    obtain ⟨g, hg⟩ := hg
    unfold sgdPre
    cases ha : o.adam with
    | none =>
      simp only [hg, bind, Except.bind]
      exact ⟨_, _, rfl, hv⟩
    | some a =>
      have hstep : ∃ x iv', adamStep sqrt (takeGradient (rows.filter fun r => r.tree == c)) (some lamb) a iv =
          .ok (x, iv') ∧ ∀ j, 0 ≤ iv'.m2 j := by
        cases iv with
        | none => exact adamBody_returns hsq (ho a ha) (iv := ⟨0, lamb, _, _⟩) (fun _ => le_rfl) hg
        | some v => exact adamBody_returns hsq (ho a ha) (iv := { v with lamb := lamb }) (hv v rfl) hg
      obtain ⟨x, iv', e, hm⟩ := hstep
      simp only [e, bind, Except.bind]
      exact ⟨x, some iv', rfl, fun v hv => by cases hv; exact hm⟩
  have hfold : ∀ (cs : List ℕ) (s : SgdState K (k + 1)), (∀ j, 0 ≤ s.lamb j) →
      (∀ v, s.iv = some v → ∀ j, 0 ≤ v.m2 j) →
      ∃ s', cs.foldlM (sgdStep sqrt takeGradient calcCost proxProject o rows) s = .ok s' := by
    intro cs
    induction cs with
    | nil => intro s _ _; exact ⟨s, rfl⟩
    | cons c cs ih =>
      intro s hs hv
      obtain ⟨y, iv', e1, hv'⟩ := hpre c s.lamb s.iv hs hv
      obtain ⟨x, e2, hx, -⟩ := C19_prox_nonneg_monotone y
      have hcost : ∃ z, calcCost rows x = .ok z :=
        ⟨_, by rw [calcCost, if_pos (fillAssert_of_nonneg _ _ hrows hx)]⟩
      obtain ⟨z, hz⟩ := hcost
      have hm : sgdMove sqrt takeGradient proxProject o rows c s.lamb s.iv = .ok (x, iv') := by
        unfold sgdMove
        rw [e1]
        simp only [bind, Except.bind, hc, if_true, e2]
        rfl
      have hstep : ∃ s1, sgdStep sqrt takeGradient calcCost proxProject o rows s c = .ok s1 ∧
          s1.lamb = x ∧ s1.iv = iv' := by
        unfold sgdStep
        rw [hm]
        simp only [bind, Except.bind, hz]
        split_ifs
        · exact ⟨_, rfl, rfl, rfl⟩
        · exact ⟨_, rfl, rfl, rfl⟩
      obtain ⟨s1, hs1, hs1x, hs1v⟩ := hstep
      obtain ⟨s', hs'⟩ := ih s1 (by rw [hs1x]; exact hx) (by rw [hs1v]; exact hv')
      exact ⟨s', by rw [List.foldlM_cons, hs1]; exact hs'⟩
  unfold sgd
  rw [dif_pos hlen, if_neg]
  · unfold sgdRun
    have h0 : ∀ j : Fin (k + 1), 0 ≤ (fun j : Fin (k + 1) => lambInit[j]) j :=
      fun j => hpos _ (List.getElem_mem _)
    have hcost : ∃ y, calcCost rows (fun j : Fin (k + 1) => lambInit[j]) = .ok y :=
      ⟨_, by rw [calcCost, if_pos (fillAssert_of_nonneg _ _ hrows h0)]⟩
    obtain ⟨y, hy⟩ := hcost
    rw [hy]
    obtain ⟨s', hs'⟩ := hfold choices ⟨_, none, _, y, [y]⟩ h0 (fun v h => by cases h)
    refine ⟨(s'.lambBest, s'.lamb, s'.costAll), ?_⟩
    simp only [bind, Except.bind] at hs' ⊢
    rw [if_neg (by simpa using hne), hs']
    rfl
  · simp only [hc, hsum, Bool.true_and, Bool.or_eq_true, decide_eq_true_eq, ne_eq, not_true,
      List.any_eq_true, false_or, not_exists, not_and, not_lt]
    exact hpos

theorem initLamb_returns (kind : Kind) {n : ℕ} (seed : Option (ℕ → K)) (classEps : K)
    (hs : ∀ u, seed = some u → (∀ i, 0 ≤ u i) ∧ ∃ i ≤ n, u i ≠ 0) (he : 0 ≤ classEps) :
    ∃ l, initLamb (n := n) kind seed classEps = .ok l := by
  have hb : ∃ l, baseLamb (n := n) seed = .ok l := by
    cases seed with
    | none => exact ⟨_, rfl⟩
    | some u =>
      obtain ⟨h1, i, hi, h2⟩ := hs u rfl
      refine ⟨_, if_neg ?_⟩
      intro h
      rw [Finset.sum_eq_zero_iff_of_nonneg fun i _ => h1 _] at h
      exact h2 (h (⟨i, by omega⟩ : Fin (n + 1)) (Finset.mem_univ _))
  obtain ⟨l, hl⟩ := hb
  unfold initLamb
  rw [hl]
  cases kind with
  | reg => exact ⟨l, rfl⟩
  | cls =>
    have hf : ∑ i, l i = 1 ∧ ∀ i, 0 ≤ l i :=
      initLamb_feasible .reg seed classEps (fun u hu => (hs u hu).1) he (by unfold initLamb; rw [hl]; rfl)
    have hsum : ∑ i, (l i + 1 * classEps / ((n + 1 : ℕ) : K)) ≠ 0 := by
      rw [Finset.sum_add_distrib, hf.1]
      have : 0 ≤ ∑ _i : Fin (n + 1), 1 * classEps / ((n + 1 : ℕ) : K) :=
        Finset.sum_nonneg fun i _ => by positivity
      have h0 : (0 : K) < 1 + ∑ _i : Fin (n + 1), 1 * classEps / ((n + 1 : ℕ) : K) := by linarith
      exact h0.ne'
    simp only [bind, Except.bind, normalise]
    rw [if_neg hsum]
    simp only
    rw [← Finset.sum_div, div_self hsum, if_neg one_ne_zero]
    exact ⟨_, rfl⟩

variable {C : ℕ} {sqrt : K → K}
  {ce : (n : ℕ) → SgdOpts K → K → List (Row K n) → List K → List ℕ →
    Except PyErr ((Fin n → K) × (Fin n → K) × List K)}

/-- C134: constrained `smooth` of a regression forest (or of a classification forest with the squared
loss and every class among the tuning rows of every tree) returns if every tree has a tuning row: for every list of tree choices, step
size, Adam setting in the usual ranges, and every start drawn from non-negative numbers that are not all
zero. -/
theorem C134_smooth_returns (hsq : ∀ x, 0 ≤ x → 0 ≤ sqrt x) (hC : 0 < C) (kind : Kind)
    {forest : List (SkTree K C)} (hne : forest ≠ []) (hwf : ∀ t ∈ forest, t.WF)
    (hpos : ∀ t ∈ forest, ∀ r, 0 < t.nSamp (t.leafNode r)) (cfg : SmoothCfg K)
    (hl2 : kind = .reg ∨ cfg.lossL2 = true) (ha : ∀ a, cfg.adam = some a → AdamRange a)
    (hc : cfg.noConstraint = false)
    (hseed : ∀ u, cfg.seed = some u → (∀ i, 0 ≤ u i) ∧ ∃ i ≤ forestDepth forest, u i ≠ 0)
    (he : 0 ≤ cfg.classEps) {src : TuneSrc} (hsrc : tuneSource cfg.data = .ok src)
    (sources : TuneSrc → ℕ → List (TuneRow K C))
    (hrows : ∀ tt ∈ forest.zipIdx, sources src tt.2 ≠ [])
    (hcls : kind = .cls → src ≠ .given →
      ∀ tt ∈ forest.zipIdx, ∀ c, ∃ r ∈ sources src tt.2, r.y c ≠ 0) :
    ∃ out, smooth sqrt ce (some kind) forest cfg sources = .ok out := by
  have h2 : tuneSummaries (decide (kind = .cls) && decide (src ≠ .given)) forest (sources src) =
      .ok (forest.zipIdx.flatMap (summaryBlock (sources src))) := by
    rw [tuneSummaries_eq, if_neg]
    rintro (⟨tt, htt, e⟩ | ⟨h1, tt, htt, c, hr⟩)
    · exact hrows tt htt e
    simp only [Bool.and_eq_true, decide_eq_true_eq] at h1
    obtain ⟨r, hr1, hr2⟩ := hcls h1.1 h1.2 tt htt c
    exact hr2 (hr r hr1)
  obtain ⟨lamb, h3⟩ := initLamb_returns kind (n := forestDepth forest) cfg.seed cfg.classEps hseed he
  have hf := initLamb_feasible kind cfg.seed cfg.classEps (fun u hu => (hseed u hu).1) he h3
  have hopt : ∃ r, smoothOptimise sqrt (ce _) kind cfg (flatRows (forestDepth forest + 1) cfg.allTrees
      (gammaEtaForest kind forest cfg.style cfg.parentsAll)
      (forest.zipIdx.flatMap (summaryBlock (sources src)))) lamb = .ok r := by
    unfold smoothOptimise
    by_cases hsan : cfg.sanityCheck = true
    · rw [if_pos hsan]
      exact ⟨_, rfl⟩
    rw [if_neg hsan]
    dsimp only
    rw [if_pos hl2, flatRows_eq kind forest hwf]
    have hmem : ∀ q ∈ leafListI forest, q.1.1 ∈ forest := by
      intro q hq
      have : q.1 ∈ leafList forest := by rw [← leafListI_fst]; exact List.mem_map_of_mem hq
      simp only [leafList, List.mem_flatMap, List.mem_map] at this
      obtain ⟨t, ht, r, -, e⟩ := this
      rw [← e]; exact ht
    apply C134_descent_returns hsq
    · exact ha
    · simp [hc]
    · intro hnil
      rw [List.flatMap_eq_nil_iff] at hnil
      have := hnil ⟨0, hC⟩ (List.mem_finRange _)
      rw [List.map_eq_nil_iff] at this
      have e := leafListI_fst forest
      rw [this] at e
      obtain ⟨t, ht⟩ := List.exists_mem_of_ne_nil _ hne
      have := nLeaves_le_leafList ht
      rw [← e] at this
      have := nLeaves_pos (hwf t ht)
      simp at *
      omega
    · intro row hrow j
      simp only [List.mem_flatMap, List.mem_map] at hrow
      obtain ⟨c, -, q, hq, rfl⟩ := hrow
      have hp := hpos _ (hmem q hq)
      constructor
      · exact levelSum_nonneg _ _ _ (fun l => (hp l).le) _ _
      · intro h0
        simp only [specRow] at h0 ⊢
        unfold levelSum at h0 ⊢
        split_ifs at h0 ⊢ <;>
        · have hemp := (Finset.sum_eq_zero_iff_of_nonneg fun l _ => (hp l).le).1 h0
          exact Finset.sum_eq_zero fun l hl => absurd (hemp l hl) (hp l).ne'
    · simp
    · rw [List.sum_ofFn]; exact hf.1
    · intro x hx
      obtain ⟨i, rfl⟩ := (List.mem_ofFn' _ _).1 hx
      exact hf.2 i
  obtain ⟨⟨l1, l2, cs⟩, h4⟩ := hopt
  obtain ⟨out, ho, -⟩ := smooth_returns (sqrt := sqrt) (ce := ce) hC hwf (sources := sources)
    (smoothCheck_ok.2 ⟨rfl, hsrc, by simp [hc]⟩) h2 h3 (l1 := l1) (l2 := l2) (cs := cs) h4
  exact ⟨out, ho⟩

/-- C134: without the constraint `smooth` may raise AssertionError: one step of size 1/12 on a two-leaf
regression tree whose two tuning responses lie outside the range of the leaf values. -/
theorem C134_unconstrained_raises :
    (match smooth (fun x : ℚ => x) noCe (some .reg) [exStump]
        { exCfg with noConstraint := true, sanityCheck := false, steps := [0], tFix := 1 / 12 }
        (fun _ _ => [⟨0, fun _ => 0⟩, ⟨1, fun _ => 5⟩]) with
      | .ok _ => none
      | .error e => some e) = some .assertionError := by decide +kernel

/-- Instance of `C134_smooth_returns`: two Adam steps from a drawn start with the constraint. -/
example : (match smooth (fun x : ℚ => x) noCe (some .reg) [exStump]
        { exCfg with noConstraint := false, sanityCheck := false, steps := [0, 0], seed := some fun i => i + 1,
                     adam := some ⟨1 / 10, 9 / 10, 1 / 2, 1⟩ }
        (fun _ _ => [⟨0, fun _ => 0⟩, ⟨1, fun _ => 5⟩]) with
      | .ok out => some (out.costs.length, decide (out.lamb1 = out.lamb2), decide (0 < out.lamb2 1))
      | .error _ => none) = some (3, true, true) := by decide +kernel

example : AdamRange (⟨1 / 10, 9 / 10, 1 / 2, 1⟩ : AdamOpts ℚ) := by
  constructor <;> norm_num

end SmoothRF
