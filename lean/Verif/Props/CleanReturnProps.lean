import Verif.Props.CleanProps
import Verif.Props.ReturnProps

/-!
# C135: when constrained `smooth_clean` returns
-/

set_option linter.unusedSectionVars false

namespace SmoothRF
open SkTree Topo

variable {K : Type} [Field K] [LinearOrder K] [IsStrictOrderedRing K]
variable {sqrt : K → K} {approxOne : K → Bool}
variable {forest : List (SkTree K 1)} {leafOf : ℕ → ℕ → ℕ} {uns : ℕ → List ℕ} {y : List K}

/-- Some observation of `obs` is out of bag for some of the first `T` trees. -/
def HasOob (T : ℕ) (uns : ℕ → List ℕ) (obs : List ℕ) : Prop := ∃ i ∈ obs, ∃ t < T, i ∈ uns t

instance (T : ℕ) (uns : ℕ → List ℕ) (obs : List ℕ) : Decidable (HasOob T uns obs) := by
  unfold HasOob; infer_instance

theorem levelSum_zero_num {t : SkTree K 1} {s : Style} {pa : Bool} {n : ℕ} {lamb : Fin n → K}
    (hpos : ∀ r, 0 < t.nSamp (t.leafNode r)) (hl : ∀ j, 0 ≤ lamb j) (r : Fin t.nLeaves)
    (h : smoothDen t s pa lamb r = 0) : smoothNum .reg t s pa lamb r 0 = 0 := by
  unfold smoothDen at h
  have hz := (Finset.sum_eq_zero_iff_of_nonneg fun k _ => mul_nonneg
    (levelSum_nonneg _ _ _ (fun l => (hpos l).le) _ _) (hl k)).1 h
  refine Finset.sum_eq_zero fun k hk => ?_
  rcases mul_eq_zero.1 (hz k hk) with h0 | h0
  · have : levelSum pa (t.distDepth s) (fun j => t.mass .reg (t.leafNode j) 0) r k = 0 := by
      unfold levelSum at h0 ⊢
      split_ifs at h0 ⊢ <;>
      · have hemp := (Finset.sum_eq_zero_iff_of_nonneg fun l _ => (hpos l).le).1 h0
        exact Finset.sum_eq_zero fun l hl => absurd (hemp l hl) (hpos l).ne'
    rw [this, zero_mul]
  · rw [h0, mul_zero]

section
variable (hwf : ∀ t ∈ forest, t.WF) (hpos : ∀ t ∈ forest, ∀ r, 0 < t.nSamp (t.leafNode r))
  (s : Style) (pa : Bool)
  (hl : ∀ t tr, forest[t]? = some tr → ∀ i < y.length, leafOf t i < tr.nLeaves)
include hwf hpos hl

theorem clean_eval {lamb : Fin (forestDepth forest + 1) → K} (hlamb : ∀ j, 0 ≤ lamb j) (obs : List ℕ)
    (ho : ∀ i ∈ obs, i < y.length) :
    (HasOob forest.length uns obs →
      (∃ c, cleanCost (cleanData forest s pa y.length leafOf uns) y lamb obs = .ok c) ∧
      ∃ g, calcL2Grad (cleanData forest s pa y.length leafOf uns) y lamb obs = .ok g) ∧
    (¬ HasOob forest.length uns obs →
      cleanCost (cleanData forest s pa y.length leafOf uns) y lamb obs = .error .nonFinite ∧
      calcL2Grad (cleanData forest s pa y.length leafOf uns) y lamb obs = .error .nonFinite) := by
  have h1 := C46_oob_average forest hwf s pa y.length leafOf uns hl lamb
    (fun t ht r h => levelSum_zero_num (hpos t ht) hlamb r h) obs ho
  have h2 := calcYOobGrad_eq (cleanView forest hwf s pa y.length leafOf uns hl) lamb obs ho
  have hy : ∀ i ∈ obs, y[i]? = some (y.getD i 0) := fun i hi => by
    rw [List.getD_eq_getElem?_getD, List.getElem?_eq_getElem (ho i hi)]; rfl
  have e : obs.filter (fun i => decide (∃ t < forest.length, i ∈ uns t)) = [] ↔
      ¬ HasOob forest.length uns obs := by
    rw [List.filter_eq_nil_iff]
    simp [HasOob]
  rw [C76_cost hy h1, C76_l2_grad hy h1 h2]
  refine ⟨fun h => ?_, fun h => ?_⟩
  · rw [if_neg (fun h0 => e.1 h0 h), if_neg (fun h0 => e.1 h0 h)]
    exact ⟨⟨_, rfl⟩, ⟨_, rfl⟩⟩
  · rw [if_pos (e.2 h), if_pos (e.2 h)]
    exact ⟨rfl, rfl⟩

end

/-- On non-negative weights cost and gradient of a subset of the observations are numbers exactly if one of
them is out of bag for some tree. -/
def OobEval {m : ℕ} (d : CleanData K (m + 1)) (y : List K) (T : ℕ) (uns : ℕ → List ℕ) : Prop :=
  ∀ lamb : Fin (m + 1) → K, (∀ j, 0 ≤ lamb j) → ∀ obs : List ℕ, (∀ i ∈ obs, i < y.length) →
    (HasOob T uns obs → (∃ c, cleanCost d y lamb obs = .ok c) ∧ ∃ g, calcL2Grad d y lamb obs = .ok g) ∧
    (¬ HasOob T uns obs → cleanCost d y lamb obs = .error .nonFinite ∧
      calcL2Grad d y lamb obs = .error .nonFinite)

section
variable {m T : ℕ} {d : CleanData K (m + 1)} (hlen : d.idxMat.length = y.length) (hev : OobEval d y T uns)
include hlen hev

theorem cleanMove_good (hsq : ∀ x, 0 ≤ x → 0 ≤ sqrt x) {o : CleanOpts K} (hc : o.noConstraint = false)
    (ha : ∀ a, o.adam = some a → AdamRange a)
    {lamb : Fin (m + 1) → K} (hlamb : ∀ j, 0 ≤ lamb j)
    {iv : Option (Iv K (m + 1))} (hv : ∀ v, iv = some v → ∀ j, 0 ≤ v.m2 j)
    {obs : List ℕ} (ho : ∀ i ∈ obs, i < y.length) (hg : HasOob T uns obs) :
    ∃ x iv', cleanMove sqrt d y o obs lamb iv = .ok (x, iv') ∧
      (∀ j, 0 ≤ x j) ∧ ∀ v, iv' = some v → ∀ j, 0 ≤ v.m2 j := by
  obtain ⟨g, hg⟩ := ((hev _ hlamb obs ho).1 hg).2
  have hpre : ∃ z iv', cleanPre sqrt d y o obs lamb iv =
      .ok (z, iv') ∧ ∀ v, iv' = some v → ∀ j, 0 ≤ v.m2 j := by
    unfold cleanPre
    cases hadam : o.adam with
    | none =>
      simp only [hg, bind, Except.bind]
      exact ⟨_, _, rfl, hv⟩
    | some a =>
      let gf := fun l => calcL2Grad d y l obs
      have hstep : ∃ x iv', adamStep sqrt (fun l => calcL2Grad d y l
          obs) (some lamb) a iv = .ok (x, iv') ∧ ∀ j, 0 ≤ iv'.m2 j := by
        cases iv with
        | none => exact adamBody_returns hsq (gf := gf) (ha a hadam) (iv := ⟨0, lamb, _, _⟩) (fun _ => le_rfl) hg
        | some v => exact adamBody_returns hsq (gf := gf) (ha a hadam) (iv := { v with lamb := lamb }) (hv v rfl) hg
      obtain ⟨x, iv', e, hm⟩ := hstep
      simp only [e, bind, Except.bind]
      exact ⟨x, some iv', rfl, fun v hv => by cases hv; exact hm⟩
  obtain ⟨z, iv', e1, hv'⟩ := hpre
  obtain ⟨x, e2, hx, -⟩ := C19_prox_nonneg_monotone z
  refine ⟨x, iv', ?_, hx, hv'⟩
  unfold cleanMove
  rw [e1]
  simp only [bind, Except.bind, hc, e2]
  rfl

theorem cleanStep_good (hsq : ∀ x, 0 ≤ x → 0 ≤ sqrt x) {o : CleanOpts K} (hc : o.noConstraint = false)
    (ha : ∀ a, o.adam = some a → AdamRange a) (hn : o.nObs ≤ y.length)
    {st : CleanState K (m + 1)} (hlamb : ∀ j, 0 ≤ st.lamb j)
    (hv : ∀ v, st.iv = some v → ∀ j, 0 ≤ v.m2 j)
    (hb : o.useFullLoss = true → st.started = true → st.best ≠ none)
    {obs : List ℕ} (ho : ∀ i ∈ obs, i < y.length) (hg : HasOob T uns obs) :
    ∃ st', cleanStep sqrt d y o st obs = .ok st' ∧
      (∀ j, 0 ≤ st'.lamb j) ∧ (∀ v, st'.iv = some v → ∀ j, 0 ≤ v.m2 j) ∧ st'.started = true ∧
      (o.useFullLoss = true → st'.best ≠ none) := by
  have hall : ∀ i ∈ List.range y.length, i < y.length := fun i hi => List.mem_range.1 hi
  have hgall : HasOob T uns (List.range y.length) := by
    obtain ⟨i, hi, h⟩ := hg
    exact ⟨i, List.mem_range.2 (ho i hi), h⟩
  have h1 : ∃ s1, cleanStart d y o obs st = .ok s1 ∧
      s1.lamb = st.lamb ∧ s1.iv = st.iv ∧ s1.started = true ∧
      (o.useFullLoss = true → s1.best ≠ none) := by
    unfold cleanStart
    rw [hlen]
    by_cases hst : st.started = true
    · rw [if_pos hst]
      exact ⟨st, rfl, rfl, rfl, hst, fun h => hb h hst⟩
    rw [if_neg hst]
    by_cases hf : o.useFullLoss = true
    · obtain ⟨c, e⟩ := ((hev _ hlamb _ hall).1 hgall).1
      rw [if_pos hf, e]
      exact ⟨_, rfl, rfl, rfl, rfl, fun _ => by simp⟩
    · obtain ⟨c, e⟩ := ((hev _ hlamb _ ho).1 hg).1
      rw [if_neg hf, e]
      exact ⟨_, rfl, rfl, rfl, rfl, fun h => absurd h hf⟩
  obtain ⟨s1, e1, hs1, hv1, hst1, hb1⟩ := h1
  obtain ⟨x, iv', e2, hx, hv2⟩ := cleanMove_good hlen hev hsq hc ha (lamb := s1.lamb)
    (by rw [hs1]; exact hlamb) (iv := s1.iv) (by rw [hv1]; exact hv) ho hg
  unfold cleanStep
  rw [hlen, if_neg (not_lt.2 hn), e1]
  simp only [bind, Except.bind, e2]
  unfold cleanRecord
  rw [hlen]
  by_cases hf : o.useFullLoss = true
  · obtain ⟨c, e⟩ := ((hev _ hx _ hall).1 hgall).1
    rw [if_pos hf, e]
    refine ⟨_, rfl, hx, hv2, hst1, fun _ => ?_⟩
    simp only [lt_irrefl, if_false]
    exact hb1 hf
  · obtain ⟨c, e⟩ := ((hev _ hx _ ho).1 hg).1
    rw [if_neg hf, e]
    exact ⟨_, rfl, hx, hv2, hst1, fun h => absurd h hf⟩

theorem cleanStep_bad {o : CleanOpts K} {st : CleanState K (m + 1)}
    (hlamb : ∀ j, 0 ≤ st.lamb j) {obs : List ℕ} (ho : ∀ i ∈ obs, i < y.length)
    (hg : ¬ HasOob T uns obs) {st' : CleanState K (m + 1)} :
    cleanStep sqrt d y o st obs ≠ .ok st' := by
  intro h
  unfold cleanStep at h
  split_ifs at h
  obtain ⟨s1, e1, h⟩ := bind_ok h
  have hs1 : s1.lamb = st.lamb := by
    unfold cleanStart at e1
    split_ifs at e1
    · cases e1; rfl
    · obtain ⟨c, -, e1⟩ := bind_ok e1; cases e1; rfl
    · obtain ⟨c, -, e1⟩ := bind_ok e1; cases e1; rfl
  obtain ⟨p, e2, -⟩ := bind_ok h
  unfold cleanMove at e2
  obtain ⟨q, e3, -⟩ := bind_ok e2
  have hbad := ((hev s1.lamb (by rw [hs1]; exact hlamb) obs ho).2 hg).2
  unfold cleanPre at e3
  cases hadam : o.adam with
  | none =>
    rw [hadam] at e3
    simp only [hbad, bind, Except.bind] at e3
    cases e3
  | some a =>
    rw [hadam] at e3
    obtain ⟨r, e4, -⟩ := bind_ok e3
    cases hiv : s1.iv with
    | none =>
      rw [hiv] at e4
      simp only [adamStep, adamBody, hbad, bind, Except.bind] at e4
      cases e4
    | some v =>
      rw [hiv] at e4
      simp only [adamStep, adamBody, hbad, bind, Except.bind] at e4
      cases e4

theorem cleanFold_iff (hsq : ∀ x, 0 ≤ x → 0 ≤ sqrt x) {o : CleanOpts K} (hc : o.noConstraint = false)
    (ha : ∀ a, o.adam = some a → AdamRange a) (hn : o.nObs ≤ y.length) (choices : List (List ℕ))
    (ho : ∀ obs ∈ choices, ∀ i ∈ obs, i < y.length)
    (st : CleanState K (m + 1)) (hlamb : ∀ j, 0 ≤ st.lamb j)
    (hv : ∀ v, st.iv = some v → ∀ j, 0 ≤ v.m2 j)
    (hb : o.useFullLoss = true → st.started = true → st.best ≠ none) :
    (∃ st', choices.foldlM (cleanStep sqrt d y o) st = .ok st' ∧
      (o.useFullLoss = true → choices ≠ [] → st'.best ≠ none)) ↔
    ∀ obs ∈ choices, HasOob T uns obs := by
  induction choices generalizing st with
  | nil => exact ⟨fun _ => by simp, fun _ => ⟨st, rfl, fun _ h => absurd rfl h⟩⟩
  | cons obs cs ih =>
    by_cases hg : HasOob T uns obs
    · obtain ⟨s1, e1, hx, hv1, hst1, hb1⟩ := cleanStep_good hlen hev hsq hc ha hn hlamb hv hb
        (ho obs (by simp)) hg
      have := ih (fun ob h => ho ob (by simp [h])) s1 hx hv1 (fun h _ => hb1 h)
      rw [List.foldlM_cons, e1]
      simp only [List.forall_mem_cons, hg, true_and]
      rw [← this]
      constructor
      · rintro ⟨st', e, h⟩
        exact ⟨st', e, fun hf _ => h hf (by simp)⟩
      · rintro ⟨st', e, h⟩
        refine ⟨st', e, fun hf _ => ?_⟩
        by_cases hcs : cs = []
        · subst hcs; cases e; exact hb1 hf
        · exact h hf hcs
    · refine iff_of_false ?_ fun h => hg (h obs (by simp))
      rintro ⟨st', e, -⟩
      rw [List.foldlM_cons] at e
      obtain ⟨s1, e1, -⟩ := bind_ok e
      exact cleanStep_bad hlen hev hlamb (ho obs (by simp)) hg e1

theorem cleanLamb_iff (hsq : ∀ x, 0 ≤ x → 0 ≤ sqrt x) (happ : approxOne 1 = true) (cfg : CleanCfg K)
    (hc : cfg.noConstraint = false) (ha : ∀ a, cfg.adam = some a → AdamRange a)
    (hseed : ∀ u, cfg.seed = some u → (∀ i, 0 ≤ u i) ∧ ∃ i ≤ m, u i ≠ 0)
    (choices : List (List ℕ)) (ho : ∀ obs ∈ choices, ∀ i ∈ obs, i < y.length) :
    (∃ r, cleanLamb sqrt approxOne d y cfg choices = .ok r) ↔
    y ≠ [] ∧ (cfg.sanityCheck = true ∨
      ((∀ obs ∈ choices, ∃ i ∈ obs, ∃ t < T, i ∈ uns t) ∧
       (choices ≠ [] → cfg.allObs = false → cfg.nObs ≤ y.length) ∧
       (cfg.allObs = true ∨ cfg.useFullLoss = true → choices ≠ []))) := by
  obtain ⟨l, hb⟩ := initLamb_returns .reg (n := m) cfg.seed 0 hseed le_rfl
  have hfeas := initLamb_feasible .reg cfg.seed 0 (fun u hu => (hseed u hu).1) le_rfl hb
  have hbase : baseLamb (n := m) cfg.seed = .ok l := by
    unfold initLamb at hb
    obtain ⟨l', e, e'⟩ := bind_ok hb
    cases e'
    exact e
  unfold cleanLamb
  by_cases hy : y = []
  · subst hy
    exact iff_of_false (by rintro ⟨r, h⟩; cases h) fun h => h.1 rfl
  rw [and_iff_right hy, if_neg (by simpa using hy), hbase]
  simp only [bind, Except.bind]
  by_cases hs : cfg.sanityCheck = true
  · rw [if_pos hs]
    exact iff_of_true ⟨_, rfl⟩ (Or.inl hs)
  rw [if_neg hs]
  have hstart : ¬ (cfg.noConstraint = false ∧ (approxOne (∑ i, l i) = false ∨ ∃ i, l i < 0)) := by
    rintro ⟨-, h | ⟨i, hi⟩⟩
    · rw [hfeas.1, happ] at h; cases h
    · exact absurd (hfeas.2 i) (not_le.2 hi)
  rw [or_iff_right hs]
  unfold sgdClean
  rw [if_neg hstart]
  by_cases hn : choices = [] ∨ (if cfg.allObs then y.length else cfg.nObs) ≤ y.length
  · by_cases hnil : choices = []
    · subst hnil
      simp only [List.foldlM_nil, bind, Except.bind, pure, Except.pure]
      by_cases hf : (cfg.allObs || cfg.useFullLoss) = true
      · simp only [hf, if_true]
        refine iff_of_false (by rintro ⟨r, h⟩; cases h) fun h => ?_
        exact h.2.2 (by simpa using hf) rfl
      · simp only [hf]
        refine iff_of_true ⟨_, rfl⟩ ⟨by simp, by simp, fun h => absurd ?_ hf⟩
        simpa using h
    · have hn' := hn.resolve_left hnil
      have key := cleanFold_iff (uns := uns) hlen hev hsq
        (o := { nObs := if cfg.allObs then y.length else cfg.nObs
                useFullLoss := cfg.allObs || cfg.useFullLoss
                tFix := cfg.tFix, noConstraint := cfg.noConstraint, adam := cfg.adam })
        hc ha hn' choices ho ⟨l, none, none, [], false⟩ hfeas.2 (fun v h => by cases h)
        (fun _ h => by cases h)
      have hrest : (choices ≠ [] → cfg.allObs = false → cfg.nObs ≤ y.length) ∧
          (cfg.allObs = true ∨ cfg.useFullLoss = true → choices ≠ []) := by
        refine ⟨fun _ h => ?_, fun _ => hnil⟩
        simpa [h] using hn'
      rw [and_iff_left hrest]
      refine Iff.trans ?_ key
      generalize (choices.foldlM (cleanStep sqrt _ y _) _ : Except PyErr _) = r
      cases r with
      | error e => exact iff_of_false (by rintro ⟨r, h⟩; cases h) (by rintro ⟨r, h, -⟩; cases h)
      | ok st =>
        simp only [bind, Except.bind, pure, Except.pure]
        by_cases hf : (cfg.allObs || cfg.useFullLoss) = true
        · simp only [hf, if_true]
          cases hbest : st.best with
          | none =>
            refine iff_of_false (by rintro ⟨r, h⟩; cases h) ?_
            rintro ⟨st', e, h⟩
            cases e
            exact h trivial hnil hbest
          | some b => exact iff_of_true ⟨_, rfl⟩ ⟨st, rfl, fun _ _ => by rw [hbest]; simp⟩
        · simp only [hf]
          exact iff_of_true ⟨_, rfl⟩ ⟨st, rfl, fun h => absurd h (by simp)⟩
  · obtain ⟨hnil, hn2⟩ := not_or.1 hn
    refine iff_of_false ?_ ?_
    · rintro ⟨r, h⟩
      match choices, hnil with
      | obs :: cs, _ =>
        rw [List.foldlM_cons] at h
        unfold cleanStep at h
        rw [hlen, if_pos (not_le.1 hn2)] at h
        cases h
    · rintro ⟨-, h, -⟩
      have := h hnil
      by_cases hall : cfg.allObs = true
      · simp [hall] at hn2
      · simp only [hall] at hn2
        exact hn2 (this (by simpa using hall))

end

/-- C135: constrained `smooth_clean` on a regression forest (well-formed trees, positive leaf counts,
Adam settings in their usual ranges, start drawn from non-negative numbers that are not all zero) returns
exactly if there are observations and `sanity_check` is set, or every drawn subset holds an observation that is out of bag for
some tree, no more observations are drawn than there are, and there is a step when the full loss is
used. -/
theorem C135_clean_returns_iff (hsq : ∀ x, 0 ≤ x → 0 ≤ sqrt x) (happ : approxOne 1 = true)
    (hwf : ∀ t ∈ forest, t.WF) (hpos : ∀ t ∈ forest, ∀ r, 0 < t.nSamp (t.leafNode r))
    (hl : ∀ t tr, forest[t]? = some tr → ∀ i < y.length, leafOf t i < tr.nLeaves) (cfg : CleanCfg K)
    (hc : cfg.noConstraint = false) (ha : ∀ a, cfg.adam = some a → AdamRange a)
    (hseed : ∀ u, cfg.seed = some u → (∀ i, 0 ≤ u i) ∧ ∃ i ≤ forestDepth forest, u i ≠ 0)
    (choices : List (List ℕ)) (ho : ∀ obs ∈ choices, ∀ i ∈ obs, i < y.length) :
    (∃ out, smoothClean sqrt approxOne (some .reg) forest y leafOf uns cfg choices = .ok out) ↔
    y ≠ [] ∧ (cfg.sanityCheck = true ∨
      ((∀ obs ∈ choices, ∃ i ∈ obs, ∃ t < forest.length, i ∈ uns t) ∧
       (choices ≠ [] → cfg.allObs = false → cfg.nObs ≤ y.length) ∧
       (cfg.allObs = true ∨ cfg.useFullLoss = true → choices ≠ []))) := by
  have hcore : (∃ out, smoothClean sqrt approxOne (some .reg) forest y leafOf uns cfg choices = .ok out) ↔
      ∃ r, cleanLamb sqrt approxOne (cleanData forest cfg.style cfg.parentsAll y.length leafOf uns) y cfg
        choices = .ok r := by
    constructor
    · rintro ⟨⟨a, b, c⟩, h⟩
      exact ⟨_, (smoothClean_ok hwf h).2.1⟩
    · rintro ⟨⟨a, b⟩, h⟩
      obtain ⟨rf1, e⟩ := smoothClean_returns hwf h
      exact ⟨_, e⟩
  rw [hcore]
  exact cleanLamb_iff (cleanView forest hwf cfg.style cfg.parentsAll y.length leafOf uns hl).len
    (fun lamb h obs ho => clean_eval hwf hpos cfg.style cfg.parentsAll hl h obs ho) hsq happ cfg hc ha hseed
    choices ho

/-- Both sides of C135 hold: observations 0 (out of bag) and 2 (never) drawn. -/
example : (match smoothClean (fun x => x) (fun x => decide (x = 1)) (some .reg) [exStump26, exStump]
      [4, 3, 1] exLeafOf exUns { exClean with allObs := false } [[0, 2], [1, 2]] with
    | .ok r => some r.2.2.length
    | .error _ => none) = some 3 := by decide +kernel

/-- Both sides of C135 fail: the second subset holds observation 2 only, which is never out of bag. -/
example : (match smoothClean (fun x => x) (fun x => decide (x = 1)) (some .reg) [exStump26, exStump]
      [4, 3, 1] exLeafOf exUns { exClean with allObs := false } [[0, 2], [2]] with
    | .ok _ => none
    | .error e => some e) = some .nonFinite := by decide +kernel

/-- Both sides of C135 fail: more observations asked for than there are. -/
example : (match smoothClean (fun x => x) (fun x => decide (x = 1)) (some .reg) [exStump26, exStump]
      [4, 3, 1] exLeafOf exUns { exClean with allObs := false, nObs := 4 } [[0, 2]] with
    | .ok _ => none
    | .error e => some e) = some .valueError := by decide +kernel

end SmoothRF
