import Verif.Props.CleanReturnProps
import Verif.Props.SmoothImpProps

/-!
# C213: when constrained smoothing with the impurity distance returns
-/

set_option linter.unusedSectionVars false

namespace SmoothRF
open SkTree Topo

variable {K : Type} [Field K] [LinearOrder K] [IsStrictOrderedRing K] {C : ℕ} {sqrt : K → K}
  {ce : (n : ℕ) → SgdOpts K → K → List (Row K n) → List K → List ℕ →
    Except PyErr ((Fin n → K) × (Fin n → K) × List K)}

/-- `levels` can cut the impurity distances of `forest`: a positive number of quantiles or an array with an
entry other than zero, and a positive distance in every tree of a non-empty forest. -/
def CutsForest (forest : List (SkTree K C)) (s : Style) (levels : Option (Levels K)) : Prop :=
  forest ≠ [] ∧ (∀ t ∈ forest, ∃ i j, 0 < t.distImpurity t.impurity s i j) ∧
  match levels with
  | none => False
  | some (.int n) => 0 < n
  | some (.arr l) => ∃ b ∈ l, b ≠ 0

theorem impForest_isOk (kind : Kind) (forest : List (SkTree K C)) (s : Style) (pa : Bool)
    (levels : Option (Levels K)) :
    (∃ G, gammaEtaForestImp kind forest s pa levels = .ok G) ↔ CutsForest forest s levels := by
  obtain ⟨r1, r2, r3⟩ := C94_returns kind forest s pa
  rcases levels with _ | ⟨m⟩ | l
  · rw [r3]
    simp [CutsForest]
  · rcases Nat.eq_zero_or_pos m with rfl | hm
    · refine iff_of_false ?_ fun h => absurd h.2.2 (by simp)
      rintro ⟨G, h⟩
      unfold gammaEtaForestImp at h
      obtain ⟨lv, hlv, -⟩ := bind_ok h
      rw [resolve_int] at hlv
      cases hlv
    · rw [r2 m hm]
      simp [CutsForest, hm]
  · rw [r1 l]
    simp only [CutsForest]
    tauto

theorem levelSum_empty {t : SkTree K C} (kind : Kind) {pa : Bool} {D : Fin t.nLeaves → Fin t.nLeaves → ℤ} {k : ℕ}
    (hp : ∀ r, 0 < t.nSamp (t.leafNode r)) (r : Fin t.nLeaves) (c : Fin C)
    (h0 : levelSum pa D (fun j => t.nSamp (t.leafNode j)) r k = 0) :
    levelSum pa D (fun j => t.mass kind (t.leafNode j) c) r k = 0 := by
  unfold levelSum at h0 ⊢
  split_ifs at h0 ⊢ <;>
  · have hemp := (Finset.sum_eq_zero_iff_of_nonneg fun l _ => (hp l).le).1 h0
    exact Finset.sum_eq_zero fun l hl => absurd (hemp l hl) (hp l).ne'

/-- C213: constrained `smooth(distance_style="impurity")` of a regression forest (or of a classification
forest with the squared loss) returns exactly if `levels` can cut the distances of every tree, every tree
has a tuning row and, where class labels are expanded, every class is among them. Assumed: well-formed
trees with positive leaf counts, Adam settings in the usual ranges, and a start drawn from non-negative
numbers the first of which is not zero. -/
theorem C213_smooth (hsq : ∀ x, 0 ≤ x → 0 ≤ sqrt x) (hC : 0 < C) (kind : Kind)
    {forest : List (SkTree K C)} (hwf : ∀ t ∈ forest, t.WF)
    (hpos : ∀ t ∈ forest, ∀ r, 0 < t.nSamp (t.leafNode r)) (levels : Option (Levels K)) (cfg : SmoothCfg K)
    (hl2 : kind = .reg ∨ cfg.lossL2 = true) (ha : ∀ a, cfg.adam = some a → AdamRange a)
    (hc : cfg.noConstraint = false) (hseed : ∀ u, cfg.seed = some u → (∀ i, 0 ≤ u i) ∧ u 0 ≠ 0)
    (he : 0 ≤ cfg.classEps) {src : TuneSrc} (hsrc : tuneSource cfg.data = .ok src)
    (sources : TuneSrc → ℕ → List (TuneRow K C)) :
    (∃ out, smoothImp sqrt ce (some kind) forest levels cfg sources = .ok out) ↔
      CutsForest forest cfg.style levels ∧ (∀ tt ∈ forest.zipIdx, sources src tt.2 ≠ []) ∧
      (kind = .cls → src ≠ .given → ∀ tt ∈ forest.zipIdx, ∀ c, ∃ r ∈ sources src tt.2, r.y c ≠ 0) := by
  have hchk : smoothCheck (some kind) cfg.data cfg.noConstraint = .ok (kind, src) :=
    smoothCheck_ok.2 ⟨rfl, hsrc, by simp [hc]⟩
  have htune : (∃ yw, tuneSummaries (decide (kind = .cls) && decide (src ≠ .given)) forest (sources src) =
      .ok yw) ↔ (∀ tt ∈ forest.zipIdx, sources src tt.2 ≠ []) ∧
      (kind = .cls → src ≠ .given → ∀ tt ∈ forest.zipIdx, ∀ c, ∃ r ∈ sources src tt.2, r.y c ≠ 0) := by
    rw [tuneSummaries_eq]
    constructor
    · rintro ⟨yw, h⟩
      split at h
      · cases h
      · rename_i hn
        rw [not_or] at hn
        refine ⟨fun tt htt e => hn.1 ⟨tt, htt, e⟩, fun h1 h2 tt htt c => ?_⟩
        by_contra hcon
        push Not at hcon
        exact hn.2 ⟨by simp [h1, h2], tt, htt, c, hcon⟩
    · rintro ⟨h1, h2⟩
      rw [if_neg]
      · exact ⟨_, rfl⟩
      rintro (⟨tt, htt, e⟩ | ⟨h3, tt, htt, c, hr⟩)
      · exact h1 tt htt e
      simp only [Bool.and_eq_true, decide_eq_true_eq] at h3
      obtain ⟨r, hr1, hr2⟩ := h2 h3.1 h3.2 tt htt c
      exact hr2 (hr r hr1)
  constructor
  · rintro ⟨out, h⟩
    obtain ⟨kind', src', ge, h0, h1, h2, -, h4⟩ := smoothImp_ok h
    cases h0
    rw [hchk] at h1
    cases h1
    obtain ⟨yw, lamb, h5, -⟩ := smoothFrom_ok h4
    exact ⟨(impForest_isOk kind forest _ _ _).1 ⟨ge, h2⟩, htune.1 ⟨yw, h5⟩⟩
  · rintro ⟨h1, h2⟩
    have hne := h1.1
    obtain ⟨ge, hge⟩ := (impForest_isOk kind forest cfg.style cfg.parentsAll levels).2 h1
    obtain ⟨yw, hyw⟩ := htune.2 h2
    have hyw' : yw = forest.zipIdx.flatMap (summaryBlock (sources src)) := by
      rw [tuneSummaries_eq] at hyw
      split at hyw
      · cases hyw
      · cases hyw; rfl
    obtain ⟨lev, -, S⟩ := imp_stacked hwf hge
    obtain ⟨lamb, h3⟩ := initLamb_returns kind (n := lastLevel ge) cfg.seed cfg.classEps
      (fun u hu => ⟨(hseed u hu).1, 0, by omega, (hseed u hu).2⟩) he
    have hf := initLamb_feasible kind cfg.seed cfg.classEps (fun u hu => (hseed u hu).1) he h3
    have hopt : ∃ r, smoothOptimise sqrt (ce _) kind cfg (flatRows (lastLevel ge + 1) cfg.allTrees ge yw) lamb =
        .ok r := by
      unfold smoothOptimise
      by_cases hsan : cfg.sanityCheck = true
      · rw [if_pos hsan]
        exact ⟨_, rfl⟩
      rw [if_neg hsan]
      dsimp only
      rw [if_pos hl2, hyw', flatRowsBy_eq S]
      have hmem : ∀ q ∈ leafListI forest, q.1.1 ∈ forest := by
        intro q hq
        have : q.1 ∈ leafList forest := by rw [← leafListI_fst]; exact List.mem_map_of_mem hq
        simp only [leafList, List.mem_flatMap, List.mem_map] at this
        obtain ⟨t, ht, r, -, e⟩ := this
        rw [← e]; exact ht
      apply C134_descent_returns hsq
      · exact ha
      · simp [hc]
      · intro hnil
        rw [List.flatMap_eq_nil_iff] at hnil
        have := hnil ⟨0, hC⟩ (List.mem_finRange _)
        rw [List.map_eq_nil_iff] at this
        have e := leafListI_fst forest
        rw [this] at e
        obtain ⟨t, ht⟩ := List.exists_mem_of_ne_nil _ hne
        have := nLeaves_le_leafList ht
        rw [← e] at this
        have := nLeaves_pos (hwf t ht)
        simp at *
        omega
      · intro row hrow j
        simp only [List.mem_flatMap, List.mem_map] at hrow
        obtain ⟨c, -, q, hq, rfl⟩ := hrow
        have hp := hpos _ (hmem q hq)
        simp only [tuneRowBy]
        exact ⟨levelSum_nonneg _ _ _ (fun l => (hp l).le) _ _, levelSum_empty kind hp q.1.2 c⟩
      · simp
      · rw [List.sum_ofFn]; exact hf.1
      · intro x hx
        obtain ⟨i, rfl⟩ := (List.mem_ofFn' _ _).1 hx
        exact hf.2 i
    obtain ⟨⟨l1, l2, cs⟩, h4⟩ := hopt
    obtain ⟨out, ho, -⟩ := smoothFrom_returns (sqrt := sqrt) (ce := ce _) hC hwf S (sources := sources)
      hyw h3 (l1 := l1) (l2 := l2) (cs := cs) h4
    refine ⟨⟨lastLevel ge, out⟩, ?_⟩
    unfold smoothImp
    rw [hchk]
    simp only [bind, Except.bind, hge, ho]
    rfl

section clean
variable {approxOne : K → Bool} {forest : List (SkTree K 1)} {leafOf : ℕ → ℕ → ℕ} {uns : ℕ → List ℕ} {y : List K}

theorem clean_eval_by (hpos : ∀ t ∈ forest, ∀ r, 0 < t.nSamp (t.leafNode r)) {pa : Bool} {n : ℕ} {ge : GE K 1}
    {D : (t : SkTree K 1) → Fin t.nLeaves → Fin t.nLeaves → ℤ} (S : StackedBy .reg forest pa (n + 1) D ge)
    (hl : ∀ t tr, forest[t]? = some tr → ∀ i < y.length, leafOf t i < tr.nLeaves) :
    OobEval (cleanDataFrom n ge forest y.length leafOf uns) y forest.length uns := by
  intro lamb hlamb obs ho
  have h1 := oob_average_by (uns := uns) S y.length hl lamb (fun t ht r h => by
    have hz := (Finset.sum_eq_zero_iff_of_nonneg fun k _ => mul_nonneg
      (levelSum_nonneg _ _ _ (fun l => (hpos t ht l).le) _ _) (hlamb k)).1 h
    refine Finset.sum_eq_zero fun k hk => ?_
    rcases mul_eq_zero.1 (hz k hk) with h0 | h0
    · rw [levelSum_empty .reg (hpos t ht) r 0 h0, zero_mul]
    · rw [h0, mul_zero]) obs ho
  have h2 := calcYOobGrad_eq (cleanViewBy S y.length leafOf uns hl) lamb obs ho
  have hy : ∀ i ∈ obs, y[i]? = some (y.getD i 0) := fun i hi => by
    rw [List.getD_eq_getElem?_getD, List.getElem?_eq_getElem (ho i hi)]; rfl
  have e : obs.filter (fun i => decide (∃ t < forest.length, i ∈ uns t)) = [] ↔
      ¬ HasOob forest.length uns obs := by
    rw [List.filter_eq_nil_iff]
    simp [HasOob]
  rw [C76_cost hy h1, C76_l2_grad hy h1 h2]
  refine ⟨fun h => ?_, fun h => ?_⟩
  · rw [if_neg (fun h0 => e.1 h0 h), if_neg (fun h0 => e.1 h0 h)]
    exact ⟨⟨_, rfl⟩, ⟨_, rfl⟩⟩
  · rw [if_pos (e.2 h), if_pos (e.2 h)]
    exact ⟨rfl, rfl⟩

/-- C213: constrained `smooth_clean(distance_style="impurity")` on a regression forest returns exactly if
`levels` can cut the distances of every tree, there are observations, and `sanity_check` is set or the
conditions of C135 on the drawn subsets hold. -/
theorem C213_clean (hsq : ∀ x, 0 ≤ x → 0 ≤ sqrt x) (happ : approxOne 1 = true)
    (hwf : ∀ t ∈ forest, t.WF) (hpos : ∀ t ∈ forest, ∀ r, 0 < t.nSamp (t.leafNode r))
    (hl : ∀ t tr, forest[t]? = some tr → ∀ i < y.length, leafOf t i < tr.nLeaves)
    (levels : Option (Levels K)) (cfg : CleanCfg K)
    (hc : cfg.noConstraint = false) (ha : ∀ a, cfg.adam = some a → AdamRange a)
    (hseed : ∀ u, cfg.seed = some u → (∀ i, 0 ≤ u i) ∧ u 0 ≠ 0)
    (choices : List (List ℕ)) (ho : ∀ obs ∈ choices, ∀ i ∈ obs, i < y.length) :
    (∃ out, smoothCleanImp sqrt approxOne (some .reg) forest levels y leafOf uns cfg choices = .ok out) ↔
    CutsForest forest cfg.style levels ∧ y ≠ [] ∧ (cfg.sanityCheck = true ∨
      ((∀ obs ∈ choices, ∃ i ∈ obs, ∃ t < forest.length, i ∈ uns t) ∧
       (choices ≠ [] → cfg.allObs = false → cfg.nObs ≤ y.length) ∧
       (cfg.allObs = true ∨ cfg.useFullLoss = true → choices ≠ []))) := by
  have key : ∀ ge, gammaEtaForestImp .reg forest cfg.style cfg.parentsAll levels = .ok ge →
      ((∃ r, cleanLamb sqrt approxOne (cleanDataFrom (lastLevel ge) ge forest y.length leafOf uns) y cfg
        choices = .ok r) ↔ _) := fun ge hge => by
    obtain ⟨lev, -, S⟩ := imp_stacked hwf hge
    exact cleanLamb_iff (sqrt := sqrt) (cleanViewBy S y.length leafOf uns hl).len (clean_eval_by hpos S hl) hsq
      happ cfg hc ha (fun u hu => ⟨(hseed u hu).1, 0, by omega, (hseed u hu).2⟩) choices ho
  constructor
  · rintro ⟨⟨n, rf1, lamb, costs⟩, h⟩
    obtain ⟨-, ge, h2, h3, h4⟩ := smoothCleanImp_ok h
    obtain rfl : n = lastLevel ge := h3
    obtain ⟨lev, -, S⟩ := imp_stacked hwf h2
    exact ⟨(impForest_isOk .reg forest _ _ _).1 ⟨ge, h2⟩,
      (key ge h2).1 ⟨_, (smoothCleanFrom_ok hwf S h4).1⟩⟩
  · rintro ⟨h1, h2⟩
    obtain ⟨ge, hge⟩ := (impForest_isOk .reg forest cfg.style cfg.parentsAll levels).2 h1
    obtain ⟨⟨lamb, c⟩, h3⟩ := (key ge hge).2 h2
    obtain ⟨lev, -, S⟩ := imp_stacked hwf hge
    obtain ⟨rf1, h4⟩ := smoothCleanFrom_returns hwf S h3
    refine ⟨⟨lastLevel ge, rf1, lamb, c⟩, ?_⟩
    unfold smoothCleanImp
    simp only [hge, bind, Except.bind, h4]
    rfl

/-- Both sides of C213_clean hold, and fail when the second subset has no out-of-bag observation, or when the
only break is zero. -/
example : (match smoothCleanImp (fun x => x) (fun x => decide (x = 1)) (some .reg) [exStump26, exStump]
      (some (.arr [1])) [4, 3, 1] exLeafOf exUns { exClean with allObs := false } [[0, 2], [1, 2]] with
    | .ok r => some r.costs.length
    | .error _ => none) = some 3 ∧
    (match smoothCleanImp (fun x => x) (fun x => decide (x = 1)) (some .reg) [exStump26, exStump]
      (some (.arr [1])) [4, 3, 1] exLeafOf exUns { exClean with allObs := false } [[0, 2], [2]] with
    | .ok _ => none
    | .error e => some e) = some .nonFinite ∧
    (match smoothCleanImp (fun x => x) (fun x => decide (x = 1)) (some .reg) [exStump26, exStump]
      (some (.arr [0])) [4, 3, 1] exLeafOf exUns { exClean with allObs := false } [[0, 2], [1, 2]] with
    | .ok _ => none
    | .error e => some e) = some .indexError := by decide +kernel

end clean

/-- Both sides of C213_smooth hold (two Adam steps, one break), and fail without tuning rows. -/
example : (match smoothImp (fun x : ℚ => x) noCe (some .reg) [exStump] (some (.arr [1]))
        { exCfg with noConstraint := false, sanityCheck := false, steps := [0, 0], seed := some fun i => i + 1,
                     adam := some ⟨1 / 10, 9 / 10, 1 / 2, 1⟩ }
        (fun _ _ => [⟨0, fun _ => 0⟩, ⟨1, fun _ => 5⟩]) with
      | .ok out => some (out.1, out.2.costs.length)
      | .error _ => none) = some (2, 3) ∧
    (match smoothImp (fun x : ℚ => x) noCe (some .reg) [exStump] (some (.arr [1]))
        { exCfg with noConstraint := false, sanityCheck := false, steps := [0, 0], seed := some fun i => i + 1 }
        (fun _ _ => []) with
      | .ok _ => none
      | .error e => some e) = some .valueError := by decide +kernel

end SmoothRF
