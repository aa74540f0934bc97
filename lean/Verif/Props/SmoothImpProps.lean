import Verif.Proofs.SmoothImp
import Verif.Props.SmoothProps
import Verif.Props.CleanProps

/-!
# C118–C121: smooth and smooth_clean with the impurity distance
-/

set_option linter.unusedSectionVars false

namespace SmoothRF
open SkTree Topo

variable {K : Type} [Field K] [LinearOrder K] [IsStrictOrderedRing K] {C : ℕ}
variable {sqrt : K → K}
  {ce : (n : ℕ) → SgdOpts K → K → List (Row K n) → List K → List ℕ →
    Except PyErr ((Fin n → K) × (Fin n → K) × List K)}
  {forest : List (SkTree K C)} {cfg : SmoothCfg K} {sources : TuneSrc → ℕ → List (TuneRow K C)}
  {levels : Option (Levels K)} {out : (n : ℕ) × SmoothOut K C (n + 1)}

/-! ### examples -/

/-- A stump whose left leaf is less pure than its root. -/
abbrev exImpure : SkTree ℚ 1 :=
  { toTopo := ⟨2, ![some 1, none, none], ![some 2, none, none]⟩
    value := fun i _ => ![8 / 5, 1, 2] i
    nSamp := ![5, 2, 3]
    impurity := ![1, 2, 0] }

/-- A stump whose left leaf is as impure as its root. -/
abbrev exEven : SkTree ℚ 1 :=
  { toTopo := ⟨2, ![some 1, none, none], ![some 2, none, none]⟩
    value := fun i _ => ![8 / 5, 1, 2] i
    nSamp := ![5, 2, 3]
    impurity := ![1, 1, 0] }

/-! ### C118 -/

/-- C118: `smooth(distance_style="impurity")` has one weight per level; in the first returned forest the
`r`-th leaf of every tree holds the weighted ratio of the tree's own level sums, levels being the
discretised impurity distances; in the second the `r`-th leaf of every tree holds the `r`-th value of
the whole forest's list (right for the first tree only, as in C39); nothing else changes. -/
theorem C118_values (hC : 0 < C) {kind : Kind} (hwf : ∀ t ∈ forest, t.WF)
    (h : smoothImp sqrt ce (some kind) forest levels cfg sources = .ok out) :
    ∃ lev : (t : SkTree K C) → Fin t.nLeaves → Fin t.nLeaves → ℕ,
      ImpBy forest cfg.style levels (out.1 + 1) lev ∧
      List.Forall₂ (fun t t' => LeafUpdate t t' fun r =>
        valueBy kind t (fun i j => (lev t i j : ℤ)) cfg.parentsAll out.2.lamb1 r) forest out.2.rf1 ∧
      List.Forall₂ (fun t t' => ∃ f, LeafUpdate t t' f ∧ ∀ r : Fin t.nLeaves,
        (forest.flatMap fun u => (List.finRange u.nLeaves).map
          (valueBy kind u (fun i j => (lev u i j : ℤ)) cfg.parentsAll out.2.lamb2))[r.val]? =
            some (f r)) forest out.2.rf2 := by
  obtain ⟨kind', src, ge, h0, -, h2, h3, h4⟩ := smoothImp_ok h
  cases h0
  obtain ⟨n, o⟩ := out
  obtain rfl : n = lastLevel ge := h3
  obtain ⟨lev, hI, S⟩ := imp_stacked hwf h2
  obtain ⟨g1, g2⟩ := smoothFrom_forests hC hwf S h4
  refine ⟨lev, hI, g1, forall2_imp_mem g2 fun t ht t' hu => ⟨_, hu, fun r => ?_⟩⟩
  have e := leafList_map forest fun (u : SkTree K C) (r : Fin u.nLeaves) =>
    valueBy kind u (fun i j => (lev u i j : ℤ)) cfg.parentsAll o.lamb2 r
  rw [← e, List.getElem?_map]
  have hr : r.val < (leafList forest).length := lt_of_lt_of_le r.2 (nLeaves_le_leafList ht)
  rw [List.getElem?_eq_getElem hr]
  rfl

/-- C118, the data handed to the optimiser: one row per class and leaf, class-major, with the leaf's
level sums, tuning mean and count, and tree number; the weights returned are the optimiser's. -/
theorem C118_optimiser_rows {kind : Kind} (hwf : ∀ t ∈ forest, t.WF)
    (h : smoothImp sqrt ce (some kind) forest levels cfg sources = .ok out) :
    ∃ (lev : (t : SkTree K C) → Fin t.nLeaves → Fin t.nLeaves → ℕ) (src : TuneSrc)
      (rows : List (Row K (out.1 + 1))) (lamb : Fin (out.1 + 1) → K),
      ImpBy forest cfg.style levels (out.1 + 1) lev ∧ tuneSource cfg.data = .ok src ∧
      (rows = (List.finRange C).flatMap fun c => forest.zipIdx.flatMap fun tt =>
        (List.finRange tt.1.nLeaves).map fun r =>
          ({ y := (((sources src tt.2).filter fun q => q.leaf == r.val).map fun q => q.y c).sum /
                (if ((sources src tt.2).filter fun q => q.leaf == r.val).length = 0 then 1
                  else (((sources src tt.2).filter fun q => q.leaf == r.val).length : K))
             w := (((sources src tt.2).filter fun q => q.leaf == r.val).length : K)
             gam := fun k => levelSum cfg.parentsAll (fun i j => (lev tt.1 i j : ℤ))
               (fun j => tt.1.mass kind (tt.1.leafNode j) c) r k
             eta := fun k => levelSum cfg.parentsAll (fun i j => (lev tt.1 i j : ℤ))
               (fun j => tt.1.nSamp (tt.1.leafNode j)) r k
             tree := if cfg.allTrees then 0 else tt.2 } : Row K (out.1 + 1))) ∧
      initLamb kind cfg.seed cfg.classEps = .ok lamb ∧
      smoothOptimise sqrt (ce _) kind cfg rows lamb = .ok (out.2.lamb1, out.2.lamb2, out.2.costs) := by
  obtain ⟨kind', src, ge, h0, h1, h2, h3, h4⟩ := smoothImp_ok h
  cases h0
  obtain ⟨n, o⟩ := out
  obtain rfl : n = lastLevel ge := h3
  obtain ⟨lev, hI, S⟩ := imp_stacked hwf h2
  obtain ⟨yw, lamb, g1, g2, g3, -, -⟩ := smoothFrom_ok h4
  rw [tuneSummaries_eq] at g1
  split_ifs at g1 with hd
  cases g1
  rw [flatRowsBy_eq S] at g3
  refine ⟨lev, src, _, lamb, hI, (smoothCheck_ok.1 h1).2.1, ?_, g2, g3⟩
  congr 1
  funext c
  symm
  apply leafListI_map
  intro tt _
  refine List.map_congr_left fun r _ => ?_
  simp only [tuneRowBy, leafMean, leafWeight, Nat.cast_eq_zero]

/-- C118, what is needed: `smooth(distance_style="impurity")` never returns without levels, for an empty
forest, or when some tree (a single leaf, say) has no positive leaf distance. -/
theorem C118_needs (hwf : ∀ t ∈ forest, t.WF) {kind : Kind}
    (h : smoothImp sqrt ce (some kind) forest levels cfg sources = .ok out) :
    levels ≠ none ∧ forest ≠ [] ∧
      ∀ t ∈ forest, ∃ i j, 0 < t.distImpurity t.impurity cfg.style i j := by
  obtain ⟨kind', src, ge, h0, -, h2, -, -⟩ := smoothImp_ok h
  cases h0
  obtain ⟨r1, r2, r3⟩ := C94_returns kind forest cfg.style cfg.parentsAll
  rcases levels with _ | ⟨m⟩ | l
  · rw [r3] at h2; cases h2
  · rcases Nat.eq_zero_or_pos m with rfl | hm
    · exfalso
      unfold gammaEtaForestImp at h2
      obtain ⟨lv, hlv, -⟩ := bind_ok h2
      rw [resolve_int] at hlv
      cases hlv
    · have := (r2 m hm).1 ⟨ge, h2⟩
      exact ⟨by simp, this⟩
  · have := (r1 l).1 ⟨ge, h2⟩
    exact ⟨by simp, this.1, this.2.2⟩

/-- Breaks `[1, 3]`, two trees, seeded weights `(2/5, 1/5, 1/5, 1/5)`. -/
example : (match smoothImp (fun x => x) noCe (some .reg) [exTree, exStump] (some (.arr [1, 3]))
      { exCfg with seed := some fun i => if i = 0 then 2 else 1 } (fun _ => exTune) with
    | .ok out => some (out.1, valuesOf out.2.rf1, List.ofFn out.2.lamb1)
    | .error _ => none) =
      some (3, [[[13/2], [3], [40/7], [47/8], [23/3]], [[5/2], [2], [3]]], [2/5, 1/5, 1/5, 1/5]) := by
  decide +kernel

/-! ### C119 -/

/-- C119: with non-negative weights, whatever the breaks, a smoothed regression value with non-zero
denominator lies between two leaf values of its own tree. -/
theorem C119_between_leaves (hC : 0 < C) (hwf : ∀ t ∈ forest, t.WF)
    (hn : ∀ t ∈ forest, ∀ r, 0 ≤ t.nSamp (t.leafNode r))
    (h : smoothImp sqrt ce (some .reg) forest levels cfg sources = .ok out)
    (hl : ∀ k, 0 ≤ out.2.lamb1 k) :
    List.Forall₂ (fun t t' => ∃ v, t' = { t with value := v } ∧ ∀ (r : Fin t.nLeaves),
      (∀ c, v (t.leafNode r) c = 0) ∨
      ∀ c, ∃ j k : Fin t.nLeaves, t.value (t.leafNode j) c ≤ v (t.leafNode r) c ∧
        v (t.leafNode r) c ≤ t.value (t.leafNode k) c) forest out.2.rf1 := by
  obtain ⟨lev, -, h1, -⟩ := C118_values hC hwf h
  refine forall2_imp_mem h1 fun t ht t' ⟨v, e, hv, _⟩ => ⟨v, e, fun r => ?_⟩
  by_cases hd : denBy t (fun i j => (lev t i j : ℤ)) cfg.parentsAll out.2.lamb1 r = 0
  · exact Or.inl fun c => by rw [hv]; exact if_pos hd
  · refine Or.inr fun c => ?_
    rw [hv]
    exact valueBy_between t _ _ _ hl (hn t ht) r hd c

/-- C119, classification: with non-negative weights and class counts adding up to the leaf weight every
smoothed leaf vector is a probability vector, or zero. -/
theorem C119_probability_vectors (hC : 0 < C) (hwf : ∀ t ∈ forest, t.WF)
    (hv0 : ∀ t ∈ forest, ∀ r c, 0 ≤ t.value (t.leafNode r) c)
    (hsum : ∀ t ∈ forest, ∀ r, ∑ c, t.value (t.leafNode r) c = t.nSamp (t.leafNode r))
    (h : smoothImp sqrt ce (some .cls) forest levels cfg sources = .ok out)
    (hl : ∀ k, 0 ≤ out.2.lamb1 k) :
    List.Forall₂ (fun t t' => ∃ v, t' = { t with value := v } ∧ ∀ (r : Fin t.nLeaves),
      (∀ c, v (t.leafNode r) c = 0) ∨
      ((∀ c, 0 ≤ v (t.leafNode r) c) ∧ ∑ c, v (t.leafNode r) c = 1)) forest out.2.rf1 := by
  obtain ⟨lev, -, h1, -⟩ := C118_values hC hwf h
  refine forall2_imp_mem h1 fun t ht t' ⟨v, e, hv, _⟩ => ⟨v, e, fun r => ?_⟩
  by_cases hd : denBy t (fun i j => (lev t i j : ℤ)) cfg.parentsAll out.2.lamb1 r = 0
  · exact Or.inl fun c => by rw [hv]; exact if_pos hd
  · refine Or.inr ?_
    simp only [hv]
    exact valueBy_prob t _ _ _ hl (hv0 t ht) (hsum t ht) r hd

/-- C119, the hypothesis on the weights: it holds for every run with the constraint on (l2 loss or
sanity check, non-negative seeds and `class_eps`). -/
theorem C119_weights_nonneg {kind : Kind}
    (h : smoothImp sqrt ce (some kind) forest levels cfg sources = .ok out)
    (hc : cfg.noConstraint = false)
    (hk : kind = .reg ∨ cfg.lossL2 = true ∨ cfg.sanityCheck = true)
    (hs : ∀ u, cfg.seed = some u → ∀ i, 0 ≤ u i) (he : 0 ≤ cfg.classEps) :
    (∀ k, 0 ≤ out.2.lamb1 k) ∧ (∀ k, 0 ≤ out.2.lamb2 k) := by
  obtain ⟨kind', src, ge, h0, -, -, h3, h4⟩ := smoothImp_ok h
  cases h0
  obtain ⟨n, o⟩ := out
  obtain rfl : n = lastLevel ge := h3
  obtain ⟨yw, lamb, -, g2, g3, -, -⟩ := smoothFrom_ok h4
  have hf := initLamb_feasible kind cfg.seed cfg.classEps hs he g2
  unfold smoothOptimise at g3
  by_cases hsan : cfg.sanityCheck = true
  · rw [if_pos hsan] at g3
    simp only [Except.ok.injEq, Prod.mk.injEq] at g3
    rw [← g3.1, ← g3.2.1]
    exact ⟨hf.2, hf.2⟩
  · rw [if_neg hsan] at g3
    have hk' : kind = .reg ∨ cfg.lossL2 = true := by tauto
    rw [if_pos hk'] at g3
    obtain ⟨_, -, -, hb, hl⟩ := C28_iterates_nonneg_partial sqrt _ (by simp [hc]) _ _ _ _ _ _ g3
    exact ⟨hb, hl⟩

/-- Two classes, four quantile levels: probability vectors. -/
example : (match smoothImp (fun x => x) noCe (some .cls) [exClsStump] (some (.int 4))
      { exCfg with seed := some fun i => if i = 0 then 2 else 1 } (fun _ => exClsTune) with
    | .ok out => some (valuesOf out.2.rf1, List.ofFn out.2.lamb1)
    | .error _ => none) =
      some ([[[3, 3], [51 / 86, 35 / 86], [27 / 70, 43 / 70]]], [17 / 44, 9 / 44, 9 / 44, 9 / 44]) := by
  decide +kernel

/-! ### C120 -/

/-- Without negative breaks, level 0 holds the distances that are not positive. -/
theorem discretise_zero {n : ℕ} {lv : List K} {d : Fin n → Fin n → K} {lev : Fin n → Fin n → ℕ} {L : ℕ}
    (hok : discretise lv d = .ok (lev, L)) (hlv : ∀ b ∈ lv, 0 ≤ b) (i j : Fin n) :
    lev i j = 0 ↔ d i j ≤ 0 := by
  have hpos : ∃ b ∈ lv, 0 < b := by
    obtain ⟨b, hb, hb0⟩ := ((discretise_isOk _ _).1 ⟨_, hok⟩).2
    exact ⟨b, hb, lt_of_le_of_ne (hlv b hb) (Ne.symm hb0)⟩
  obtain ⟨br, hb, rfl, rfl⟩ := discretise_ok hok
  obtain ⟨hbot, htop⟩ := mkBreaks_bot_top hb
  have hp0 : ∀ x ∈ positives d, 0 < x := fun x hx => ((mem_positives d x).1 hx).1
  have hzero : cutLevel br 0 = 0 := by
    unfold cutLevel
    have honly : ∀ c ∈ br.filter (fun b => decide (b < fin (0 : K))), ⊥ = c := by
      intro c hc
      obtain ⟨hcb, hc0⟩ := List.mem_filter.1 hc
      exact (mkBreaks_below_zero hb hp0 hlv hcb (by simpa using hc0)).symm
    have hcount := List.count_eq_length.2 honly
    have := List.Sublist.count_le (⊥ : Ext K)
      (List.filter_sublist (p := fun b => decide (b < fin (0 : K))) (l := br))
    rw [mkBreaks_count_bot hb] at this
    omega
  show cutLevel br (d i j) = 0 ↔ _
  constructor
  · intro h
    by_contra h0
    obtain ⟨c, hc, hc0, hcd⟩ := mkBreaks_sep hb hp0 hpos
      ((mem_positives d _).2 ⟨not_le.1 h0, i, j, rfl⟩)
    have := cutLevel_lt br hbot hc hc0 hcd
    omega
  · intro h
    have := cutLevel_mono br h
    omega

/-- No negative breaks are used: the caller's array has none, or the quantiles are taken of distances
that are not negative. -/
def NoNegBreaks (forest : List (SkTree K C)) (s : Style) (levels : Option (Levels K)) : Prop :=
  (∃ lv, levels = some (.arr lv) ∧ ∀ b ∈ lv, 0 ≤ b) ∨
  ((∃ m, levels = some (.int m)) ∧ ∀ t ∈ forest.take 5, ∀ i j, 0 ≤ t.distImpurity t.impurity s i j)

theorem impBy_zero {s : Style} {L : ℕ}
    {lev : (t : SkTree K C) → Fin t.nLeaves → Fin t.nLeaves → ℕ}
    (hI : ImpBy forest s levels L lev) (hb : NoNegBreaks forest s levels) :
    ∀ t ∈ forest, ∀ i j, lev t i j = 0 ↔ t.distImpurity t.impurity s i j ≤ 0 := by
  obtain ⟨lv, hlv, -, hall⟩ := hI.breaks
  have hnn : ∀ b ∈ lv, 0 ≤ b := by
    rcases hlv with rfl | ⟨m, rfl, hq⟩
    · rcases hb with ⟨lv', e, h⟩ | ⟨⟨m, e⟩, -⟩
      · cases e; exact h
      · cases e
    · rcases hb with ⟨lv', e, h⟩ | ⟨-, h⟩
      · cases e
      · intro b hbm
        obtain ⟨x, hx, -, -, hxb, -⟩ := (C96_quantiles _ _ _ hq).2.2.1 b hbm
        refine le_trans ?_ hxb
        obtain ⟨t, ht, hx⟩ := List.mem_flatMap.1 hx
        obtain ⟨i, -, hx⟩ := List.mem_flatMap.1 hx
        obtain ⟨j, -, rfl⟩ := List.mem_map.1 hx
        exact h t ht i j
  intro t ht i j
  obtain ⟨Lt, h⟩ := hall t ht
  exact discretise_zero h hnn i j

/-- The mean of the leaf values at impurity distance at most 0 from leaf `r`, weighted by sample
weight. -/
def nearMean (t : SkTree K C) (s : Style) (r : Fin t.nLeaves) (c : Fin C) : K :=
  (∑ j with t.distImpurity t.impurity s r j ≤ 0, t.nSamp (t.leafNode j) * t.value (t.leafNode j) c) /
    ∑ j with t.distImpurity t.impurity s r j ≤ 0, t.nSamp (t.leafNode j)

theorem levelSum_near (pa : Bool) {n : ℕ} (lev : Fin n → Fin n → ℕ) (d : Fin n → Fin n → K)
    (hz : ∀ i j, lev i j = 0 ↔ d i j ≤ 0) (v : Fin n → K) (r : Fin n) :
    levelSum pa (fun i j => (lev i j : ℤ)) v r 0 = ∑ j with d r j ≤ 0, v j := by
  have e : ∀ j, ((lev r j : ℤ) ≤ ((0 : ℕ) : ℤ)) ↔ d r j ≤ 0 := fun j => by
    rw [← hz]; omega
  have e' : ∀ j, ((lev r j : ℤ) = ((0 : ℕ) : ℤ)) ↔ d r j ≤ 0 := fun j => by
    rw [← hz]; omega
  unfold levelSum
  split_ifs <;> simp only [e, e']

theorem near_pos {t : SkTree K C} (hwf : t.WF) (hn : ∀ r, 0 < t.nSamp (t.leafNode r)) (s : Style)
    (r : Fin t.nLeaves) : 0 < ∑ j with t.distImpurity t.impurity s r j ≤ 0, t.nSamp (t.leafNode j) := by
  refine Finset.sum_pos (fun j _ => hn j) ⟨r, ?_⟩
  simp only [Finset.mem_filter, Finset.mem_univ, true_and]
  exact ((C10_distance_impurity t.toTopo hwf t.impurity r r _ (isLCA_self _)).2.2.2 s).le

theorem valueBy_near {t : SkTree K C} (hwf : t.WF) (hn : ∀ r, 0 < t.nSamp (t.leafNode r)) {s : Style}
    {lev : Fin t.nLeaves → Fin t.nLeaves → ℕ}
    (hz : ∀ i j, lev i j = 0 ↔ t.distImpurity t.impurity s i j ≤ 0) (pa : Bool) {n : ℕ}
    {lamb : Fin (n + 1) → K} (hl : ∀ i, lamb i = if i = 0 then 1 else 0) (r : Fin t.nLeaves)
    (c : Fin C) :
    valueBy .reg t (fun i j => (lev i j : ℤ)) pa lamb r c = nearMean t s r c := by
  have hp := near_pos hwf hn s r
  unfold valueBy
  rw [denBy_e0 _ _ _ _ _ hl, numBy_e0 _ _ _ _ _ _ _ hl, levelSum_near pa lev _ hz,
    levelSum_near pa lev _ hz, if_neg hp.ne']
  rfl

theorem nearMean_same {t : SkTree K C} (hwf : t.WF) (hn : ∀ r, 0 < t.nSamp (t.leafNode r)) {s : Style}
    (r : Fin t.nLeaves) (c : Fin C)
    (he : ∀ j, t.distImpurity t.impurity s r j ≤ 0 → t.value (t.leafNode j) c = t.value (t.leafNode r) c) :
    nearMean t s r c = t.value (t.leafNode r) c := by
  have hp := near_pos hwf hn s r
  unfold nearMean
  rw [div_eq_iff hp.ne', Finset.mul_sum]
  refine Finset.sum_congr rfl fun j hj => ?_
  rw [he j (by simpa using hj), mul_comm]

/-- C120 (what holds): `smooth(regressor, distance_style="impurity", sanity_check=True)` without a seed,
when no negative break is used: it returns, and in the first forest every leaf holds the weighted mean
of the leaves at impurity distance at most 0 from it; so the input forest comes back when leaves that
close have equal values.
Missing: that it comes back in general, which is false (`C120_refuted_merge`), also for quantile breaks
(`C120_refuted_quantiles`). -/
theorem C120_sanity_partial (hC : 0 < C) (hwf : ∀ t ∈ forest, t.WF)
    (hn : ∀ t ∈ forest, ∀ r, 0 < t.nSamp (t.leafNode r)) (hs : cfg.sanityCheck = true)
    (hseed : cfg.seed = none) {src : TuneSrc} (hsrc : tuneSource cfg.data = .ok src)
    (hb : NoNegBreaks forest cfg.style levels)
    {G : GE K C} (hG : gammaEtaForestImp .reg forest cfg.style cfg.parentsAll levels = .ok G)
    (hrows : ∀ tt ∈ forest.zipIdx, sources src tt.2 ≠ []) :
    ∃ out, smoothImp sqrt ce (some .reg) forest levels cfg sources = .ok out ∧ out.2.costs = [] ∧
      List.Forall₂ (fun t t' => LeafUpdate t t' fun r => nearMean t cfg.style r) forest out.2.rf1 ∧
      ((∀ t ∈ forest, ∀ r j, t.distImpurity t.impurity cfg.style r j ≤ 0 →
        t.value (t.leafNode j) = t.value (t.leafNode r)) → out.2.rf1 = forest) := by
  obtain ⟨lev, hI, S⟩ := imp_stacked hwf hG
  have hz := impBy_zero hI hb
  have h2 : tuneSummaries (decide (Kind.reg = .cls) && decide (src ≠ .given)) forest (sources src) =
      .ok (forest.zipIdx.flatMap (summaryBlock (sources src))) := by
    rw [tuneSummaries_eq, if_neg]
    rintro (⟨tt, htt, h⟩ | ⟨h, -⟩)
    · exact hrows tt htt h
    · simp at h
  have h3 : initLamb (n := lastLevel G) .reg cfg.seed cfg.classEps =
      .ok fun i => if i = 0 then 1 else 0 := by rw [hseed]; rfl
  obtain ⟨out, ho, e1, e2, e3⟩ := smoothFrom_returns (sqrt := sqrt) (ce := ce _) (src := src) hC hwf S
    (sources := sources) h2 h3 (by unfold smoothOptimise; rw [if_pos hs])
  refine ⟨⟨_, out⟩, ?_, e3, ?_⟩
  · unfold smoothImp
    rw [smoothCheck_ok.2 ⟨rfl, hsrc, by simp⟩]
    simp only [bind, Except.bind]
    rw [hG]
    simp only [ho]
    rfl
  have hl : ∀ i, out.lamb1 i = if i = 0 then 1 else 0 := fun i => by rw [e1]
  have hf := (smoothFrom_forests hC hwf S ho).1
  have hnear : List.Forall₂ (fun t t' => LeafUpdate t t' fun r => nearMean t cfg.style r)
      forest out.rf1 := forall2_imp_mem hf fun t ht t' ⟨v, e, hv, hw⟩ => ⟨v, e, fun r c => by
    rw [hv]
    exact valueBy_near (hwf t ht) (hn t ht) (hz t ht) _ hl r c, hw⟩
  refine ⟨hnear, fun heq => forall2_eq (forall2_imp_mem hnear fun t ht t' hu => ?_)⟩
  exact leafUpdate_same (hwf t ht) hu fun r c =>
    nearMean_same (hwf t ht) (hn t ht) r c fun j hj => by rw [heq t ht r j hj]

/-- The input forest comes back for two trees and breaks `[1, 3]`. -/
example : (∀ t ∈ [exTree, exStump], ∀ r j, t.distImpurity t.impurity .standard r j ≤ 0 →
      t.value (t.leafNode j) = t.value (t.leafNode r)) ∧
    NoNegBreaks [exTree, exStump] .standard (some (.arr [1, 3])) := by
  refine ⟨?_, Or.inl ⟨_, rfl, by decide⟩⟩
  intro t ht
  simp only [List.mem_cons, List.not_mem_nil, or_false] at ht
  rcases ht with rfl | rfl <;> decide +kernel

/-- C120 (refuted): leaves at distance 0 are merged. On the stump whose left leaf is as impure as its
root, the sanity check gives that leaf the mean of both leaves. -/
theorem C120_refuted_merge : ∃ (forest : List (SkTree ℚ 1)) (cfg : SmoothCfg ℚ) (levels : List ℚ)
    (sources : TuneSrc → ℕ → List (TuneRow ℚ 1)) (out : (n : ℕ) × SmoothOut ℚ 1 (n + 1)),
    (∀ t ∈ forest, t.WF) ∧ (∀ t ∈ forest, ∀ r, 0 < t.nSamp (t.leafNode r)) ∧
    cfg.sanityCheck = true ∧ cfg.seed = none ∧ (∀ b ∈ levels, 0 < b) ∧
    smoothImp (fun x => x) noCe (some .reg) forest (some (.arr levels)) cfg sources = .ok out ∧
    valuesOf forest = [[[8 / 5], [1], [2]]] ∧ valuesOf out.2.rf1 = [[[8 / 5], [8 / 5], [2]]] := by
  have key : (match smoothImp (fun x => x) noCe (some .reg) [exEven] (some (.arr [1, 3])) exCfg
      (fun _ => exTune) with
    | .ok out => some (valuesOf out.2.rf1)
    | .error _ => none) = some [[[8 / 5], [8 / 5], [2]]] := by decide +kernel
  rcases h : smoothImp (fun x => x) noCe (some .reg) [exEven] (some (.arr [1, 3])) exCfg
      (fun _ => exTune) with e | out
  · rw [h] at key; cases key
  · rw [h] at key
    exact ⟨[exEven], exCfg, [1, 3], fun _ => exTune, out, by simp; decide, by simp; decide +kernel, rfl, rfl,
      by decide, h, by decide +kernel, by simpa using key⟩

/-- C120 (refuted, integer levels): on a stump whose left leaf is less pure than its root, with four
quantile levels, a negative break puts the leaf itself on level 1: the sanity check gives the left leaf
the right leaf's value and sets the right leaf to 0. -/
theorem C120_refuted_quantiles : ∃ (forest : List (SkTree ℚ 1)) (cfg : SmoothCfg ℚ)
    (sources : TuneSrc → ℕ → List (TuneRow ℚ 1)) (out : (n : ℕ) × SmoothOut ℚ 1 (n + 1)),
    (∀ t ∈ forest, t.WF) ∧ (∀ t ∈ forest, ∀ r, 0 < t.nSamp (t.leafNode r)) ∧
    cfg.sanityCheck = true ∧ cfg.seed = none ∧
    smoothImp (fun x => x) noCe (some .reg) forest (some (.int 4)) cfg sources = .ok out ∧
    valuesOf forest = [[[8 / 5], [1], [2]]] ∧ valuesOf out.2.rf1 = [[[8 / 5], [2], [0]]] := by
  have key : (match smoothImp (fun x => x) noCe (some .reg) [exImpure] (some (.int 4)) exCfg
      (fun _ => exTune) with
    | .ok out => some (valuesOf out.2.rf1)
    | .error _ => none) = some [[[8 / 5], [2], [0]]] := by decide +kernel
  rcases h : smoothImp (fun x => x) noCe (some .reg) [exImpure] (some (.int 4)) exCfg
      (fun _ => exTune) with e | out
  · rw [h] at key; cases key
  · rw [h] at key
    exact ⟨[exImpure], exCfg, fun _ => exTune, out, by simp; decide, by simp; decide +kernel, rfl, rfl,
      h, by decide +kernel, by simpa using key⟩

/-! ### C121 -/

section clean

variable {forest : List (SkTree K 1)} {approxOne : K → Bool} {y : List K} {leafOf : ℕ → ℕ → ℕ}
  {uns : ℕ → List ℕ} {cfg : CleanCfg K} {choices : List (List ℕ)} {levels : Option (Levels K)}
  {out : CleanOut K}

/-- C121: in the forest returned by `smooth_clean(distance_style="impurity")` the `r`-th leaf of every
tree holds the weighted ratio of the tree's own level sums with the returned weights; nothing else
changes; anything but a regressor is rejected. -/
theorem C121_clean_values (hwf : ∀ t ∈ forest, t.WF) {rf : Option Kind}
    (h : smoothCleanImp sqrt approxOne rf forest levels y leafOf uns cfg choices = .ok out) :
    rf = some .reg ∧
    ∃ lev : (t : SkTree K 1) → Fin t.nLeaves → Fin t.nLeaves → ℕ,
      ImpBy forest cfg.style levels (out.n + 1) lev ∧
      List.Forall₂ (fun t t' => LeafUpdate t t' fun r =>
        valueBy .reg t (fun i j => (lev t i j : ℤ)) cfg.parentsAll out.lamb r) forest out.rf1 := by
  obtain ⟨h0, ge, h2, h3, h4⟩ := smoothCleanImp_ok h
  obtain ⟨n, rf1, lamb, costs⟩ := out
  obtain rfl : n = lastLevel ge := h3
  obtain ⟨lev, hI, S⟩ := imp_stacked hwf h2
  exact ⟨h0, lev, hI, (smoothCleanFrom_ok hwf S h4).2⟩

theorem oob_average_by {pa : Bool} {n : ℕ} {ge : GE K 1}
    {D : (t : SkTree K 1) → Fin t.nLeaves → Fin t.nLeaves → ℤ}
    (S : StackedBy .reg forest pa (n + 1) D ge) (nObs : ℕ)
    (hl : ∀ t tr, forest[t]? = some tr → ∀ i < nObs, leafOf t i < tr.nLeaves)
    (lamb : Fin (n + 1) → K)
    (hfin : ∀ t ∈ forest, ∀ r, denBy t (D t) pa lamb r = 0 → numBy .reg t (D t) pa lamb r 0 = 0)
    (obs : List ℕ) (ho : ∀ i ∈ obs, i < nObs) :
    calcYOob (cleanDataFrom n ge forest nObs leafOf uns) lamb obs = .ok
      (obs.map fun i => oobMean forest.length uns
        (fun t => leafAt forest 0 (fun tr r => valueBy .reg tr (D tr) pa lamb r 0) t (leafOf t i)) i,
       obs.map fun i => decide (∃ t < forest.length, i ∈ uns t)) := by
  have V := cleanViewBy S nObs leafOf uns hl
  have key : ∀ i ∈ obs, ∀ t < forest.length,
      dot (leafAt forest 0 (gVecBy D pa _) t (leafOf t i)) lamb /
        dot (leafAt forest 0 (hVecBy D pa _) t (leafOf t i)) lamb =
      leafAt forest 0 (fun tr r => valueBy .reg tr (D tr) pa lamb r 0) t (leafOf t i) ∧
      (dot (leafAt forest 0 (hVecBy D pa _) t (leafOf t i)) lamb = 0 →
        dot (leafAt forest 0 (gVecBy D pa _) t (leafOf t i)) lamb = 0) := by
    intro i hi t ht
    have htr : forest[t]? = some forest[t] := List.getElem?_eq_getElem ht
    have hlt := hl t _ htr i (ho i hi)
    rw [leafAt_pos htr hlt, leafAt_pos htr hlt, leafAt_pos htr hlt]
    refine ⟨?_, hfin forest[t] (List.getElem_mem ht) ⟨leafOf t i, hlt⟩⟩
    show numBy .reg forest[t] (D forest[t]) pa lamb ⟨leafOf t i, hlt⟩ 0 /
      denBy forest[t] (D forest[t]) pa lamb ⟨leafOf t i, hlt⟩ = _
    unfold valueBy
    split_ifs with h0
    · rw [h0, div_zero]
    · rfl
  rw [calcYOob_eq V lamb obs ho fun i hi t ht => (key i hi t ht).2]
  refine congrArg Except.ok (Prod.ext ?_ ?_)
  · refine List.map_congr_left fun i hi => ?_
    rw [← oobWeights_sum]
    refine Finset.sum_congr rfl fun t ht => ?_
    rw [(key i hi t (Finset.mem_range.1 ht)).1]
  · refine List.map_congr_left fun i hi => ?_
    have e : ∑ t ∈ Finset.range (cleanDataFrom n ge forest nObs leafOf uns).nTrees,
        (if i ∈ uns t then 1 / ((oobTrees forest.length uns i).card : K) else 0) =
          if oobTrees forest.length uns i = ∅ then 0 else 1 := oobWeights_total forest.length uns i
    rw [e]
    have : oobTrees forest.length uns i = ∅ ↔ ¬ ∃ t < forest.length, i ∈ uns t := by
      unfold oobTrees
      rw [Finset.filter_eq_empty_iff]
      simp
    rw [decide_eq_decide]
    split_ifs with h0
    · simp only [zero_ne_one, false_iff]; exact this.1 h0
    · simp only [true_iff]; by_contra hh; exact h0 (this.2 hh)

/-- C121, the loss: on the arrays of `smooth_clean` with the impurity distance, `calc_y_oob` returns for
every requested observation the mean over its out-of-bag trees of the smoothed value of the leaf it
reaches, and whether there is such a tree. -/
theorem C121_oob_average (hwf : ∀ t ∈ forest, t.WF) {s : Style} {pa : Bool} {ge : GE K 1}
    (hG : gammaEtaForestImp .reg forest s pa levels = .ok ge) (nObs : ℕ)
    (hl : ∀ t tr, forest[t]? = some tr → ∀ i < nObs, leafOf t i < tr.nLeaves) :
    ∃ lev : (t : SkTree K 1) → Fin t.nLeaves → Fin t.nLeaves → ℕ,
      ImpBy forest s levels (lastLevel ge + 1) lev ∧
      ∀ lamb : Fin (lastLevel ge + 1) → K,
        (∀ t ∈ forest, ∀ r, denBy t (fun i j => (lev t i j : ℤ)) pa lamb r = 0 →
          numBy .reg t (fun i j => (lev t i j : ℤ)) pa lamb r 0 = 0) →
        ∀ obs : List ℕ, (∀ i ∈ obs, i < nObs) →
        calcYOob (cleanDataFrom (lastLevel ge) ge forest nObs leafOf uns) lamb obs = .ok
          (obs.map fun i => oobMean forest.length uns
            (fun t => leafAt forest 0
              (fun tr r => valueBy .reg tr (fun i j => (lev tr i j : ℤ)) pa lamb r 0) t (leafOf t i)) i,
           obs.map fun i => decide (∃ t < forest.length, i ∈ uns t)) := by
  obtain ⟨lev, hI, S⟩ := imp_stacked hwf hG
  exact ⟨lev, hI, fun lamb hfin obs ho => oob_average_by S nObs hl lamb hfin obs ho⟩

/-- C121, no training: with `all_obs` or `use_full_loss`, no seed and at least one step — or with the
sanity check — the returned weights are `(1, 0, …, 0)` whatever the data and the Adam options; when no
negative break is used every leaf then holds the mean of the leaves at impurity distance at most 0, and
the input forest comes back if these have equal values. -/
theorem C121_no_training (hwf : ∀ t ∈ forest, t.WF)
    (hn : ∀ t ∈ forest, ∀ r, 0 < t.nSamp (t.leafNode r)) (hseed : cfg.seed = none)
    (hf : cfg.sanityCheck = true ∨ (cfg.allObs = true ∨ cfg.useFullLoss = true) ∧ choices ≠ [])
    (h : smoothCleanImp sqrt approxOne (some .reg) forest levels y leafOf uns cfg choices = .ok out) :
    (∀ i, out.lamb i = if i = 0 then 1 else 0) ∧
    (NoNegBreaks forest cfg.style levels →
      List.Forall₂ (fun t t' => LeafUpdate t t' fun r => nearMean t cfg.style r) forest out.rf1 ∧
      ((∀ t ∈ forest, ∀ r j, t.distImpurity t.impurity cfg.style r j ≤ 0 →
        t.value (t.leafNode j) = t.value (t.leafNode r)) → out.rf1 = forest)) := by
  obtain ⟨h0, ge, h2, h3, h4⟩ := smoothCleanImp_ok h
  obtain ⟨n, rf1, lamb, costs⟩ := out
  obtain rfl : n = lastLevel ge := h3
  obtain ⟨lev, hI, S⟩ := imp_stacked hwf h2
  obtain ⟨h1, h5⟩ := smoothCleanFrom_ok hwf S h4
  have hl : ∀ i, lamb i = if i = 0 then 1 else 0 := by
    unfold cleanLamb at h1
    split at h1
    · cases h1
    rw [hseed] at h1
    obtain ⟨l, h3, h1⟩ := bind_ok h1
    have h3 : l = fun i => if i = 0 then 1 else 0 := by cases h3; rfl
    by_cases hs : cfg.sanityCheck = true
    · rw [if_pos hs] at h1
      cases h1; exact fun _ => rfl
    · rw [if_neg hs] at h1
      obtain ⟨⟨r1, r2, r3⟩, h4, h1⟩ := bind_ok h1
      cases h1
      have hf := hf.resolve_left hs
      have := C48_full_loss_partial (by rcases hf.1 with hf | hf <;> simp [hf]) hf.2 h4
      intro i
      rw [this, h3]
  refine ⟨hl, fun hb => ?_⟩
  have hz := impBy_zero hI hb
  have hnear : List.Forall₂ (fun t t' => LeafUpdate t t' fun r => nearMean t cfg.style r)
      forest rf1 := forall2_imp_mem h5 fun t ht t' ⟨v, e, hv, hw⟩ => ⟨v, e, fun r c => by
    rw [hv]
    exact valueBy_near (hwf t ht) (hn t ht) (hz t ht) _ hl r c, hw⟩
  refine ⟨hnear, fun heq => forall2_eq (forall2_imp_mem hnear fun t ht t' hu => ?_)⟩
  exact leafUpdate_same (hwf t ht) hu fun r c =>
    nearMean_same (hwf t ht) (hn t ht) r c fun j hj => by rw [heq t ht r j hj]

/-- With `all_obs` the costs fall from 4 to 0 but the forest comes back; without, the leaves move. -/
example : (match smoothCleanImp (fun x => x) (fun x => decide (x = 1)) (some .reg) [exStump26]
      (some (.arr [1, 3])) [4] exLeafOf exUns exClean [[0]] with
    | .ok r => some (valuesOf r.rf1, r.costs)
    | .error _ => none) = some ([[[4], [2], [6]]], [4, 0]) ∧
    (match smoothCleanImp (fun x => x) (fun x => decide (x = 1)) (some .reg) [exStump26]
      (some (.arr [1, 3])) [4] exLeafOf exUns { exClean with allObs := false } [[0]] with
    | .ok r => some (valuesOf r.rf1, r.costs)
    | .error _ => none) = some ([[[4], [4], [4]]], [4, 0]) :=
  ⟨by decide +kernel, by decide +kernel⟩

end clean

end SmoothRF
