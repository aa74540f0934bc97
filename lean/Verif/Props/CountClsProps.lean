import Verif.Props.CountProps

/-!
# C214: only the proportions of the class counts matter
-/

set_option linter.unusedSectionVars false

namespace SmoothRF
open SkTree Topo

variable {K : Type} [Field K] [LinearOrder K] [IsStrictOrderedRing K] {k C : ℕ}

/-- The classification tree with every sample weight and every class count multiplied by `s`. -/
def clsCountTree (s : K) (t : SkTree K C) : SkTree K C :=
  { t with nSamp := fun i => s * t.nSamp i, value := fun i c => s * t.value i c }

/-! ### smooth -/

variable {f : SkTree K C → K}

theorem forestDepth_count_cls (f : SkTree K C → K) (forest : List (SkTree K C)) :
    forestDepth (forest.map fun t => clsCountTree (f t) t) = forestDepth forest := by
  unfold forestDepth
  rw [List.map_map]
  rfl

theorem leafListI_count_cls (f : SkTree K C → K) (forest : List (SkTree K C)) :
    leafListI (forest.map fun t => clsCountTree (f t) t) =
      (leafListI forest).map fun q => (⟨clsCountTree (f q.1.1) q.1.1, q.1.2⟩, q.2) := by
  unfold leafListI
  rw [List.zipIdx_map, List.flatMap_map, List.map_flatMap]
  apply List.flatMap_congr
  intro tt _
  rw [List.map_map]
  rfl

theorem leafList_count_cls (f : SkTree K C → K) (forest : List (SkTree K C)) :
    leafList (forest.map fun t => clsCountTree (f t) t) =
      (leafList forest).map fun q => ⟨clsCountTree (f q.1) q.1, q.2⟩ := by
  unfold leafList
  rw [List.flatMap_map, List.map_flatMap]
  apply List.flatMap_congr
  intro t _
  rw [List.map_map]
  rfl

theorem specRow_count_cls (hf : ∀ t, 0 < f t) (s : Style) (pa al : Bool) (tune : ℕ → List (TuneRow K C))
    (n : ℕ) (c : Fin C) (q : ((t : SkTree K C) × Fin t.nLeaves) × ℕ) :
    CountRel (specRow .cls s pa al tune n c q)
      (specRow .cls s pa al tune n c (⟨clsCountTree (f q.1.1) q.1.1, q.1.2⟩, q.2)) where
  w := rfl
  y := rfl
  tree := rfl
  scale := by
    refine ⟨f q.1.1, hf _, fun j => ?_, fun j => ?_⟩
    · refine Eq.trans ?_ (levelSum_mul_left pa (q.1.1.distDepth s)
        (fun j => q.1.1.mass .cls (q.1.1.leafNode j) c) (f q.1.1) q.1.2 j)
      show levelSum pa (q.1.1.distDepth s)
        (fun j => (clsCountTree (f q.1.1) q.1.1).mass .cls (q.1.1.leafNode j) c) q.1.2 j = _
      congr 1
    · exact levelSum_mul_left pa (q.1.1.distDepth s)
        (fun j => q.1.1.nSamp (q.1.1.leafNode j)) (f q.1.1) q.1.2 j

theorem specRows_count_cls (hf : ∀ t, 0 < f t) (forest : List (SkTree K C)) (s : Style) (pa al : Bool)
    (tune : ℕ → List (TuneRow K C)) (n : ℕ) :
    List.Forall₂ CountRel
      ((List.finRange C).flatMap fun c => (leafListI forest).map (specRow .cls s pa al tune n c))
      ((List.finRange C).flatMap fun c => (leafListI (forest.map fun t => clsCountTree (f t) t)).map
        (specRow .cls s pa al tune n c)) := by
  rw [leafListI_count_cls]
  induction List.finRange C with
  | nil => exact .nil
  | cons c cs ih =>
    rw [List.flatMap_cons, List.flatMap_cons]
    refine List.rel_append ?_ ih
    rw [List.map_map, List.forall₂_map_left_iff, List.forall₂_map_right_iff]
    exact List.forall₂_same.2 fun q _ => specRow_count_cls hf s pa al tune n c q

theorem optimise_count_cls {sqrt : K → K}
    {ce : (n : ℕ) → SgdOpts K → K → List (Row K n) → List K → List ℕ →
      Except PyErr ((Fin n → K) × (Fin n → K) × List K)}
    {cfg : SmoothCfg K} (hl2 : cfg.lossL2 = true) (hc : cfg.noConstraint = false) (had : cfg.adam = none)
    {n n' : ℕ} (e : n' = n)
    {rows : List (Row K n)} {rows' : (m : ℕ) → List (Row K m)}
    (hrows : List.Forall₂ CountRel rows (rows' n))
    (hden : ∀ l, Alive l → ∀ r ∈ rows, ∑ j, r.eta j * l j ≠ 0) {lamb l1 l2 : Fin n → K} {cs : List K}
    (hl : Alive lamb) (h : smoothOptimise sqrt (ce n) .cls cfg rows lamb = .ok (l1, l2, cs)) :
    smoothOptimise sqrt (ce n') .cls cfg (rows' n') (fun j => lamb (Fin.cast e j)) =
      .ok (fun j => l1 (Fin.cast e j), fun j => l2 (Fin.cast e j), cs) := by
  subst e
  unfold smoothOptimise at h ⊢
  by_cases hsan : cfg.sanityCheck = true
  · rw [if_pos hsan] at h ⊢
    exact h
  · rw [if_neg hsan] at h ⊢
    simp only [hl2, or_true, if_true] at h ⊢
    exact C169_descent sqrt hrows _ lamb cfg.steps l1 l2 cs (hden _ hl) (fun vs hv v hvm => by
      have := visits_inv (fun s : (Fin n' → K) × Option (Iv K n') => Alive s.1)
        (fun c s s' hs hm => plain_alive (o := ⟨cfg.tFix, !cfg.noConstraint, cfg.adam⟩) had
          (by simp [hc]) hs hm) hv hl
      exact hden _ (this v hvm)) h

theorem smoothSpec_count_cls {s : K} (hs : 0 < s) (t : SkTree K C) (st : Style) (pa : Bool) {n n' : ℕ}
    (e : n' = n) (lamb : Fin n → K) (r : Fin t.nLeaves) (c : Fin C) :
    smoothSpec .cls (clsCountTree s t) st pa (fun j => lamb (Fin.cast e j)) r c =
      smoothSpec .cls t st pa lamb r c := by
  subst e
  have h1 : smoothDen (clsCountTree s t) st pa lamb r = s * smoothDen t st pa lamb r := by
    unfold smoothDen
    rw [Finset.mul_sum]
    refine Finset.sum_congr rfl fun k _ => ?_
    rw [← mul_assoc]
    congr 1
    exact levelSum_mul_left pa (t.distDepth st) (fun j => t.nSamp (t.leafNode j)) s r k
  have h2 : smoothNum .cls (clsCountTree s t) st pa lamb r c = s * smoothNum .cls t st pa lamb r c := by
    unfold smoothNum
    rw [Finset.mul_sum]
    refine Finset.sum_congr rfl fun k _ => ?_
    rw [← mul_assoc]
    congr 1
    refine Eq.trans ?_ (levelSum_mul_left pa (t.distDepth st)
      (fun j => t.mass .cls (t.leafNode j) c) s r k)
    show levelSum pa (t.distDepth st) (fun j => (clsCountTree s t).mass .cls (t.leafNode j) c) r k = _
    congr 1
  show smoothSpec .cls (clsCountTree s t) st pa lamb r c = _
  unfold smoothSpec
  rw [h1, h2]
  by_cases hd : smoothDen t st pa lamb r = 0
  · rw [hd, mul_zero, if_pos rfl, if_pos rfl]
  · rw [if_neg hd, if_neg (mul_ne_zero hs.ne' hd), mul_div_mul_left _ _ hs.ne']

theorem leafValues_count_cls {P Q : SkTree K C → SkTree K C → Prop}
    {forest rf rf' : List (SkTree K C)} (h1 : List.Forall₂ P forest rf)
    (h2 : List.Forall₂ Q (forest.map fun t => clsCountTree (f t) t) rf')
    (h : ∀ t ∈ forest, ∀ t1 t2, P t t1 → Q (clsCountTree (f t) t) t2 →
      ∃ g : Fin t.nLeaves → Fin C → K, LeafUpdate t t1 g ∧ LeafUpdate (clsCountTree (f t) t) t2 g) :
    leafValues rf' = leafValues rf := by
  induction h1 generalizing rf' with
  | nil => cases h2; rfl
  | cons hp _ ih =>
    rw [List.map_cons] at h2
    obtain ⟨t2, rf2, hq, h3, rfl⟩ := List.forall₂_cons_left_iff.1 h2
    unfold leafValues at ih ⊢
    rw [List.map_cons, List.map_cons, ih h3 fun t ht => h t (by simp [ht])]
    congr 1
    obtain ⟨g, ⟨v1, rfl, hl1, -⟩, ⟨v2, rfl, hl2, -⟩⟩ := h _ (by simp) _ _ hp hq
    refine congrArg List.ofFn (funext fun r => ?_)
    exact congrArg List.ofFn (funext fun c => (hl2 r c).trans (hl1 r c).symm)

theorem initLamb_cast_cls {n n' : ℕ} (e : n' + 1 = n + 1) {seed : Option (ℕ → K)} {eps : K} {l : Fin (n + 1) → K}
    (h : initLamb (n := n) .cls seed eps = .ok l) :
    initLamb (n := n') .cls seed eps = .ok fun j => l (Fin.cast e j) := by
  obtain rfl : n' = n := by omega
  exact h

/-- C214 (what holds): multiplying the sample weights and class counts of every tree by a positive factor
(which may differ between trees) changes nothing in constrained plain smoothing of a classification forest
with the squared loss, `parents_all` and positive leaf weights: `smooth` returns the same weights, the same
costs and the same class shares in both forests. -/
theorem C214_smooth_partial (hC : 0 < C) {sqrt : K → K}
    {ce : (n : ℕ) → SgdOpts K → K → List (Row K n) → List K → List ℕ →
      Except PyErr ((Fin n → K) × (Fin n → K) × List K)} (hf : ∀ t, 0 < f t)
    {forest : List (SkTree K C)} (hwf : ∀ t ∈ forest, t.WF)
    (hn : ∀ t ∈ forest, ∀ r, 0 < t.nSamp (t.leafNode r))
    {cfg : SmoothCfg K} {sources : TuneSrc → ℕ → List (TuneRow K C)}
    {out : SmoothOut K C (forestDepth forest + 1)}
    (h : smooth sqrt ce (some .cls) forest cfg sources = .ok out) (hc : cfg.noConstraint = false)
    (hl2 : cfg.lossL2 = true)
    (had : cfg.adam = none) (hs : ∀ u, cfg.seed = some u → ∀ i, 0 ≤ u i) (he : 0 ≤ cfg.classEps) (hpa : cfg.parentsAll = true) :
    ∃ out', smooth sqrt ce (some .cls) (forest.map fun t => clsCountTree (f t) t) cfg sources = .ok out' ∧
      leafValues out'.rf1 = leafValues out.rf1 ∧ leafValues out'.rf2 = leafValues out.rf2 ∧
      List.ofFn out'.lamb1 = List.ofFn out.lamb1 ∧ List.ofFn out'.lamb2 = List.ofFn out.lamb2 ∧
      out'.costs = out.costs := by
  have hwf' : ∀ t ∈ forest.map fun t => clsCountTree (f t) t, t.WF := by
    intro t ht
    obtain ⟨t0, h0, rfl⟩ := List.mem_map.1 ht
    exact hwf t0 h0
  have hF := smooth_forests hC hwf h
  obtain ⟨kind', src, yw, lamb, h0, h1, h2, h3, h4, -, -⟩ := smooth_ok h
  cases h0
  rw [tuneSummaries_eq] at h2
  split at h2
  · cases h2
  rename_i hd
  cases h2
  rw [flatRows_eq .cls forest hwf] at h4
  have hfe := initLamb_feasible .cls cfg.seed cfg.classEps hs he h3
  have hden : ∀ l : Fin (forestDepth forest + 1) → K, Alive l → ∀ r ∈ (List.finRange C).flatMap fun c =>
      (leafListI forest).map (specRow .cls cfg.style cfg.parentsAll cfg.allTrees (sources src)
        (forestDepth forest + 1) c), ∑ j, r.eta j * l j ≠ 0 := by
    intro l hl r hr
    obtain ⟨c, -, hr⟩ := List.mem_flatMap.1 hr
    obtain ⟨q, hq, rfl⟩ := List.mem_map.1 hr
    have hqf : q.1.1 ∈ forest := by
      unfold leafListI at hq
      obtain ⟨tt, htt, hq⟩ := List.mem_flatMap.1 hq
      obtain ⟨r, -, rfl⟩ := List.mem_map.1 hq
      exact List.fst_mem_of_mem_zipIdx htt
    have := smoothDen_alive (hwf _ hqf) (hn _ hqf) cfg.style hl q.1.2
    rw [hpa]
    exact this.ne'
  have e : forestDepth (forest.map fun t => clsCountTree (f t) t) + 1 = forestDepth forest + 1 := by
    rw [forestDepth_count_cls]
  have hal0 : Alive lamb := by
    refine ⟨hfe.2, ?_⟩
    by_contra hcon
    push Not at hcon
    have : ∑ i, lamb i ≤ 0 := Finset.sum_nonpos fun i _ => hcon i
    rw [hfe.1] at this
    linarith
  have hopt := optimise_count_cls hl2 hc had e (ce := ce)
    (rows' := fun m => (List.finRange C).flatMap fun c =>
      (leafListI (forest.map fun t => clsCountTree (f t) t)).map
        (specRow .cls cfg.style cfg.parentsAll cfg.allTrees (sources src) m c))
    (specRows_count_cls hf forest cfg.style cfg.parentsAll cfg.allTrees (sources src) _) hden hal0 h4
  rw [← flatRows_eq .cls _ hwf'] at hopt
  obtain ⟨out', ho, ho1, ho2, ho3⟩ := smooth_returns hC hwf' (cfg := cfg) (sources := sources)
    (src := src) h1
    (by rw [tuneSummaries_eq, if_neg (by
      rintro (⟨tt, htt, h⟩ | h)
      · rw [List.zipIdx_map] at htt
        obtain ⟨q, hq, rfl⟩ := List.mem_map.1 htt
        exact hd (.inl ⟨q, hq, h⟩)
      · obtain ⟨tt, htt, h'⟩ := h.2
        rw [List.zipIdx_map] at htt
        obtain ⟨q, hq, rfl⟩ := List.mem_map.1 htt
        exact hd (.inr ⟨h.1, q, hq, h'⟩))]) (initLamb_cast_cls e h3) hopt
  have hF' := smooth_forests hC hwf' ho
  have hofn : ∀ l : Fin (forestDepth forest + 1) → K,
      List.ofFn (fun j : Fin (forestDepth (forest.map fun t => clsCountTree (f t) t) + 1) =>
        l (Fin.cast e j)) = List.ofFn l := by
    intro l
    refine List.ext_getElem (by rw [List.length_ofFn, List.length_ofFn, e]) fun i h1 h2 => ?_
    rw [List.getElem_ofFn, List.getElem_ofFn]
    rfl
  refine ⟨out', ho, ?_, ?_, by rw [ho1, hofn], by rw [ho2, hofn], ho3⟩
  · refine leafValues_count_cls hF.1 hF'.1 fun t ht t1 t2 p1 p2 => ⟨_, p1, ?_⟩
    rw [ho1] at p2
    obtain ⟨v, rfl, a, b⟩ := p2
    exact ⟨v, rfl, fun r c => (a r c).trans (smoothSpec_count_cls (hf t) t _ _ e _ r c), b⟩
  · refine leafValues_count_cls hF.2 hF'.2 fun t ht t1 t2 p1 p2 => ⟨_, p1, ?_⟩
    obtain ⟨v, rfl, a, b⟩ := p2
    refine ⟨v, rfl, fun r c => (a r c).trans ?_, b⟩
    beta_reduce
    rw [leafList_count_cls, List.getElem?_map]
    have hlt : r.val < (leafList forest).length := 
      lt_of_lt_of_le (show r.val < t.nLeaves from r.isLt) (nLeaves_le_leafList ht)
    have hg : (leafList forest)[r.val]? = some ((leafList forest)[r.val]) := List.getElem?_eq_getElem hlt
    rw [hg]
    simp only [Option.map_some, Option.elim_some]
    rw [ho2]
    exact smoothSpec_count_cls (hf _) _ _ _ e _ _ c


/-- Three leaves, two of them below the same inner node. -/
abbrev exCls3 : SkTree ℚ 2 :=
  { toTopo := ⟨4, ![some 1, some 2, none, none, none], ![some 4, some 3, none, none, none]⟩
    value := fun i c => ![![3, 4], ![2, 2], ![2, 0], ![0, 2], ![1, 2]] i c
    nSamp := ![7, 4, 2, 2, 3]
    impurity := ![24 / 49, 1 / 2, 0, 0, 4 / 9] }

/-- One tuning row per leaf. -/
abbrev exTuneCls3 : TuneSrc → ℕ → List (TuneRow ℚ 2) :=
  fun _ _ => [⟨0, ![1, 0]⟩, ⟨1, ![0, 1]⟩, ⟨2, ![0, 1]⟩]

/-- One step of the squared loss from all weight on level 2. -/
abbrev exTopCls : SmoothCfg ℚ :=
  { exCfg with sanityCheck := false, lossL2 := true, tFix := 1 / 1000, steps := [0], classEps := 0,
               seed := some fun i => if i = 2 then 1 else 0 }

/-- The full claim of C214: constrained smoothing of a classification forest with the squared loss and
positive leaf weights does not change when sample weights and class counts are multiplied by a positive
factor. -/
def C214Claim : Prop :=
  ∀ (forest : List (SkTree ℚ 2)) (cfg : SmoothCfg ℚ) (sources : TuneSrc → ℕ → List (TuneRow ℚ 2)) (s : ℚ)
    (out : SmoothOut ℚ 2 (forestDepth forest + 1))
    (out' : SmoothOut ℚ 2 (forestDepth (forest.map (clsCountTree s)) + 1)),
    (∀ t ∈ forest, t.WF ∧ ∀ i, 0 < t.nSamp i) → 0 < s → cfg.noConstraint = false → cfg.lossL2 = true →
    smooth (fun x => x) noCe (some .cls) forest cfg sources = .ok out →
    smooth (fun x => x) noCe (some .cls) (forest.map (clsCountTree s)) cfg sources = .ok out' →
    List.ofFn out'.lamb1 = List.ofFn out.lamb1

/-- C214 as stated is false without `parents_all`, for the reason of C169. -/
theorem C214_refuted : ¬ C214Claim := by
  intro H
  have k1 : (match smooth (fun x => x) noCe (some .cls) [exCls3] exTopCls exTuneCls3 with
    | .ok out => some (List.ofFn out.lamb1) | .error _ => none) =
      some [11 / 4050, 1 / 20250, 10097 / 10125] := by
    decide +kernel
  have k2 : (match smooth (fun x => x) noCe (some .cls) ([exCls3].map (clsCountTree 2)) exTopCls exTuneCls3 with
    | .ok out => some (List.ofFn out.lamb1) | .error _ => none) =
      some [41 / 10125, 14 / 10125, 2014 / 2025] := by
    decide +kernel
  have := H [exCls3] exTopCls exTuneCls3 2
  revert k1 k2 this
  generalize smooth (fun x => x) noCe (some .cls) [exCls3] exTopCls exTuneCls3 = x
  generalize smooth (fun x => x) noCe (some .cls) ([exCls3].map (clsCountTree 2)) exTopCls exTuneCls3 = x'
  intro k1 k2 this
  match x, x', k1, k2 with
  | .ok o, .ok o', k1, k2 =>
    have hh := this o o' (by decide +kernel) (by norm_num) rfl rfl rfl rfl
    simp only [Option.some.injEq] at k1 k2
    rw [k1, k2] at hh
    revert hh
    norm_num

/-- With `parents_all` doubling the counts changes nothing. -/
example : (match smooth (fun x => x) noCe (some .cls) [exCls3]
      { exTopCls with parentsAll := true, seed := none, classEps := 1 / 10 } exTuneCls3 with
    | .ok out => some (List.ofFn out.lamb1, out.costs, leafValues out.rf1) | .error _ => none) =
    (match smooth (fun x => x) noCe (some .cls) [clsCountTree 2 exCls3]
      { exTopCls with parentsAll := true, seed := none, classEps := 1 / 10 } exTuneCls3 with
    | .ok out => some (List.ofFn out.lamb1, out.costs, leafValues out.rf1) | .error _ => none) ∧
    (match smooth (fun x => x) noCe (some .cls) [exCls3]
      { exTopCls with parentsAll := true, seed := none, classEps := 1 / 10 } exTuneCls3 with
    | .ok out => some out.costs.length | .error _ => none) = some 2 := by
  decide +kernel

end SmoothRF
