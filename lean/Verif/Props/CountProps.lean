import Verif.Props.AffineProps
import Verif.Props.CleanProps

/-!
# C169: only the proportions of the node counts matter
-/

set_option linter.unusedSectionVars false

namespace SmoothRF
open SkTree Topo

variable {K : Type} [Field K] [LinearOrder K] [IsStrictOrderedRing K] {k C : ℕ}

/-- The tree with every sample weight multiplied by `s`. -/
def countTree (s : K) (t : SkTree K C) : SkTree K C := { t with nSamp := fun i => s * t.nSamp i }

/-- The leaf values of a forest, tree by tree. -/
def leafValues (forest : List (SkTree K C)) : List (List (List K)) :=
  forest.map fun t => List.ofFn fun r : Fin t.nLeaves => List.ofFn (t.value (t.leafNode r))

/-- Row `r'` carries the data of row `r` with the level sums multiplied by a positive factor. -/
structure CountRel (r r' : Row K k) : Prop where
  w : r'.w = r.w
  y : r'.y = r.y
  tree : r'.tree = r.tree
  scale : ∃ s : K, 0 < s ∧ (∀ j, r'.gam j = s * r.gam j) ∧ ∀ j, r'.eta j = s * r.eta j

variable {r r' : Row K k} {lamb : Fin k → K}

theorem dot_scale {u v : Fin k → K} {s : K} (h : ∀ j, v j = s * u j) (lamb : Fin k → K) :
    dot v lamb = s * dot u lamb := by
  simp only [dot, h, Finset.mul_sum]
  exact Finset.sum_congr rfl fun j _ => by ring

theorem CountRel.den (h : CountRel r r') (hd : dot r.eta lamb ≠ 0) : dot r'.eta lamb ≠ 0 := by
  obtain ⟨s, hs, -, h2⟩ := h.scale
  rw [dot_scale h2]
  exact mul_ne_zero hs.ne' hd

theorem CountRel.res (h : CountRel r r') (hd : dot r.eta lamb ≠ 0) : residual r' lamb = residual r lamb := by
  have hd' := h.den hd
  obtain ⟨s, hs, h1, h2⟩ := h.scale
  rw [residual, residual, etaFill, etaFill, if_neg hd', if_neg hd, dot_scale h1, dot_scale h2, h.y,
    mul_div_mul_left _ _ hs.ne']

theorem CountRel.gradTerm (h : CountRel r r') (hd : dot r.eta lamb ≠ 0) (j : Fin k) :
    -2 * residual r' lamb * r'.w *
        (1 / etaFill r' lamb * r'.gam j - dot r'.gam lamb / etaFill r' lamb ^ 2 * r'.eta j) =
      1 * (-2 * residual r lamb * r.w *
        (1 / etaFill r lamb * r.gam j - dot r.gam lamb / etaFill r lamb ^ 2 * r.eta j)) := by
  have hd' := h.den hd
  rw [h.res hd, h.w, etaFill, etaFill, if_neg hd', if_neg hd]
  obtain ⟨s, hs, h1, h2⟩ := h.scale
  rw [dot_scale h1, dot_scale h2, h1, h2]
  have := hs.ne'
  field_simp

theorem countRel_filter {rows rows' : List (Row K k)} (h : List.Forall₂ CountRel rows rows') (c : ℕ) :
    List.Forall₂ CountRel (rows.filter fun r => r.tree == c) (rows'.filter fun r => r.tree == c) := by
  induction h with
  | nil => exact .nil
  | cons h1 _ ih =>
    rw [List.filter_cons, List.filter_cons, h1.tree]
    split_ifs
    · exact .cons h1 ih
    · exact ih

theorem countRel_den {rows rows' : List (Row K k)} (h : List.Forall₂ CountRel rows rows')
    (hd : ∀ r ∈ rows, dot r.eta lamb ≠ 0) : ∀ r ∈ rows', dot r.eta lamb ≠ 0 := by
  induction h with
  | nil => simp
  | cons h1 _ ih =>
    intro r hr
    rcases List.mem_cons.1 hr with rfl | hr
    · exact h1.den (hd _ (by simp))
    · exact ih (fun r hr => hd r (by simp [hr])) r hr

/-- C169, loss and gradient: at weights with non-zero denominators both are unchanged when the level
sums of each row are multiplied by a positive factor of its own. -/
theorem C169_loss {rows rows' : List (Row K k)} (h : List.Forall₂ CountRel rows rows')
    (hd : ∀ r ∈ rows, ∑ j, r.eta j * lamb j ≠ 0) :
    ∃ g c, takeGradient rows lamb = .ok g ∧ takeGradient rows' lamb = .ok g ∧
      calcCost rows lamb = .ok c ∧ calcCost rows' lamb = .ok c := by
  have hA := fillAssert_of_ne _ _ hd
  have hA' := fillAssert_of_ne _ _ (countRel_den h hd)
  refine ⟨_, _, by rw [takeGradient, if_pos hA], ?_, by rw [calcCost, if_pos hA], ?_⟩
  · rw [takeGradient, if_pos hA']
    congr 1
    funext j
    rw [← one_mul (List.sum (List.map _ rows))]
    exact forall2_sum_mul 1 _ _ h fun r hr r' hr' => hr'.gradTerm (hd r hr) j
  · rw [calcCost, if_pos hA']
    congr 1
    rw [← one_mul (List.sum (List.map _ rows))]
    exact forall2_sum_mul 1 _ _ h fun r hr r' hr' => by rw [hr'.res (hd r hr), hr'.w, one_mul]

/-- C169, descent: if all denominators are non-zero at the start and at every point reached, the descent
visits the same weights and records the same costs. -/
theorem C169_descent (sqrt : K → K) {rows rows' : List (Row K k)}
    (h : List.Forall₂ CountRel rows rows') (o : SgdOpts K)
    (init : Fin k → K) (choices : List ℕ) (best last : Fin k → K) (costs : List K)
    (hd0 : ∀ r ∈ rows, ∑ j, r.eta j * init j ≠ 0)
    (hd : ∀ vs, Visits (fun c s => sgdMove sqrt takeGradient proxProject o rows c s.1 s.2) (init, none)
      choices vs → ∀ v ∈ vs, ∀ r ∈ rows, ∑ j, r.eta j * v.1 j ≠ 0)
    (hr : sgd sqrt o rows (List.ofFn init) choices = .ok (best, last, costs)) :
    sgd sqrt o rows' (List.ofFn init) choices = .ok (best, last, costs) := by
  have hinit : (fun j : Fin k => (List.ofFn init)[j]'(by simp)) = init := by funext j; simp
  unfold sgd at hr ⊢
  rw [dif_pos (by simp)] at hr ⊢
  split_ifs at hr ⊢ with hf
  rw [hinit] at hr ⊢
  have hemp : rows'.isEmpty = rows.isEmpty := by cases h <;> rfl
  have := sgdRun_scale (s := (1 : K)) one_pos (fun _ x _ => by rw [one_pow, one_mul, one_mul]) hemp
    (fun l => ∀ r ∈ rows, ∑ j, r.eta j * l j ≠ 0)
    (fun l hl c g hg => by
      obtain ⟨g', -, h1, h2, -⟩ := C169_loss (countRel_filter h c)
        (fun r hr => hl r (List.mem_filter.1 hr).1)
      rw [hg] at h1; cases h1; simpa using h2)
    (fun l hl x hx => by
      obtain ⟨-, c', -, -, h1, h2⟩ := C169_loss h hl
      rw [hx] at h1; cases h1; simpa using h2)
    hd0 hd hr
  have e : scaleOpts (1 : K) o = o := by
    obtain ⟨a, b, A⟩ := o
    cases A with
    | none => simp [scaleOpts]
    | some A => cases A; simp [scaleOpts, affAdam]
  rw [e] at this
  simpa using this

/-! ### smooth -/

variable {f : SkTree K C → K}

theorem forestDepth_count (f : SkTree K C → K) (forest : List (SkTree K C)) :
    forestDepth (forest.map fun t => countTree (f t) t) = forestDepth forest := by
  unfold forestDepth
  rw [List.map_map]
  rfl

theorem leafListI_count (f : SkTree K C → K) (forest : List (SkTree K C)) :
    leafListI (forest.map fun t => countTree (f t) t) =
      (leafListI forest).map fun q => (⟨countTree (f q.1.1) q.1.1, q.1.2⟩, q.2) := by
  unfold leafListI
  rw [List.zipIdx_map, List.flatMap_map, List.map_flatMap]
  apply List.flatMap_congr
  intro tt _
  rw [List.map_map]
  rfl

theorem leafList_count (f : SkTree K C → K) (forest : List (SkTree K C)) :
    leafList (forest.map fun t => countTree (f t) t) =
      (leafList forest).map fun q => ⟨countTree (f q.1) q.1, q.2⟩ := by
  unfold leafList
  rw [List.flatMap_map, List.map_flatMap]
  apply List.flatMap_congr
  intro t _
  rw [List.map_map]
  rfl

theorem levelSum_mul_left (pa : Bool) {n : ℕ} (D : Fin n → Fin n → ℤ)
    (v : Fin n → K) (a : K) (i : Fin n) (k : ℕ) :
    levelSum pa D (fun j => a * v j) i k = a * levelSum pa D v i k := by
  unfold levelSum
  split_ifs <;> rw [Finset.mul_sum]

theorem specRow_count (hf : ∀ t, 0 < f t) (s : Style) (pa al : Bool) (tune : ℕ → List (TuneRow K C))
    (n : ℕ) (c : Fin C) (q : ((t : SkTree K C) × Fin t.nLeaves) × ℕ) :
    CountRel (specRow .reg s pa al tune n c q)
      (specRow .reg s pa al tune n c (⟨countTree (f q.1.1) q.1.1, q.1.2⟩, q.2)) where
  w := rfl
  y := rfl
  tree := rfl
  scale := by
    refine ⟨f q.1.1, hf _, fun j => ?_, fun j => ?_⟩
    · refine Eq.trans ?_ (levelSum_mul_left pa (q.1.1.distDepth s)
        (fun j => q.1.1.mass .reg (q.1.1.leafNode j) c) (f q.1.1) q.1.2 j)
      show levelSum pa (q.1.1.distDepth s)
        (fun j => (countTree (f q.1.1) q.1.1).mass .reg (q.1.1.leafNode j) c) q.1.2 j = _
      congr 1
      funext j
      show f q.1.1 * q.1.1.nSamp _ * q.1.1.value _ c = f q.1.1 * (q.1.1.nSamp _ * q.1.1.value _ c)
      ring
    · exact levelSum_mul_left pa (q.1.1.distDepth s)
        (fun j => q.1.1.nSamp (q.1.1.leafNode j)) (f q.1.1) q.1.2 j

theorem specRows_count (hf : ∀ t, 0 < f t) (forest : List (SkTree K C)) (s : Style) (pa al : Bool)
    (tune : ℕ → List (TuneRow K C)) (n : ℕ) :
    List.Forall₂ CountRel
      ((List.finRange C).flatMap fun c => (leafListI forest).map (specRow .reg s pa al tune n c))
      ((List.finRange C).flatMap fun c => (leafListI (forest.map fun t => countTree (f t) t)).map
        (specRow .reg s pa al tune n c)) := by
  rw [leafListI_count]
  induction List.finRange C with
  | nil => exact .nil
  | cons c cs ih =>
    rw [List.flatMap_cons, List.flatMap_cons]
    refine List.rel_append ?_ ih
    rw [List.map_map, List.forall₂_map_left_iff, List.forall₂_map_right_iff]
    exact List.forall₂_same.2 fun q _ => specRow_count hf s pa al tune n c q

theorem optimise_count {sqrt : K → K}
    {ce : (n : ℕ) → SgdOpts K → K → List (Row K n) → List K → List ℕ →
      Except PyErr ((Fin n → K) × (Fin n → K) × List K)}
    {cfg : SmoothCfg K} (hc : cfg.noConstraint = false) (had : cfg.adam = none) {n n' : ℕ} (e : n' = n)
    {rows : List (Row K n)} {rows' : (m : ℕ) → List (Row K m)}
    (hrows : List.Forall₂ CountRel rows (rows' n))
    (hden : ∀ l, Alive l → ∀ r ∈ rows, ∑ j, r.eta j * l j ≠ 0) {lamb l1 l2 : Fin n → K} {cs : List K}
    (hl : Alive lamb) (h : smoothOptimise sqrt (ce n) .reg cfg rows lamb = .ok (l1, l2, cs)) :
    smoothOptimise sqrt (ce n') .reg cfg (rows' n') (fun j => lamb (Fin.cast e j)) =
      .ok (fun j => l1 (Fin.cast e j), fun j => l2 (Fin.cast e j), cs) := by
  subst e
  unfold smoothOptimise at h ⊢
  by_cases hsan : cfg.sanityCheck = true
  · rw [if_pos hsan] at h ⊢
    exact h
  · rw [if_neg hsan] at h ⊢
    simp only [true_or, if_true] at h ⊢
    exact C169_descent sqrt hrows _ lamb cfg.steps l1 l2 cs (hden _ hl) (fun vs hv v hvm => by
      have := visits_inv (fun s : (Fin n' → K) × Option (Iv K n') => Alive s.1)
        (fun c s s' hs hm => plain_alive (o := ⟨cfg.tFix, !cfg.noConstraint, cfg.adam⟩) had
          (by simp [hc]) hs hm) hv hl
      exact hden _ (this v hvm)) h

theorem smoothSpec_count {s : K} (hs : 0 < s) (t : SkTree K C) (st : Style) (pa : Bool) {n n' : ℕ}
    (e : n' = n) (lamb : Fin n → K) (r : Fin t.nLeaves) (c : Fin C) :
    smoothSpec .reg (countTree s t) st pa (fun j => lamb (Fin.cast e j)) r c =
      smoothSpec .reg t st pa lamb r c := by
  subst e
  have h1 : smoothDen (countTree s t) st pa lamb r = s * smoothDen t st pa lamb r := by
    unfold smoothDen
    rw [Finset.mul_sum]
    refine Finset.sum_congr rfl fun k _ => ?_
    rw [← mul_assoc]
    congr 1
    exact levelSum_mul_left pa (t.distDepth st) (fun j => t.nSamp (t.leafNode j)) s r k
  have h2 : smoothNum .reg (countTree s t) st pa lamb r c = s * smoothNum .reg t st pa lamb r c := by
    unfold smoothNum
    rw [Finset.mul_sum]
    refine Finset.sum_congr rfl fun k _ => ?_
    rw [← mul_assoc]
    congr 1
    refine Eq.trans ?_ (levelSum_mul_left pa (t.distDepth st)
      (fun j => t.mass .reg (t.leafNode j) c) s r k)
    show levelSum pa (t.distDepth st) (fun j => (countTree s t).mass .reg (t.leafNode j) c) r k = _
    congr 1
    funext j
    show s * t.nSamp _ * t.value _ c = s * (t.nSamp _ * t.value _ c)
    ring
  show smoothSpec .reg (countTree s t) st pa lamb r c = _
  unfold smoothSpec
  rw [h1, h2]
  by_cases hd : smoothDen t st pa lamb r = 0
  · rw [hd, mul_zero, if_pos rfl, if_pos rfl]
  · rw [if_neg hd, if_neg (mul_ne_zero hs.ne' hd), mul_div_mul_left _ _ hs.ne']

theorem leafValues_count {P Q : SkTree K C → SkTree K C → Prop}
    {forest rf rf' : List (SkTree K C)} (h1 : List.Forall₂ P forest rf)
    (h2 : List.Forall₂ Q (forest.map fun t => countTree (f t) t) rf')
    (h : ∀ t ∈ forest, ∀ t1 t2, P t t1 → Q (countTree (f t) t) t2 →
      ∃ g : Fin t.nLeaves → Fin C → K, LeafUpdate t t1 g ∧ LeafUpdate (countTree (f t) t) t2 g) :
    leafValues rf' = leafValues rf := by
  induction h1 generalizing rf' with
  | nil => cases h2; rfl
  | cons hp _ ih =>
    rw [List.map_cons] at h2
    obtain ⟨t2, rf2, hq, h3, rfl⟩ := List.forall₂_cons_left_iff.1 h2
    unfold leafValues at ih ⊢
    rw [List.map_cons, List.map_cons, ih h3 fun t ht => h t (by simp [ht])]
    congr 1
    obtain ⟨g, ⟨v1, rfl, hl1, -⟩, ⟨v2, rfl, hl2, -⟩⟩ := h _ (by simp) _ _ hp hq
    refine congrArg List.ofFn (funext fun r => ?_)
    exact congrArg List.ofFn (funext fun c => (hl2 r c).trans (hl1 r c).symm)

/-- C169 (what holds): multiplying the sample weights of every tree by a positive factor (which may differ
between trees) changes nothing in constrained plain smoothing of a regression forest with `parents_all`,
positive leaf weights and the default start or a non-negative random one: `smooth` returns the same weights,
the same costs and the same leaf values in both forests. -/
theorem C169_smooth_partial (hC : 0 < C) {sqrt : K → K}
    {ce : (n : ℕ) → SgdOpts K → K → List (Row K n) → List K → List ℕ →
      Except PyErr ((Fin n → K) × (Fin n → K) × List K)} (hf : ∀ t, 0 < f t)
    {forest : List (SkTree K C)} (hwf : ∀ t ∈ forest, t.WF)
    (hn : ∀ t ∈ forest, ∀ r, 0 < t.nSamp (t.leafNode r))
    {cfg : SmoothCfg K} {sources : TuneSrc → ℕ → List (TuneRow K C)}
    {out : SmoothOut K C (forestDepth forest + 1)}
    (h : smooth sqrt ce (some .reg) forest cfg sources = .ok out) (hc : cfg.noConstraint = false)
    (had : cfg.adam = none) (hs : ∀ u, cfg.seed = some u → ∀ i, 0 ≤ u i) (hpa : cfg.parentsAll = true) :
    ∃ out', smooth sqrt ce (some .reg) (forest.map fun t => countTree (f t) t) cfg sources = .ok out' ∧
      leafValues out'.rf1 = leafValues out.rf1 ∧ leafValues out'.rf2 = leafValues out.rf2 ∧
      List.ofFn out'.lamb1 = List.ofFn out.lamb1 ∧ List.ofFn out'.lamb2 = List.ofFn out.lamb2 ∧
      out'.costs = out.costs := by
  have hwf' : ∀ t ∈ forest.map fun t => countTree (f t) t, t.WF := by
    intro t ht
    obtain ⟨t0, h0, rfl⟩ := List.mem_map.1 ht
    exact hwf t0 h0
  have hF := smooth_forests hC hwf h
  obtain ⟨kind', src, yw, lamb, h0, h1, h2, h3, h4, -, -⟩ := smooth_ok h
  cases h0
  rw [tuneSummaries_eq] at h2
  split at h2
  · cases h2
  rename_i hd
  cases h2
  rw [flatRows_eq .reg forest hwf] at h4
  have hden : ∀ l : Fin (forestDepth forest + 1) → K, Alive l → ∀ r ∈ (List.finRange C).flatMap fun c =>
      (leafListI forest).map (specRow .reg cfg.style cfg.parentsAll cfg.allTrees (sources src)
        (forestDepth forest + 1) c), ∑ j, r.eta j * l j ≠ 0 := by
    intro l hl r hr
    obtain ⟨c, -, hr⟩ := List.mem_flatMap.1 hr
    obtain ⟨q, hq, rfl⟩ := List.mem_map.1 hr
    have hqf : q.1.1 ∈ forest := by
      unfold leafListI at hq
      obtain ⟨tt, htt, hq⟩ := List.mem_flatMap.1 hq
      obtain ⟨r, -, rfl⟩ := List.mem_map.1 hq
      exact List.fst_mem_of_mem_zipIdx htt
    have := smoothDen_alive (hwf _ hqf) (hn _ hqf) cfg.style hl q.1.2
    rw [hpa]
    exact this.ne'
  have e : forestDepth (forest.map fun t => countTree (f t) t) + 1 = forestDepth forest + 1 := by
    rw [forestDepth_count]
  have hal0 : Alive lamb := start_alive hs h3
  have hopt := optimise_count hc had e (ce := ce)
    (rows' := fun m => (List.finRange C).flatMap fun c =>
      (leafListI (forest.map fun t => countTree (f t) t)).map
        (specRow .reg cfg.style cfg.parentsAll cfg.allTrees (sources src) m c))
    (specRows_count hf forest cfg.style cfg.parentsAll cfg.allTrees (sources src) _) hden hal0 h4
  rw [← flatRows_eq .reg _ hwf'] at hopt
  obtain ⟨out', ho, ho1, ho2, ho3⟩ := smooth_returns hC hwf' (cfg := cfg) (sources := sources)
    (src := src) h1
    (by rw [tuneSummaries_eq, if_neg (by
      rintro (⟨tt, htt, h⟩ | ⟨h, -⟩)
      · rw [List.zipIdx_map] at htt
        obtain ⟨q, hq, rfl⟩ := List.mem_map.1 htt
        exact hd (.inl ⟨q, hq, h⟩)
      · simp at h)]) (initLamb_cast_reg e h3) hopt
  have hF' := smooth_forests hC hwf' ho
  have hofn : ∀ l : Fin (forestDepth forest + 1) → K,
      List.ofFn (fun j : Fin (forestDepth (forest.map fun t => countTree (f t) t) + 1) =>
        l (Fin.cast e j)) = List.ofFn l := by
    intro l
    refine List.ext_getElem (by rw [List.length_ofFn, List.length_ofFn, e]) fun i h1 h2 => ?_
    rw [List.getElem_ofFn, List.getElem_ofFn]
    rfl
  refine ⟨out', ho, ?_, ?_, by rw [ho1, hofn], by rw [ho2, hofn], ho3⟩
  · refine leafValues_count hF.1 hF'.1 fun t ht t1 t2 p1 p2 => ⟨_, p1, ?_⟩
    rw [ho1] at p2
    obtain ⟨v, rfl, a, b⟩ := p2
    exact ⟨v, rfl, fun r c => (a r c).trans (smoothSpec_count (hf t) t _ _ e _ r c), b⟩
  · refine leafValues_count hF.2 hF'.2 fun t ht t1 t2 p1 p2 => ⟨_, p1, ?_⟩
    obtain ⟨v, rfl, a, b⟩ := p2
    refine ⟨v, rfl, fun r c => (a r c).trans ?_, b⟩
    beta_reduce
    rw [leafList_count, List.getElem?_map]
    have hlt : r.val < (leafList forest).length := 
      lt_of_lt_of_le (show r.val < t.nLeaves from r.isLt) (nLeaves_le_leafList ht)
    have hg : (leafList forest)[r.val]? = some ((leafList forest)[r.val]) := List.getElem?_eq_getElem hlt
    rw [hg]
    simp only [Option.map_some, Option.elim_some]
    rw [ho2]
    exact smoothSpec_count (hf _) _ _ _ e _ _ c

/-- Tuning rows for all three leaves of the example tree. -/
abbrev exTune3 : TuneSrc → ℕ → List (TuneRow ℚ 1) :=
  fun _ _ => [⟨0, fun _ => 10⟩, ⟨1, fun _ => 10⟩, ⟨2, fun _ => 9⟩]

/-- One step from all weight on level 2. -/
abbrev exTop : SmoothCfg ℚ :=
  { exCfg with sanityCheck := false, tFix := 1 / 1000, steps := [0],
               seed := some fun i => if i = 2 then 1 else 0 }

/-- The full claim of C169: constrained smoothing of a regression forest with positive leaf weights does
not change when the sample weights are multiplied by a positive factor. -/
def C169Claim : Prop :=
  ∀ (forest : List (SkTree ℚ 1)) (cfg : SmoothCfg ℚ) (sources : TuneSrc → ℕ → List (TuneRow ℚ 1)) (s : ℚ)
    (out : SmoothOut ℚ 1 (forestDepth forest + 1))
    (out' : SmoothOut ℚ 1 (forestDepth (forest.map (countTree s)) + 1)),
    (∀ t ∈ forest, t.WF ∧ ∀ i, 0 < t.nSamp i) → 0 < s → cfg.noConstraint = false →
    smooth (fun x => x) noCe (some .reg) forest cfg sources = .ok out →
    smooth (fun x => x) noCe (some .reg) (forest.map (countTree s)) cfg sources = .ok out' →
    List.ofFn out'.lamb1 = List.ofFn out.lamb1

/-- C169 as stated is false without `parents_all`: a leaf whose levels all have weight 0 has an empty
denominator, which is replaced by 1, and its gradient then grows with the sample weights. -/
theorem C169_refuted : ¬ C169Claim := by
  intro H
  have k1 : (match smooth (fun x => x) noCe (some .reg) [exTree] exTop exTune3 with
    | .ok out => some (List.ofFn out.lamb1) | .error _ => none) = some [153 / 500, 0, 383 / 500] := by
    decide +kernel
  have k2 : (match smooth (fun x => x) noCe (some .reg) ([exTree].map (countTree 2)) exTop exTune3 with
    | .ok out => some (List.ofFn out.lamb1) | .error _ => none) = some [153 / 250, 0, 133 / 250] := by
    decide +kernel
  have := H [exTree] exTop exTune3 2
  revert k1 k2 this
  generalize smooth (fun x => x) noCe (some .reg) [exTree] exTop exTune3 = x
  generalize smooth (fun x => x) noCe (some .reg) ([exTree].map (countTree 2)) exTop exTune3 = x'
  intro k1 k2 this
  match x, x', k1, k2 with
  | .ok o, .ok o', k1, k2 =>
    have hh := this o o' (by decide +kernel) (by norm_num) rfl rfl rfl
    simp only [Option.some.injEq] at k1 k2
    rw [k1, k2] at hh
    revert hh
    norm_num

/-- With `parents_all` doubling the counts changes nothing. -/
example : (match smooth (fun x => x) noCe (some .reg) [exTree]
      { exTop with parentsAll := true, seed := none } exTune3 with
    | .ok out => some (List.ofFn out.lamb1, out.costs, leafValues out.rf1) | .error _ => none) =
    (match smooth (fun x => x) noCe (some .reg) [countTree 2 exTree]
      { exTop with parentsAll := true, seed := none } exTune3 with
    | .ok out => some (List.ofFn out.lamb1, out.costs, leafValues out.rf1) | .error _ => none) ∧
    (match smooth (fun x => x) noCe (some .reg) [exTree]
      { exTop with parentsAll := true, seed := none } exTune3 with
    | .ok out => some out.costs.length | .error _ => none) = some 2 := by
  decide +kernel

/-- A stump with leaf values 0 and 1. -/
abbrev exZeroLeaf : SkTree ℚ 1 :=
  { toTopo := ⟨2, ![some 1, none, none], ![some 2, none, none]⟩
    value := fun i _ => ![1 / 2, 0, 1] i
    nSamp := ![2, 1, 1]
    impurity := ![1 / 4, 0, 0] }

/-- C169 for `smooth_clean` is false even with `parents_all`: where the numerator of a leaf is 0 its
reciprocal is replaced by 1, and the step then grows with the sample weights. -/
theorem C169_clean_refuted : ¬ ∀ (forest : List (SkTree ℚ 1)) (s : ℚ) (y : List ℚ) (leafOf : ℕ → ℕ → ℕ)
    (uns : ℕ → List ℕ) (cfg : CleanCfg ℚ) (choices : List (List ℕ)),
    (∀ t ∈ forest, t.WF ∧ ∀ i, 0 < t.nSamp i) → 0 < s → cfg.noConstraint = false →
    cfg.parentsAll = true →
    (match smoothClean (fun x => x) (fun x => decide (x = 1)) (some .reg) forest y leafOf uns cfg
        choices with
      | .ok r => some (leafValues r.1) | .error _ => none) =
    (match smoothClean (fun x => x) (fun x => decide (x = 1)) (some .reg) (forest.map (countTree s)) y
        leafOf uns cfg choices with
      | .ok r => some (leafValues r.1) | .error _ => none) := by
  intro H
  have := H [exZeroLeaf] 2 [4] exLeafOf exUns { exClean with parentsAll := true, allObs := false } [[0]]
    (by decide +kernel) (by norm_num) rfl rfl
  revert this
  decide +kernel

end SmoothRF
