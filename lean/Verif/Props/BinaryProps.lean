import Verif.Props.CountProps

/-!
# C196: two classes are a 0/1 response
-/

set_option linter.unusedSectionVars false

namespace SmoothRF
open SkTree Topo

variable {K : Type} [Field K] [LinearOrder K] [IsStrictOrderedRing K] {k : ℕ}

/-- The two-class tree of a regression tree whose value is the share of class 1: the class counts. -/
def binTree (t : SkTree K 1) : SkTree K 2 :=
  { t with value := fun i c => t.nSamp i * (if c = 1 then t.value i 0 else 1 - t.value i 0) }

/-- The regression tree of a two-class tree: the share of class 1. -/
def shareTree (t : SkTree K 2) : SkTree K 1 :=
  { t with value := fun i _ => t.value i 1 / t.nSamp i }

/-- The indicator row of a 0/1 response. -/
def binRow (r : TuneRow K 1) : TuneRow K 2 := ⟨r.leaf, fun c => if c = 1 then r.y 0 else 1 - r.y 0⟩

/-- The two class probabilities from the probability of class 1. -/
def binProbs (v : List K) : List K := [1 - v.headD 0, v.headD 0]

/-- C196, which trees: every two-class tree whose counts add up to its (non-zero) node weights is the
two-class tree of its shares of class 1. -/
theorem C196_every_tree (t : SkTree K 2) (hs : ∀ i, t.value i 0 + t.value i 1 = t.nSamp i)
    (hn : ∀ i, t.nSamp i ≠ 0) : binTree (shareTree t) = t := by
  have : (fun (i : t.Node) (c : Fin 2) => t.nSamp i *
      (if c = 1 then t.value i 1 / t.nSamp i else 1 - t.value i 1 / t.nSamp i)) = t.value := by
    funext i c
    have h1 := hn i
    have h2 := hs i
    fin_cases c
    · simp only [Fin.zero_eta, Fin.isValue, zero_ne_one, if_false]
      rw [mul_sub, mul_div_cancel₀ _ h1]
      linear_combination -h2
    · simp only [Fin.mk_one, Fin.isValue, if_true]
      rw [mul_div_cancel₀ _ h1]
  exact congrArg (fun v => ({ t with value := v } : SkTree K 2)) this

/-! ### loss, gradient and descent -/

theorem takeGradient_append {A B : List (Row K k)} {lamb gA gB : Fin k → K}
    (hA : takeGradient A lamb = .ok gA) (hB : takeGradient B lamb = .ok gB) :
    takeGradient (A ++ B) lamb = .ok fun j => gA j + gB j := by
  unfold takeGradient at hA hB ⊢
  split_ifs at hA hB with h1 h2
  cases hA
  cases hB
  have h : fillAssert (A ++ B) lamb = true := by
    unfold fillAssert at h1 h2 ⊢
    rw [List.all_append, h1, h2]; rfl
  rw [if_pos h]
  congr 1
  funext j
  rw [List.map_append, List.sum_append]

theorem calcCost_append {A B : List (Row K k)} {lamb : Fin k → K} {cA cB : K}
    (hA : calcCost A lamb = .ok cA) (hB : calcCost B lamb = .ok cB) :
    calcCost (A ++ B) lamb = .ok (cA + cB) := by
  unfold calcCost at hA hB ⊢
  split_ifs at hA hB with h1 h2
  cases hA
  cases hB
  have h : fillAssert (A ++ B) lamb = true := by
    unfold fillAssert at h1 h2 ⊢
    rw [List.all_append, h1, h2]; rfl
  rw [if_pos h, List.map_append, List.sum_append]

variable {lamb : Fin k → K}

/-- C196, loss and gradient: `rows` are the rows of the response, `one` those of class 1 (the same) and
`zero` those of class 0 (response `1 - y`, level sums the complement). At weights with non-zero
denominators loss and gradient of the class-major rows are twice those of the regression rows. -/
theorem C196_loss {rows zero one : List (Row K k)} (h0 : List.Forall₂ (AffRel (-1) 1) rows zero)
    (h1 : List.Forall₂ (AffRel 1 0) rows one) (hd : ∀ r ∈ rows, ∑ j, r.eta j * lamb j ≠ 0) :
    ∃ g c, takeGradient rows lamb = .ok g ∧ takeGradient (zero ++ one) lamb = .ok (fun j => 2 * g j) ∧
      calcCost rows lamb = .ok c ∧ calcCost (zero ++ one) lamb = .ok (2 * c) := by
  obtain ⟨g, c, a1, a2, a3, a4⟩ := C113_loss h0 hd
  obtain ⟨g', c', b1, b2, b3, b4⟩ := C113_loss h1 hd
  rw [a1] at b1; cases b1
  rw [a3] at b3; cases b3
  refine ⟨g, c, a1, ?_, a3, ?_⟩
  · rw [takeGradient_append a2 b2]
    congr 1
    funext j
    ring
  · rw [calcCost_append a4 b4]
    congr 1
    ring

/-- C196, descent: if all denominators are non-zero at the start and at every point reached, the descent
on the two classes with half the step size (Adam: twice `eps`) visits the weights of the descent on the
0/1 response and records twice its costs. -/
theorem C196_descent (sqrt : K → K) {rows zero one : List (Row K k)}
    (h0 : List.Forall₂ (AffRel (-1) 1) rows zero) (h1 : List.Forall₂ (AffRel 1 0) rows one) (o : SgdOpts K)
    (hsq : o.adam ≠ none → ∀ x, 0 ≤ x → 0 ≤ sqrt x ∧ sqrt x ^ 2 = x)
    (init : Fin k → K) (choices : List ℕ) (best last : Fin k → K) (costs : List K)
    (hd0 : ∀ r ∈ rows, ∑ j, r.eta j * init j ≠ 0)
    (hd : ∀ vs, Visits (fun c s => sgdMove sqrt takeGradient proxProject o rows c s.1 s.2) (init, none)
      choices vs → ∀ v ∈ vs, ∀ r ∈ rows, ∑ j, r.eta j * v.1 j ≠ 0)
    (hr : sgd sqrt o rows (List.ofFn init) choices = .ok (best, last, costs)) :
    sgd sqrt ⟨o.tFix / 2, o.constrained, o.adam.map fun A => { A with eps := 2 * A.eps }⟩ (zero ++ one)
      (List.ofFn init) choices = .ok (best, last, costs.map (2 * ·)) := by
  have hinit : (fun j : Fin k => (List.ofFn init)[j]'(by simp)) = init := by funext j; simp
  unfold sgd at hr ⊢
  rw [dif_pos (by simp)] at hr ⊢
  dsimp only at hr ⊢
  split_ifs at hr ⊢ with hf
  rw [hinit] at hr ⊢
  have hemp : (zero ++ one).isEmpty = rows.isEmpty := by cases h0 <;> cases h1 <;> rfl
  exact sgdRun_scale two_pos (fun hA x hx => sqrt_scale (hsq hA) two_pos x hx) hemp
    (fun l => ∀ r ∈ rows, ∑ j, r.eta j * l j ≠ 0)
    (fun l hl c g hg => by
      obtain ⟨g', -, e1, e2, -⟩ := C196_loss (affRel_filter h0 c) (affRel_filter h1 c)
        (fun r hr => hl r (List.mem_filter.1 hr).1)
      rw [hg] at e1; cases e1; rw [List.filter_append]; exact e2)
    (fun l hl x hx => by
      obtain ⟨-, c', -, -, e1, e2⟩ := C196_loss h0 h1 hl
      rw [hx] at e1; cases e1; exact e2)
    hd0 hd hr

/-! ### smooth -/

theorem forestDepth_bin (forest : List (SkTree K 1)) : forestDepth (forest.map binTree) = forestDepth forest := by
  unfold forestDepth
  rw [List.map_map]
  rfl

theorem leafListI_bin (forest : List (SkTree K 1)) :
    leafListI (forest.map binTree) = (leafListI forest).map fun q => (⟨binTree q.1.1, q.1.2⟩, q.2) := by
  unfold leafListI
  rw [List.zipIdx_map, List.flatMap_map, List.map_flatMap]
  apply List.flatMap_congr
  intro tt _
  rw [List.map_map]
  rfl

theorem leafList_bin (forest : List (SkTree K 1)) :
    leafList (forest.map binTree) = (leafList forest).map fun q => ⟨binTree q.1, q.2⟩ := by
  unfold leafList
  rw [List.flatMap_map, List.map_flatMap]
  apply List.flatMap_congr
  intro t _
  rw [List.map_map]
  rfl

/-- Slope and intercept of class `c` as a function of the 0/1 response. -/
abbrev binA (c : Fin 2) : K := if c = 1 then 1 else -1

/-- Intercept. -/
abbrev binB (c : Fin 2) : K := if c = 1 then 0 else 1

theorem bin_aff (c : Fin 2) (x : K) : (if c = 1 then x else 1 - x) = binA c * x + binB c := by
  unfold binA binB
  split_ifs <;> ring

theorem leafWeight_bin (rows : List (TuneRow K 1)) (i : ℕ) :
    leafWeight (rows.map binRow) i = leafWeight rows i := by
  unfold leafWeight
  rw [List.filter_map, List.length_map]
  rfl

theorem leafMean_bin (rows : List (TuneRow K 1)) (i : ℕ) (c : Fin 2) (h : leafWeight rows i ≠ 0) :
    leafMean (rows.map binRow) i c = binA c * leafMean rows i 0 + binB c := by
  rw [← leafMean_aff _ _ _ _ _ h]
  unfold leafMean
  rw [leafWeight_bin, leafWeight_aff]
  congr 2
  rw [List.filter_map, List.map_map, List.filter_map, List.map_map]
  refine List.map_congr_left fun r _ => ?_
  exact bin_aff c (r.y 0)

theorem levelSum_bin (t : SkTree K 1) (pa : Bool) (s : Style) (r : Fin t.nLeaves) (c : Fin 2) (k : ℕ) :
    levelSum pa (t.distDepth s) (fun j => (binTree t).mass .cls ((binTree t).leafNode j) c) r k =
      binA c * levelSum pa (t.distDepth s) (fun j => t.mass .reg (t.leafNode j) 0) r k +
        binB c * levelSum pa (t.distDepth s) (fun j => t.nSamp (t.leafNode j)) r k := by
  have e' : (fun j : Fin t.nLeaves => (binTree t).mass .cls ((binTree t).leafNode j) c) =
      fun j : Fin t.nLeaves => binA c * t.mass .reg (t.leafNode j) 0 + binB c * t.nSamp (t.leafNode j) := by
    funext j
    show t.nSamp (t.leafNode j) * (if c = 1 then t.value (t.leafNode j) 0 else 1 - t.value (t.leafNode j) 0) =
      binA c * (t.nSamp (t.leafNode j) * t.value (t.leafNode j) 0) + binB c * t.nSamp (t.leafNode j)
    rw [bin_aff]
    ring
  rw [e']
  unfold levelSum
  split_ifs <;> rw [Finset.sum_add_distrib, Finset.mul_sum, Finset.mul_sum]

theorem specRow_bin (s : Style) (pa al : Bool) (tune : ℕ → List (TuneRow K 1)) (n : ℕ)
    (c : Fin 2) (q : ((t : SkTree K 1) × Fin t.nLeaves) × ℕ) :
    AffRel (binA c) (binB c) (specRow .reg s pa al tune n 0 q)
      (specRow .cls s pa al (fun i => (tune i).map binRow) n c (⟨binTree q.1.1, q.1.2⟩, q.2)) where
  w := leafWeight_bin _ _
  eta := rfl
  tree := rfl
  gam := fun k => levelSum_bin q.1.1 pa s q.1.2 c k
  y := fun h => leafMean_bin _ _ _ h

/-- The class-major rows of one class. -/
theorem specRows_bin (forest : List (SkTree K 1)) (s : Style) (pa al : Bool)
    (tune : ℕ → List (TuneRow K 1)) (n : ℕ) (c : Fin 2) :
    List.Forall₂ (AffRel (binA c) (binB c)) ((leafListI forest).map (specRow .reg s pa al tune n 0))
      ((leafListI (forest.map binTree)).map (specRow .cls s pa al (fun i => (tune i).map binRow) n c)) := by
  rw [leafListI_bin, List.map_map, List.forall₂_map_left_iff, List.forall₂_map_right_iff]
  exact List.forall₂_same.2 fun q _ => specRow_bin s pa al tune n c q

/-- The configuration of the two-class run. -/
abbrev binCfg (cfg : SmoothCfg K) : SmoothCfg K :=
  { cfg with tFix := cfg.tFix / 2, lossL2 := true, classEps := 0 }

theorem optimise_bin {sqrt : K → K}
    {ce : (n : ℕ) → SgdOpts K → K → List (Row K n) → List K → List ℕ →
      Except PyErr ((Fin n → K) × (Fin n → K) × List K)}
    {cfg : SmoothCfg K} (hc : cfg.noConstraint = false) (had : cfg.adam = none) {n n' : ℕ} (e : n' = n)
    {rows : List (Row K n)} {zero one : (m : ℕ) → List (Row K m)}
    (h0 : List.Forall₂ (AffRel (-1) 1) rows (zero n)) (h1 : List.Forall₂ (AffRel 1 0) rows (one n))
    (hden : ∀ l, Alive l → ∀ r ∈ rows, ∑ j, r.eta j * l j ≠ 0) {lamb l1 l2 : Fin n → K} {cs : List K}
    (hl : Alive lamb) (h : smoothOptimise sqrt (ce n) .reg cfg rows lamb = .ok (l1, l2, cs)) :
    smoothOptimise sqrt (ce n') .cls (binCfg cfg) (zero n' ++ one n') (fun j => lamb (Fin.cast e j)) =
      .ok (fun j => l1 (Fin.cast e j), fun j => l2 (Fin.cast e j), cs.map (2 * ·)) := by
  subst e
  unfold smoothOptimise at h ⊢
  by_cases hsan : cfg.sanityCheck = true
  · rw [if_pos hsan] at h ⊢
    cases h
    rfl
  · rw [if_neg hsan] at h ⊢
    simp only [true_or, or_true, if_true] at h ⊢
    have := C196_descent sqrt h0 h1 _ (fun hA => absurd had hA) lamb cfg.steps l1 l2 cs (hden _ hl)
      (fun vs hv v hvm => by
      have := visits_inv (fun s : (Fin n' → K) × Option (Iv K n') => Alive s.1)
        (fun c s s' hs hm => plain_alive (o := ⟨cfg.tFix, !cfg.noConstraint, cfg.adam⟩) had
          (by simp [hc]) hs hm) hv hl
      exact hden _ (this v hvm)) h
    rw [had] at this ⊢
    exact this

theorem smoothSpec_bin (t : SkTree K 1) (s : Style) (pa : Bool) {n n' : ℕ} (e : n' = n) (lamb : Fin n → K)
    (r : Fin t.nLeaves) (c : Fin 2) (hd : smoothDen t s pa lamb r ≠ 0) :
    smoothSpec .cls (binTree t) s pa (fun j => lamb (Fin.cast e j)) r c =
      if c = 1 then smoothSpec .reg t s pa lamb r 0 else 1 - smoothSpec .reg t s pa lamb r 0 := by
  subst e
  have h1 : smoothDen (binTree t) s pa lamb r = smoothDen t s pa lamb r := rfl
  have h2 : smoothNum .cls (binTree t) s pa lamb r c =
      binA c * smoothNum .reg t s pa lamb r 0 + binB c * smoothDen t s pa lamb r := by
    unfold smoothNum smoothDen
    rw [Finset.mul_sum, Finset.mul_sum, ← Finset.sum_add_distrib]
    refine Finset.sum_congr rfl fun k _ => ?_
    have := levelSum_bin t pa s r c k
    rw [show levelSum pa ((binTree t).distDepth s)
      (fun j => (binTree t).mass .cls ((binTree t).leafNode j) c) r k = _ from this]
    ring
  show smoothSpec .cls (binTree t) s pa lamb r c = _
  rw [bin_aff]
  unfold smoothSpec
  rw [h1, if_neg hd, if_neg hd, h2]
  field_simp

theorem leafValues_bin {P : SkTree K 1 → SkTree K 1 → Prop} {Q : SkTree K 2 → SkTree K 2 → Prop}
    {forest rf : List (SkTree K 1)} {rf' : List (SkTree K 2)} (h1 : List.Forall₂ P forest rf)
    (h2 : List.Forall₂ Q (forest.map binTree) rf')
    (h : ∀ t ∈ forest, ∀ t1 t2, P t t1 → Q (binTree t) t2 →
      ∃ g : Fin t.nLeaves → Fin 1 → K, LeafUpdate t t1 g ∧ LeafUpdate (binTree t) t2
        fun r c => if c = 1 then g r 0 else 1 - g r 0) :
    leafValues rf' = (leafValues rf).map fun t => t.map binProbs := by
  induction h1 generalizing rf' with
  | nil => cases h2; rfl
  | cons hp _ ih =>
    rw [List.map_cons] at h2
    obtain ⟨t2, rf2, hq, h3, rfl⟩ := List.forall₂_cons_left_iff.1 h2
    unfold leafValues at ih ⊢
    rw [List.map_cons, List.map_cons, List.map_cons, ih h3 fun t ht => h t (by simp [ht])]
    congr 1
    obtain ⟨g, ⟨v1, rfl, hl1, -⟩, ⟨v2, rfl, hl2, -⟩⟩ := h _ (by simp) _ _ hp hq
    rw [List.map_ofFn]
    refine congrArg List.ofFn (funext fun r => ?_)
    have a0 := hl2 r 0
    have a1 := hl2 r 1
    have b := hl1 r 0
    simp only [Fin.isValue, zero_ne_one, if_false, if_true] at a0 a1
    simp only [Function.comp, List.ofFn_succ, List.ofFn_zero, binProbs, List.headD_cons]
    exact congrArg₂ (fun x y => [x, y]) (a0.trans (by rw [← b])) (a1.trans b.symm)

/-- Without smoothing of the start the classification uses the weights of the regression. -/
theorem initLamb_cls_zero {n n' : ℕ} (e : n' + 1 = n + 1) {seed : Option (ℕ → K)}
    (hs : ∀ u, seed = some u → ∀ i, 0 ≤ u i) {eps : K} {l : Fin (n + 1) → K} (h : initLamb .reg seed eps = .ok l) :
    initLamb (n := n') .cls seed (0 : K) = .ok fun j => l (Fin.cast e j) := by
  obtain rfl : n' = n := by omega
  have h' : initLamb .reg seed 0 = .ok l := h
  obtain ⟨h1, -⟩ := initLamb_feasible .reg seed 0 hs le_rfl h'
  have hn : normalise l = .ok l := by
    unfold normalise
    rw [h1, if_neg one_ne_zero]
    simp
  have hb : baseLamb seed = .ok l := by
    unfold initLamb at h
    obtain ⟨l', h2, h3⟩ := bind_ok h
    cases h3
    exact h2
  unfold initLamb
  rw [hb]
  simp only [bind, Except.bind, mul_zero, zero_div, add_zero]
  rw [hn]
  exact hn

/-- C196: constrained plain squared-error smoothing (`parents_all`, positive leaf weights, default or non-negative
random start) of a two-class forest with `class_eps = 0` and half the step size is smoothing of the regression forest of
the shares of class 1: same weights, twice the costs, and every leaf of both returned forests holds
`[1 - v, v]` where the regression leaf holds `v`. For tuning data that goes through `pd.get_dummies` both
classes have to occur in the rows of every tree. -/
theorem C196_smooth {sqrt : K → K}
    {ce : (n : ℕ) → SgdOpts K → K → List (Row K n) → List K → List ℕ →
      Except PyErr ((Fin n → K) × (Fin n → K) × List K)}
    {forest : List (SkTree K 1)} (hwf : ∀ t ∈ forest, t.WF)
    (hn : ∀ t ∈ forest, ∀ r, 0 < t.nSamp (t.leafNode r))
    {cfg : SmoothCfg K} {sources : TuneSrc → ℕ → List (TuneRow K 1)}
    (hlab : ∀ src, src ≠ .given → ∀ i < forest.length,
      (∃ r ∈ sources src i, r.y 0 ≠ 0) ∧ ∃ r ∈ sources src i, r.y 0 ≠ 1)
    {out : SmoothOut K 1 (forestDepth forest + 1)}
    (h : smooth sqrt ce (some .reg) forest cfg sources = .ok out) (hc : cfg.noConstraint = false)
    (had : cfg.adam = none) (hs : ∀ u, cfg.seed = some u → ∀ i, 0 ≤ u i) (hpa : cfg.parentsAll = true) :
    ∃ out', smooth sqrt ce (some .cls) (forest.map binTree)
        { cfg with tFix := cfg.tFix / 2, lossL2 := true, classEps := 0 }
        (fun src i => (sources src i).map binRow) = .ok out' ∧
      leafValues out'.rf1 = (leafValues out.rf1).map (fun t => t.map binProbs) ∧
      leafValues out'.rf2 = (leafValues out.rf2).map (fun t => t.map binProbs) ∧
      List.ofFn out'.lamb1 = List.ofFn out.lamb1 ∧ List.ofFn out'.lamb2 = List.ofFn out.lamb2 ∧
      out'.costs = out.costs.map (2 * ·) := by
  have hwf' : ∀ t ∈ forest.map binTree, t.WF := by
    intro t ht
    obtain ⟨t0, h0, rfl⟩ := List.mem_map.1 ht
    exact hwf t0 h0
  have hal := smooth_alive h hc had hs
  have hf := smooth_forests one_pos hwf h
  obtain ⟨kind', src, yw, lamb, h0, h1, h2, h3, h4, -, -⟩ := smooth_ok h
  cases h0
  rw [tuneSummaries_eq] at h2
  split at h2
  · cases h2
  rename_i hd
  cases h2
  rw [flatRows_eq .reg forest hwf] at h4
  have hone : ∀ m : ℕ, ((List.finRange 1).flatMap fun c => (leafListI forest).map
      (specRow .reg cfg.style cfg.parentsAll cfg.allTrees (sources src) m c)) =
      (leafListI forest).map (specRow .reg cfg.style cfg.parentsAll cfg.allTrees (sources src) m 0) := by
    intro m
    rw [show List.finRange 1 = [0] from rfl, List.flatMap_cons, List.flatMap_nil, List.append_nil]
  rw [hone] at h4
  have hden : ∀ l : Fin (forestDepth forest + 1) → K, Alive l → ∀ r ∈
      (leafListI forest).map (specRow .reg cfg.style cfg.parentsAll cfg.allTrees (sources src)
        (forestDepth forest + 1) 0), ∑ j, r.eta j * l j ≠ 0 := by
    intro l hl r hr
    obtain ⟨q, hq, rfl⟩ := List.mem_map.1 hr
    have hqf : q.1.1 ∈ forest := by
      unfold leafListI at hq
      obtain ⟨tt, htt, hq⟩ := List.mem_flatMap.1 hq
      obtain ⟨r, -, rfl⟩ := List.mem_map.1 hq
      exact List.fst_mem_of_mem_zipIdx htt
    have := smoothDen_alive (hwf _ hqf) (hn _ hqf) cfg.style hl q.1.2
    rw [hpa]
    exact this.ne'
  have e : forestDepth (forest.map binTree) + 1 = forestDepth forest + 1 := by rw [forestDepth_bin]
  have hal0 : Alive lamb := start_alive hs h3
  have r0 := specRows_bin forest cfg.style cfg.parentsAll cfg.allTrees (sources src) (forestDepth forest + 1) 0
  have r1 := specRows_bin forest cfg.style cfg.parentsAll cfg.allTrees (sources src) (forestDepth forest + 1) 1
  simp only [Fin.isValue, binA, binB, zero_ne_one, if_false, if_true] at r0 r1
  have hopt := optimise_bin hc had e (ce := ce)
    (zero := fun m => (leafListI (forest.map binTree)).map
        (specRow .cls cfg.style cfg.parentsAll cfg.allTrees (fun i => (sources src i).map binRow) m 0))
    (one := fun m => (leafListI (forest.map binTree)).map
        (specRow .cls cfg.style cfg.parentsAll cfg.allTrees (fun i => (sources src i).map binRow) m 1))
    r0 r1 hden hal0 h4
  have htwo : ∀ m : ℕ, ((List.finRange 2).flatMap fun c => (leafListI (forest.map binTree)).map
      (specRow .cls cfg.style cfg.parentsAll cfg.allTrees (fun i => (sources src i).map binRow) m c)) =
      (leafListI (forest.map binTree)).map
        (specRow .cls cfg.style cfg.parentsAll cfg.allTrees (fun i => (sources src i).map binRow) m 0) ++
      (leafListI (forest.map binTree)).map
        (specRow .cls cfg.style cfg.parentsAll cfg.allTrees (fun i => (sources src i).map binRow) m 1) := by
    intro m
    rw [show List.finRange 2 = [0, 1] from rfl, List.flatMap_cons, List.flatMap_cons, List.flatMap_nil,
      List.append_nil]
  rw [← htwo, ← flatRows_eq .cls _ hwf'] at hopt
  have hchk : smoothCheck (some .cls) (binCfg cfg).data (binCfg cfg).noConstraint = .ok (.cls, src) := by
    unfold smoothCheck at h1 ⊢
    obtain ⟨src', hs', h1⟩ := bind_ok h1
    simp only [hs', bind, Except.bind, hc]
    simp only [reduceCtorEq, false_and, if_false] at h1
    cases h1
    rfl
  obtain ⟨out', ho, ho1, ho2, ho3⟩ := smooth_returns two_pos hwf'
    (cfg := binCfg cfg) (sources := fun src i => (sources src i).map binRow) (src := src) hchk
    (by rw [tuneSummaries_eq, if_neg (by
      rintro (⟨tt, htt, h⟩ | ⟨h, tt, htt, c, hall⟩)
      · rw [List.zipIdx_map] at htt
        obtain ⟨q, hq, rfl⟩ := List.mem_map.1 htt
        exact hd (.inl ⟨q, hq, List.map_eq_nil_iff.1 h⟩)
      · simp only [decide_true, Bool.true_and, decide_eq_true_eq] at h
        have hlt : tt.2 < forest.length := by
          have := List.snd_lt_of_mem_zipIdx htt
          simpa using this
        obtain ⟨⟨ra, ha, ha'⟩, rb, hb, hb'⟩ := hlab src h tt.2 hlt
        fin_cases c
        · have := hall _ (List.mem_map_of_mem (f := binRow) hb)
          simp only [binRow, Fin.zero_eta, Fin.isValue, zero_ne_one, if_false] at this
          exact hb' (by linear_combination -this)
        · have := hall _ (List.mem_map_of_mem (f := binRow) ha)
          simp only [binRow, Fin.mk_one, Fin.isValue, if_true] at this
          exact ha' this)])
    (initLamb_cls_zero e hs h3) hopt
  have hf' := smooth_forests two_pos hwf' ho
  have hofn : ∀ l : Fin (forestDepth forest + 1) → K,
      List.ofFn (fun j : Fin (forestDepth (forest.map binTree) + 1) => l (Fin.cast e j)) = List.ofFn l := by
    intro l
    refine List.ext_getElem (by rw [List.length_ofFn, List.length_ofFn, e]) fun i h1 h2 => ?_
    rw [List.getElem_ofFn, List.getElem_ofFn]
    rfl
  refine ⟨out', ho, ?_, ?_, by rw [ho1, hofn], by rw [ho2, hofn], ho3⟩
  · refine leafValues_bin hf.1 hf'.1 fun t ht t1 t2 p1 p2 => ⟨_, p1, ?_⟩
    rw [ho1] at p2
    obtain ⟨v, rfl, a, b⟩ := p2
    exact ⟨v, rfl, fun r c => (a r c).trans (smoothSpec_bin t _ _ e _ r c
      (hpa ▸ (smoothDen_alive (hwf t ht) (hn t ht) _ hal.1 r).ne')), b⟩
  · refine leafValues_bin hf.2 hf'.2 fun t ht t1 t2 p1 p2 => ⟨_, p1, ?_⟩
    obtain ⟨v, rfl, a, b⟩ := p2
    refine ⟨v, rfl, fun r c => (a r c).trans ?_, b⟩
    beta_reduce
    rw [leafList_bin, List.getElem?_map]
    have hlt : r.val < (leafList forest).length :=
      lt_of_lt_of_le (show r.val < t.nLeaves from r.isLt) (nLeaves_le_leafList ht)
    have hg : (leafList forest)[r.val]? = some ((leafList forest)[r.val]) := List.getElem?_eq_getElem hlt
    have hm : ((leafList forest)[r.val]).1 ∈ forest := by
      obtain ⟨t', ht', hr'⟩ := List.mem_flatMap.1 (show (leafList forest)[r.val] ∈
        forest.flatMap fun t => (List.finRange t.nLeaves).map fun r => ⟨t, r⟩ from List.getElem_mem hlt)
      obtain ⟨r', -, e'⟩ := List.mem_map.1 hr'
      exact e' ▸ ht'
    rw [hg]
    simp only [Option.map_some, Option.elim_some]
    rw [ho2]
    exact smoothSpec_bin _ _ _ e _ _ c (hpa ▸ (smoothDen_alive (hwf _ hm) (hn _ hm) _ hal.2 _).ne')

/-- A regression tree holding shares of class 1 (three leaves, one of them deeper). -/
abbrev exShare : SkTree ℚ 1 :=
  { exTree with value := fun i _ => ![1 / 2, 1, 1 / 3, 0, 1 / 2] i }

/-- Four tuning rows with 0/1 response. -/
abbrev exBinTune : TuneSrc → ℕ → List (TuneRow ℚ 1) :=
  fun _ _ => [⟨0, fun _ => 1⟩, ⟨1, fun _ => 1⟩, ⟨1, fun _ => 0⟩, ⟨2, fun _ => 1⟩]

/-- One step. -/
abbrev exBinCfg : SmoothCfg ℚ :=
  { exCfg with sanityCheck := false, parentsAll := true, steps := [0], tFix := 1 / 2 }

/-- Instance of C196: the regression run and the two-class run with half the step size. -/
example :
    (match smooth (fun x => x) noCe (some .reg) [exShare] exBinCfg exBinTune with
    | .ok out => some (List.ofFn out.lamb2, out.costs, leafValues out.rf2)
    | .error _ => none) =
      some ([43 / 54, 0, 11 / 27], [43 / 36, 918413315302309 / 892303525102500],
        [[[164 / 525], [121 / 654], [629 / 1566]]]) ∧
    (match smooth (fun x => x) noCe (some .cls) [binTree exShare] (binCfg exBinCfg)
      (fun src i => (exBinTune src i).map binRow) with
    | .ok out => some (List.ofFn out.lamb2, out.costs, leafValues out.rf2)
    | .error _ => none) =
      some ([43 / 54, 0, 11 / 27], [43 / 18, 918413315302309 / 446151762551250],
        [[[361 / 525, 164 / 525], [533 / 654, 121 / 654], [937 / 1566, 629 / 1566]]]) :=
  ⟨by decide +kernel, by decide +kernel⟩

/-- Start with all weight on level 2, levels taken separately. -/
abbrev exBinTop : SmoothCfg ℚ := { exTop with tFix := 1 / 10 }

/-- C196 without `parents_all`. -/
def C196PlainClaim : Prop :=
  ∀ (forest : List (SkTree ℚ 1)) (cfg : SmoothCfg ℚ) (sources : TuneSrc → ℕ → List (TuneRow ℚ 1))
    (out : SmoothOut ℚ 1 (forestDepth forest + 1))
    (out' : SmoothOut ℚ 2 (forestDepth (forest.map binTree) + 1)),
    (∀ t ∈ forest, t.WF ∧ ∀ i, 0 < t.nSamp i) → cfg.noConstraint = false → cfg.adam = none →
    smooth (fun x => x) noCe (some .reg) forest cfg sources = .ok out →
    smooth (fun x => x) noCe (some .cls) (forest.map binTree) (binCfg cfg)
      (fun src i => (sources src i).map binRow) = .ok out' →
    List.ofFn out'.lamb1 = List.ofFn out.lamb1

/-- C196 needs `parents_all`: a leaf whose levels all have weight 0 is fitted with 0 for both classes, so
the two classes pull the weights differently from the 0/1 response. -/
theorem C196_plain_refuted : ¬ C196PlainClaim := by
  intro H
  have k1 : (match smooth (fun x => x) noCe (some .reg) [exShare] exBinTop exBinTune with
    | .ok out => some (List.ofFn out.lamb1) | .error _ => none) = some [5 / 27, 0, 481 / 540] := by
    decide +kernel
  have k2 : (match smooth (fun x => x) noCe (some .cls) ([exShare].map binTree) (binCfg exBinTop)
      (fun src i => (exBinTune src i).map binRow) with
    | .ok out => some (List.ofFn out.lamb1) | .error _ => none) = some [13 / 135, 0, 257 / 270] := by
    decide +kernel
  have := H [exShare] exBinTop exBinTune
  revert k1 k2 this
  generalize smooth (fun x => x) noCe (some .reg) [exShare] exBinTop exBinTune = x
  generalize smooth (fun x => x) noCe (some .cls) ([exShare].map binTree) (binCfg exBinTop)
      (fun src i => (exBinTune src i).map binRow) = x'
  intro k1 k2 this
  match x, x', k1, k2 with
  | .ok o, .ok o', k1, k2 =>
    have hh := this o o' (by decide +kernel) rfl rfl rfl rfl
    simp only [Option.some.injEq] at k1 k2
    rw [k1, k2] at hh
    revert hh
    norm_num

end SmoothRF
