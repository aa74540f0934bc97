import Verif.Proofs.Affine
import Verif.Props.AliveProps

/-!
# C113: change of units of the response
-/

set_option linter.unusedSectionVars false

namespace SmoothRF
open SkTree Topo

variable {K : Type} [Field K] [LinearOrder K] [IsStrictOrderedRing K] {k : ℕ}

/-- Row `r'` carries the data of row `r` for responses `a * y + b` (the response itself is only
compared where the weight is not zero). -/
structure AffRel (a b : K) (r r' : Row K k) : Prop where
  w : r'.w = r.w
  eta : r'.eta = r.eta
  tree : r'.tree = r.tree
  gam : ∀ j, r'.gam j = a * r.gam j + b * r.eta j
  y : r.w ≠ 0 → r'.y = a * r.y + b

variable {a b : K} {r r' : Row K k} {lamb : Fin k → K}

theorem AffRel.dotGam (h : AffRel a b r r') : dot r'.gam lamb = a * dot r.gam lamb + b * dot r.eta lamb := by
  simp only [dot, h.gam, Finset.mul_sum, ← Finset.sum_add_distrib]
  exact Finset.sum_congr rfl fun j _ => by ring

theorem AffRel.fill (h : AffRel a b r r') : etaFill r' lamb = etaFill r lamb := by
  simp only [etaFill, h.eta]

theorem AffRel.ratio (h : AffRel a b r r') (hd : dot r.eta lamb ≠ 0) :
    dot r'.gam lamb / etaFill r' lamb = a * (dot r.gam lamb / etaFill r lamb) + b := by
  rw [h.dotGam, h.fill, etaFill, if_neg hd]
  field_simp

theorem AffRel.res (h : AffRel a b r r') (hd : dot r.eta lamb ≠ 0) (hw : r.w ≠ 0) :
    residual r' lamb = a * residual r lamb := by
  rw [residual, h.ratio hd, h.y hw, residual]; ring

theorem AffRel.gradTerm (h : AffRel a b r r') (hd : dot r.eta lamb ≠ 0) (j : Fin k) :
    -2 * residual r' lamb * r'.w *
        (1 / etaFill r' lamb * r'.gam j - dot r'.gam lamb / etaFill r' lamb ^ 2 * r'.eta j) =
      a ^ 2 * (-2 * residual r lamb * r.w *
        (1 / etaFill r lamb * r.gam j - dot r.gam lamb / etaFill r lamb ^ 2 * r.eta j)) := by
  by_cases hw : r.w = 0
  · rw [h.w, hw]; ring
  · rw [h.res hd hw, h.w, h.dotGam, h.fill, h.gam, h.eta, etaFill, if_neg hd]
    field_simp
    ring

theorem AffRel.costTerm (h : AffRel a b r r') (hd : dot r.eta lamb ≠ 0) :
    residual r' lamb ^ 2 * r'.w = a ^ 2 * (residual r lamb ^ 2 * r.w) := by
  by_cases hw : r.w = 0
  · rw [h.w, hw]; ring
  · rw [h.res hd hw, h.w]; ring

theorem affRel_filter {rows rows' : List (Row K k)} (h : List.Forall₂ (AffRel a b) rows rows') (c : ℕ) :
    List.Forall₂ (AffRel a b) (rows.filter fun r => r.tree == c) (rows'.filter fun r => r.tree == c) := by
  induction h with
  | nil => exact .nil
  | cons h1 _ ih =>
    rw [List.filter_cons, List.filter_cons, h1.tree]
    split_ifs
    · exact .cons h1 ih
    · exact ih

theorem forall2_sum_mul {R : Row K k → Row K k → Prop} {rows rows' : List (Row K k)} (s : K)
    (f f' : Row K k → K) (h : List.Forall₂ R rows rows')
    (hf : ∀ r ∈ rows, ∀ r', R r r' → f' r' = s * f r) : (rows'.map f').sum = s * (rows.map f).sum := by
  induction h with
  | nil => simp
  | cons h1 _ ih =>
    simp only [List.map_cons, List.sum_cons]
    rw [ih fun r hr => hf r (by simp [hr]), hf _ (by simp) _ h1, mul_add]

theorem affRel_den {rows rows' : List (Row K k)} (h : List.Forall₂ (AffRel a b) rows rows')
    (hd : ∀ r ∈ rows, dot r.eta lamb ≠ 0) : ∀ r ∈ rows', dot r.eta lamb ≠ 0 := by
  induction h with
  | nil => simp
  | cons h1 _ ih =>
    intro r hr
    rcases List.mem_cons.1 hr with rfl | hr
    · rw [h1.eta]; exact hd _ (by simp)
    · exact ih (fun r hr => hd r (by simp [hr])) r hr

/-- C113, loss and gradient: at weights with non-zero denominators both are multiplied by `a²` when
the responses change from `y` to `a * y + b`. -/
theorem C113_loss {rows rows' : List (Row K k)} (h : List.Forall₂ (AffRel a b) rows rows')
    (hd : ∀ r ∈ rows, ∑ j, r.eta j * lamb j ≠ 0) :
    ∃ g c, takeGradient rows lamb = .ok g ∧ takeGradient rows' lamb = .ok (fun j => a ^ 2 * g j) ∧
      calcCost rows lamb = .ok c ∧ calcCost rows' lamb = .ok (a ^ 2 * c) := by
  have hA := fillAssert_of_ne _ _ hd
  have hA' := fillAssert_of_ne _ _ (affRel_den h hd)
  refine ⟨_, _, by rw [takeGradient, if_pos hA], ?_, by rw [calcCost, if_pos hA], ?_⟩
  · rw [takeGradient, if_pos hA']
    congr 1
    funext j
    exact forall2_sum_mul (a ^ 2) _ _ h fun r hr r' hr' => hr'.gradTerm (hd r hr) j
  · rw [calcCost, if_pos hA']
    congr 1
    exact forall2_sum_mul (a ^ 2) _ _ h fun r hr r' hr' => hr'.costTerm (hd r hr)

theorem sqrt_scale {sqrt : K → K} (hsq : ∀ x, 0 ≤ x → 0 ≤ sqrt x ∧ sqrt x ^ 2 = x) {s : K} (hs : 0 < s)
    (x : K) (hx : 0 ≤ x) : sqrt (s ^ 2 * x) = s * sqrt x := by
  have h1 := hsq (s ^ 2 * x) (by positivity)
  have h2 := hsq x hx
  have : sqrt (s ^ 2 * x) ^ 2 = (s * sqrt x) ^ 2 := by rw [h1.2, mul_pow, h2.2]
  exact (pow_left_inj₀ h1.1 (mul_nonneg hs.le h2.1) two_ne_zero).1 this

/-- C113, descent: if all denominators are non-zero at the start and at every point reached, the
descent on responses `a * y + b` with step `t / a²` (plain) or `eps * a²` (Adam) visits the same
weights and records `a²` times the costs. -/
theorem C113_descent (sqrt : K → K) (ha : a ≠ 0) {rows rows' : List (Row K k)}
    (h : List.Forall₂ (AffRel a b) rows rows') (o : SgdOpts K)
    (hsq : o.adam ≠ none → ∀ x, 0 ≤ x → 0 ≤ sqrt x ∧ sqrt x ^ 2 = x)
    (init : Fin k → K) (choices : List ℕ) (best last : Fin k → K) (costs : List K)
    (hd0 : ∀ r ∈ rows, ∑ j, r.eta j * init j ≠ 0)
    (hd : ∀ vs, Visits (fun c s => sgdMove sqrt takeGradient proxProject o rows c s.1 s.2) (init, none)
      choices vs → ∀ v ∈ vs, ∀ r ∈ rows, ∑ j, r.eta j * v.1 j ≠ 0)
    (hr : sgd sqrt o rows (List.ofFn init) choices = .ok (best, last, costs)) :
    sgd sqrt ⟨o.tFix / a ^ 2, o.constrained, o.adam.map fun A => { A with eps := a ^ 2 * A.eps }⟩ rows'
      (List.ofFn init) choices = .ok (best, last, costs.map (a ^ 2 * ·)) := by
  have hs : 0 < a ^ 2 := by positivity
  have hinit : (fun j : Fin k => (List.ofFn init)[j]'(by simp)) = init := by funext j; simp
  unfold sgd at hr ⊢
  rw [dif_pos (by simp)] at hr ⊢
  dsimp only at hr ⊢
  split_ifs at hr ⊢ with hf
  rw [hinit] at hr ⊢
  have hemp : rows'.isEmpty = rows.isEmpty := by cases h <;> rfl
  exact sgdRun_scale hs (fun hA x hx => sqrt_scale (hsq hA) hs x hx) hemp
    (fun l => ∀ r ∈ rows, ∑ j, r.eta j * l j ≠ 0)
    (fun l hl c g hg => by
      obtain ⟨g', -, h1, h2, -⟩ := C113_loss (affRel_filter h c)
        (fun r hr => hl r (List.mem_filter.1 hr).1)
      rw [hg] at h1; cases h1; exact h2)
    (fun l hl x hx => by
      obtain ⟨-, c', -, -, h1, h2⟩ := C113_loss h hl
      rw [hx] at h1; cases h1; exact h2)
    hd0 hd hr

/-! ### smooth -/

variable {C : ℕ}

theorem forestDepth_aff (a b : K) (forest : List (SkTree K C)) :
    forestDepth (forest.map (affTree a b)) = forestDepth forest := by
  unfold forestDepth
  rw [List.map_map]
  rfl

theorem leafListI_aff (a b : K) (forest : List (SkTree K C)) :
    leafListI (forest.map (affTree a b)) =
      (leafListI forest).map fun q => (⟨affTree a b q.1.1, q.1.2⟩, q.2) := by
  unfold leafListI
  rw [List.zipIdx_map, List.flatMap_map, List.map_flatMap]
  apply List.flatMap_congr
  intro tt _
  rw [List.map_map]
  rfl

theorem leafList_aff (a b : K) (forest : List (SkTree K C)) :
    leafList (forest.map (affTree a b)) = (leafList forest).map fun q => ⟨affTree a b q.1, q.2⟩ := by
  unfold leafList
  rw [List.flatMap_map, List.map_flatMap]
  apply List.flatMap_congr
  intro t _
  rw [List.map_map]
  rfl

theorem leafWeight_aff (a b : K) (rows : List (TuneRow K C)) (i : ℕ) :
    leafWeight (rows.map (affRow a b)) i = leafWeight rows i := by
  unfold leafWeight
  rw [List.filter_map, List.length_map]
  rfl

theorem leafMean_aff (a b : K) (rows : List (TuneRow K C)) (i : ℕ) (c : Fin C)
    (h : leafWeight rows i ≠ 0) :
    leafMean (rows.map (affRow a b)) i c = a * leafMean rows i c + b := by
  unfold leafMean
  rw [leafWeight_aff, if_neg h, List.filter_map, List.map_map]
  have e : ((rows.filter ((fun r => r.leaf == i) ∘ affRow a b)).map
      ((fun r : TuneRow K C => r.y c) ∘ affRow a b)).sum =
      a * ((rows.filter fun r => r.leaf == i).map fun r => r.y c).sum + b * leafWeight rows i := by
    unfold leafWeight
    have : (rows.filter ((fun r => r.leaf == i) ∘ affRow a b)) = rows.filter fun r => r.leaf == i := rfl
    rw [this]
    induction rows.filter fun r => r.leaf == i with
    | nil => simp
    | cons r l ih =>
      simp only [List.map_cons, List.sum_cons, List.length_cons, ih]
      simp only [Function.comp, affRow]
      push_cast
      ring
  rw [e]
  field_simp

theorem levelSum_aff (a b : K) (t : SkTree K C) (pa : Bool) (s : Style) (r : Fin t.nLeaves) (c : Fin C)
    (k : ℕ) : levelSum pa (t.distDepth s)
        (fun j => (affTree a b t).mass .reg ((affTree a b t).leafNode j) c) r k =
      a * levelSum pa (t.distDepth s) (fun j => t.mass .reg (t.leafNode j) c) r k +
        b * levelSum pa (t.distDepth s) (fun j => t.nSamp (t.leafNode j)) r k := by
  have e : ∀ j, (affTree a b t).mass .reg ((affTree a b t).leafNode j) c =
      a * t.mass .reg (t.leafNode j) c + b * t.nSamp (t.leafNode j) := by
    intro j
    show t.nSamp (t.leafNode j) * (a * t.value (t.leafNode j) c + b) =
      a * (t.nSamp (t.leafNode j) * t.value (t.leafNode j) c) + b * t.nSamp (t.leafNode j)
    ring
  have e' : (fun j : Fin t.nLeaves => (affTree a b t).mass .reg ((affTree a b t).leafNode j) c) =
      fun j : Fin t.nLeaves => a * t.mass .reg (t.leafNode j) c + b * t.nSamp (t.leafNode j) := funext e
  rw [e']
  unfold levelSum
  split_ifs <;> rw [Finset.sum_add_distrib, Finset.mul_sum, Finset.mul_sum]

theorem specRow_aff (a b : K) (s : Style) (pa al : Bool) (tune : ℕ → List (TuneRow K C)) (n : ℕ)
    (c : Fin C) (q : ((t : SkTree K C) × Fin t.nLeaves) × ℕ) :
    AffRel a b (specRow .reg s pa al tune n c q)
      (specRow .reg s pa al (fun i => (tune i).map (affRow a b)) n c (⟨affTree a b q.1.1, q.1.2⟩, q.2)) where
  w := leafWeight_aff a b _ _
  eta := rfl
  tree := rfl
  gam := fun k => levelSum_aff a b q.1.1 pa s q.1.2 c k
  y := fun h => leafMean_aff a b _ _ _ h

theorem specRows_aff (a b : K) (forest : List (SkTree K C)) (s : Style) (pa al : Bool)
    (tune : ℕ → List (TuneRow K C)) (n : ℕ) :
    List.Forall₂ (AffRel a b)
      ((List.finRange C).flatMap fun c => (leafListI forest).map (specRow .reg s pa al tune n c))
      ((List.finRange C).flatMap fun c => (leafListI (forest.map (affTree a b))).map
        (specRow .reg s pa al (fun i => (tune i).map (affRow a b)) n c)) := by
  rw [leafListI_aff]
  induction List.finRange C with
  | nil => exact .nil
  | cons c cs ih =>
    rw [List.flatMap_cons, List.flatMap_cons]
    refine List.rel_append ?_ ih
    rw [List.map_map, List.forall₂_map_left_iff, List.forall₂_map_right_iff]
    exact List.forall₂_same.2 fun q _ => specRow_aff a b s pa al tune n c q

/-- The optimisation stage in the new units. -/
theorem optimise_aff (ha : a ≠ 0) {sqrt : K → K}
    {ce : (n : ℕ) → SgdOpts K → K → List (Row K n) → List K → List ℕ →
      Except PyErr ((Fin n → K) × (Fin n → K) × List K)}
    {cfg : SmoothCfg K} (hc : cfg.noConstraint = false) (had : cfg.adam = none) {n n' : ℕ} (e : n' = n)
    {rows : List (Row K n)} {rows' : (m : ℕ) → List (Row K m)}
    (hrows : List.Forall₂ (AffRel a b) rows (rows' n))
    (hden : ∀ l, Alive l → ∀ r ∈ rows, ∑ j, r.eta j * l j ≠ 0) {lamb l1 l2 : Fin n → K} {cs : List K}
    (hl : Alive lamb) (h : smoothOptimise sqrt (ce n) .reg cfg rows lamb = .ok (l1, l2, cs)) :
    smoothOptimise sqrt (ce n') .reg { cfg with tFix := cfg.tFix / a ^ 2 } (rows' n')
      (fun j => lamb (Fin.cast e j)) =
      .ok (fun j => l1 (Fin.cast e j), fun j => l2 (Fin.cast e j), cs.map (a ^ 2 * ·)) := by
  subst e
  unfold smoothOptimise at h ⊢
  by_cases hsan : cfg.sanityCheck = true
  · rw [if_pos hsan] at h ⊢
    cases h
    rfl
  · rw [if_neg hsan] at h ⊢
    simp only [true_or, if_true] at h ⊢
    have := C113_descent sqrt ha hrows _ (fun hA => absurd had hA) lamb cfg.steps l1 l2 cs (hden _ hl) (fun vs hv v hvm => by
      have := visits_inv (fun s : (Fin n' → K) × Option (Iv K n') => Alive s.1)
        (fun c s s' hs hm => plain_alive (o := ⟨cfg.tFix, !cfg.noConstraint, cfg.adam⟩) had (by simp [hc]) hs hm) hv hl
      exact hden _ (this v hvm)) h
    rw [had] at this ⊢
    exact this

theorem smoothSpec_aff (a b : K) (t : SkTree K C) (s : Style) (pa : Bool) {n : ℕ} (lamb : Fin n → K)
    (r : Fin t.nLeaves) (c : Fin C) (hd : smoothDen t s pa lamb r ≠ 0) :
    smoothSpec .reg (affTree a b t) s pa lamb r c = a * smoothSpec .reg t s pa lamb r c + b := by
  have h1 : smoothDen (affTree a b t) s pa lamb r = smoothDen t s pa lamb r := rfl
  have h2 : smoothNum .reg (affTree a b t) s pa lamb r c =
      a * smoothNum .reg t s pa lamb r c + b * smoothDen t s pa lamb r := by
    unfold smoothNum smoothDen
    rw [Finset.mul_sum, Finset.mul_sum, ← Finset.sum_add_distrib]
    refine Finset.sum_congr rfl fun k _ => ?_
    have := levelSum_aff a b t pa s r c k
    rw [show levelSum pa ((affTree a b t).distDepth s)
      (fun j => (affTree a b t).mass .reg ((affTree a b t).leafNode j) c) r k = _ from this]
    ring
  unfold smoothSpec
  rw [h1, if_neg hd, if_neg hd, h2]
  field_simp

theorem smoothSpec_cast (a b : K) (t : SkTree K C) (s : Style) (pa : Bool) {n n' : ℕ} (e : n' = n)
    (lamb : Fin n → K) (r : Fin t.nLeaves) (c : Fin C) (hd : smoothDen t s pa lamb r ≠ 0) :
    smoothSpec .reg (affTree a b t) s pa (fun j => lamb (Fin.cast e j)) r c =
      a * smoothSpec .reg t s pa lamb r c + b := by
  subst e
  exact smoothSpec_aff a b t s pa lamb r c hd

theorem leafUpdate_aff (a b : K) {t t1 t2 : SkTree K C} {f1 f2 : Fin t.nLeaves → Fin C → K}
    (h1 : LeafUpdate t t1 f1) (h2 : LeafUpdate (affTree a b t) t2 f2)
    (hf : ∀ r c, f2 r c = a * f1 r c + b) : t2 = affTree a b t1 := by
  obtain ⟨v1, rfl, hl1, hn1⟩ := h1
  obtain ⟨v2, rfl, hl2, hn2⟩ := h2
  have : v2 = fun i c => a * v1 i c + b := by
    funext i c
    by_cases hi : t.IsLeaf i
    · obtain ⟨r, rfl⟩ := exists_leafNode (t := t.toTopo) (i := i) (by
        cases hh : t.right i with
        | none => rfl
        | some c => exact absurd (Or.inr hh) (hi c))
      rw [hl1]
      have := hl2 r c
      rw [hf] at this
      exact this
    · rw [hn1 i c hi]
      exact hn2 i c hi
  subst this
  rfl

theorem forall2_aff {P : SkTree K C → SkTree K C → Prop} {Q : SkTree K C → SkTree K C → Prop}
    {forest rf rf' : List (SkTree K C)} (h1 : List.Forall₂ P forest rf)
    (h2 : List.Forall₂ Q (forest.map (affTree a b)) rf')
    (h : ∀ t ∈ forest, ∀ t1 t2, P t t1 → Q (affTree a b t) t2 → t2 = affTree a b t1) :
    rf' = rf.map (affTree a b) := by
  induction h1 generalizing rf' with
  | nil => cases h2; rfl
  | cons hp _ ih =>
    rw [List.map_cons] at h2
    obtain ⟨t2, rf2, hq, h3, rfl⟩ := List.forall₂_cons_left_iff.1 h2
    rw [List.map_cons, h _ (by simp) _ _ hp hq, ih h3 fun t ht => h t (by simp [ht])]

theorem initLamb_cast_reg {n n' : ℕ} (e : n' + 1 = n + 1) {seed : Option (ℕ → K)} {eps : K} {l : Fin (n + 1) → K}
    (h : initLamb (n := n) .reg seed eps = .ok l) :
    initLamb (n := n') .reg seed eps = .ok fun j => l (Fin.cast e j) := by
  obtain rfl : n' = n := by omega
  exact h

/-- C113: constrained plain smoothing of a regression forest (`parents_all`, positive leaf weights,
default or non-negative random start) commutes with a change of units of the response: fitted to `a * y + b` and tuned on
`a * y + b` with step size `t / a²`, `smooth` returns the same weights, `a²` times the costs, and the
same two forests with every value `v` replaced by `a * v + b`. -/
theorem C113_smooth_units (hC : 0 < C) (ha : a ≠ 0) {sqrt : K → K}
    {ce : (n : ℕ) → SgdOpts K → K → List (Row K n) → List K → List ℕ →
      Except PyErr ((Fin n → K) × (Fin n → K) × List K)}
    {forest : List (SkTree K C)} (hwf : ∀ t ∈ forest, t.WF)
    (hn : ∀ t ∈ forest, ∀ r, 0 < t.nSamp (t.leafNode r))
    {cfg : SmoothCfg K} {sources : TuneSrc → ℕ → List (TuneRow K C)}
    {out : SmoothOut K C (forestDepth forest + 1)}
    (h : smooth sqrt ce (some .reg) forest cfg sources = .ok out) (hc : cfg.noConstraint = false)
    (had : cfg.adam = none) (hs : ∀ u, cfg.seed = some u → ∀ i, 0 ≤ u i) (hpa : cfg.parentsAll = true) :
    ∃ out', smooth sqrt ce (some .reg) (forest.map (affTree a b))
        { cfg with tFix := cfg.tFix / a ^ 2 } (fun src i => (sources src i).map (affRow a b)) = .ok out' ∧
      out'.rf1 = out.rf1.map (affTree a b) ∧ out'.rf2 = out.rf2.map (affTree a b) ∧
      List.ofFn out'.lamb1 = List.ofFn out.lamb1 ∧ List.ofFn out'.lamb2 = List.ofFn out.lamb2 ∧
      out'.costs = out.costs.map (a ^ 2 * ·) := by
  have hwf' : ∀ t ∈ forest.map (affTree a b), t.WF := by
    intro t ht
    obtain ⟨t0, h0, rfl⟩ := List.mem_map.1 ht
    exact hwf t0 h0
  have hal := smooth_alive h hc had hs
  have hf := smooth_forests hC hwf h
  obtain ⟨kind', src, yw, lamb, h0, h1, h2, h3, h4, -, -⟩ := smooth_ok h
  cases h0
  rw [tuneSummaries_eq] at h2
  split at h2
  · cases h2
  rename_i hd
  cases h2
  rw [flatRows_eq .reg forest hwf] at h4
  have hden : ∀ l : Fin (forestDepth forest + 1) → K, Alive l → ∀ r ∈ (List.finRange C).flatMap fun c =>
      (leafListI forest).map (specRow .reg cfg.style cfg.parentsAll cfg.allTrees (sources src)
        (forestDepth forest + 1) c), ∑ j, r.eta j * l j ≠ 0 := by
    intro l hl r hr
    obtain ⟨c, -, hr⟩ := List.mem_flatMap.1 hr
    obtain ⟨q, hq, rfl⟩ := List.mem_map.1 hr
    have hqf : q.1.1 ∈ forest := by
      unfold leafListI at hq
      obtain ⟨tt, htt, hq⟩ := List.mem_flatMap.1 hq
      obtain ⟨r, -, rfl⟩ := List.mem_map.1 hq
      exact List.fst_mem_of_mem_zipIdx htt
    have := smoothDen_alive (hwf _ hqf) (hn _ hqf) cfg.style hl q.1.2
    rw [hpa]
    exact this.ne'
  have e : forestDepth (forest.map (affTree a b)) + 1 = forestDepth forest + 1 := by
    rw [forestDepth_aff]
  have hal0 : Alive lamb := start_alive hs h3
  have hopt := optimise_aff (b := b) ha hc had e (ce := ce)
    (rows' := fun m => (List.finRange C).flatMap fun c => (leafListI (forest.map (affTree a b))).map
        (specRow .reg cfg.style cfg.parentsAll cfg.allTrees (fun i => (sources src i).map (affRow a b)) m c))
    (specRows_aff a b forest cfg.style cfg.parentsAll cfg.allTrees (sources src) _) hden hal0 h4
  rw [← flatRows_eq .reg _ hwf'] at hopt
  obtain ⟨out', ho, ho1, ho2, ho3⟩ := smooth_returns hC hwf'
    (cfg := { cfg with tFix := cfg.tFix / a ^ 2 })
    (sources := fun src i => (sources src i).map (affRow a b)) (src := src) h1
    (by rw [tuneSummaries_eq, if_neg (by
      rintro (⟨tt, htt, h⟩ | ⟨h, -⟩)
      · rw [List.zipIdx_map] at htt
        obtain ⟨q, hq, rfl⟩ := List.mem_map.1 htt
        exact hd (.inl ⟨q, hq, List.map_eq_nil_iff.1 h⟩)
      · simp at h)]) (initLamb_cast_reg e h3) hopt
  have hf' := smooth_forests hC hwf' ho
  have hofn : ∀ l : Fin (forestDepth forest + 1) → K,
      List.ofFn (fun j : Fin (forestDepth (forest.map (affTree a b)) + 1) => l (Fin.cast e j)) = List.ofFn l := by
    intro l
    refine List.ext_getElem (by rw [List.length_ofFn, List.length_ofFn, e]) fun i h1 h2 => ?_
    rw [List.getElem_ofFn, List.getElem_ofFn]
    rfl
  refine ⟨out', ho, ?_, ?_, by rw [ho1, hofn], by rw [ho2, hofn], ho3⟩
  · refine forall2_aff hf.1 hf'.1 fun t ht t1 t2 p1 p2 => leafUpdate_aff a b p1 p2 fun r c => ?_
    rw [ho1]
    exact smoothSpec_cast a b t _ _ e _ r c (hpa ▸ (smoothDen_alive (hwf t ht) (hn t ht) _ hal.1 r).ne')
  · refine forall2_aff hf.2 hf'.2 fun t ht t1 t2 p1 p2 => leafUpdate_aff a b p1 p2 fun r c => ?_
    rw [leafList_aff, List.getElem?_map]
    have hlt : r.val < (leafList forest).length := lt_of_lt_of_le r.isLt (nLeaves_le_leafList ht)
    have hg : (leafList forest)[r.val]? = some ((leafList forest)[r.val]) := List.getElem?_eq_getElem hlt
    have hm : ((leafList forest)[r.val]).1 ∈ forest := by
      obtain ⟨t', ht', hr'⟩ := List.mem_flatMap.1 (show (leafList forest)[r.val] ∈
        forest.flatMap fun t => (List.finRange t.nLeaves).map fun r => ⟨t, r⟩ from List.getElem_mem hlt)
      obtain ⟨r', -, e'⟩ := List.mem_map.1 hr'
      exact e' ▸ ht'
    rw [hg]
    simp only [Option.map_some, Option.elim_some]
    rw [ho2]
    exact smoothSpec_cast a b _ _ _ e _ _ c (hpa ▸ (smoothDen_alive (hwf _ hm) (hn _ hm) _ hal.2 _).ne')

/-- Instance of C113: values and responses `v` become `2 v + 100`; two steps. -/
example :
    (match smooth (fun x => x) noCe (some .reg) [exTree]
      { exCfg with sanityCheck := false, parentsAll := true, steps := [0, 0] } (fun _ => exTune) with
    | .ok out => some (List.ofFn out.lamb1, List.ofFn out.lamb2, out.costs,
        out.rf2.map fun t : SkTree ℚ 1 => List.ofFn fun i => t.value i 0)
    | .error _ => none) =
      some ([1, 0, 0], [0, 0, 32090 / 657], [11 / 2, 89 / 4, 89 / 4],
        [[13 / 2, 3, 13 / 2, 13 / 2, 13 / 2]]) ∧
    (match smooth (fun x => x) noCe (some .reg) [affTree 2 100 exTree]
      { exCfg with sanityCheck := false, parentsAll := true, steps := [0, 0], tFix := exCfg.tFix / 2 ^ 2 }
        (fun _ i => (exTune i).map (affRow 2 100)) with
    | .ok out => some (List.ofFn out.lamb1, List.ofFn out.lamb2, out.costs,
        out.rf2.map fun t : SkTree ℚ 1 => List.ofFn fun i => t.value i 0)
    | .error _ => none) =
      some ([1, 0, 0], [0, 0, 32090 / 657], [22, 89, 89], [[113, 106, 113, 113, 113]]) :=
  ⟨by decide +kernel, by decide +kernel⟩

end SmoothRF
