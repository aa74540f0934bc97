import Verif.Props.RepeatProps
import Verif.Props.CleanOrderProps
import Verif.Props.SmoothImpProps

/-!
# C224: repeated observations in `smooth_clean` and repeated tuning data with the impurity distance
-/

set_option linter.unusedSectionVars false

namespace SmoothRF
open SkTree Topo

variable {K : Type} [Field K] [LinearOrder K] [IsStrictOrderedRing K]

/-- Through `σ`, `l'` lists every entry of `l`, counted with multiplicity, `m` times. -/
def ListsTimes (m : ℕ) (σ : ℕ → ℕ) (l l' : List ℕ) : Prop := (l'.map σ).Perm (List.replicate m l).flatten

namespace ListsTimes
variable {m : ℕ} {σ : ℕ → ℕ} {l l' : List ℕ}

theorem sum (h : ListsTimes m σ l l') (p : ℕ → Bool) (f : ℕ → K) :
    ((l'.filter (p ∘ σ)).map (f ∘ σ)).sum = m * ((l.filter p).map f).sum := by
  have e : (l'.filter (p ∘ σ)).map (f ∘ σ) = ((l'.map σ).filter p).map f := by
    rw [List.filter_map, List.map_map]
  rw [e, ((h.filter p).map f).sum_eq]
  clear h e
  induction m with
  | zero => simp
  | succ m ih =>
    rw [List.replicate_succ, List.flatten_cons, List.filter_append, List.map_append, List.sum_append, ih]
    push_cast
    ring

theorem length (h : ListsTimes m σ l l') (p : ℕ → Bool) : (l'.filter (p ∘ σ)).length = m * (l.filter p).length := by
  have := h.sum (K := ℚ) p fun _ => 1
  simp only [Function.comp_def, List.map_const', List.sum_replicate, nsmul_eq_mul, mul_one] at this
  exact_mod_cast this

theorem mem (h : ListsTimes m σ l l') (hm : 0 < m) {i : ℕ} : i ∈ l ↔ ∃ j ∈ l', σ j = i := by
  have := h.mem_iff (a := i)
  rw [List.mem_map, List.mem_flatten] at this
  rw [this]
  constructor
  · exact fun hi => ⟨l, List.mem_replicate.2 ⟨hm.ne', rfl⟩, hi⟩
  · rintro ⟨x, hx, hi⟩
    rwa [List.eq_of_mem_replicate hx] at hi

end ListsTimes

/-- `d'` holds the arrays of `d` for observations repeated `m` times; observation `i` of `d'` is a copy of
observation `σ i`. -/
structure CleanCopies {k : ℕ} (m n n' : ℕ) (σ : ℕ → ℕ) (d d' : CleanData K k) (y y' : List K)
    (g h g' h' : ℕ → ℕ → Fin k → K) (w w' : ℕ → ℕ → K) : Prop where
  pos : 0 < m
  view : CleanView d n g h w
  view' : CleanView d' n' g' h' w'
  trees : d'.nTrees = d.nTrees
  obs : ListsTimes m σ (List.range n) (List.range n')
  num : ∀ i < n', ∀ t < d.nTrees, g' i t = g (σ i) t
  den : ∀ i < n', ∀ t < d.nTrees, h' i t = h (σ i) t
  wt : ∀ i < n', ∀ t < d.nTrees, w' i t = w (σ i) t
  len : y.length = n
  len' : y'.length = n'
  resp : ∀ i < n', y'[i]? = y[σ i]?

namespace CleanCopies
open CleanIso

variable {k m n n' : ℕ} {σ : ℕ → ℕ} {d d' : CleanData K k} {y y' : List K} {g h g' h' : ℕ → ℕ → Fin k → K}
  {w w' : ℕ → ℕ → K}

theorem pred_eq (I : CleanCopies m n n' σ d d' y y' g h g' h' w w') (lamb : Fin k → K) {i : ℕ} (hi : i < n') :
    pred g' h' w' d.nTrees lamb i = pred g h w d.nTrees lamb (σ i) := by
  unfold pred
  refine Finset.sum_congr rfl fun t ht => ?_
  have ht := Finset.mem_range.1 ht
  rw [I.num i hi t ht, I.den i hi t ht, I.wt i hi t ht]

theorem slope_eq (I : CleanCopies m n n' σ d d' y y' g h g' h' w w') (lamb : Fin k → K) {i : ℕ} (hi : i < n')
    (j : Fin k) : slope g' h' w' d.nTrees lamb i j = slope g h w d.nTrees lamb (σ i) j := by
  unfold CleanIso.slope
  congr 1 <;>
  · refine Finset.sum_congr rfl fun t ht => ?_
    have ht := Finset.mem_range.1 ht
    simp only [I.num i hi t ht, I.den i hi t ht, I.wt i hi t ht]

theorem ever_eq (I : CleanCopies m n n' σ d d' y y' g h g' h' w w') {i : ℕ} (hi : i < n') :
    ∑ t ∈ Finset.range d.nTrees, w' i t = ∑ t ∈ Finset.range d.nTrees, w (σ i) t :=
  Finset.sum_congr rfl fun t ht => I.wt i hi t (Finset.mem_range.1 ht)

theorem sigma_lt (I : CleanCopies m n n' σ d d' y y' g h g' h' w w') {i : ℕ} (hi : i < n') : σ i < n :=
  List.mem_range.1 ((I.obs.mem I.pos).2 ⟨i, List.mem_range.2 hi, rfl⟩)

theorem count (I : CleanCopies m n n' σ d d' y y' g h g' h' w w') : n' = m * n := by
  have := I.obs.length fun _ => true
  simpa [Function.comp_def] using this

theorem obs_lt (I : CleanCopies m n n' σ d d' y y' g h g' h' w w') {obs obs' : List ℕ} (ho : ∀ i ∈ obs', i < n')
    (hp : ListsTimes m σ obs obs') : ∀ i ∈ obs, i < n := fun i hi => by
  obtain ⟨j, hj, rfl⟩ := (hp.mem I.pos).1 hi
  exact I.sigma_lt (ho j hj)

theorem infinite_iff (I : CleanCopies m n n' σ d d' y y' g h g' h' w w') (lamb : Fin k → K) {obs obs' : List ℕ}
    (ho : ∀ i ∈ obs', i < n') (hp : ListsTimes m σ obs obs') :
    Infinite g' h' d.nTrees lamb obs' ↔ Infinite g h d.nTrees lamb obs := by
  unfold CleanIso.Infinite
  constructor
  · rintro ⟨i, hi, t, ht, h0⟩
    rw [I.num i (ho i hi) t ht, I.den i (ho i hi) t ht] at h0
    exact ⟨σ i, (hp.mem I.pos).2 ⟨i, hi, rfl⟩, t, ht, h0⟩
  · rintro ⟨i, hi, t, ht, h0⟩
    obtain ⟨j, hj, rfl⟩ := (hp.mem I.pos).1 hi
    rw [← I.num j (ho j hj) t ht, ← I.den j (ho j hj) t ht] at h0
    exact ⟨j, hj, t, ht, h0⟩

theorem resp_lt {n : ℕ} {y : List K} (hy : y.length = n) {obs : List ℕ} (ho : ∀ i ∈ obs, i < n) :
    ∀ i ∈ obs, y[i]? = some (y.getD i 0) := fun i hi => by
  rw [List.getD_eq_getElem?_getD, List.getElem?_eq_getElem (by rw [hy]; exact ho i hi)]
  rfl

theorem filter_ever (I : CleanCopies m n n' σ d d' y y' g h g' h' w w') {obs' : List ℕ} (ho : ∀ i ∈ obs', i < n') :
    (obs'.filter fun i => decide (∑ t ∈ Finset.range d.nTrees, w' i t = 1)) =
      obs'.filter ((fun i => decide (∑ t ∈ Finset.range d.nTrees, w i t = 1)) ∘ σ) :=
  List.filter_congr fun i hi => by simp only [Function.comp, I.ever_eq (ho i hi)]

theorem cost (I : CleanCopies m n n' σ d d' y y' g h g' h' w w') (lamb : Fin k → K) {obs obs' : List ℕ}
    (ho : ∀ i ∈ obs', i < n') (hp : ListsTimes m σ obs obs') :
    cleanCost d' y' lamb obs' = cleanCost d y lamb obs := by
  have h1 := calcYOob_view I.view rfl lamb (I.obs_lt ho hp)
  have h2 := calcYOob_view I.view' I.trees lamb ho
  have hm : (m : K) ≠ 0 := Nat.cast_ne_zero.2 I.pos.ne'
  by_cases hb : Infinite g h d.nTrees lamb obs
  · unfold cleanCost
    rw [h1.1 hb, h2.1 ((I.infinite_iff lamb ho hp).2 hb)]
    rfl
  · have e1 := C76_cost (resp_lt I.len (I.obs_lt ho hp)) (h1.2 hb)
    have e2 := C76_cost (resp_lt I.len' ho) (h2.2 fun hh => hb ((I.infinite_iff lamb ho hp).1 hh))
    have hl := hp.length fun i => decide (∑ t ∈ Finset.range d.nTrees, w i t = 1)
    rw [e1, e2, I.filter_ever ho, hl]
    have h0 : (obs'.filter ((fun i => decide (∑ t ∈ Finset.range d.nTrees, w i t = 1)) ∘ σ) = []) ↔
        ((obs.filter fun i => decide (∑ t ∈ Finset.range d.nTrees, w i t = 1)) = []) := by
      rw [← List.length_eq_zero_iff, hl, ← List.length_eq_zero_iff, Nat.mul_eq_zero]
      exact or_iff_right I.pos.ne'
    simp only [h0]
    split_ifs
    · rfl
    · have es : ((obs'.filter ((fun i => decide (∑ t ∈ Finset.range d.nTrees, w i t = 1)) ∘ σ)).map fun i =>
          (pred g' h' w' d.nTrees lamb i - y'.getD i 0) ^ 2) =
          (obs'.filter ((fun i => decide (∑ t ∈ Finset.range d.nTrees, w i t = 1)) ∘ σ)).map
            ((fun i => (pred g h w d.nTrees lamb i - y.getD i 0) ^ 2) ∘ σ) := by
        refine List.map_congr_left fun i hi => ?_
        have hi := ho i (List.mem_of_mem_filter hi)
        simp only [Function.comp, I.pred_eq lamb hi, List.getD_eq_getElem?_getD, I.resp i hi]
      rw [es, hp.sum]
      push_cast
      rw [mul_div_mul_left _ _ hm]

theorem grad (I : CleanCopies m n n' σ d d' y y' g h g' h' w w') (lamb : Fin k → K) {obs obs' : List ℕ}
    (ho : ∀ i ∈ obs', i < n') (hp : ListsTimes m σ obs obs') :
    calcL2Grad d' y' lamb obs' = calcL2Grad d y lamb obs := by
  have ho1 := I.obs_lt ho hp
  have h1 := calcYOob_view I.view rfl lamb ho1
  have h2 := calcYOob_view I.view' I.trees lamb ho
  have hm : (m : K) ≠ 0 := Nat.cast_ne_zero.2 I.pos.ne'
  by_cases hb : Infinite g h d.nTrees lamb obs
  · unfold calcL2Grad
    rw [h1.1 hb, h2.1 ((I.infinite_iff lamb ho hp).2 hb),
      mapM_ok obs (pyGet y) _ fun i hi => pyGet_some (resp_lt I.len ho1 i hi),
      mapM_ok obs' (pyGet y') _ fun i hi => pyGet_some (resp_lt I.len' ho i hi)]
    rfl
  · have g1 := calcYOobGrad_eq I.view lamb obs ho1
    have g2 := calcYOobGrad_eq I.view' lamb obs' ho
    rw [I.trees] at g2
    have e1 := C76_l2_grad (resp_lt I.len ho1) (h1.2 hb) g1
    have e2 := C76_l2_grad (resp_lt I.len' ho) (h2.2 fun hh => hb ((I.infinite_iff lamb ho hp).1 hh)) g2
    have hl := hp.length fun i => decide (∑ t ∈ Finset.range d.nTrees, w i t = 1)
    have h0 : (obs'.filter ((fun i => decide (∑ t ∈ Finset.range d.nTrees, w i t = 1)) ∘ σ) = []) ↔
        ((obs.filter fun i => decide (∑ t ∈ Finset.range d.nTrees, w i t = 1)) = []) := by
      rw [← List.length_eq_zero_iff, hl, ← List.length_eq_zero_iff, Nat.mul_eq_zero]
      exact or_iff_right I.pos.ne'
    rw [e1, e2, I.filter_ever ho, hl]
    simp only [h0]
    split_ifs with hz
    · rfl
    · congr 1
      funext j
      have es : (obs'.map fun i => (pred g' h' w' d.nTrees lamb i - y'.getD i 0) * slope g' h' w' d.nTrees lamb i j) =
          obs'.map ((fun i => (pred g h w d.nTrees lamb i - y.getD i 0) * slope g h w d.nTrees lamb i j) ∘ σ) := by
        refine List.map_congr_left fun i hi => ?_
        have hi := ho i hi
        simp only [Function.comp, I.pred_eq lamb hi, I.slope_eq lamb hi, List.getD_eq_getElem?_getD, I.resp i hi]
      have hs := hp.sum (fun _ => true)
        fun i => (pred g h w d.nTrees lamb i - y.getD i 0) * slope g h w d.nTrees lamb i j
      rw [show ((fun _ => true) ∘ σ : ℕ → Bool) = fun _ => true from rfl, List.filter_true, List.filter_true, ← es] at hs
      unfold CleanIso.slope at hs
      rw [hs]
      push_cast
      have hz' : ((obs.filter fun i => decide (∑ t ∈ Finset.range d.nTrees, w i t = 1)).length : K) ≠ 0 :=
        Nat.cast_ne_zero.2 fun e => hz (List.length_eq_zero_iff.1 e)
      field_simp

variable {sqrt : K → K} {approxOne : K → Bool}

theorem step (I : CleanCopies m n n' σ d d' y y' g h g' h' w w') (o : CleanOpts K) (s : CleanState K k)
    {obs obs' : List ℕ} (ho : ∀ i ∈ obs', i < n') (hp : ListsTimes m σ obs obs') :
    cleanStep sqrt d' y' { o with nObs := m * o.nObs } s obs' = cleanStep sqrt d y o s obs := by
  have hall : ∀ lamb, cleanCost d' y' lamb (List.range n') = cleanCost d y lamb (List.range n) := fun lamb =>
    I.cost lamb (fun i hi => List.mem_range.1 hi) I.obs
  have hc : ∀ lamb, cleanCost d' y' lamb obs' = cleanCost d y lamb obs := fun lamb => I.cost lamb ho hp
  have hg : (fun lamb => calcL2Grad d' y' lamb obs') = fun lamb => calcL2Grad d y lamb obs :=
    funext fun lamb => I.grad lamb ho hp
  have hg' : ∀ lamb, calcL2Grad d' y' lamb obs' = calcL2Grad d y lamb obs := fun lamb => I.grad lamb ho hp
  unfold cleanStep
  have h1 : cleanStart d' y' { o with nObs := m * o.nObs } obs' s = cleanStart d y o obs s := by
    unfold cleanStart
    rw [I.view.len, I.view'.len, hall, hc]
  have h2 : ∀ lamb iv, cleanMove sqrt d' y' { o with nObs := m * o.nObs } obs' lamb iv =
      cleanMove sqrt d y o obs lamb iv := by
    intro lamb iv
    have : cleanPre sqrt d' y' { o with nObs := m * o.nObs } obs' lamb iv = cleanPre sqrt d y o obs lamb iv := by
      unfold cleanPre
      rw [hg, hg']
    unfold cleanMove
    rw [this]
  have h3 : ∀ s lamb iv, cleanRecord d' y' { o with nObs := m * o.nObs } obs' s lamb iv =
      cleanRecord d y o obs s lamb iv := by
    intro s lamb iv
    unfold cleanRecord
    rw [I.view.len, I.view'.len, hall, hc]
  rw [I.view.len, I.view'.len, h1, I.count]
  simp only [h2, h3, Nat.mul_lt_mul_left I.pos]

theorem sgd (I : CleanCopies m n n' σ d d' y y' g h g' h' w w') (o : CleanOpts K) (lamb : Fin k → K)
    {choices choices' : List (List ℕ)} (ho : ∀ obs ∈ choices', ∀ i ∈ obs, i < n')
    (hp : List.Forall₂ (ListsTimes m σ) choices choices') :
    sgdClean sqrt approxOne d' y' { o with nObs := m * o.nObs } lamb choices' =
      sgdClean sqrt approxOne d y o lamb choices := by
  have : ∀ s, choices'.foldlM (cleanStep sqrt d' y' { o with nObs := m * o.nObs }) s =
      choices.foldlM (cleanStep sqrt d y o) s := by
    induction hp with
    | nil => exact fun _ => rfl
    | cons hab _ ih =>
      intro s
      rw [List.foldlM_cons, List.foldlM_cons, I.step o s (ho _ (by simp)) hab]
      have := ih fun obs h => ho obs (by simp [h])
      simp only [this]
  unfold sgdClean
  rw [this]

end CleanCopies

theorem cleanLamb_copies {p m n n' : ℕ} {σ : ℕ → ℕ} {d d' : CleanData K (p + 1)} {y y' : List K}
    {g h g' h' : ℕ → ℕ → Fin (p + 1) → K} {w w' : ℕ → ℕ → K} {sqrt : K → K} {approxOne : K → Bool}
    (I : CleanCopies m n n' σ d d' y y' g h g' h' w w') (cfg : CleanCfg K) {choices choices' : List (List ℕ)}
    (ho : ∀ obs ∈ choices', ∀ i ∈ obs, i < n') (hp : List.Forall₂ (ListsTimes m σ) choices choices') :
    cleanLamb sqrt approxOne d' y' { cfg with nObs := m * cfg.nObs } choices' =
      cleanLamb sqrt approxOne d y cfg choices := by
  unfold cleanLamb
  have e : ∀ lamb, sgdClean sqrt approxOne d' y'
      { nObs := if cfg.allObs then y'.length else m * cfg.nObs, useFullLoss := cfg.allObs || cfg.useFullLoss
        tFix := cfg.tFix, noConstraint := cfg.noConstraint, adam := cfg.adam } lamb choices' =
      sgdClean sqrt approxOne d y
      { nObs := if cfg.allObs then y.length else cfg.nObs, useFullLoss := cfg.allObs || cfg.useFullLoss
        tFix := cfg.tFix, noConstraint := cfg.noConstraint, adam := cfg.adam } lamb choices := by
    intro lamb
    rw [← I.sgd _ lamb ho hp]
    congr 2
    split_ifs
    · rw [I.len', I.len, I.count]
    · rfl
  have hl : y'.length = 0 ↔ y.length = 0 := by
    rw [I.len', I.len, I.count, Nat.mul_eq_zero]
    exact or_iff_right I.pos.ne'
  simp only [hl, e]

/-- Observation `i` of the second data set is a copy of observation `σ i` of the first, every observation has
`m` copies: same response, same leaves, out of bag for the same of the `T` trees. -/
structure Copied (m T : ℕ) (σ : ℕ → ℕ) (y y' : List K) (leafOf leafOf' : ℕ → ℕ → ℕ) (uns uns' : ℕ → List ℕ) :
    Prop where
  times : ListsTimes m σ (List.range y.length) (List.range y'.length)
  resp : ∀ i < y'.length, y'[i]? = y[σ i]?
  leaf : ∀ t < T, ∀ i < y'.length, leafOf' t i = leafOf t (σ i)
  oob : ∀ t < T, ∀ i < y'.length, i ∈ uns' t ↔ σ i ∈ uns t

section
variable {sqrt : K → K} {approxOne : K → Bool} {forest : List (SkTree K 1)} {y y' : List K}
  {leafOf leafOf' : ℕ → ℕ → ℕ} {uns uns' : ℕ → List ℕ} {m : ℕ} {σ : ℕ → ℕ} {cfg : CleanCfg K}
  {choices choices' : List (List ℕ)}

theorem Copied.copies {p : ℕ} {d d' : CleanData K (p + 1)} {G H : ℕ → ℕ → Fin (p + 1) → K} (hm : 0 < m)
    (F : Copied m forest.length σ y y' leafOf leafOf' uns uns') (ht : d.nTrees = forest.length)
    (ht' : d'.nTrees = forest.length)
    (V : CleanView d y.length (fun i t => G t (leafOf t i)) (fun i t => H t (leafOf t i))
      (fun i t => if i ∈ uns t then 1 / ((oobTrees forest.length uns i).card : K) else 0))
    (V' : CleanView d' y'.length (fun i t => G t (leafOf' t i)) (fun i t => H t (leafOf' t i))
      (fun i t => if i ∈ uns' t then 1 / ((oobTrees forest.length uns' i).card : K) else 0)) :
    CleanCopies m y.length y'.length σ d d' y y' (fun i t => G t (leafOf t i)) (fun i t => H t (leafOf t i))
      (fun i t => G t (leafOf' t i)) (fun i t => H t (leafOf' t i))
      (fun i t => if i ∈ uns t then 1 / ((oobTrees forest.length uns i).card : K) else 0)
      (fun i t => if i ∈ uns' t then 1 / ((oobTrees forest.length uns' i).card : K) else 0) where
  pos := hm
  view := V
  view' := V'
  trees := ht'.trans ht.symm
  obs := F.times
  num i hi t h := by rw [F.leaf t (ht ▸ h) i hi]
  den i hi t h := by rw [F.leaf t (ht ▸ h) i hi]
  wt i hi t h := by
    have : oobTrees forest.length uns' i = oobTrees forest.length uns (σ i) := by
      unfold oobTrees
      exact Finset.filter_congr fun t h => F.oob t (Finset.mem_range.1 h) i hi
    simp only [F.oob t (ht ▸ h) i hi, this]
  len := rfl
  len' := rfl
  resp := F.resp

theorem Copied.leaves (F : Copied m forest.length σ y y' leafOf leafOf' uns uns') (hm : 0 < m)
    (hl : ∀ t tr, forest[t]? = some tr → ∀ i < y.length, leafOf t i < tr.nLeaves) :
    ∀ t tr, forest[t]? = some tr → ∀ i < y'.length, leafOf' t i < tr.nLeaves := fun t tr ht i hi => by
  rw [F.leaf t (List.getElem?_eq_some_iff.1 ht).1 i hi]
  exact hl t tr ht _ (List.mem_range.1 ((F.times.mem hm).2 ⟨i, List.mem_range.2 hi, rfl⟩))

/-- C224: `smooth_clean` works on means. If every observation occurs `m` times and every drawn subset draws
all copies, nothing changes: neither the weights, nor the costs, nor the forest, nor the exception, with the
same step size. -/
theorem C224_clean (hwf : ∀ t ∈ forest, t.WF) (hm : 0 < m)
    (F : Copied m forest.length σ y y' leafOf leafOf' uns uns')
    (hl : ∀ t tr, forest[t]? = some tr → ∀ i < y.length, leafOf t i < tr.nLeaves)
    (ho : ∀ obs ∈ choices', ∀ i ∈ obs, i < y'.length) (hp : List.Forall₂ (ListsTimes m σ) choices choices')
    (rf : Option Kind) :
    smoothClean sqrt approxOne rf forest y' leafOf' uns' { cfg with nObs := m * cfg.nObs } choices' =
      smoothClean sqrt approxOne rf forest y leafOf uns cfg choices := by
  have V := cleanView forest hwf cfg.style cfg.parentsAll y.length leafOf uns hl
  have V' := cleanView forest hwf cfg.style cfg.parentsAll y'.length leafOf' uns' (F.leaves hm hl)
  have I := F.copies hm rfl rfl V V'
  unfold smoothClean
  split
  · have := cleanLamb_copies (sqrt := sqrt) (approxOne := approxOne) I cfg ho hp
    simp only [this]
    rfl
  · rfl

/-- C224: the same with the impurity distance. -/
theorem C224_clean_imp (hwf : ∀ t ∈ forest, t.WF) (hm : 0 < m)
    (F : Copied m forest.length σ y y' leafOf leafOf' uns uns')
    (hl : ∀ t tr, forest[t]? = some tr → ∀ i < y.length, leafOf t i < tr.nLeaves)
    (ho : ∀ obs ∈ choices', ∀ i ∈ obs, i < y'.length) (hp : List.Forall₂ (ListsTimes m σ) choices choices')
    (rf : Option Kind) (levels : Option (Levels K)) :
    smoothCleanImp sqrt approxOne rf forest levels y' leafOf' uns' { cfg with nObs := m * cfg.nObs } choices' =
      smoothCleanImp sqrt approxOne rf forest levels y leafOf uns cfg choices := by
  unfold smoothCleanImp
  split
  · dsimp only
    cases hge : gammaEtaForestImp .reg forest cfg.style cfg.parentsAll levels with
    | error e => rfl
    | ok ge =>
      obtain ⟨lev, -, S⟩ := imp_stacked hwf hge
      have V := cleanViewBy S y.length leafOf uns hl
      have V' := cleanViewBy S y'.length leafOf' uns' (F.leaves hm hl)
      have I := F.copies hm rfl rfl V V'
      have := cleanLamb_copies (sqrt := sqrt) (approxOne := approxOne) I cfg ho hp
      simp only [bind, Except.bind]
      unfold smoothCleanFrom
      simp only [this]
      rfl
  · rfl

end

/-- C224: `smooth` with the impurity distance. If every tuning observation occurs `m` times as often, step
size `t / m` (Adam: `eps * m`) returns the same forests and weights and `m` times the costs. -/
theorem C224_smooth_imp {C : ℕ} {sqrt : K → K}
    {ce : (n : ℕ) → SgdOpts K → K → List (Row K n) → List K → List ℕ →
      Except PyErr ((Fin n → K) × (Fin n → K) × List K)}
    {kind : Kind} {forest : List (SkTree K C)} {cfg : SmoothCfg K} {levels : Option (Levels K)}
    (hL : kind = .reg ∨ cfg.lossL2 = true ∨ ScaleFree sqrt ce)
    (hsq : cfg.adam ≠ none → ∀ x, 0 ≤ x → 0 ≤ sqrt x ∧ sqrt x ^ 2 = x)
    {m : ℕ} (hm : 0 < m) {sources sources' : TuneSrc → ℕ → List (TuneRow K C)}
    (hrep : ∀ src i, Repeats m (sources src i) (sources' src i)) {out : (n : ℕ) × SmoothOut K C (n + 1)}
    (h : smoothImp sqrt ce (some kind) forest levels cfg sources = .ok out) :
    smoothImp sqrt ce (some kind) forest levels
      { cfg with tFix := cfg.tFix / m, adam := cfg.adam.map fun A => { A with eps := m * A.eps } } sources' =
      .ok ⟨out.1, { out.2 with costs := out.2.costs.map (m * ·) }⟩ := by
  have hs : (0 : K) < m := Nat.cast_pos.2 hm
  obtain ⟨kind', src, ge, h0, h1, hge, hn, h2⟩ := smoothImp_ok h
  cases h0
  obtain ⟨n, out⟩ := out
  dsimp only at hn h2 ⊢
  subst hn
  obtain ⟨yw, lamb, h3, h4, h5, h6, h7⟩ := smoothFrom_ok h2
  rw [tuneSummaries_eq] at h3
  split_ifs at h3 with hd
  cases h3
  have hd' : ¬ ((∃ tt ∈ forest.zipIdx, sources' src tt.2 = []) ∨
      ((decide (kind = .cls) && decide (src ≠ .given)) = true ∧
        ∃ tt ∈ forest.zipIdx, ∃ c, ∀ r ∈ sources' src tt.2, r.y c = 0)) := by
    rintro (⟨tt, htt, hc⟩ | ⟨hk, tt, htt, c, hc⟩)
    · refine hd (.inl ⟨tt, htt, List.eq_nil_iff_forall_not_mem.2 fun r hr => ?_⟩)
      exact List.eq_nil_iff_forall_not_mem.1 hc r ((mem_repeats hm.ne' (hrep src tt.2) r).2 hr)
    · exact hd (.inr ⟨hk, tt, htt, c, fun r hr => hc r ((mem_repeats hm.ne' (hrep src tt.2) r).2 hr)⟩)
  have eyw : forest.zipIdx.flatMap (summaryBlock (sources' src)) =
      (forest.zipIdx.flatMap (summaryBlock (sources src))).map fun p => (p.1, (m : K) * p.2) := by
    rw [List.map_flatMap]
    refine List.flatMap_congr fun tt _ => ?_
    unfold summaryBlock
    rw [List.map_map]
    refine List.map_congr_left fun i _ => ?_
    simp only [Function.comp, leafWeight_repeats (hrep src tt.2), leafMean_repeats hm.ne' (hrep src tt.2)]
  have erows : flatRows (lastLevel ge + 1) cfg.allTrees ge (forest.zipIdx.flatMap (summaryBlock (sources' src))) =
      (flatRows (lastLevel ge + 1) cfg.allTrees ge (forest.zipIdx.flatMap (summaryBlock (sources src)))).map
        fun r => { r with w := m * r.w } := by
    rw [eyw]
    generalize forest.zipIdx.flatMap (summaryBlock (sources src)) = yw
    unfold flatRows
    rw [List.map_flatMap]
    refine List.flatMap_congr fun c _ => ?_
    rw [List.map_map]
    refine List.map_congr_left fun i _ => ?_
    simp only [Function.comp, List.getElem?_map]
    cases yw[i]? with
    | none => simp
    | some p => rfl
  have evals : ∀ l : Fin (lastLevel ge + 1) → K,
      (flatRows (lastLevel ge + 1) cfg.allTrees ge (forest.zipIdx.flatMap (summaryBlock (sources' src)))).map
        (fun r => smoothValue r l) =
      (flatRows (lastLevel ge + 1) cfg.allTrees ge (forest.zipIdx.flatMap (summaryBlock (sources src)))).map
        (fun r => smoothValue r l) := by
    intro l
    rw [erows, List.map_map]
    rfl
  have hopt : smoothOptimise sqrt (ce _) kind
      { cfg with tFix := cfg.tFix / m, adam := cfg.adam.map fun A => { A with eps := m * A.eps } }
      (flatRows (lastLevel ge + 1) cfg.allTrees ge (forest.zipIdx.flatMap (summaryBlock (sources' src)))) lamb =
      .ok (out.lamb1, out.lamb2, out.costs.map (m * ·)) := by
    rw [erows]
    unfold smoothOptimise at h5 ⊢
    dsimp only at h5 ⊢
    split_ifs at h5 ⊢ with c1 c2
    · cases hcs : out with
      | mk a b c d e =>
        rw [hcs] at h5
        cases h5
        rfl
    · exact C137_descent hs hsq h5
    · refine (?_ : ScaleFree sqrt ce) _ _ _ _ _ _ _ _ _ _ hs hsq h5
      rcases hL with hL | hL | hL
      · exact absurd (Or.inl hL) c2
      · exact absurd (Or.inr hL) c2
      · exact hL
  unfold smoothImp
  rw [h1]
  simp only [bind, Except.bind, hge]
  unfold smoothFrom
  simp only [tuneSummaries_eq, if_neg hd', h4, bind, Except.bind, hopt]
  simp only [evals, h6, h7]
  rfl

/-- Instance of `Copied`: three observations, each twice, not side by side. -/
theorem exCopied : Copied 2 2 (fun i => i % 3) [4, 3, 1] ([4, 3, 1, 4, 3, 1] : List ℚ) exLeafPair
    (fun t i => exLeafPair t (i % 3)) exUns (fun t => if t = 1 then [0, 1, 3, 4] else [0, 3]) where
  times := by unfold ListsTimes; decide
  resp := by decide +kernel
  leaf := by decide
  oob := by decide

/-- Instance of `C224_clean` and `C224_clean_imp`: two steps. -/
example : List.Forall₂ (ListsTimes 2 fun i => i % 3) [[0, 2], [1, 2]] [[0, 2, 5, 3], [4, 5, 1, 2]] ∧
    (match smoothClean (fun x => x) (fun x => decide (x = 1)) (some .reg) [exStump26, exTree] [4, 3, 1] exLeafPair
      exUns { exClean with allObs := false, nObs := 2, tFix := 1 / 100 } [[0, 2], [1, 2]] with
    | .ok out => some (List.ofFn out.2.1, out.2.2)
    | .error _ => none) =
    (match smoothClean (fun x => x) (fun x => decide (x = 1)) (some .reg) [exStump26, exTree] [4, 3, 1, 4, 3, 1]
      (fun t i => exLeafPair t (i % 3)) (fun t => if t = 1 then [0, 1, 3, 4] else [0, 3])
      { exClean with allObs := false, nObs := 4, tFix := 1 / 100 } [[0, 2, 5, 3], [4, 5, 1, 2]] with
    | .ok out => some (List.ofFn out.2.1, out.2.2)
    | .error _ => none) ∧
    (match smoothCleanImp (fun x => x) (fun x => decide (x = 1)) (some .reg) [exStump26, exTree]
      (some (.arr [1, 3])) [4, 3, 1] exLeafPair exUns { exClean with allObs := false, nObs := 2, tFix := 1 / 100 }
      [[0, 2], [1, 2]] with
    | .ok out => some out.costs.length
    | .error _ => none) = some 3 := by
  refine ⟨?_, by decide +kernel, by decide +kernel⟩
  exact .cons (by unfold ListsTimes; decide) (.cons (by unfold ListsTimes; decide) .nil)

/-- Instance of `C224_smooth_imp`: every tuning row three times, step size a third, one step. -/
example :
    (match smoothImp (fun x => x) noCe (some .reg) [exTree, exStump] (some (.arr [1, 3]))
      { exCfg with sanityCheck := false, steps := [0], seed := some fun i => i + 1, tFix := 1 / 100 }
      (fun _ => exTune) with
    | .ok out => some (valuesOf out.2.rf1, List.ofFn out.2.lamb1, out.2.costs.map (3 * ·))
    | .error _ => none) =
    (match smoothImp (fun x => x) noCe (some .reg) [exTree, exStump] (some (.arr [1, 3]))
      { exCfg with sanityCheck := false, steps := [0], seed := some fun i => i + 1, tFix := 1 / 300 }
      (fun _ i => exTune i ++ exTune i ++ exTune i) with
    | .ok out => some (valuesOf out.2.rf1, List.ofFn out.2.lamb1, out.2.costs)
    | .error _ => none) ∧
    (match smoothImp (fun x => x) noCe (some .reg) [exTree, exStump] (some (.arr [1, 3]))
      { exCfg with sanityCheck := false, steps := [0], seed := some fun i => i + 1, tFix := 1 / 100 }
      (fun _ => exTune) with
    | .ok out => some out.2.costs.length
    | .error _ => none) = some 2 := by
  decide +kernel

end SmoothRF
