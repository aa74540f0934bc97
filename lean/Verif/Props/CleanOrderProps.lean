import Verif.Props.CleanReturnProps
import Verif.Props.RenameProps

/-!
# C138: `smooth_clean` and the order of trees and observations and the names of nodes
-/

set_option linter.unusedSectionVars false

namespace SmoothRF
open SkTree Topo

variable {K : Type} [Field K] [LinearOrder K] [IsStrictOrderedRing K]
variable {sqrt : K → K} {approxOne : K → Bool}

/-- `π` rearranges `0, …, n-1`. -/
def Rearranges (n : ℕ) (π : ℕ → ℕ) : Prop := ((List.range n).map π).Perm (List.range n)

theorem Rearranges.lt {n : ℕ} {π : ℕ → ℕ} (h : Rearranges n π) {i : ℕ} (hi : i < n) : π i < n := by
  have := h.mem_iff.1 (List.mem_map.2 ⟨i, List.mem_range.2 hi, rfl⟩)
  exact List.mem_range.1 this

theorem Rearranges.surj {n : ℕ} {π : ℕ → ℕ} (h : Rearranges n π) {i : ℕ} (hi : i < n) : ∃ j < n, π j = i := by
  obtain ⟨j, hj, e⟩ := List.mem_map.1 (h.mem_iff.2 (List.mem_range.2 hi))
  exact ⟨j, List.mem_range.1 hj, e⟩

theorem Rearranges.sum {n : ℕ} {π : ℕ → ℕ} (h : Rearranges n π) (f : ℕ → K) :
    ∑ t ∈ Finset.range n, f t = ∑ t ∈ Finset.range n, f (π t) := by
  rw [← sum_map_range, ← sum_map_range, ← (h.map f).sum_eq, List.map_map]
  rfl

/-- `d'` holds the arrays of `d` for rearranged observations and trees. -/
structure CleanIso {k : ℕ} (n : ℕ) (σ τ : ℕ → ℕ) (d d' : CleanData K k) (y y' : List K)
    (g h g' h' : ℕ → ℕ → Fin k → K) (w w' : ℕ → ℕ → K) : Prop where
  view : CleanView d n g h w
  view' : CleanView d' n g' h' w'
  trees : d'.nTrees = d.nTrees
  obs : Rearranges n σ
  tau : Rearranges d.nTrees τ
  num : ∀ i < n, ∀ t < d.nTrees, g' (σ i) (τ t) = g i t
  den : ∀ i < n, ∀ t < d.nTrees, h' (σ i) (τ t) = h i t
  wt : ∀ i < n, ∀ t < d.nTrees, w' (σ i) (τ t) = w i t
  len : y.length = n
  resp : ∀ i < n, y'[σ i]? = y[i]?

namespace CleanIso

variable {k n : ℕ} {σ τ : ℕ → ℕ} {d d' : CleanData K k} {y y' : List K} {g h g' h' : ℕ → ℕ → Fin k → K}
  {w w' : ℕ → ℕ → K}

/-- The out-of-bag prediction of an observation. -/
def pred (g h : ℕ → ℕ → Fin k → K) (w : ℕ → ℕ → K) (T : ℕ) (lamb : Fin k → K) (i : ℕ) : K :=
  ∑ t ∈ Finset.range T, w i t * (dot (g i t) lamb / dot (h i t) lamb)

/-- The gradient row of an observation. -/
def slope (g h : ℕ → ℕ → Fin k → K) (w : ℕ → ℕ → K) (T : ℕ) (lamb : Fin k → K) (i : ℕ) (j : Fin k) : K :=
  (∑ t ∈ Finset.range T, 1 / (if dot (g i t) lamb = 0 then 1 else dot (g i t) lamb) * (w i t * g i t j)) -
    ∑ t ∈ Finset.range T,
      dot (g i t) lamb / (if dot (h i t) lamb = 0 then 1 else dot (h i t) lamb) ^ 2 * (w i t * h i t j)

/-- Some requested prediction is infinite. -/
def Infinite (g h : ℕ → ℕ → Fin k → K) (T : ℕ) (lamb : Fin k → K) (obs : List ℕ) : Prop :=
  ∃ i ∈ obs, ∃ t < T, dot (h i t) lamb = 0 ∧ dot (g i t) lamb ≠ 0

theorem pred_eq (I : CleanIso n σ τ d d' y y' g h g' h' w w') (lamb : Fin k → K) {i : ℕ} (hi : i < n) :
    pred g' h' w' d.nTrees lamb (σ i) = pred g h w d.nTrees lamb i := by
  unfold pred
  rw [I.tau.sum]
  refine Finset.sum_congr rfl fun t ht => ?_
  have ht := Finset.mem_range.1 ht
  rw [I.num i hi t ht, I.den i hi t ht, I.wt i hi t ht]

theorem slope_eq (I : CleanIso n σ τ d d' y y' g h g' h' w w') (lamb : Fin k → K) {i : ℕ} (hi : i < n)
    (j : Fin k) : slope g' h' w' d.nTrees lamb (σ i) j = slope g h w d.nTrees lamb i j := by
  unfold slope
  rw [I.tau.sum, I.tau.sum fun t => dot (g' (σ i) t) lamb / _ * _]
  congr 1 <;>
  · refine Finset.sum_congr rfl fun t ht => ?_
    have ht := Finset.mem_range.1 ht
    simp only [I.num i hi t ht, I.den i hi t ht, I.wt i hi t ht]

theorem ever_eq (I : CleanIso n σ τ d d' y y' g h g' h' w w') {i : ℕ} (hi : i < n) :
    ∑ t ∈ Finset.range d.nTrees, w' (σ i) t = ∑ t ∈ Finset.range d.nTrees, w i t := by
  rw [I.tau.sum]
  exact Finset.sum_congr rfl fun t ht => I.wt i hi t (Finset.mem_range.1 ht)

theorem infinite_iff (I : CleanIso n σ τ d d' y y' g h g' h' w w') (lamb : Fin k → K) {obs obs' : List ℕ}
    (ho : ∀ i ∈ obs, i < n) (hp : obs'.Perm (obs.map σ)) :
    Infinite g' h' d.nTrees lamb obs' ↔ Infinite g h d.nTrees lamb obs := by
  unfold Infinite
  constructor
  · rintro ⟨i', hi', t', ht', h0⟩
    obtain ⟨i, hi, rfl⟩ := List.mem_map.1 (hp.mem_iff.1 hi')
    obtain ⟨t, ht, rfl⟩ := I.tau.surj ht'
    rw [I.num i (ho i hi) t ht, I.den i (ho i hi) t ht] at h0
    exact ⟨i, hi, t, ht, h0⟩
  · rintro ⟨i, hi, t, ht, h0⟩
    rw [← I.num i (ho i hi) t ht, ← I.den i (ho i hi) t ht] at h0
    exact ⟨σ i, hp.mem_iff.2 (List.mem_map.2 ⟨i, hi, rfl⟩), τ t, I.tau.lt ht, h0⟩

theorem resp_lt (I : CleanIso n σ τ d d' y y' g h g' h' w w') {obs : List ℕ} (ho : ∀ i ∈ obs, i < n) :
    ∀ i ∈ obs, y[i]? = some (y.getD i 0) := fun i hi => by
  rw [List.getD_eq_getElem?_getD, List.getElem?_eq_getElem (by rw [I.len]; exact ho i hi)]
  rfl

theorem resp_lt' (I : CleanIso n σ τ d d' y y' g h g' h' w w') {obs obs' : List ℕ} (ho : ∀ i ∈ obs, i < n)
    (hp : obs'.Perm (obs.map σ)) : ∀ i ∈ obs', y'[i]? = some (y'.getD i 0) := fun i' hi' => by
  obtain ⟨i, hi, rfl⟩ := List.mem_map.1 (hp.mem_iff.1 hi')
  rw [List.getD_eq_getElem?_getD, I.resp i (ho i hi), I.resp_lt ho i hi]
  rfl

theorem filter_perm (I : CleanIso n σ τ d d' y y' g h g' h' w w') {obs obs' : List ℕ} (ho : ∀ i ∈ obs, i < n)
    (hp : obs'.Perm (obs.map σ)) :
    (obs'.filter fun i => decide (∑ t ∈ Finset.range d.nTrees, w' i t = 1)).Perm
      ((obs.filter fun i => decide (∑ t ∈ Finset.range d.nTrees, w i t = 1)).map σ) := by
  refine (hp.filter _).trans (List.Perm.of_eq ?_)
  rw [List.filter_map]
  congr 1
  refine List.filter_congr fun i hi => ?_
  simp only [Function.comp, I.ever_eq (ho i hi)]

theorem calcYOob_view {d : CleanData K k} {T : ℕ} (V : CleanView d n g h w) (hT : d.nTrees = T) (lamb : Fin k → K)
    {obs : List ℕ} (ho : ∀ i ∈ obs, i < n) :
    (Infinite g h T lamb obs → calcYOob d lamb obs = .error .nonFinite) ∧
    (¬ Infinite g h T lamb obs → calcYOob d lamb obs = .ok (obs.map (pred g h w T lamb),
      obs.map fun i => decide (∑ t ∈ Finset.range T, w i t = 1))) := by
  subst hT
  constructor
  · rintro ⟨i, hi, t, ht, h0, h1⟩
    exact C46_zero_denominator V lamb obs ho hi ht h0 h1
  · intro hn
    refine calcYOob_eq V lamb obs ho fun i hi t ht h0 => ?_
    by_contra h1
    exact hn ⟨i, hi, t, ht, h0, h1⟩

theorem obs_lt' (I : CleanIso n σ τ d d' y y' g h g' h' w w') {obs obs' : List ℕ} (ho : ∀ i ∈ obs, i < n)
    (hp : obs'.Perm (obs.map σ)) : ∀ i ∈ obs', i < n := fun i' hi' => by
  obtain ⟨i, hi, rfl⟩ := List.mem_map.1 (hp.mem_iff.1 hi')
  exact I.obs.lt (ho i hi)

theorem cost (I : CleanIso n σ τ d d' y y' g h g' h' w w') (lamb : Fin k → K) {obs obs' : List ℕ}
    (ho : ∀ i ∈ obs, i < n) (hp : obs'.Perm (obs.map σ)) :
    cleanCost d' y' lamb obs' = cleanCost d y lamb obs := by
  have h1 := calcYOob_view I.view rfl lamb ho
  have h2 := calcYOob_view I.view' I.trees lamb (I.obs_lt' ho hp)
  by_cases hb : Infinite g h d.nTrees lamb obs
  · unfold cleanCost
    rw [h1.1 hb, h2.1 ((I.infinite_iff lamb ho hp).2 hb)]
    rfl
  · have e1 := C76_cost (I.resp_lt ho) (h1.2 hb)
    have e2 := C76_cost (I.resp_lt' ho hp) (h2.2 fun hh => hb ((I.infinite_iff lamb ho hp).1 hh))
    have hf := I.filter_perm ho hp
    rw [e1, e2, (hf.map _).sum_eq, hf.length_eq, List.length_map, List.map_map]
    have h0 : ((obs'.filter fun i => decide (∑ t ∈ Finset.range d.nTrees, w' i t = 1)) = []) ↔
        ((obs.filter fun i => decide (∑ t ∈ Finset.range d.nTrees, w i t = 1)) = []) := by
      rw [← List.length_eq_zero_iff, hf.length_eq, List.length_map, List.length_eq_zero_iff]
    simp only [h0]
    congr 4
    refine List.map_congr_left fun i hi => ?_
    have hi := ho i (List.mem_of_mem_filter hi)
    simp only [Function.comp, I.pred_eq lamb hi, List.getD_eq_getElem?_getD, I.resp i hi]

theorem grad (I : CleanIso n σ τ d d' y y' g h g' h' w w') (lamb : Fin k → K) {obs obs' : List ℕ}
    (ho : ∀ i ∈ obs, i < n) (hp : obs'.Perm (obs.map σ)) :
    calcL2Grad d' y' lamb obs' = calcL2Grad d y lamb obs := by
  have h1 := calcYOob_view I.view rfl lamb ho
  have h2 := calcYOob_view I.view' I.trees lamb (I.obs_lt' ho hp)
  by_cases hb : Infinite g h d.nTrees lamb obs
  · unfold calcL2Grad
    rw [h1.1 hb, h2.1 ((I.infinite_iff lamb ho hp).2 hb),
      mapM_ok obs (pyGet y) _ fun i hi => pyGet_some (I.resp_lt ho i hi),
      mapM_ok obs' (pyGet y') _ fun i hi => pyGet_some (I.resp_lt' ho hp i hi)]
    rfl
  · have g1 := calcYOobGrad_eq I.view lamb obs ho
    have g2 := calcYOobGrad_eq I.view' lamb obs' (I.obs_lt' ho hp)
    rw [I.trees] at g2
    have e1 := C76_l2_grad (I.resp_lt ho) (h1.2 hb) g1
    have e2 := C76_l2_grad (I.resp_lt' ho hp) (h2.2 fun hh => hb ((I.infinite_iff lamb ho hp).1 hh)) g2
    have hf := I.filter_perm ho hp
    have h0 : ((obs'.filter fun i => decide (∑ t ∈ Finset.range d.nTrees, w' i t = 1)) = []) ↔
        ((obs.filter fun i => decide (∑ t ∈ Finset.range d.nTrees, w i t = 1)) = []) := by
      rw [← List.length_eq_zero_iff, hf.length_eq, List.length_map, List.length_eq_zero_iff]
    rw [e1, e2, hf.length_eq, List.length_map]
    simp only [h0]
    split_ifs
    · rfl
    · congr 1
      funext j
      congr 1
      rw [(hp.map _).sum_eq, List.map_map]
      refine congrArg List.sum (List.map_congr_left fun i hi => ?_)
      have hi := ho i hi
      have e3 := I.pred_eq lamb hi
      have e4 := I.slope_eq lamb hi j
      unfold slope at e4
      simp only [Function.comp, e3, e4, List.getD_eq_getElem?_getD, I.resp i hi]

theorem step (I : CleanIso n σ τ d d' y y' g h g' h' w w') (o : CleanOpts K) (s : CleanState K k)
    {obs obs' : List ℕ} (ho : ∀ i ∈ obs, i < n) (hp : obs'.Perm (obs.map σ)) :
    cleanStep sqrt d' y' o s obs' = cleanStep sqrt d y o s obs := by
  have hall : ∀ lamb, cleanCost d' y' lamb (List.range n) = cleanCost d y lamb (List.range n) := fun lamb =>
    I.cost lamb (fun i hi => List.mem_range.1 hi) I.obs.symm
  have hc : ∀ lamb, cleanCost d' y' lamb obs' = cleanCost d y lamb obs := fun lamb => I.cost lamb ho hp
  have hg : (fun lamb => calcL2Grad d' y' lamb obs') = fun lamb => calcL2Grad d y lamb obs :=
    funext fun lamb => I.grad lamb ho hp
  have hg' : ∀ lamb, calcL2Grad d' y' lamb obs' = calcL2Grad d y lamb obs := fun lamb => I.grad lamb ho hp
  unfold cleanStep
  have h1 : cleanStart d' y' o obs' s = cleanStart d y o obs s := by
    unfold cleanStart
    rw [I.view.len, I.view'.len, hall, hc]
  have h2 : ∀ lamb iv, cleanMove sqrt d' y' o obs' lamb iv = cleanMove sqrt d y o obs lamb iv := by
    intro lamb iv
    have : cleanPre sqrt d' y' o obs' lamb iv = cleanPre sqrt d y o obs lamb iv := by
      unfold cleanPre
      rw [hg, hg']
    unfold cleanMove
    rw [this]
  have h3 : ∀ s lamb iv, cleanRecord d' y' o obs' s lamb iv = cleanRecord d y o obs s lamb iv := by
    intro s lamb iv
    unfold cleanRecord
    rw [I.view.len, I.view'.len, hall, hc]
  rw [I.view.len, I.view'.len, h1]
  simp only [h2, h3]

theorem sgd (I : CleanIso n σ τ d d' y y' g h g' h' w w') (o : CleanOpts K) (lamb : Fin k → K)
    {choices choices' : List (List ℕ)} (ho : ∀ obs ∈ choices, ∀ i ∈ obs, i < n)
    (hp : List.Forall₂ (fun obs obs' => obs'.Perm (obs.map σ)) choices choices') :
    sgdClean sqrt approxOne d' y' o lamb choices' = sgdClean sqrt approxOne d y o lamb choices := by
  have : ∀ s, choices'.foldlM (cleanStep sqrt d' y' o) s = choices.foldlM (cleanStep sqrt d y o) s := by
    induction hp with
    | nil => exact fun _ => rfl
    | cons hab _ ih =>
      intro s
      rw [List.foldlM_cons, List.foldlM_cons, I.step o s (ho _ (by simp)) hab]
      have := ih fun obs h => ho obs (by simp [h])
      simp only [this]
  unfold sgdClean
  rw [this]

end CleanIso

theorem CleanView.cast {k n m : ℕ} {d : CleanData K k} {g h : ℕ → ℕ → Fin k → K} {w : ℕ → ℕ → K}
    (V : CleanView d n g h w) (e : n = m) : CleanView d m g h w := e ▸ V

theorem cleanLamb_iso {m m' n : ℕ} (e : m' = m) {σ τ : ℕ → ℕ} {d : CleanData K (m + 1)} {d' : CleanData K (m' + 1)}
    {y y' : List K} {g h : ℕ → ℕ → Fin (m + 1) → K} {g' h' : ℕ → ℕ → Fin (m' + 1) → K} {w w' : ℕ → ℕ → K}
    (V : CleanView d n g h w) (V' : CleanView d' n g' h' w') (hT : d'.nTrees = d.nTrees)
    (hσ : Rearranges n σ) (hτ : Rearranges d.nTrees τ)
    (hg : ∀ i < n, ∀ t < d.nTrees, g' (σ i) (τ t) = fun j => g i t (Fin.cast (by rw [e]) j))
    (hh : ∀ i < n, ∀ t < d.nTrees, h' (σ i) (τ t) = fun j => h i t (Fin.cast (by rw [e]) j))
    (hw : ∀ i < n, ∀ t < d.nTrees, w' (σ i) (τ t) = w i t)
    (hlen : y.length = n) (hlen' : y'.length = n) (hy : ∀ i < n, y'[σ i]? = y[i]?)
    {cfg : CleanCfg K} {choices choices' : List (List ℕ)} (ho : ∀ obs ∈ choices, ∀ i ∈ obs, i < n)
    (hp : List.Forall₂ (fun obs obs' => obs'.Perm (obs.map σ)) choices choices')
    {l : Fin (m + 1) → K} {c : List K} (hr : cleanLamb sqrt approxOne d y cfg choices = .ok (l, c)) :
    cleanLamb sqrt approxOne d' y' cfg choices' = .ok (fun j => l (Fin.cast (by rw [e]) j), c) := by
  subst e
  have I : CleanIso n σ τ d d' y y' g h g' h' w w' :=
    ⟨V, V', hT, hσ, hτ, hg, hh, hw, hlen, hy⟩
  rw [show (fun j => l (Fin.cast rfl j)) = l from rfl, ← hr]
  unfold cleanLamb
  rw [hlen, hlen']
  simp only [I.sgd _ _ ho hp]

/-- The inputs of `smooth_clean` correspond: tree `t` is tree `τ t` of the second forest up to the names
of nodes, observation `i` is observation `σ i`, reaches the corresponding leaves, is out of bag for
the corresponding trees and has the same response. -/
structure CleanSame (forest forest' : List (SkTree K 1)) (y y' : List K) (leafOf leafOf' : ℕ → ℕ → ℕ)
    (uns uns' : ℕ → List ℕ) (σ τ : ℕ → ℕ) : Prop where
  len : forest'.length = forest.length
  len_y : y'.length = y.length
  obs : Rearranges y.length σ
  trees : Rearranges forest.length τ
  resp : ∀ i < y.length, y'[σ i]? = y[i]?
  tree : ∀ t tr tr', forest[t]? = some tr → forest'[τ t]? = some tr' → ∃ e : tr.Node ≃ tr'.Node,
    TreeIso (Equiv.refl _) tr tr' e ∧ ∀ i < y.length, ∃ (l : Fin tr.nLeaves) (l' : Fin tr'.nLeaves),
      leafOf t i = l ∧ leafOf' (τ t) (σ i) = l' ∧ tr'.leafNode l' = e (tr.leafNode l)
  oob : ∀ t < forest.length, ∀ i < y.length, σ i ∈ uns' (τ t) ↔ i ∈ uns t

section
variable {forest forest' : List (SkTree K 1)} {y y' : List K} {leafOf leafOf' : ℕ → ℕ → ℕ}
  {uns uns' : ℕ → List ℕ} {σ τ : ℕ → ℕ}

theorem CleanSame.depth (F : CleanSame forest forest' y y' leafOf leafOf' uns uns' σ τ)
    (hwf : ∀ t ∈ forest, t.WF) (hwf' : ∀ t ∈ forest', t.WF) : forestDepth forest' = forestDepth forest := by
  have key : ∀ (l : List (SkTree K 1)), forestDepth l =
      ((List.range l.length).map fun t => (l[t]?.map fun t => npMax t.depthPerNode).getD 0).foldl max 0 := by
    intro l
    unfold forestDepth
    rw [calcDepthForForest_eq, List.map_map]
    refine congrArg (List.foldl max 0) (List.ext_getElem (by simp) fun i h1 h2 => ?_)
    simp only [List.length_map, List.length_range] at h1 h2
    simp [h2]
  rw [key, key, F.len, ← ((F.trees.map _).foldl_eq (rcomm := ⟨fun a b c => by omega⟩) 0), List.map_map]
  congr 1
  refine List.map_congr_left fun t ht => ?_
  have ht := List.mem_range.1 ht
  have ht' : τ t < forest'.length := by rw [F.len]; exact F.trees.lt ht
  obtain ⟨e, I, -⟩ := F.tree t _ _ (List.getElem?_eq_getElem ht) (List.getElem?_eq_getElem ht')
  simp only [Function.comp, List.getElem?_eq_getElem ht, List.getElem?_eq_getElem ht', Option.map_some,
    Option.getD_some]
  exact I.maxDepth (hwf _ (List.getElem_mem ht)) (hwf' _ (List.getElem_mem ht'))

theorem CleanSame.card (F : CleanSame forest forest' y y' leafOf leafOf' uns uns' σ τ) {i : ℕ}
    (hi : i < y.length) :
    ((oobTrees forest'.length uns' (σ i)).card : K) = (oobTrees forest.length uns i).card := by
  unfold oobTrees
  rw [F.len, Finset.card_filter, Finset.card_filter]
  push_cast
  rw [F.trees.sum]
  refine Finset.sum_congr rfl fun t ht => ?_
  simp only [F.oob t (Finset.mem_range.1 ht) i hi]

/-- C138: `smooth_clean` does not depend on the order of the trees, the order of the observations, the
order within each drawn subset, or the names of nodes and sides: on corresponding inputs it returns the
same weights and the same costs, and corresponding nodes of the returned forests hold the same
values. -/
theorem C138_clean_order (hwf : ∀ t ∈ forest, t.WF) (hwf' : ∀ t ∈ forest', t.WF)
    (F : CleanSame forest forest' y y' leafOf leafOf' uns uns' σ τ) {cfg : CleanCfg K}
    {choices choices' : List (List ℕ)} (ho : ∀ obs ∈ choices, ∀ i ∈ obs, i < y.length)
    (hp : List.Forall₂ (fun obs obs' => obs'.Perm (obs.map σ)) choices choices') {rf : Option Kind}
    {rf1 : List (SkTree K 1)} {lamb : Fin (forestDepth forest + 1) → K} {c : List K}
    (h : smoothClean sqrt approxOne rf forest y leafOf uns cfg choices = .ok (rf1, lamb, c)) :
    ∃ rf1' lamb', smoothClean sqrt approxOne rf forest' y' leafOf' uns' cfg choices' = .ok (rf1', lamb', c) ∧
      List.ofFn lamb' = List.ofFn lamb ∧ rf1'.length = rf1.length ∧
      ∀ (t : ℕ) (tr tr' s s' : SkTree K 1), forest[t]? = some tr → forest'[τ t]? = some tr' →
        rf1[t]? = some s → rf1'[τ t]? = some s' →
        ∀ e : tr.Node ≃ tr'.Node, TreeIso (Equiv.refl _) tr tr' e →
          ∃ (v : tr.Node → Fin 1 → K) (v' : tr'.Node → Fin 1 → K), s = { tr with value := v } ∧
            s' = { tr' with value := v' } ∧ ∀ j, v' (e j) 0 = v j 0 := by
  obtain ⟨rfl, hcl, hf⟩ := smoothClean_ok hwf h
  have e := F.depth hwf hwf'
  have hl : ∀ t tr, forest[t]? = some tr → ∀ i < y.length, leafOf t i < tr.nLeaves := by
    intro t tr ht i hi
    obtain ⟨hlt, -⟩ := List.getElem?_eq_some_iff.1 ht
    have ht' : τ t < forest'.length := by rw [F.len]; exact F.trees.lt hlt
    obtain ⟨_, _, hh⟩ := F.tree t _ _ ht (List.getElem?_eq_getElem ht')
    obtain ⟨l, _, e1, -, -⟩ := hh i hi
    rw [e1]; exact l.isLt
  have hl' : ∀ t tr, forest'[t]? = some tr → ∀ i < y'.length, leafOf' t i < tr.nLeaves := by
    intro t' tr' ht' i' hi'
    obtain ⟨hlt, -⟩ := List.getElem?_eq_some_iff.1 ht'
    rw [F.len] at hlt
    rw [F.len_y] at hi'
    obtain ⟨t, ht, rfl⟩ := F.trees.surj hlt
    obtain ⟨i, hi, rfl⟩ := F.obs.surj hi'
    obtain ⟨_, _, hh⟩ := F.tree t _ _ (List.getElem?_eq_getElem ht) ht'
    obtain ⟨_, l', -, e2, -⟩ := hh i hi
    rw [e2]; exact l'.isLt
  have V := cleanView forest hwf cfg.style cfg.parentsAll y.length leafOf uns hl
  have V' := (cleanView forest' hwf' cfg.style cfg.parentsAll y'.length leafOf' uns' hl').cast F.len_y
  have hrow : ∀ i < y.length, ∀ t < forest.length, ∃ (tr tr' : SkTree K 1) (e : tr.Node ≃ tr'.Node)
      (I : TreeIso (Equiv.refl _) tr tr' e) (w : tr.WF) (w' : tr'.WF) (l : Fin tr.nLeaves),
      forest[t]? = some tr ∧ forest'[τ t]? = some tr' ∧ leafOf t i = l ∧
        leafOf' (τ t) (σ i) = (I.leafMap w w' l).val := by
    intro i hi t ht
    have ht' : τ t < forest'.length := by rw [F.len]; exact F.trees.lt ht
    obtain ⟨e, I, hh⟩ := F.tree t _ _ (List.getElem?_eq_getElem ht) (List.getElem?_eq_getElem ht')
    obtain ⟨l, l', e1, e2, e3⟩ := hh i hi
    refine ⟨_, _, e, I, hwf _ (List.getElem_mem ht), hwf' _ (List.getElem_mem ht'), l,
      List.getElem?_eq_getElem ht, List.getElem?_eq_getElem ht', e1, ?_⟩
    rw [e2]
    congr 1
    exact leafNode_strictMono.injective (by rw [e3, I.leafNode_leafMap])
  have hcl' := cleanLamb_iso (sqrt := sqrt) (approxOne := approxOne) (n := y.length) e (σ := σ) (τ := τ) V
    V' F.len F.obs F.trees
    (fun i hi t ht => by
      obtain ⟨tr, tr', e', I, w, w', l, h1, h2, h3, h4⟩ := hrow i hi t ht
      rw [h4, h3, leafAt_pos h1 l.isLt, leafAt_pos h2 (I.leafMap w w' l).isLt]
      funext j
      exact I.levelSum w w' cfg.style cfg.parentsAll (I.mass w w' .reg 0) l j)
    (fun i hi t ht => by
      obtain ⟨tr, tr', e', I, w, w', l, h1, h2, h3, h4⟩ := hrow i hi t ht
      rw [h4, h3, leafAt_pos h1 l.isLt, leafAt_pos h2 (I.leafMap w w' l).isLt]
      funext j
      exact I.levelSum w w' cfg.style cfg.parentsAll (I.nSampLeaf w w') l j)
    (fun i hi t ht => by
      rw [F.card hi]
      simp only [F.oob t ht i hi])
    rfl F.len_y F.resp ho hp hcl
  obtain ⟨rf1', h'⟩ := smoothClean_returns hwf' hcl'
  have hf' := (smoothClean_ok hwf' h').2.2
  have e' : forestDepth forest' + 1 = forestDepth forest + 1 := by rw [e]
  refine ⟨rf1', _, h', ?_, ?_, ?_⟩
  · refine List.ext_getElem (by rw [List.length_ofFn, List.length_ofFn, e']) fun i h1 h2 => ?_
    rw [List.getElem_ofFn, List.getElem_ofFn]
    rfl
  · rw [← hf.length_eq, ← hf'.length_eq, F.len]
  · intro t tr tr' s s' ht ht' hs hs' e I
    have hwt := hwf tr (List.mem_of_getElem? ht)
    have hwt' := hwf' tr' (List.mem_of_getElem? ht')
    obtain ⟨v, rfl, hv1, hv2⟩ := (forall2_getElem hf ht hs : LeafUpdate tr s _)
    obtain ⟨v', rfl, hv1', hv2'⟩ := (forall2_getElem hf' ht' hs' : LeafUpdate tr' s' _)
    refine ⟨v, v', rfl, rfl, fun j => ?_⟩
    by_cases hj : tr.IsLeaf j
    · obtain ⟨r, rfl⟩ := exists_leafNode ((isLeaf_iff hwt).1 hj)
      rw [← I.leafNode_leafMap hwt hwt', hv1', hv1, smoothSpec_width]
      exact I.smoothSpec hwt hwt' .reg _ _ _ r 0
    · rw [hv2 j 0 hj, hv2' (e j) 0, I.value]
      · rfl
      · intro hl
        exact hj fun c hc => hl (e c) ((I.child j c).2 hc)

end

/-- Leaves of `exStump26` and `exTree` reached by three observations. -/
abbrev exLeafPair : ℕ → ℕ → ℕ := fun t i => if t = 0 then (if i = 0 then 0 else 1) else i

/-- The same in `exMirror`, `exStump26`, observations rotated. -/
abbrev exLeafPair' : ℕ → ℕ → ℕ := fun t i =>
  if t = 1 then (if i = 1 then 0 else 1) else [0, 2, 1].getD i 0

/-- Instance of `CleanSame`: trees exchanged, the second one mirrored, observation `i` renamed
`i + 1 mod 3`. -/
theorem exCleanSame : CleanSame [exStump26, exTree] [exMirror, exStump26] [4, 3, 1] [1, 4, 3]
    exLeafPair exLeafPair' exUns (fun t => if t = 1 then [1] else [1, 2]) (fun i => (i + 1) % 3)
    (fun t => 1 - t) where
  len := rfl
  len_y := rfl
  obs := by unfold Rearranges; decide
  trees := by unfold Rearranges; decide
  resp := by decide +kernel
  tree t tr tr' h h' := by
    match t with
    | 0 =>
      obtain rfl : exStump26 = tr := by simpa using h
      obtain rfl : exStump26 = tr' := by simpa using h'
      refine ⟨Equiv.refl _, ⟨fun _ _ => Iff.rfl, fun _ => rfl, fun _ _ => rfl⟩, fun i hi => ?_⟩
      match i, hi with
      | 0, _ => exact ⟨⟨0, by decide⟩, ⟨0, by decide⟩, rfl, rfl, by decide⟩
      | 1, _ => exact ⟨⟨1, by decide⟩, ⟨1, by decide⟩, rfl, rfl, by decide⟩
      | 2, _ => exact ⟨⟨1, by decide⟩, ⟨1, by decide⟩, rfl, rfl, by decide⟩
    | 1 =>
      obtain rfl : exTree = tr := by simpa using h
      obtain rfl : exMirror = tr' := by simpa using h'
      refine ⟨exMirrorMap, exMirror_iso, fun i hi => ?_⟩
      match i, hi with
      | 0, _ => exact ⟨⟨0, by decide⟩, ⟨2, by decide⟩, rfl, rfl, by decide⟩
      | 1, _ => exact ⟨⟨1, by decide⟩, ⟨1, by decide⟩, rfl, rfl, by decide⟩
      | 2, _ => exact ⟨⟨2, by decide⟩, ⟨0, by decide⟩, rfl, rfl, by decide⟩
    | t + 2 => simp at h
  oob := by decide

/-- Instance of `C138_clean_order`: two constrained steps; the nodes of `exTree` against those of
`exMirror`. -/
example :
    (match smoothClean (fun x => x) (fun x => decide (x = 1)) (some .reg) [exStump26, exTree] [4, 3, 1]
      exLeafPair exUns { exClean with allObs := false, tFix := 1 / 100 } [[0, 2], [1, 2]] with
    | .ok out => some (List.ofFn out.2.1, out.2.2, out.1[1]?.map fun t : SkTree ℚ 1 =>
        [t.value 1 0, t.value 2 0, t.value 3 0, t.value 4 0])
    | .error _ => none) =
    (match smoothClean (fun x => x) (fun x => decide (x = 1)) (some .reg) [exMirror, exStump26] [1, 4, 3]
      exLeafPair' (fun t => if t = 1 then [1] else [1, 2]) { exClean with allObs := false, tFix := 1 / 100 }
      [[0, 1], [2, 0]] with
    | .ok out => some (List.ofFn out.2.1, out.2.2, out.1[0]?.map fun t : SkTree ℚ 1 =>
        [t.value 2 0, t.value 4 0, t.value 3 0, t.value 1 0])
    | .error _ => none) ∧
    (match smoothClean (fun x => x) (fun x => decide (x = 1)) (some .reg) [exStump26, exTree] [4, 3, 1]
      exLeafPair exUns { exClean with allObs := false, tFix := 1 / 100 } [[0, 2], [1, 2]] with
    | .ok out => some (List.ofFn out.2.1)
    | .error _ => none) = some [4723 / 6864, 0, 2842733 / 5800080] := by decide +kernel

end SmoothRF
