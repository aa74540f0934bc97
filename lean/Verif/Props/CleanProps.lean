import Verif.Proofs.Clean2
import Verif.Proofs.Cost
import Verif.Props.ProxProps
import Verif.Props.SmoothProps

/-!
# C45–C49, C74–C76 and the smooth_clean parts of C36, C37
-/

set_option linter.unusedSectionVars false

namespace SmoothRF
open SkTree Topo

variable {K : Type} [Field K] [LinearOrder K]
variable {sqrt : K → K} {approxOne : K → Bool}

/-! ### examples -/

/-- A stump with leaf values 2 and 6, one sample each. -/
abbrev exStump26 : SkTree ℚ 1 :=
  { toTopo := ⟨2, ![some 1, none, none], ![some 2, none, none]⟩
    value := fun i _ => ![4, 2, 6] i
    nSamp := ![2, 1, 1]
    impurity := ![4, 0, 0] }

/-- Observation 0 reaches leaf 0 of every tree, the others leaf 1. -/
abbrev exLeafOf : ℕ → ℕ → ℕ := fun _ i => if i = 0 then 0 else 1

/-- Observation 0 is out of bag everywhere, observation 1 for tree 1 only, observation 2 never. -/
abbrev exUns : ℕ → List ℕ := fun t => if t = 1 then [0, 1] else [0]

abbrev exClean : CleanCfg ℚ :=
  { noConstraint := false, sanityCheck := false, allObs := true, useFullLoss := false, nObs := 1,
    tFix := 1 / 8, seed := none, parentsAll := false, style := .standard, adam := none }

/-! ### generate_oob_info -/

/-- C45, indices: `idx_mat[i,t]` is the row which the leaf reached by observation `i` in tree `t` has
in the stacking of all trees' leaves. -/
theorem C45_leaf_rows (forest : List (SkTree K 1)) (nObs : ℕ) (leafOf : ℕ → ℕ → ℕ) {i t : ℕ}
    {tr : SkTree K 1} (hi : i < nObs) (ht : forest[t]? = some tr) (hl : leafOf t i < tr.nLeaves) :
    ∃ (row : List ℕ) (q : ℕ), (oobIdxMat forest nObs leafOf)[i]? = some row ∧
      row.length = forest.length ∧ row[t]? = some q ∧
      (forest.zipIdx.flatMap fun tt => (List.range tt.1.nLeaves).map fun r => (tt.2, r))[q]? =
        some (t, leafOf t i) := by
  obtain ⟨row, h1, h2, h3⟩ := oobIdxMat_get forest nObs leafOf hi ht hl
  refine ⟨row, _, h1, h2, h3, ?_⟩
  have := flatMap_offset forest.zipIdx (fun tt => (List.range tt.1.nLeaves).map fun r => (tt.2, r)) t
    (leafOf t i) (tr, t) (by simp [ht]) (by simpa using hl)
  simp only [List.length_map, List.length_range] at this
  have e : ((forest.take t).map fun t => t.nLeaves).sum =
      ((forest.zipIdx.take t).map fun x => x.1.nLeaves).sum := by
    have e2 : (forest.zipIdx.take t).map Prod.fst = forest.take t := by
      rw [List.map_take, List.zipIdx_map_fst]
    rw [← e2, List.map_map]
    rfl
  rw [e, add_comm, this]
  simp [hl]

example : oobIdxMat [exStump26, exTree] 3 exLeafOf = [[0, 2], [1, 3], [1, 3]] := by decide +kernel

/-- C45, weights: entry `T*i + t` is `1/#(trees for which i is out of bag)` if `i` is out of bag for `t`
and 0 otherwise; the entries of one observation sum to 1, or to 0 if it is never out of bag. -/
theorem C45_weights [IsStrictOrderedRing K] (T nObs : ℕ) (uns : ℕ → List ℕ) {i : ℕ} (hi : i < nObs) :
    (∀ t < T, (oobWeights T nObs uns : List K)[T * i + t]? = some
      (if i ∈ uns t then 1 / ((((Finset.range T).filter fun t => i ∈ uns t).card : ℕ) : K) else 0)) ∧
    (∑ t ∈ Finset.range T, (oobWeights T nObs uns : List K).getD (T * i + t) 0 =
      if ∃ t < T, i ∈ uns t then 1 else 0) ∧
    (oobWeights T nObs uns : List K).length = nObs * T := by
  refine ⟨fun t ht => oobWeights_get T nObs uns hi ht, ?_, ?_⟩
  · have e : ∀ t ∈ Finset.range T, (oobWeights T nObs uns : List K).getD (T * i + t) 0 =
        if i ∈ uns t then 1 / ((oobTrees T uns i).card : K) else 0 := fun t ht => by
      rw [List.getD_eq_getElem?_getD, oobWeights_get T nObs uns hi (Finset.mem_range.1 ht)]; rfl
    rw [Finset.sum_congr rfl e, oobWeights_total]
    have : oobTrees T uns i = ∅ ↔ ¬ ∃ t < T, i ∈ uns t := by
      unfold oobTrees
      rw [Finset.filter_eq_empty_iff]
      simp
    by_cases h : ∃ t < T, i ∈ uns t
    · rw [if_pos h, if_neg (by rw [this]; exact not_not.2 h)]
    · rw [if_neg h, if_pos (this.2 h)]
  · have e : (oobWeights T nObs uns : List K) = grid T (List.range nObs) fun i t =>
      oobPrime uns i t / (if ((List.range T).map fun t => (oobPrime uns i t : K)).sum = 0 then 1
        else ((List.range T).map fun t => (oobPrime uns i t : K)).sum) := rfl
    rw [e, grid_length, List.length_range]

example : (oobWeights 2 3 exUns : List ℚ) = [1/2, 1/2, 0, 1, 0, 0] := by decide +kernel

/-! ### calc_y_oob -/

/-- C46: `calc_y_oob` on the arrays of `smooth_clean` returns, for every requested observation, the mean
over the trees for which it is out of bag of the smoothed value of the leaf it reaches, and whether
there is any such tree; 0 if there is none. (A leaf with zero denominator must have zero numerator:
otherwise the code divides by zero.) -/
theorem C46_oob_average [IsStrictOrderedRing K] (forest : List (SkTree K 1)) (hwf : ∀ t ∈ forest, t.WF)
    (s : Style) (pa : Bool) (nObs : ℕ) (leafOf : ℕ → ℕ → ℕ) (uns : ℕ → List ℕ)
    (hl : ∀ t tr, forest[t]? = some tr → ∀ i < nObs, leafOf t i < tr.nLeaves)
    (lamb : Fin (forestDepth forest + 1) → K)
    (hfin : ∀ t ∈ forest, ∀ r, smoothDen t s pa lamb r = 0 → smoothNum .reg t s pa lamb r 0 = 0)
    (obs : List ℕ) (ho : ∀ i ∈ obs, i < nObs) :
    calcYOob (cleanData forest s pa nObs leafOf uns) lamb obs = .ok
      (obs.map fun i => oobMean forest.length uns
        (fun t => leafAt forest 0 (fun tr r => smoothSpec .reg tr s pa lamb r 0) t (leafOf t i)) i,
       obs.map fun i => decide (∃ t < forest.length, i ∈ uns t)) := by
  have V := cleanView forest hwf s pa nObs leafOf uns hl
  have key : ∀ i ∈ obs, ∀ t < forest.length,
      dot (leafAt forest 0 (gVec s pa _) t (leafOf t i)) lamb /
        dot (leafAt forest 0 (hVec s pa _) t (leafOf t i)) lamb =
      leafAt forest 0 (fun tr r => smoothSpec .reg tr s pa lamb r 0) t (leafOf t i) ∧
      (dot (leafAt forest 0 (hVec s pa _) t (leafOf t i)) lamb = 0 →
        dot (leafAt forest 0 (gVec s pa _) t (leafOf t i)) lamb = 0) := by
    intro i hi t ht
    have htr : forest[t]? = some forest[t] := List.getElem?_eq_getElem ht
    have hlt := hl t _ htr i (ho i hi)
    rw [leafAt_pos htr hlt, leafAt_pos htr hlt, leafAt_pos htr hlt]
    refine ⟨?_, hfin forest[t] (List.getElem_mem ht) ⟨leafOf t i, hlt⟩⟩
    show smoothNum .reg forest[t] s pa lamb ⟨leafOf t i, hlt⟩ 0 /
      smoothDen forest[t] s pa lamb ⟨leafOf t i, hlt⟩ = _
    unfold smoothSpec
    split_ifs with h0
    · rw [h0, div_zero]
    · rfl
  rw [calcYOob_eq V lamb obs ho fun i hi t ht => (key i hi t ht).2]
  refine congrArg Except.ok (Prod.ext ?_ ?_)
  · refine List.map_congr_left fun i hi => ?_
    rw [← oobWeights_sum]
    refine Finset.sum_congr rfl fun t ht => ?_
    rw [(key i hi t (Finset.mem_range.1 ht)).1]
  · refine List.map_congr_left fun i hi => ?_
    have e : ∑ t ∈ Finset.range (cleanData forest s pa nObs leafOf uns).nTrees,
        (if i ∈ uns t then 1 / ((oobTrees forest.length uns i).card : K) else 0) =
          if oobTrees forest.length uns i = ∅ then 0 else 1 := oobWeights_total forest.length uns i
    rw [e]
    have : oobTrees forest.length uns i = ∅ ↔ ¬ ∃ t < forest.length, i ∈ uns t := by
      unfold oobTrees
      rw [Finset.filter_eq_empty_iff]
      simp
    rw [decide_eq_decide]
    split_ifs with h0
    · exact iff_of_false zero_ne_one (this.1 h0)
    · exact iff_of_true rfl (not_not.1 fun h => h0 (this.2 h))

/-- Three observations with two, one and no out-of-bag trees. -/
example : (match calcYOob (cleanData [exStump26, exStump] .standard false 3 exLeafOf exUns)
      ![1 / 2, 1 / 2] [0, 1, 2] with
    | .ok r => some r
    | .error _ => none) = some ([13 / 4, 5 / 2, 0], [true, true, false]) := by decide +kernel

/-- C46: a leaf with zero denominator and non-zero numerator makes the result infinite. -/
theorem C46_zero_denominator [IsStrictOrderedRing K] {k : ℕ} {d : CleanData K k} {n : ℕ}
    {g h : ℕ → ℕ → Fin k → K} {w : ℕ → ℕ → K} (V : CleanView d n g h w) (lamb : Fin k → K)
    (obs : List ℕ) (ho : ∀ i ∈ obs, i < n) {i t : ℕ} (hi : i ∈ obs) (ht : t < d.nTrees)
    (h0 : ∑ j, h i t j * lamb j = 0) (h1 : ∑ j, g i t j * lamb j ≠ 0) :
    calcYOob d lamb obs = .error .nonFinite := by
  unfold calcYOob
  rw [oobInner_eq V obs ho, calcGHFill_eq V lamb obs ho]
  simp only [bind, Except.bind, pure, Except.pure, grid_zipWith]
  rw [if_pos]
  rw [List.any_eq_true]
  refine ⟨dot (h i t) lamb, ?_, ?_⟩
  · simp only [grid, List.mem_flatMap, List.mem_map, List.mem_range]
    exact ⟨i, hi, t, ht, if_neg h1⟩
  · exact decide_eq_true h0

/-! ### gradients -/

/-- C76, cost: the mean, over the requested observations that are ever out of bag, of the squared
error of the out-of-bag prediction; not finite when there is none. -/
theorem C76_cost [IsStrictOrderedRing K] {k : ℕ} {d : CleanData K k} {y : List K} {lamb : Fin k → K}
    {obs : List ℕ} {p : ℕ → K} {ever : ℕ → Bool} {yv : ℕ → K} (hy : ∀ i ∈ obs, y[i]? = some (yv i))
    (h : calcYOob d lamb obs = .ok (obs.map p, obs.map ever)) :
    cleanCost d y lamb obs =
      if obs.filter ever = [] then .error .nonFinite
      else .ok (((obs.filter ever).map fun i => (p i - yv i) ^ 2).sum /
        ((obs.filter ever).length : K)) := by
  have e1 : obs.mapM (pyGet y) = .ok (obs.map yv) := mapM_ok _ _ _ fun i hi => pyGet_some (hy i hi)
  have e2 : ((List.zipWith (fun a b => (a - b) ^ 2) (obs.map p) (obs.map yv)).zip (obs.map ever)).filter
      (fun q => q.2) = (obs.filter ever).map fun i => ((p i - yv i) ^ 2, ever i) := by
    clear h e1 hy
    induction obs with
    | nil => rfl
    | cons i l ih =>
      simp only [List.map_cons, List.zipWith_cons_cons, List.zip_cons_cons, List.filter_cons]
      rw [ih]
      split_ifs <;> rfl
  unfold cleanCost
  rw [h]
  simp only [bind, Except.bind, e1]
  unfold calcCostStraight
  rw [e2]
  simp only [List.length_map, List.length_eq_zero_iff, List.map_map]
  rfl

/-- C76, gradient: `calc_l2_grad` is `2/n_oob * Σ_i (y_oob(i) - y_i) * row_i`, where `row_i` are the rows
of `calc_y_oob_grad` and `n_oob` counts the requested observations that are ever out of bag. -/
theorem C76_l2_grad [IsStrictOrderedRing K] {k : ℕ} {d : CleanData K k} {y : List K} {lamb : Fin k → K}
    {obs : List ℕ} {p : ℕ → K} {ever : ℕ → Bool} {yv : ℕ → K} {row : ℕ → Fin k → K}
    (hy : ∀ i ∈ obs, y[i]? = some (yv i))
    (h : calcYOob d lamb obs = .ok (obs.map p, obs.map ever))
    (hg : calcYOobGrad d lamb obs = .ok (obs.map row)) :
    calcL2Grad d y lamb obs =
      if obs.filter ever = [] then .error .nonFinite
      else .ok fun j => 2 / ((obs.filter ever).length : K) *
        (obs.map fun i => (p i - yv i) * row i j).sum := by
  have e1 : obs.mapM (pyGet y) = .ok (obs.map yv) := mapM_ok _ _ _ fun i hi => pyGet_some (hy i hi)
  have e3 : ((obs.map ever).filter fun b => b).length = (obs.filter ever).length := by
    rw [List.filter_map, List.length_map]; rfl
  unfold calcL2Grad
  rw [e1, h, hg]
  simp only [bind, Except.bind, pure, Except.pure, e3, Nat.cast_eq_zero, List.length_eq_zero_iff]
  split_ifs with h0
  · rfl
  · congr 1
    funext j
    rw [List.zipWith_map, List.zipWith_self, List.zipWith_map, List.zipWith_self, ← List.sum_map_mul_left]
    refine congrArg List.sum (List.map_congr_left fun i _ => ?_)
    ring

/-- C47 (what holds): where the denominators are non-zero, row `m` of `calc_y_oob_grad` differs from the
gradient of the out-of-bag prediction by `Σ_t w_t (1/G_t - 1/H_t) g_t` (`G_t` the numerator, replaced
by 1 when 0): the first term divides by the numerator instead of the denominator, the second term is
right. It is the gradient when numerator and denominator agree for every tree that counts, and zero
for an observation that is never out of bag.
Missing: equality in general, which is false (`C47_refuted`). -/
theorem C47_oob_gradient_partial {k : ℕ} {d : CleanData ℝ k} {n : ℕ} {g h : ℕ → ℕ → Fin k → ℝ}
    {w : ℕ → ℕ → ℝ} (V : CleanView d n g h w) (lamb : Fin k → ℝ) {m : ℕ} (hm : m < n)
    (hne : ∀ t < d.nTrees, ∑ j, h m t j * lamb j ≠ 0) :
    ∃ (f : (Fin k → ℝ) → ℝ) (b : Bool) (L : (Fin k → ℝ) →L[ℝ] ℝ) (row : Fin k → ℝ),
      (∀ᶠ x in nhds lamb, calcYOob d x [m] = .ok ([f x], [b])) ∧ HasFDerivAt f L lamb ∧
      calcYOobGrad d lamb [m] = .ok [row] ∧
      (∀ v, ∑ j, row j * v j = L v + ∑ t ∈ Finset.range d.nTrees, w m t *
        (1 / (if ∑ j, g m t j * lamb j = 0 then 1 else ∑ j, g m t j * lamb j) -
          1 / ∑ j, h m t j * lamb j) * ∑ j, g m t j * v j) ∧
      ((∀ t < d.nTrees, w m t ≠ 0 → ∑ j, g m t j * lamb j = ∑ j, h m t j * lamb j) →
        ∀ v, ∑ j, row j * v j = L v) ∧
      ((∀ t < d.nTrees, w m t = 0) → row = 0) := by
  have hd : HasFDerivAt (fun x => ∑ t ∈ Finset.range d.nTrees,
      w m t * (dot (g m t) x / dot (h m t) x)) _ lamb :=
    HasFDerivAt.fun_sum fun t ht => (hasFDerivAt_ratio (g m t) (h m t) lamb
      (hne t (Finset.mem_range.1 ht))).const_mul (w m t)
  have hmm : ∀ o ∈ [m], o < n := by simpa using hm
  have main : ∀ v : Fin k → ℝ, ∑ j, ((∑ t ∈ Finset.range d.nTrees,
        1 / (if dot (g m t) lamb = 0 then 1 else dot (g m t) lamb) * (w m t * g m t j)) -
      ∑ t ∈ Finset.range d.nTrees,
        dot (g m t) lamb / (if dot (h m t) lamb = 0 then 1 else dot (h m t) lamb) ^ 2 *
          (w m t * h m t j)) * v j =
      (∑ t ∈ Finset.range d.nTrees, w m t • ((dot (h m t) lamb)⁻¹ • dotL (g m t) -
        (dot (g m t) lamb / dot (h m t) lamb ^ 2) • dotL (h m t))) v +
      ∑ t ∈ Finset.range d.nTrees, w m t *
        (1 / (if dot (g m t) lamb = 0 then 1 else dot (g m t) lamb) -
          1 / dot (h m t) lamb) * dot (g m t) v := by
    intro v
    simp only [sub_mul, Finset.sum_mul, Finset.sum_sub_distrib]
    rw [Finset.sum_comm, Finset.sum_comm (f := fun j t => dot (g m t) lamb / _ ^ 2 * _ * v j),
      ← Finset.sum_sub_distrib, sum_apply, ← Finset.sum_add_distrib]
    refine Finset.sum_congr rfl fun t ht => ?_
    have e : dot (h m t) lamb ≠ 0 := hne t (Finset.mem_range.1 ht)
    rw [if_neg e]
    have e1 : ∀ (a : ℝ) (u : Fin k → ℝ), ∑ j, a * (w m t * u j) * v j = a * w m t * dot u v := by
      intro a u
      unfold dot
      rw [Finset.mul_sum]
      exact Finset.sum_congr rfl fun j _ => by ring
    rw [e1, e1]
    simp only [smul_apply, sub_apply, dotL_apply, smul_eq_mul]
    ring
  refine ⟨_, decide (∑ t ∈ Finset.range d.nTrees, w m t = 1), _, _, ?_, hd, ?_, main, ?_, ?_⟩
  · have : ∀ᶠ x in nhds lamb, ∀ t ∈ List.range d.nTrees, dot (h m t) x ≠ 0 :=
      eventually_all_list _ _ _ fun t ht =>
        (continuous_dot (h m t)).continuousAt.eventually_ne (hne t (List.mem_range.1 ht))
    filter_upwards [this] with x hx
    rw [calcYOob_eq V x [m] hmm]
    · rfl
    · intro o ho t ht h0
      rw [List.mem_singleton] at ho
      subst ho
      exact absurd h0 (hx t (List.mem_range.2 ht))
  · rw [calcYOobGrad_eq V lamb [m] hmm]
    rfl
  · intro heq v
    rw [main v, add_eq_left]
    refine Finset.sum_eq_zero fun t ht => ?_
    have ht := Finset.mem_range.1 ht
    by_cases hw : w m t = 0
    · simp [hw]
    · have e1 : dot (g m t) lamb = dot (h m t) lamb := heq t ht hw
      have e2 : dot (h m t) lamb ≠ 0 := hne t ht
      rw [e1, if_neg e2, sub_self]
      simp
  · intro hw
    funext j
    rw [Finset.sum_eq_zero, Finset.sum_eq_zero, sub_zero]
    · rfl
    · intro t ht; rw [hw t (Finset.mem_range.1 ht)]; ring
    · intro t ht; rw [hw t (Finset.mem_range.1 ht)]; ring

/-- The arrays of `exStump26` (see the example below) over the reals, one observation. -/
abbrev exData26 : CleanData ℝ 2 :=
  { gam := [![2, 6], ![6, 2]], eta := [![1, 1], ![1, 1]], idxMat := [[0]], nTrees := 1, oobW := [1] }

example : let d := cleanData [exStump26] .standard false 1 exLeafOf exUns
    d.gam.map List.ofFn = [[2, 6], [6, 2]] ∧ d.eta.map List.ofFn = [[1, 1], [1, 1]] ∧
    d.idxMat = [[0]] ∧ d.nTrees = 1 ∧ d.oobW = [1] := by decide +kernel

theorem exView26 : CleanView exData26 1 (fun _ _ => ![2, 6]) (fun _ _ => ![1, 1]) (fun _ _ => 1) where
  len := rfl
  rows ob hob := by
    obtain rfl : ob = 0 := by omega
    refine ⟨[0], rfl, rfl, fun t ht => ?_⟩
    obtain rfl : t = 0 := by have : t < 1 := ht; omega
    exact ⟨0, rfl, rfl, rfl⟩
  wts ob hob t ht := by
    obtain rfl : ob = 0 := by omega
    obtain rfl : t = 0 := by have : t < 1 := ht; omega
    rfl

/-- C47 is false: for a stump with leaf values 2 and 6 and `lamb = (1,0)` the returned row is not the
gradient of the out-of-bag prediction. -/
theorem C47_refuted : ∃ (d : CleanData ℝ 2) (lamb : Fin 2 → ℝ) (f : (Fin 2 → ℝ) → ℝ) (b : Bool)
    (L : (Fin 2 → ℝ) →L[ℝ] ℝ) (row : Fin 2 → ℝ),
    (∀ᶠ x in nhds lamb, calcYOob d x [0] = .ok ([f x], [b])) ∧ HasFDerivAt f L lamb ∧
    calcYOobGrad d lamb [0] = .ok [row] ∧ ∃ v, ∑ j, row j * v j ≠ L v := by
  obtain ⟨f, b, L, row, h1, h2, h3, h4, -, -⟩ := C47_oob_gradient_partial exView26 ![1, 0] (m := 0)
    (by norm_num) (by simp)
  refine ⟨exData26, ![1, 0], f, b, L, row, h1, h2, h3, ![1, 0], ?_⟩
  rw [h4]
  simp
  norm_num

/-! ### stocastic_grad_descent_clean -/

variable {k : ℕ} {d : CleanData K k} {y : List K} {o : CleanOpts K}

/-- C48 (what holds): with `use_full_loss` and at least one step the first returned vector is the
starting vector, whatever happens during the descent.
Missing: that it has the smallest loss, which is false (`C48_refuted`). -/
theorem C48_full_loss_partial (hf : o.useFullLoss = true) {choices : List (List ℕ)} (hc : choices ≠ [])
    {lambInit lb ll : Fin k → K} {costs : List K}
    (h : sgdClean sqrt approxOne d y o lambInit choices = .ok (lb, ll, costs)) : lb = lambInit := by
  obtain ⟨-, s, h1, -, -, h2, -⟩ := sgdClean_ok h
  obtain ⟨c, e⟩ := (cleanFold_init hc h1).2.1 hf
  obtain ⟨c', e'⟩ := h2 hf
  rw [e] at e'
  cases e'
  rfl

/-- C48, zero steps: with `use_full_loss` and no step `lamb_best` was never assigned. -/
theorem C48_zero_steps (hf : o.useFullLoss = true) {lambInit : Fin k → K}
    (hstart : o.noConstraint = true ∨ approxOne (∑ i, lambInit i) = true ∧ ∀ i, 0 ≤ lambInit i) :
    sgdClean sqrt approxOne d y o lambInit [] = .error .unboundLocalError := by
  unfold sgdClean
  rw [if_neg]
  · rw [hf]; rfl
  · rintro ⟨a, b⟩
    rcases hstart with hs | ⟨h1, h2⟩
    · rw [hs] at a; cases a
    · rcases b with b | ⟨i, hi⟩
      · rw [h1] at b; cases b
      · exact absurd (h2 i) (not_le.2 hi)

/-- C48 is false: on the stump with values 2 and 6 and one out-of-bag observation with label 4, one full
gradient step reaches a loss of 0, but the starting vector (loss 4) is returned as best. -/
theorem C48_refuted : ∃ (forest : List (SkTree ℚ 1)) (y : List ℚ) (leafOf : ℕ → ℕ → ℕ)
    (uns : ℕ → List ℕ) (o : CleanOpts ℚ) (start best last : Fin (forestDepth forest + 1) → ℚ)
    (c0 c1 : ℚ),
    let d := cleanData forest .standard false 1 leafOf uns
    sgdClean (fun x => x) (fun x => decide (x = 1)) d y o start [[0]] = .ok (best, last, [c0, c1]) ∧
    o.useFullLoss = true ∧ cleanCost d y best (List.range 1) = .ok c0 ∧
    cleanCost d y last (List.range 1) = .ok c1 ∧ c1 < c0 := by
  refine ⟨[exStump26], [4], exLeafOf, exUns, ⟨1, true, 1 / 8, false, none⟩,
    (fun i => if i = 0 then 1 else 0), (fun i => if i = 0 then 1 else 0), (fun _ => 1 / 2), 4, 0, ?_, rfl,
    ?_, ?_, by norm_num⟩
  · exact ok_of_toOption (by decide +kernel)
  · exact ok_of_toOption (by decide +kernel)
  · exact ok_of_toOption (by decide +kernel)

/-- C49: the cost list has one entry more than there are steps (none for no steps), and without full
loss the first returned vector is the last iterate. -/
theorem C49_cost_list {choices : List (List ℕ)} {lambInit lb ll : Fin k → K} {costs : List K}
    (h : sgdClean sqrt approxOne d y o lambInit choices = .ok (lb, ll, costs)) :
    (costs.length = if choices = [] then 0 else choices.length + 1) ∧
    (o.useFullLoss = false → lb = ll) := by
  obtain ⟨-, s, h1, e1, e2, -, e3⟩ := sgdClean_ok h
  refine ⟨?_, fun hf => by rw [e1, e3 hf]⟩
  rw [e2]
  split_ifs with hc
  · subst hc; cases h1; rfl
  · exact (cleanFold_init hc h1).1

example : (match sgdClean (fun x => x) (fun x => decide (x = 1))
      (cleanData [exStump26] .standard false 1 exLeafOf exUns) [4] ⟨1, false, 1 / 16, false, none⟩
      (fun i => if i = 0 then 1 else 0) [[0], [0]] with
    | .ok r => some (r.2.2.length, decide (r.1 = r.2.1))
    | .error _ => none) = some (3, true) := by decide +kernel

/-- One step of the descent on the sampled rows `obs`: from weights `l` (and moments `v`) against the gradient of the loss on `obs`
(plain) or by Adam's rule, then projected unless `no_constraint`. -/
def CleanMoves (sqrt : K → K) (d : CleanData K k) (y : List K) (o : CleanOpts K) (obs : List ℕ)
    (l : (Fin k → K) × Option (Iv K k)) (l' : (Fin k → K) × Option (Iv K k)) : Prop :=
  ∃ p : Fin k → K,
    (o.adam = none → ∃ g, calcL2Grad d y l.1 obs = .ok g ∧ (∀ j, p j = l.1 j - o.tFix * g j) ∧ l'.2 = l.2) ∧
    (∀ a, o.adam = some a → ∃ v, adamStep sqrt (fun x => calcL2Grad d y x obs) (some l.1) a l.2 = .ok (p, v) ∧ l'.2 = some v) ∧
    (o.noConstraint = true → l'.1 = p) ∧ (o.noConstraint = false → proxProject p = .ok l'.1)

/-- The points `vs` reached from `s` by one step for each entry of the schedule. -/
inductive CleanTrace {S : Type} (step : List ℕ → S → S → Prop) : S → List (List ℕ) → List S → Prop
  | nil (s : S) : CleanTrace step s [] []
  | cons {s s' : S} {c : List ℕ} {cs : List (List ℕ)} {vs : List S} :
      step c s s' → CleanTrace step s' cs vs → CleanTrace step s (c :: cs) (s' :: vs)

theorem cleanMove_moves {obs : List ℕ} {l l' : Fin k → K} {v v' : Option (Iv K k)}
    (h : cleanMove sqrt d y o obs l v = .ok (l', v')) : CleanMoves sqrt d y o obs (l, v) (l', v') := by
  unfold cleanMove at h
  obtain ⟨⟨p, q⟩, h1, h⟩ := bind_ok h
  have e : v' = q := by
    dsimp only at h
    split_ifs at h
    · cases h; rfl
    · obtain ⟨l2, -, h⟩ := bind_ok h
      cases h; rfl
  subst e
  refine ⟨p, fun ha => ?_, fun a ha => ?_, fun hn => ?_, fun hn => ?_⟩
  · rw [cleanPre, ha] at h1
    obtain ⟨g, hg, h1⟩ := bind_ok h1
    cases h1
    exact ⟨g, hg, fun _ => rfl, rfl⟩
  · rw [cleanPre, ha] at h1
    obtain ⟨⟨g, w⟩, hg, h1⟩ := bind_ok h1
    cases h1
    exact ⟨w, hg, rfl⟩
  · dsimp only at h
    rw [if_pos hn] at h
    cases h; rfl
  · dsimp only at h
    rw [if_neg (by simp [hn])] at h
    obtain ⟨l2, h2, h⟩ := bind_ok h
    cases h
    exact h2

/-- The rows a recorded cost is taken over. -/
def costRows (d : CleanData K k) (o : CleanOpts K) (obs : List ℕ) : List ℕ :=
  if o.useFullLoss then List.range d.idxMat.length else obs

theorem cleanStart_cost {obs : List ℕ} {s s' : CleanState K k} (h0 : s.started = false) (h : cleanStart d y o obs s = .ok s') :
    s'.started = true ∧ s'.lamb = s.lamb ∧ s'.iv = s.iv ∧
      ∃ c, cleanCost d y s.lamb (costRows d o obs) = .ok c ∧ s'.costAll = s.costAll ++ [c] := by
  unfold cleanStart at h
  rw [if_neg (by simp [h0])] at h
  unfold costRows
  split_ifs at h ⊢
  · obtain ⟨c, hc, h⟩ := bind_ok h
    cases h
    exact ⟨rfl, rfl, rfl, c, hc, rfl⟩
  · obtain ⟨c, hc, h⟩ := bind_ok h
    cases h
    exact ⟨rfl, rfl, rfl, c, hc, rfl⟩

theorem cleanStep_run {obs : List ℕ} {s s' : CleanState K k} (h0 : s.started = true) (h : cleanStep sqrt d y o s obs = .ok s') :
    s'.started = true ∧ CleanMoves sqrt d y o obs (s.lamb, s.iv) (s'.lamb, s'.iv) ∧
      ∃ c, cleanCost d y s'.lamb (costRows d o obs) = .ok c ∧ s'.costAll = s.costAll ++ [c] := by
  unfold cleanStep at h
  split_ifs at h
  obtain ⟨s1, h1, h⟩ := bind_ok h
  obtain ⟨⟨l, v⟩, h2, h⟩ := bind_ok h
  unfold cleanStart at h1
  rw [if_pos h0] at h1
  cases h1
  unfold cleanRecord at h
  unfold costRows
  split_ifs at h ⊢
  · obtain ⟨c, hc, h⟩ := bind_ok h
    cases h
    exact ⟨h0, cleanMove_moves h2, c, hc, rfl⟩
  · obtain ⟨c, hc, h⟩ := bind_ok h
    cases h
    exact ⟨h0, cleanMove_moves h2, c, hc, rfl⟩

theorem cleanFold_run : ∀ {choices : List (List ℕ)} {s s' : CleanState K k}, s.started = true →
    choices.foldlM (cleanStep sqrt d y o) s = .ok s' →
    ∃ (vs : List ((Fin k → K) × Option (Iv K k))) (cs : List K), CleanTrace (CleanMoves sqrt d y o) (s.lamb, s.iv) choices vs ∧
      s'.lamb = ((vs.map Prod.fst).getLast?).getD s.lamb ∧ s'.costAll = s.costAll ++ cs ∧
      List.Forall₂ (fun (p : (Fin k → K) × List ℕ) c => cleanCost d y p.1 (costRows d o p.2) = .ok c) ((vs.map Prod.fst).zip choices) cs := by
  intro choices
  induction choices with
  | nil =>
    intro s s' _ h
    cases h
    exact ⟨[], [], .nil _, rfl, by simp, .nil⟩
  | cons obs cs ih =>
    intro s s' h0 h
    rw [List.foldlM_cons] at h
    obtain ⟨s1, h1, h⟩ := bind_ok h
    obtain ⟨g0, g1, c, g2, g3⟩ := cleanStep_run h0 h1
    obtain ⟨vs, cl, f1, f2, f3, f4⟩ := ih g0 h
    refine ⟨(s1.lamb, s1.iv) :: vs, c :: cl, .cons g1 f1, ?_, by rw [f3, g3, List.append_assoc]; rfl, .cons g2 f4⟩
    rw [f2, List.map_cons, List.getLast?_cons]
    rfl

/-- C49, the run: one step for each entry of the schedule, each along the gradient of the loss on the rows drawn for it; the last
vector returned is the last point reached, and the cost list holds the loss of the start and of every point reached, on the rows
drawn for that step or, with `use_full_loss`, on all rows. -/
theorem C49_run {choices : List (List ℕ)} {lambInit lb ll : Fin k → K} {costs : List K}
    (h : sgdClean sqrt approxOne d y o lambInit choices = .ok (lb, ll, costs)) :
    ∃ vs : List ((Fin k → K) × Option (Iv K k)), CleanTrace (CleanMoves sqrt d y o) (lambInit, none) choices vs ∧
      ll = ((vs.map Prod.fst).getLast?).getD lambInit ∧
      List.Forall₂ (fun (p : (Fin k → K) × List ℕ) c =>
          cleanCost d y p.1 (if o.useFullLoss then List.range d.idxMat.length else p.2) = .ok c)
        ((choices.head?.map fun obs => (lambInit, obs)).toList ++ (vs.map Prod.fst).zip choices) costs := by
  obtain ⟨-, s, h1, e1, e2, -, -⟩ := sgdClean_ok h
  subst e1 e2
  cases choices with
  | nil =>
    cases h1
    exact ⟨[], .nil _, rfl, .nil⟩
  | cons obs cs =>
    rw [List.foldlM_cons] at h1
    obtain ⟨s1, h1, h2⟩ := bind_ok h1
    unfold cleanStep at h1
    split_ifs at h1 with hlen
    obtain ⟨s0, h3, h4⟩ := bind_ok h1
    obtain ⟨g0, g1, g2, c, g3, g4⟩ := cleanStart_cost rfl h3
    have h5 : cleanStep sqrt d y o s0 obs = .ok s1 := by
      unfold cleanStep
      rw [if_neg hlen, cleanStart, if_pos g0]
      exact h4
    have hf : (obs :: cs).foldlM (cleanStep sqrt d y o) s0 = .ok s := by
      rw [List.foldlM_cons, h5]
      exact h2
    obtain ⟨vs, cl, f1, f2, f3, f4⟩ := cleanFold_run g0 hf
    rw [g1, g2] at f1
    rw [g1] at f2
    refine ⟨vs, f1, f2, ?_⟩
    rw [f3, g4]
    exact .cons g3 f4

/-- Two plain constrained steps on the stump with values 2 and 6: recorded losses of the start and the two points. -/
example : (match sgdClean (fun x => x) (fun x => decide (x = 1))
      (cleanData [exStump26] .standard false 1 exLeafOf exUns) [4] ⟨1, false, 1 / 16, false, none⟩
      (fun i => if i = 0 then 1 else 0) [[0], [0]] with
    | .ok r => some (List.ofFn r.2.1, r.2.2)
    | .error _ => none) = some ([11 / 24, 1 / 8], [4, 1, 64 / 49]) := by decide +kernel

/-- C75: under the constraint every weight vector returned by `stocastic_grad_descent_clean` is
non-negative. -/
theorem C75_clean_nonneg [IsStrictOrderedRing K] {n : ℕ} {d : CleanData K (n + 1)}
    (hn : o.noConstraint = false)
    {choices : List (List ℕ)} {lambInit lb ll : Fin (n + 1) → K} {costs : List K}
    (h : sgdClean sqrt approxOne d y o lambInit choices = .ok (lb, ll, costs)) :
    (∀ i, 0 ≤ lb i) ∧ (∀ i, 0 ≤ ll i) := by
  obtain ⟨h0, s, h1, rfl, -, e2, e3⟩ := sgdClean_ok h
  have hi : ∀ i, 0 ≤ lambInit i := by
    intro i
    by_contra hh
    exact h0 ⟨hn, Or.inr ⟨i, not_le.1 hh⟩⟩
  have hs : ∀ i, 0 ≤ s.lamb i := by
    by_cases hc : choices = []
    · subst hc; cases h1; exact hi
    · obtain ⟨l, e⟩ := (cleanFold_init hc h1).2.2 hn
      obtain ⟨x, e', hx, -⟩ := C19_prox_nonneg_monotone l
      rw [e] at e'
      cases e'
      exact hx
  refine ⟨?_, hs⟩
  cases hf : o.useFullLoss
  · rw [e3 hf]; exact hs
  · obtain ⟨c, hb⟩ := e2 hf
    by_cases hc : choices = []
    · subst hc; cases h1; cases hb
    · obtain ⟨c, e⟩ := (cleanFold_init hc h1).2.1 hf
      rw [hb] at e
      cases e
      exact hi

/-! ### smooth_clean -/

variable {forest : List (SkTree K 1)} {leafOf : ℕ → ℕ → ℕ} {uns : ℕ → List ℕ} {cfg : CleanCfg K}
  {choices : List (List ℕ)} {rf1 : List (SkTree K 1)} {lamb : Fin (forestDepth forest + 1) → K}
  {c : List K}

/-- C74: in the forest returned by `smooth_clean` the `r`-th leaf of every tree holds the ratio computed
from that tree alone with the returned weights. -/
theorem C74_clean_rows (hwf : ∀ t ∈ forest, t.WF)
    (h : smoothClean sqrt approxOne (some .reg) forest y leafOf uns cfg choices = .ok (rf1, lamb, c)) :
    List.Forall₂ (fun t t' => LeafUpdate t t'
      fun r => smoothSpec .reg t cfg.style cfg.parentsAll lamb r) forest rf1 :=
  (smoothClean_ok hwf h).2.2

/-- C74: anything but a regressor is rejected. -/
theorem C74_regression_only (rf : Option Kind) (h : rf ≠ some .reg) :
    smoothClean sqrt approxOne rf forest y leafOf uns cfg choices = .error .valueError := by
  match rf, h with
  | some .reg, h => exact absurd rfl h
  | some .cls, _ => rfl
  | none, _ => rfl

/-- C37 for `smooth_clean`: only leaf values differ from the input forest. -/
theorem C37_clean_only_leaf_values (hwf : ∀ t ∈ forest, t.WF)
    (h : smoothClean sqrt approxOne (some .reg) forest y leafOf uns cfg choices = .ok (rf1, lamb, c)) :
    List.Forall₂ (fun t t' => ∃ v, t' = { t with value := v } ∧
      ∀ i c, ¬ t.IsLeaf i → v i c = t.value i c) forest rf1 :=
  forall2_imp_mem (smoothClean_ok hwf h).2.2 fun t _ t' ⟨v, e, _, hw⟩ => ⟨v, e, hw⟩

/-- C36 for `smooth_clean`: with `sanity_check=True` (seeded or not) the forest is returned unchanged. -/
theorem C36_clean_sanity_identity (hwf : ∀ t ∈ forest, t.WF)
    (hn : ∀ t ∈ forest, ∀ r, t.nSamp (t.leafNode r) ≠ 0) (hs : cfg.sanityCheck = true)
    (hseed : ∀ u, cfg.seed = some u → ∑ i : Fin (forestDepth forest + 1), u i ≠ 0) (hy : y ≠ []) :
    ∃ lamb, smoothClean sqrt approxOne (some .reg) forest y leafOf uns cfg choices =
      .ok (forest, lamb, []) ∧ ∀ i, lamb i = if i = 0 then 1 else 0 := by
  have hb : ∃ l, baseLamb (n := forestDepth forest) cfg.seed = .ok l := by
    unfold baseLamb
    cases hc : cfg.seed with
    | none => exact ⟨_, rfl⟩
    | some u =>
      simp only [normalise]
      rw [if_neg (hseed u hc)]
      exact ⟨_, rfl⟩
  obtain ⟨l, hl⟩ := hb
  have e : cleanLamb sqrt approxOne (cleanData forest cfg.style cfg.parentsAll y.length leafOf uns) y cfg
      choices = .ok ((fun i => if i = 0 then 1 else 0), []) := by
    unfold cleanLamb
    rw [if_neg (by simpa using hy), hl]
    simp only [bind, Except.bind]
    rw [if_pos hs]
    rfl
  obtain ⟨rf1, h⟩ := smoothClean_returns hwf e
  have := forest_same hwf hn (fun _ => rfl) (smoothClean_ok hwf h).2.2
  subst this
  exact ⟨_, h, fun _ => rfl⟩

/-- C48, consequence: `smooth_clean` with `all_obs` or `use_full_loss` and no seed returns the input
forest unchanged after any number (≥ 1) of steps. -/
theorem C48_no_smoothing (hwf : ∀ t ∈ forest, t.WF)
    (hn : ∀ t ∈ forest, ∀ r, t.nSamp (t.leafNode r) ≠ 0) (hseed : cfg.seed = none)
    (hf : cfg.allObs = true ∨ cfg.useFullLoss = true) (hc : choices ≠ [])
    (h : smoothClean sqrt approxOne (some .reg) forest y leafOf uns cfg choices = .ok (rf1, lamb, c)) :
    rf1 = forest ∧ ∀ i, lamb i = if i = 0 then 1 else 0 := by
  obtain ⟨-, h1, h2⟩ := smoothClean_ok hwf h
  have hl : ∀ i, lamb i = if i = 0 then 1 else 0 := by
    unfold cleanLamb at h1
    split at h1
    · cases h1
    rw [hseed] at h1
    obtain ⟨l, h3, h1⟩ := bind_ok h1
    have h3 : l = fun i => if i = 0 then 1 else 0 := by cases h3; rfl
    by_cases hs : cfg.sanityCheck = true
    · rw [if_pos hs] at h1
      cases h1; exact fun _ => rfl
    · rw [if_neg hs] at h1
      obtain ⟨⟨r1, r2, r3⟩, h4, h1⟩ := bind_ok h1
      cases h1
      have := C48_full_loss_partial (by rcases hf with hf | hf <;> simp [hf]) hc h4
      intro i
      rw [this, h3]
  exact ⟨forest_same hwf hn hl h2, hl⟩

/-- A run of `smooth_clean` with `all_obs`, whose second cost is smaller than the first. -/
example : (match smoothClean (fun x => x) (fun x => decide (x = 1)) (some .reg) [exStump26] [4] exLeafOf
      exUns exClean [[0]] with
    | .ok r => some (valuesOf r.1, r.2.2)
    | .error _ => none) = some ([[[4], [2], [6]]], [4, 0]) := by decide +kernel

/-- Without full loss the leaves move. -/
example : (match smoothClean (fun x => x) (fun x => decide (x = 1)) (some .reg) [exStump26, exStump] [4]
      exLeafOf exUns { exClean with allObs := false } [[0]] with
    | .ok r => some (valuesOf r.1)
    | .error _ => none) = some [[[4], [41/8], [23/8]], [[5/2], [107/32], [53/32]]] := by decide +kernel

end SmoothRF
