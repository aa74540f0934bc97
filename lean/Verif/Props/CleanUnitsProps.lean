import Verif.Props.CleanProps
import Verif.Props.AffineProps

/-!
# Change of units in smooth_clean (C207)

`calc_y_oob_grad` divides its first term by the numerator instead of the denominator (C47). The two terms then change with
different powers of the unit, so that `smooth_clean` learns other weights when the response is measured in other units.
-/

set_option linter.unusedSectionVars false

namespace SmoothRF

open Topo SkTree

variable {K : Type} [Field K] [LinearOrder K] [IsStrictOrderedRing K] {k : ℕ}

/-- The arrays of `smooth_clean` with all leaf values multiplied by `a`. -/
def unitData (a : K) (d : CleanData K k) : CleanData K k := { d with gam := d.gam.map fun g j => a * g j }

theorem CleanView.unit (a : K) {d : CleanData K k} {n : ℕ} {g h : ℕ → ℕ → Fin k → K} {w : ℕ → ℕ → K}
    (V : CleanView d n g h w) : CleanView (unitData a d) n (fun i t j => a * g i t j) h w where
  len := V.len
  rows i hi := by
    obtain ⟨row, h1, h2, h3⟩ := V.rows i hi
    refine ⟨row, h1, h2, fun t ht => ?_⟩
    obtain ⟨q, h4, h5, h6⟩ := h3 t ht
    refine ⟨q, h4, ?_, h6⟩
    show (d.gam.map fun g j => a * g j)[q]? = _
    rw [List.getElem?_map, h5]
    rfl
  wts := V.wts

theorem dot_unit (a : K) (g l : Fin k → K) : dot (fun j => a * g j) l = a * dot g l := by
  unfold dot
  rw [Finset.mul_sum]
  exact Finset.sum_congr rfl fun j _ => mul_assoc _ _ _

theorem sum_map_sub_list {α : Type} (l : List α) (f g : α → K) : (l.map fun x => f x - g x).sum = (l.map f).sum - (l.map g).sum := by
  induction l with
  | nil => simp
  | cons x l ih =>
    simp only [List.map_cons, List.sum_cons, ih]
    ring

section data

variable {d : CleanData K k} {n : ℕ} {g h : ℕ → ℕ → Fin k → K} {w : ℕ → ℕ → K} (V : CleanView d n g h w)
  {lamb : Fin k → K} {obs : List ℕ} (ho : ∀ i ∈ obs, i < n)
  (hd : ∀ i ∈ obs, ∀ t < d.nTrees, ∑ j, h i t j * lamb j ≠ 0)
include V ho hd

/-- C207, predictions: in other units the out-of-bag predictions are the same numbers in other units, and the same observations
have one. -/
theorem C207_predictions : ∃ ps ever, calcYOob d lamb obs = .ok (ps, ever) ∧
    ∀ a, calcYOob (unitData a d) lamb obs = .ok (ps.map (a * ·), ever) := by
  refine ⟨_, _, calcYOob_eq V lamb obs ho fun i hi t ht h0 => absurd h0 (hd i hi t ht), fun a => ?_⟩
  rw [calcYOob_eq (V.unit a) lamb obs ho fun i hi t ht h0 => absurd h0 (hd i hi t ht), List.map_map]
  congr 2
  refine List.map_congr_left fun i _ => ?_
  simp only [Function.comp, dot_unit]
  rw [Finset.mul_sum]
  exact Finset.sum_congr rfl fun t _ => by rw [mul_div_assoc, mul_left_comm]

variable {y : List K} (hy : ∀ i ∈ obs, i < y.length) (hever : ∃ i ∈ obs, ∑ t ∈ Finset.range d.nTrees, w i t = 1)
include hy hever

/-- C207, loss: multiplied by the square of the factor. -/
theorem C207_cost : ∃ c, cleanCost d y lamb obs = .ok c ∧
    ∀ a, cleanCost (unitData a d) (y.map (a * ·)) lamb obs = .ok (a ^ 2 * c) := by
  have hyv : ∀ i ∈ obs, y[i]? = some (y.getD i 0) := fun i hi => by
    rw [List.getD_eq_getElem?_getD, List.getElem?_eq_getElem (hy i hi)]
    rfl
  have hyv' : ∀ (a : K), ∀ i ∈ obs, (y.map (a * ·))[i]? = some (a * y.getD i 0) := fun a i hi => by
    rw [List.getElem?_map, hyv i hi]
    rfl
  have hfin : ∀ i ∈ obs, ∀ t < d.nTrees, dot (h i t) lamb = 0 → dot (g i t) lamb = 0 :=
    fun i hi t ht h0 => absurd h0 (hd i hi t ht)
  have hne : obs.filter (fun i => decide (∑ t ∈ Finset.range d.nTrees, w i t = 1)) ≠ [] := by
    obtain ⟨i, hi, h1⟩ := hever
    exact List.ne_nil_of_mem (List.mem_filter.2 ⟨hi, decide_eq_true h1⟩)
  refine ⟨_, by rw [C76_cost hyv (calcYOob_eq V lamb obs ho hfin), if_neg hne], fun a => ?_⟩
  have e := calcYOob_eq (V.unit a) lamb obs ho fun i hi t ht h0 => absurd h0 (hd i hi t ht)
  rw [C76_cost (hyv' a) e]
  rw [show (unitData a d).nTrees = d.nTrees from rfl, if_neg hne, ← mul_div_assoc, ← List.sum_map_mul_left]
  congr 3
  refine List.map_congr_left fun i _ => ?_
  simp only [dot_unit]
  have : ∑ t ∈ Finset.range d.nTrees, w i t * (a * dot (g i t) lamb / dot (h i t) lamb) =
      a * ∑ t ∈ Finset.range d.nTrees, w i t * (dot (g i t) lamb / dot (h i t) lamb) := by
    rw [Finset.mul_sum]
    exact Finset.sum_congr rfl fun t _ => by rw [mul_div_assoc, mul_left_comm]
  rw [this]
  ring

variable (hg : ∀ i ∈ obs, ∀ t < d.nTrees, ∑ j, g i t j * lamb j ≠ 0)
include hg

/-- C207, gradient: `calc_l2_grad` is a difference `P - Q` whose first part changes with the unit and whose second part changes
with its square. -/
theorem C207_gradient : ∃ P Q : Fin k → K, calcL2Grad d y lamb obs = .ok (fun j => P j - Q j) ∧
    ∀ a, a ≠ 0 → calcL2Grad (unitData a d) (y.map (a * ·)) lamb obs = .ok (fun j => a * P j - a ^ 2 * Q j) := by
  have hyv : ∀ i ∈ obs, y[i]? = some (y.getD i 0) := fun i hi => by
    rw [List.getD_eq_getElem?_getD, List.getElem?_eq_getElem (hy i hi)]
    rfl
  have hyv' : ∀ (a : K), ∀ i ∈ obs, (y.map (a * ·))[i]? = some (a * y.getD i 0) := fun a i hi => by
    rw [List.getElem?_map, hyv i hi]
    rfl
  have hfin : ∀ i ∈ obs, ∀ t < d.nTrees, dot (h i t) lamb = 0 → dot (g i t) lamb = 0 :=
    fun i hi t ht h0 => absurd h0 (hd i hi t ht)
  set ever : ℕ → Bool := fun i => decide (∑ t ∈ Finset.range d.nTrees, w i t = 1) with hev
  have hne : obs.filter ever ≠ [] := by
    obtain ⟨i, hi, h1⟩ := hever
    exact List.ne_nil_of_mem (List.mem_filter.2 ⟨hi, decide_eq_true h1⟩)
  set p : ℕ → K := fun i => ∑ t ∈ Finset.range d.nTrees, w i t * (dot (g i t) lamb / dot (h i t) lamb) with hp
  set c : K := 2 / ((obs.filter ever).length : K) with hc
  set A : ℕ → Fin k → K := fun i j => ∑ t ∈ Finset.range d.nTrees,
    1 / (if dot (g i t) lamb = 0 then 1 else dot (g i t) lamb) * (w i t * g i t j) with hA
  set B : ℕ → Fin k → K := fun i j => ∑ t ∈ Finset.range d.nTrees,
    dot (g i t) lamb / (if dot (h i t) lamb = 0 then 1 else dot (h i t) lamb) ^ 2 * (w i t * h i t j) with hB
  refine ⟨fun j => c * (obs.map fun i => (p i - y.getD i 0) * A i j).sum,
    fun j => c * (obs.map fun i => (p i - y.getD i 0) * B i j).sum, ?_, fun a ha => ?_⟩
  · rw [C76_l2_grad hyv (calcYOob_eq V lamb obs ho hfin) (calcYOobGrad_eq V lamb obs ho), if_neg hne]
    congr 1
    funext j
    rw [← mul_sub, ← sum_map_sub_list]
    congr 2
    exact List.map_congr_left fun i _ => mul_sub _ _ _
  · rw [C76_l2_grad (hyv' a) (calcYOob_eq (V.unit a) lamb obs ho fun i hi t ht h0 => absurd h0 (hd i hi t ht))
      (calcYOobGrad_eq (V.unit a) lamb obs ho)]
    rw [show (unitData a d).nTrees = d.nTrees from rfl, if_neg hne]
    congr 1
    funext j
    have er : a * (c * (obs.map fun i => (p i - y.getD i 0) * A i j).sum) -
        a ^ 2 * (c * (obs.map fun i => (p i - y.getD i 0) * B i j).sum) =
        c * (obs.map fun i => a * ((p i - y.getD i 0) * A i j) - a ^ 2 * ((p i - y.getD i 0) * B i j)).sum := by
      rw [sum_map_sub_list, List.sum_map_mul_left, List.sum_map_mul_left]
      ring
    rw [er]
    congr 2
    refine List.map_congr_left fun i hi => ?_
    simp only [dot_unit]
    have e1 : ∑ t ∈ Finset.range d.nTrees, w i t * (a * dot (g i t) lamb / dot (h i t) lamb) = a * p i := by
      rw [hp, Finset.mul_sum]
      exact Finset.sum_congr rfl fun t _ => by rw [mul_div_assoc, mul_left_comm]
    have e2 : ∑ t ∈ Finset.range d.nTrees, 1 / (if a * dot (g i t) lamb = 0 then 1 else a * dot (g i t) lamb) *
        (w i t * (a * g i t j)) = A i j := by
      refine Finset.sum_congr rfl fun t ht => ?_
      have hgt : dot (g i t) lamb ≠ 0 := hg i hi t (Finset.mem_range.1 ht)
      rw [if_neg hgt, if_neg (mul_ne_zero ha hgt)]
      field_simp
    have e3 : ∑ t ∈ Finset.range d.nTrees, a * dot (g i t) lamb / (if dot (h i t) lamb = 0 then 1 else dot (h i t) lamb) ^ 2 *
        (w i t * h i t j) = a * B i j := by
      rw [hB, Finset.mul_sum]
      exact Finset.sum_congr rfl fun t _ => by rw [mul_div_assoc, mul_assoc]
    rw [e1, e2, e3]
    ring

/-- C207, step: if the two parts of the gradient (they are determined by the gradients in all units) point in different
directions, no step size in the new units repeats a step that moves in the old ones. -/
theorem C207_no_step_size : ∃ P Q : Fin k → K,
    (∀ a, a ≠ 0 → calcL2Grad (unitData a d) (y.map (a * ·)) lamb obs = .ok (fun j => a * P j - a ^ 2 * Q j)) ∧
    ∀ a t t' : K, a ≠ 0 → a ≠ 1 → t ≠ 0 → (∃ i j, P i * Q j ≠ P j * Q i) →
      ∃ g0 g1, calcL2Grad d y lamb obs = .ok g0 ∧ calcL2Grad (unitData a d) (y.map (a * ·)) lamb obs = .ok g1 ∧
        (fun j => lamb j - t' * g1 j) ≠ fun j => lamb j - t * g0 j := by
  obtain ⟨P, Q, h0, h1⟩ := C207_gradient V ho hd hy hever hg
  refine ⟨P, Q, h1, fun a t t' ha0 ha ht => ?_⟩
  rintro ⟨i, j, hij⟩
  refine ⟨_, _, h0, h1 a ha0, fun heq => ?_⟩
  have e : ∀ j, (t' * a - t) * P j = (t' * a ^ 2 - t) * Q j := by
    intro j
    have := congrFun heq j
    linear_combination -this
  have hz : t' * a - t = 0 := by
    by_contra hz
    apply hij
    have h2 := e i
    have h3 := e j
    have : (t' * a - t) * (P i * Q j - P j * Q i) = 0 := by linear_combination Q j * h2 - Q i * h3
    have := (mul_eq_zero.1 this).resolve_left hz
    linear_combination this
  have hz2 : t' * a ^ 2 - t = 0 := by
    by_contra hz2
    have hQ : ∀ j, Q j = 0 := fun j => by
      have := e j
      rw [hz, zero_mul] at this
      exact (mul_eq_zero.1 this.symm).resolve_left hz2
    exact hij (by rw [hQ i, hQ j]; ring)
  have : t * (a - 1) = 0 := by linear_combination hz2 - a * hz
  rcases mul_eq_zero.1 this with h4 | h4
  · exact ht h4
  · exact ha (by linear_combination h4)

end data

/-! ### smooth_clean -/

theorem smoothSpec_scaled (a : K) (t : SkTree K 1) (s : Style) (pa : Bool) {m m' : ℕ} (e : m' = m) (lamb : Fin m → K)
    (r : Fin t.nLeaves) (c : Fin 1) : smoothSpec .reg (affTree a 0 t) s pa (fun j => lamb (Fin.cast e j)) r c =
      a * smoothSpec .reg t s pa lamb r c := by
  subst e
  show smoothSpec .reg (affTree a 0 t) s pa lamb r c = _
  by_cases hd : smoothDen t s pa lamb r = 0
  · have h1 : smoothSpec .reg (affTree a 0 t) s pa lamb r c = 0 := if_pos hd
    have h2 : smoothSpec .reg t s pa lamb r c = 0 := if_pos hd
    rw [h1, h2, mul_zero]
  · rw [smoothSpec_aff a 0 t s pa lamb r c hd, add_zero]

variable {sqrt sqrt' : K → K} {ap ap' : K → Bool} {forest : List (SkTree K 1)} {y y' : List K} {leafOf leafOf' : ℕ → ℕ → ℕ}
  {uns uns' : ℕ → List ℕ} {cfg cfg' : CleanCfg K} {choices choices' : List (List ℕ)}
  {out : List (SkTree K 1) × (Fin (forestDepth forest + 1) → K) × List K}

/-- C207, values: whenever two runs, one of them in other units, end at the same weights, their forests differ by the unit
only. -/
theorem C207_values (hwf : ∀ t ∈ forest, t.WF) (a : K)
    {out' : List (SkTree K 1) × (Fin (forestDepth (forest.map (affTree a 0)) + 1) → K) × List K}
    (h : smoothClean sqrt ap (some .reg) forest y leafOf uns cfg choices = .ok out)
    (h' : smoothClean sqrt' ap' (some .reg) (forest.map (affTree a 0)) y' leafOf' uns' cfg' choices' = .ok out')
    (hst : cfg'.style = cfg.style) (hpa : cfg'.parentsAll = cfg.parentsAll)
    (hw : List.ofFn out'.2.1 = List.ofFn out.2.1) : out'.1 = out.1.map (affTree a 0) := by
  have hwf' : ∀ t ∈ forest.map (affTree a 0), t.WF := by
    intro t ht
    obtain ⟨t0, h0, rfl⟩ := List.mem_map.1 ht
    exact hwf t0 h0
  have e : forestDepth (forest.map (affTree a 0)) + 1 = forestDepth forest + 1 := by rw [forestDepth_aff]
  have hl : out'.2.1 = fun j => out.2.1 (Fin.cast e j) := by
    funext j
    have h1 : (List.ofFn out'.2.1)[j.val]? = some (out'.2.1 j) := by
      rw [List.getElem?_eq_getElem (by rw [List.length_ofFn]; exact j.isLt), List.getElem_ofFn]
    have h2 : (List.ofFn out.2.1)[j.val]? = some (out.2.1 (Fin.cast e j)) := by
      rw [List.getElem?_eq_getElem (by rw [List.length_ofFn, ← e]; exact j.isLt), List.getElem_ofFn]
      rfl
    rw [hw, h2] at h1
    exact (Option.some.inj h1).symm
  refine forall2_aff (smoothClean_ok hwf h).2.2 (smoothClean_ok hwf' h').2.2 fun t ht t1 t2 p1 p2 =>
    leafUpdate_aff a 0 p1 p2 fun r c => ?_
  rw [hl, hst, hpa, add_zero]
  exact smoothSpec_scaled a t cfg.style cfg.parentsAll e out.2.1 r c

/-- Weights of a run that keeps its starting weights. -/
theorem clean_start_weights (hwf : ∀ t ∈ forest, t.WF) (hf : cfg.allObs = true ∨ cfg.useFullLoss = true)
    (h : smoothClean sqrt ap (some .reg) forest y leafOf uns cfg choices = .ok out) :
    ∃ l : Fin (forestDepth forest + 1) → K, baseLamb cfg.seed = .ok l ∧
      out.2.1 = if cfg.sanityCheck then (fun i => if i = 0 then 1 else 0) else l := by
  obtain ⟨-, h1, -⟩ := smoothClean_ok hwf h
  unfold cleanLamb at h1
  split at h1
  · cases h1
  obtain ⟨l, h3, h1⟩ := bind_ok h1
  refine ⟨l, h3, ?_⟩
  by_cases hs : cfg.sanityCheck = true
  · rw [if_pos hs] at h1 ⊢
    injection h1 with h1
    exact (congrArg Prod.fst h1).symm
  · rw [if_neg hs] at h1 ⊢
    obtain ⟨⟨r1, r2, r3⟩, h4, h1⟩ := bind_ok h1
    have hfl : (cfg.allObs || cfg.useFullLoss) = true := by rcases hf with hf | hf <;> simp [hf]
    have hc : choices ≠ [] := by
      rintro rfl
      obtain ⟨-, s, h5, -, -, h6, -⟩ := sgdClean_ok h4
      cases h5
      obtain ⟨c, hc⟩ := h6 hfl
      cases hc
    injection h1 with h1
    exact (congrArg Prod.fst h1).symm.trans (C48_full_loss_partial hfl hc h4)

theorem baseLamb_cast {m m' : ℕ} (e : m' = m) {seed : Option (ℕ → K)} {l : Fin (m + 1) → K} {l' : Fin (m' + 1) → K}
    (h : baseLamb seed = .ok l) (h' : baseLamb seed = .ok l') : List.ofFn l' = List.ofFn l := by
  subst e
  rw [h] at h'
  cases h'
  rfl

/-- C207: with `all_obs` or `use_full_loss`, whose runs keep their starting weights (C48), the unit makes no difference: same
weights, and forests that differ by the unit only. Missing: runs that do learn (false, `C207_refuted`). -/
theorem C207_full_loss_partial (hwf : ∀ t ∈ forest, t.WF) (a : K)
    {out' : List (SkTree K 1) × (Fin (forestDepth (forest.map (affTree a 0)) + 1) → K) × List K}
    (hf : cfg.allObs = true ∨ cfg.useFullLoss = true)
    (h : smoothClean sqrt ap (some .reg) forest y leafOf uns cfg choices = .ok out)
    (h' : smoothClean sqrt ap (some .reg) (forest.map (affTree a 0)) (y.map (a * ·)) leafOf uns cfg choices = .ok out') :
    List.ofFn out'.2.1 = List.ofFn out.2.1 ∧ out'.1 = out.1.map (affTree a 0) := by
  have hwf' : ∀ t ∈ forest.map (affTree a 0), t.WF := by
    intro t ht
    obtain ⟨t0, h0, rfl⟩ := List.mem_map.1 ht
    exact hwf t0 h0
  have e : forestDepth (forest.map (affTree a 0)) = forestDepth forest := forestDepth_aff a 0 forest
  obtain ⟨l, h1, h2⟩ := clean_start_weights hwf hf h
  obtain ⟨l', h1', h2'⟩ := clean_start_weights hwf' hf h'
  have hw : List.ofFn out'.2.1 = List.ofFn out.2.1 := by
    rw [h2, h2']
    split_ifs
    · clear h1 h1' h2 h2' h h'
      generalize forestDepth (forest.map (affTree a 0)) = m at e
      subst e
      rfl
    · exact baseLamb_cast e h1 h1'
  exact ⟨hw, C207_values hwf a h h' rfl rfl hw⟩

/-- C207, arrays: multiplying all values of the forest by `a` multiplies the numerators that `smooth_clean` builds and leaves
everything else as it is. -/
theorem C207_arrays (hwf : ∀ t ∈ forest, t.WF) (a : K) (s : Style) (pa : Bool) (n : ℕ) :
    (cleanData (forest.map (affTree a 0)) s pa n leafOf uns).gam.map List.ofFn =
      (unitData a (cleanData forest s pa n leafOf uns)).gam.map List.ofFn ∧
    (cleanData (forest.map (affTree a 0)) s pa n leafOf uns).eta.map List.ofFn =
      (unitData a (cleanData forest s pa n leafOf uns)).eta.map List.ofFn ∧
    (cleanData (forest.map (affTree a 0)) s pa n leafOf uns).idxMat = (unitData a (cleanData forest s pa n leafOf uns)).idxMat ∧
    (cleanData (forest.map (affTree a 0)) s pa n leafOf uns).nTrees = (unitData a (cleanData forest s pa n leafOf uns)).nTrees ∧
    (cleanData (forest.map (affTree a 0)) s pa n leafOf uns).oobW = (unitData a (cleanData forest s pa n leafOf uns)).oobW := by
  have hwf' : ∀ t ∈ forest.map (affTree a 0), t.WF := by
    intro t ht
    obtain ⟨t0, h0, rfl⟩ := List.mem_map.1 ht
    exact hwf t0 h0
  have e : forestDepth (forest.map (affTree a 0)) + 1 = forestDepth forest + 1 := by rw [forestDepth_aff]
  have hof : ∀ {m m' : ℕ} (e : m' = m) (f : Fin m → K), List.ofFn (fun j : Fin m' => f (Fin.cast e j)) = List.ofFn f := by
    intro m m' e f
    subst e
    rfl
  refine ⟨?_, ?_, ?_, ?_, ?_⟩
  · show _ = ((cleanData forest s pa n leafOf uns).gam.map fun g j => a * g j).map List.ofFn
    rw [cleanData_gam _ hwf', cleanData_gam _ hwf, List.flatMap_map, List.map_map, List.map_flatMap, List.map_flatMap]
    refine List.flatMap_congr fun t _ => ?_
    rw [List.map_map, List.map_map]
    refine List.map_congr_left fun r _ => ?_
    show List.ofFn (gVec s pa _ (affTree a 0 t) r) = List.ofFn fun j => a * gVec s pa _ t r j
    rw [← hof e]
    congr 1
    funext j
    show levelSum pa (t.distDepth s) _ r j.val = a * levelSum pa (t.distDepth s) _ r j.val
    have := levelSum_aff a 0 t pa s r 0 j.val
    rw [zero_mul, add_zero] at this
    exact this
  · show _ = (cleanData forest s pa n leafOf uns).eta.map List.ofFn
    rw [cleanData_eta _ hwf', cleanData_eta _ hwf, List.flatMap_map, List.map_flatMap, List.map_flatMap]
    refine List.flatMap_congr fun t _ => ?_
    rw [List.map_map, List.map_map]
    refine List.map_congr_left fun r _ => ?_
    show List.ofFn (hVec s pa _ (affTree a 0 t) r) = List.ofFn (hVec s pa _ t r)
    rw [← hof e]
    rfl
  · show oobIdxMat (forest.map (affTree a 0)) n leafOf = oobIdxMat forest n leafOf
    unfold oobIdxMat
    simp only [List.zipIdx_map, List.map_map, List.length_map]
    rfl
  · exact List.length_map _
  · show oobWeights (forest.map (affTree a 0)).length n uns = oobWeights forest.length n uns
    rw [List.length_map]

/-- Weights of one plain step without projection from the default start. -/
theorem clean_one_step (hwf : ∀ t ∈ forest, t.WF) {obs : List ℕ} (hnc : cfg.noConstraint = true) (hsc : cfg.sanityCheck = false)
    (hao : cfg.allObs = false) (hfl : cfg.useFullLoss = false) (had : cfg.adam = none) (hse : cfg.seed = none)
    (h : smoothClean sqrt ap (some .reg) forest y leafOf uns cfg [obs] = .ok out) :
    ∃ g, calcL2Grad (cleanData forest cfg.style cfg.parentsAll y.length leafOf uns) y (fun i => if i = 0 then 1 else 0) obs = .ok g ∧
      out.2.1 = fun j => (if j = 0 then 1 else 0) - cfg.tFix * g j := by
  obtain ⟨-, h1, -⟩ := smoothClean_ok hwf h
  unfold cleanLamb at h1
  split at h1
  · cases h1
  obtain ⟨l, h3, h1⟩ := bind_ok h1
  rw [hse] at h3
  cases h3
  rw [if_neg (by rw [hsc]; exact Bool.false_ne_true)] at h1
  obtain ⟨⟨r1, r2, r3⟩, h4, h1⟩ := bind_ok h1
  injection h1 with h1
  have h1 : r1 = out.2.1 := congrArg Prod.fst h1
  obtain ⟨-, s, h5, -, -, -, h6⟩ := sgdClean_ok h4
  have h6 := h6 (by rw [hao, hfl]; rfl)
  obtain ⟨s1, h7, h8⟩ := bind_ok h5
  cases h8
  unfold cleanStep at h7
  by_cases hlt : (cleanData forest cfg.style cfg.parentsAll y.length leafOf uns).idxMat.length <
      (if cfg.allObs then y.length else cfg.nObs)
  · rw [if_pos hlt] at h7; cases h7
  rw [if_neg hlt] at h7
  obtain ⟨s2, h9, h7⟩ := bind_ok h7
  obtain ⟨p, h10, h7⟩ := bind_ok h7
  have hs2 : s2.lamb = fun i => if i = 0 then 1 else 0 := by
    unfold cleanStart at h9
    simp only [hao, hfl, Bool.or_self, Bool.false_eq_true, if_false] at h9
    obtain ⟨c, -, h9⟩ := bind_ok h9
    cases h9
    rfl
  have hs : s.lamb = p.1 := by
    unfold cleanRecord at h7
    simp only [hao, hfl, Bool.or_self, Bool.false_eq_true, if_false] at h7
    obtain ⟨c, -, h7⟩ := bind_ok h7
    cases h7
    rfl
  unfold cleanMove cleanPre at h10
  simp only [had, hnc, if_true] at h10
  obtain ⟨q, h11, h10⟩ := bind_ok h10
  cases h10
  obtain ⟨g, h12, h11⟩ := bind_ok h11
  cases h11
  rw [hs2] at h12 hs
  exact ⟨g, h12, by rw [← h1, h6, hs]⟩

/-- One step over one observation, no projection. -/
abbrev cleanPlain (t : ℚ) : CleanCfg ℚ :=
  { noConstraint := true, sanityCheck := false, allObs := false, useFullLoss := false, nObs := 1, tFix := t, seed := none,
    parentsAll := true, style := .standard, adam := none }

theorem cleanPlain_ne {t0 t : ℚ} (b a : ℚ) {g0 g1 : ℚ} {sqrt' : ℚ → ℚ} {ap' : ℚ → Bool}
    {out0 : List (SkTree ℚ 1) × (Fin (forestDepth [exStump] + 1) → ℚ) × List ℚ}
    {out1 : List (SkTree ℚ 1) × (Fin (forestDepth ([exStump].map (affTree a b)) + 1) → ℚ) × List ℚ}
    (h0 : smoothClean sqrt' ap' (some .reg) [exStump] [3] (fun _ _ => 0) (fun _ => [0]) (cleanPlain t0) [[0]] = .ok out0)
    (h1 : smoothClean sqrt' ap' (some .reg) ([exStump].map (affTree a b)) ([3].map fun v => a * v + b) (fun _ _ => 0) (fun _ => [0])
      (cleanPlain t) [[0]] = .ok out1)
    (hg : (match calcL2Grad (cleanData ([exStump].map (affTree a b)) .standard true 1 (fun _ _ => 0) fun _ => [0])
      ([3].map fun v => a * v + b) (fun i => if i = 0 then 1 else 0) [0] with
      | .ok g => some (List.ofFn g)
      | .error _ => none) = some [g0, g1])
    (ht : t0 ≠ 0) (hg0 : g0 ≠ 0) : List.ofFn out1.2.1 ≠ List.ofFn out0.2.1 := by
  have hwf : ∀ t ∈ [exStump], t.WF := by decide +kernel
  have hwf' : ∀ t ∈ [exStump].map (affTree a b), t.WF := by
    intro t ht
    obtain ⟨t0, h0, rfl⟩ := List.mem_map.1 ht
    exact hwf t0 h0
  obtain ⟨q0, e0, w0⟩ := clean_one_step hwf rfl rfl rfl rfl rfl rfl h0
  obtain ⟨q1, e1, w1⟩ := clean_one_step hwf' rfl rfl rfl rfl rfl rfl h1
  have hq0 : List.ofFn q0 = [0, -12] := by
    have h2 : (match calcL2Grad (cleanData [exStump] .standard true 1 (fun _ _ => 0) fun _ => [0])
      [3] (fun i => if i = 0 then 1 else 0) [0] with
      | .ok g => some (List.ofFn g)
      | .error _ => none) = some [0, -12] := by decide +kernel
    have e0 : calcL2Grad (cleanData [exStump] .standard true 1 (fun _ _ => 0) fun _ => [0])
      [3] (fun i => if i = 0 then 1 else 0) [0] = .ok q0 := e0
    rw [e0] at h2
    exact Option.some.inj h2
  have hq1 : List.ofFn q1 = [g0, g1] := by
    have e1 : calcL2Grad (cleanData ([exStump].map (affTree a b)) .standard true 1 (fun _ _ => 0) fun _ => [0])
      ([3].map fun v => a * v + b) (fun i => if i = 0 then 1 else 0) [0] = .ok q1 := e1
    rw [e1] at hg
    exact Option.some.inj hg
  have ed : forestDepth ([exStump].map (affTree a b)) + 1 = 2 := by rw [forestDepth_aff]; rfl
  intro heq
  rw [w0, w1] at heq
  have f0 : List.ofFn (fun j => (if j = 0 then (1 : ℚ) else 0) - (cleanPlain t0).tFix * q0 j) = [1, 12 * t0] := by
    have := List.ofFn_injective (show List.ofFn q0 = List.ofFn ![0, -12] from hq0)
    rw [this]
    show [1 - t0 * 0, 0 - t0 * -12] = _
    congr 1
    · ring
    · congr 1
      ring
  have f1 : ∀ {m : ℕ} (em : m + 1 = 2) (q : Fin (m + 1) → ℚ), List.ofFn q = [g0, g1] →
      List.ofFn (fun j => (if j = 0 then (1 : ℚ) else 0) - t * q j) = [1 - t * g0, 0 - t * g1] := by
    intro m em q hq
    obtain rfl : m = 1 := by omega
    have := List.ofFn_injective (show List.ofFn q = List.ofFn ![g0, g1] from hq)
    rw [this]
    rfl
  rw [f0] at heq
  have heq := (f1 ed q1 hq1).symm.trans heq
  simp only [List.cons.injEq, and_true] at heq
  have : t = 0 := by
    have : t * g0 = 0 := by linarith [heq.1]
    exact (mul_eq_zero.1 this).resolve_right hg0
  rw [this] at heq
  exact ht (by linarith [heq.2])

/-- C207 fails as a whole: from the same start, one step of size 1/8 on the forest with leaves 1 and 4 and the response 3 gives weights that no step
size gives with the response in half the unit, and none with the response shifted by one. -/
theorem C207_refuted : ∃ out, smoothClean (fun x => x) (fun x => decide (x = 1)) (some .reg) [exStump] [3] (fun _ _ => 0) (fun _ => [0])
      (cleanPlain (1 / 8)) [[0]] = .ok out ∧
    (∀ t out', smoothClean (fun x => x) (fun x => decide (x = 1)) (some .reg) ([exStump].map (affTree 2 0)) ([3].map fun v => 2 * v + 0)
      (fun _ _ => 0) (fun _ => [0]) (cleanPlain t) [[0]] = .ok out' → List.ofFn out'.2.1 ≠ List.ofFn out.2.1) ∧
    ∀ t out', smoothClean (fun x => x) (fun x => decide (x = 1)) (some .reg) ([exStump].map (affTree 1 1)) ([3].map fun v => 1 * v + 1)
      (fun _ _ => 0) (fun _ => [0]) (cleanPlain t) [[0]] = .ok out' → List.ofFn out'.2.1 ≠ List.ofFn out.2.1 := by
  have hr : (match smoothClean (fun x => x) (fun x => decide (x = 1)) (some .reg) [exStump] [3] (fun _ _ => 0) (fun _ => [0])
      (cleanPlain (1 / 8)) [[0]] with
    | .ok _ => true
    | .error _ => false) = true := by decide +kernel
  cases h : smoothClean (fun x => x) (fun x => decide (x = 1)) (some .reg) [exStump] [3] (fun _ _ => 0) (fun _ => [0])
      (cleanPlain (1 / 8)) [[0]] with
  | error e => rw [h] at hr; cases hr
  | ok out =>
    exact ⟨out, rfl, fun t out' h' => cleanPlain_ne (g0 := 8) (g1 := -8) 0 2 h h' (by decide +kernel) (by norm_num) (by norm_num),
      fun t out' h' => cleanPlain_ne (g0 := 4) (g1 := 2) 1 1 h h' (by decide +kernel) (by norm_num) (by norm_num)⟩

/-- Gradient of one observation in the units 1, 2 and 3: with `P = (-4, -20)` and `Q = (-4, -8)`, which are not parallel, it is
`P - Q`, `2 P - 4 Q` and `3 P - 9 Q`. -/
example : ([1, 2, 3] : List ℚ).map (fun a => match calcL2Grad (cleanData ([exStump].map (affTree a 0)) .standard true 1
      (fun _ _ => 0) fun _ => [0]) [a * 3] (fun i => if i = 0 then 1 else 0) [0] with
    | .ok g => some (List.ofFn g)
    | .error _ => none) = [some [0, -12], some [8, -8], some [24, 12]] := by decide +kernel

/-- Loss in the units 1, 2 and 3 at equal weights. -/
example : ([1, 2, 3] : List ℚ).map (fun a => match cleanCost (cleanData ([exStump].map (affTree a 0)) .standard true 1
      (fun _ _ => 0) fun _ => [0]) [a * 3] (fun _ => 1 / 2) [0] with
    | .ok c => some c
    | .error _ => none) = [some 1, some 4, some 9] := by decide +kernel

/-- Two runs with `all_obs`, the second in half the unit: same weights, though the costs on the way differ. -/
example : ([1, 2] : List ℚ).map (fun a => match smoothClean (fun x => x) (fun x => decide (x = 1)) (some .reg)
      ([exStump26].map (affTree a 0)) [a * 4] exLeafOf exUns { cleanPlain (1 / 8) with allObs := true } [[0]] with
    | .ok r => some (valuesOf r.1, List.ofFn r.2.1, r.2.2)
    | .error _ => none) = [some ([[[4], [2], [6]]], [1, 0], [4, 4]), some ([[[8], [4], [12]]], [1, 0], [16, 16 / 25])] := by decide +kernel

/-- Two runs without full loss, the second in half the unit: other weights. -/
example : ([1, 2] : List ℚ).map (fun a => match smoothClean (fun x => x) (fun x => decide (x = 1)) (some .reg)
      ([exStump].map (affTree a 0)) [a * 3] (fun _ _ => 0) (fun _ => [0]) (cleanPlain (1 / 8)) [[0]] with
    | .ok r => some (List.ofFn r.2.1)
    | .error _ => none) = [some [1, 3 / 2], some [0, 1]] := by decide +kernel

end SmoothRF
