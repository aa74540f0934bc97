import Verif.Props.TuneLossProps
import Verif.Props.CleanProps
import Verif.Props.ReversibleProps
import Mathlib.Algebra.BigOperators.Field

/-!
# C194: what smooth and smooth_clean minimise
-/

set_option linter.unusedSectionVars false

namespace SmoothRF
open SkTree Topo

variable {K : Type} [Field K] [LinearOrder K] [IsStrictOrderedRing K]

/-- The out-of-bag observations of tree `t` as tuning rows. -/
def oobTuneRows (y : ℕ → K) (leafOf : ℕ → ℕ → ℕ) (uns : ℕ → List ℕ) (t : ℕ) : List (TuneRow K 1) :=
  (uns t).map fun i => ⟨leafOf t i, fun _ => y i⟩

/-- Prediction of tree number `t`, smoothed with `lamb`, for observation `i`. -/
def smoothedPred (forest : List (SkTree K 1)) (s : Style) (pa : Bool) {n : ℕ} (lamb : Fin n → K)
    (leafOf : ℕ → ℕ → ℕ) (t i : ℕ) : K :=
  leafAt forest 0 (fun tr r => smoothSpec .reg tr s pa lamb r 0) t (leafOf t i)

/-- Squared error of the single trees, each on its own out-of-bag observations. -/
def singleTreeSSE (T : ℕ) (uns : ℕ → List ℕ) (y : ℕ → K) (p : ℕ → ℕ → K) : K :=
  ∑ t ∈ Finset.range T, ∑ i ∈ (uns t).toFinset, (p t i - y i) ^ 2

/-- Observations below `n` that are out of bag for some tree. -/
def everOobSet (T n : ℕ) (uns : ℕ → List ℕ) : Finset ℕ :=
  (Finset.range n).filter fun i => ∃ t < T, i ∈ uns t

theorem sum_zipIdx {α : Type*} (f : α × ℕ → K) (d : K) : ∀ (l : List α) (k : ℕ), ((l.zipIdx k).map f).sum =
    ∑ t ∈ Finset.range l.length, (l[t]?).elim d fun a => f (a, k + t)
  | [], k => by simp
  | a :: l, k => by
    rw [List.zipIdx_cons, List.map_cons, List.sum_cons, List.length_cons, Finset.sum_range_succ', add_comm,
      sum_zipIdx f d l (k + 1)]
    congr 1
    refine Finset.sum_congr rfl fun t _ => ?_
    rw [List.getElem?_cons_succ]
    cases l[t]? with
    | none => rfl
    | some b => simp only [Option.elim_some]; congr 2; omega

/-- The cost of weights plus the error no weights can remove is the squared error of the smoothed tree. -/
theorem tree_cost_split (tr : SkTree K 1) (rows : List (TuneRow K 1)) (f : Fin tr.nLeaves → Fin 1 → K) :
    (∑ r : Fin tr.nLeaves, ∑ c, (leafMean rows r c - f r c) ^ 2 * leafWeight rows r) + withinSS tr.nLeaves rows =
      (rows.map fun q => if h : q.leaf < tr.nLeaves then (f ⟨q.leaf, h⟩ 0 - q.y 0) ^ 2 else 0).sum := by
  have hv : ∀ r, Function.extend tr.leafNode f 0 (tr.leafNode r) = f r := fun r =>
    leafNode_injective.extend_apply _ _ _
  have := treeSSE_split { tr with value := Function.extend tr.leafNode f 0 } rows
  have e : ∀ (r : Fin tr.nLeaves) (c : Fin 1),
      (leafMean rows r c - Function.extend tr.leafNode f 0 (tr.leafNode r) c) ^ 2 * leafWeight rows r =
      (leafMean rows r c - f r c) ^ 2 * leafWeight rows r := fun r c => by rw [hv]
  have e2 : (∑ r : Fin tr.nLeaves, ∑ c, (leafMean rows r c - f r c) ^ 2 * leafWeight rows r) =
      ∑ r : Fin tr.nLeaves, ∑ c,
      (leafMean rows r c - Function.extend tr.leafNode f 0 (tr.leafNode r) c) ^ 2 * leafWeight rows r :=
    Finset.sum_congr rfl fun r _ => Finset.sum_congr rfl fun c _ => (e r c).symm
  rw [e2, add_comm]
  refine Eq.trans this.symm ?_
  unfold treeSSE
  refine congrArg List.sum (List.map_congr_left fun q _ => ?_)
  show (if h : q.leaf < tr.nLeaves then
    ∑ c, (q.y c - Function.extend tr.leafNode f 0 (tr.leafNode ⟨q.leaf, h⟩) c) ^ 2 else 0) = _
  by_cases h : q.leaf < tr.nLeaves
  · rw [dif_pos h, dif_pos h, hv, Fin.sum_univ_one]
    ring
  · rw [dif_neg h, dif_neg h]

/-- C194: the cost that `smooth` evaluates on out-of-bag rows, plus a constant that does not depend on the weights,
is the squared error of the single trees on their out-of-bag observations. -/
theorem C194_smooth_cost {forest : List (SkTree K 1)} (hwf : ∀ t ∈ forest, t.WF) (s : Style) (pa al : Bool)
    {leafOf : ℕ → ℕ → ℕ} {uns : ℕ → List ℕ} {y : ℕ → K} (hnd : ∀ t < forest.length, (uns t).Nodup)
    (hl : ∀ t tr, forest[t]? = some tr → ∀ i ∈ uns t, leafOf t i < tr.nLeaves)
    {yw : List ((Fin 1 → K) × K)} (hyw : tuneSummaries false forest (oobTuneRows y leafOf uns) = .ok yw) :
    ∃ W : K, 0 ≤ W ∧ ∀ (lamb : Fin (forestDepth forest + 1) → K) (x : K),
      calcCost (flatRows (forestDepth forest + 1) al (gammaEtaForest .reg forest s pa) yw) lamb = .ok x →
      x + W = singleTreeSSE forest.length uns y (smoothedPred forest s pa lamb leafOf) := by
  refine ⟨(forest.zipIdx.map fun tt => withinSS tt.1.nLeaves (oobTuneRows y leafOf uns tt.2)).sum, ?_, ?_⟩
  · refine List.sum_nonneg fun x hx => ?_
    obtain ⟨tt, -, rfl⟩ := List.mem_map.1 hx
    refine Finset.sum_nonneg fun r _ => List.sum_nonneg fun z hz => ?_
    obtain ⟨q, -, rfl⟩ := List.mem_map.1 hz
    exact Finset.sum_nonneg fun c _ => sq_nonneg _
  intro lamb x hx
  rw [tuneSummaries_eq] at hyw
  split at hyw
  · cases hyw
  cases hyw
  rw [flatRows_eq .reg forest hwf] at hx
  rw [cost_spec hx, ← List.sum_map_add]
  have e : ∀ tt ∈ forest.zipIdx, (∑ r : Fin tt.1.nLeaves, ∑ c,
      (leafMean (oobTuneRows y leafOf uns tt.2) r c - smoothSpec .reg tt.1 s pa lamb r c) ^ 2 *
        leafWeight (oobTuneRows y leafOf uns tt.2) r) + withinSS tt.1.nLeaves (oobTuneRows y leafOf uns tt.2) =
      ∑ i ∈ (uns tt.2).toFinset, (smoothedPred forest s pa lamb leafOf tt.2 i - y i) ^ 2 := by
    intro tt htt
    have hget := List.mem_zipIdx_iff_getElem?.1 htt
    have hlt : tt.2 < forest.length := (List.getElem?_eq_some_iff.1 hget).1
    rw [tree_cost_split, List.sum_toFinset _ (hnd _ hlt), oobTuneRows, List.map_map]
    refine congrArg List.sum (List.map_congr_left fun i hi => ?_)
    have hlf := hl tt.2 tt.1 hget i hi
    simp only [Function.comp, smoothedPred, leafAt, hget]
    rw [dif_pos hlf, dif_pos hlf]
  rw [List.map_congr_left e, sum_zipIdx _ 0, singleTreeSSE]
  refine Finset.sum_congr rfl fun t ht => ?_
  rw [List.getElem?_eq_getElem (Finset.mem_range.1 ht), Option.elim_some, zero_add]

/-- C194: the full cost of `smooth_clean` times the number of out-of-bag observations is the squared error of the
averaged predictions. -/
theorem C194_clean_cost {forest : List (SkTree K 1)} (hwf : ∀ t ∈ forest, t.WF) (s : Style) (pa : Bool)
    {leafOf : ℕ → ℕ → ℕ} {uns : ℕ → List ℕ} {y : List K}
    (hl : ∀ t tr, forest[t]? = some tr → ∀ i < y.length, leafOf t i < tr.nLeaves)
    {lamb : Fin (forestDepth forest + 1) → K}
    (hfin : ∀ t ∈ forest, ∀ r, smoothDen t s pa lamb r = 0 → smoothNum .reg t s pa lamb r 0 = 0) {c : K}
    (h : cleanCost (cleanData forest s pa y.length leafOf uns) y lamb (List.range y.length) = .ok c) :
    ((everOobSet forest.length y.length uns).card : K) * c =
      ∑ i ∈ everOobSet forest.length y.length uns,
        (oobMean forest.length uns (fun t => smoothedPred forest s pa lamb leafOf t i) i - y.getD i 0) ^ 2 ∧
    everOobSet forest.length y.length uns ≠ ∅ := by
  have h1 := C46_oob_average forest hwf s pa y.length leafOf uns hl lamb hfin (List.range y.length)
    fun i hi => List.mem_range.1 hi
  rw [C76_cost (yv := fun i => y.getD i 0) (fun i hi => by
    have := List.mem_range.1 hi
    simp [List.getD_eq_getElem?_getD, this]) h1] at h
  split_ifs at h with h0
  cases h
  have hset : ((List.range y.length).filter fun i => decide (∃ t < forest.length, i ∈ uns t)).toFinset =
      everOobSet forest.length y.length uns := by
    ext i; simp [everOobSet]
  have hnd : ((List.range y.length).filter fun i => decide (∃ t < forest.length, i ∈ uns t)).Nodup :=
    List.nodup_range.filter _
  rw [← List.sum_toFinset _ hnd, ← List.toFinset_card_of_nodup hnd, hset]
  have hne : everOobSet forest.length y.length uns ≠ ∅ := by
    intro e
    rw [← hset, List.toFinset_eq_empty_iff] at e
    exact h0 e
  refine ⟨?_, hne⟩
  have hc : ((everOobSet forest.length y.length uns).card : K) ≠ 0 := by
    rw [Nat.cast_ne_zero, Finset.card_ne_zero, Finset.nonempty_iff_ne_empty]
    exact hne
  rw [mul_div_cancel₀ _ hc]
  rfl

/-- The errors of the single trees, ordered by observation. -/
theorem singleTreeSSE_by_obs (T n : ℕ) (uns : ℕ → List ℕ) (hn : ∀ t < T, ∀ i ∈ uns t, i < n) (y : ℕ → K)
    (p : ℕ → ℕ → K) : singleTreeSSE T uns y p =
      ∑ i ∈ everOobSet T n uns, ∑ t ∈ oobTrees T uns i, (p t i - y i) ^ 2 := by
  unfold singleTreeSSE
  refine Finset.sum_comm' fun t i => ?_
  simp only [Finset.mem_range, List.mem_toFinset, oobTrees, everOobSet, Finset.mem_filter]
  constructor
  · rintro ⟨h1, h2⟩
    exact ⟨⟨h1, h2⟩, hn t h1 i h2, t, h1, h2⟩
  · rintro ⟨⟨h1, h2⟩, -⟩
    exact ⟨h1, h2⟩

theorem everOob_trees {T n : ℕ} {uns : ℕ → List ℕ} {i : ℕ} (h : i ∈ everOobSet T n uns) :
    oobTrees T uns i ≠ ∅ := by
  obtain ⟨-, t, ht, hi⟩ := Finset.mem_filter.1 h
  exact Finset.ne_empty_of_mem (Finset.mem_filter.2 ⟨Finset.mem_range.2 ht, hi⟩)

/-- C194: the full cost of `smooth_clean` bounded by what `smooth` minimises. When every out-of-bag observation is out
of bag for at least `m` trees, `m · n_oob · cost_clean ≤ cost_smooth + W`, with `W` the same for all weights. -/
theorem C194_bound {forest : List (SkTree K 1)} (hwf : ∀ t ∈ forest, t.WF) (s : Style) (pa al : Bool)
    {leafOf : ℕ → ℕ → ℕ} {uns : ℕ → List ℕ} {y : List K} (hnd : ∀ t < forest.length, (uns t).Nodup)
    (hn : ∀ t < forest.length, ∀ i ∈ uns t, i < y.length)
    (hl : ∀ t tr, forest[t]? = some tr → ∀ i < y.length, leafOf t i < tr.nLeaves)
    {yw : List ((Fin 1 → K) × K)}
    (hyw : tuneSummaries false forest (oobTuneRows (fun i => y.getD i 0) leafOf uns) = .ok yw) :
    ∃ W : K, 0 ≤ W ∧ ∀ (lamb : Fin (forestDepth forest + 1) → K) (x c : K) (m : ℕ),
      (∀ i ∈ everOobSet forest.length y.length uns, m ≤ (oobTrees forest.length uns i).card) →
      (∀ t ∈ forest, ∀ r, smoothDen t s pa lamb r = 0 → smoothNum .reg t s pa lamb r 0 = 0) →
      calcCost (flatRows (forestDepth forest + 1) al (gammaEtaForest .reg forest s pa) yw) lamb = .ok x →
      cleanCost (cleanData forest s pa y.length leafOf uns) y lamb (List.range y.length) = .ok c →
      (m : K) * (((everOobSet forest.length y.length uns).card : K) * c) ≤ x + W := by
  obtain ⟨W, hW, h⟩ := C194_smooth_cost hwf s pa al hnd
    (fun t tr ht i hi => hl t tr ht i (hn t (List.getElem?_eq_some_iff.1 ht).1 i hi)) hyw
  refine ⟨W, hW, fun lamb x c m hm hfin hx hc => ?_⟩
  rw [h lamb x hx, (C194_clean_cost hwf s pa hl hfin hc).1, singleTreeSSE_by_obs _ _ _ hn, Finset.mul_sum]
  refine Finset.sum_le_sum fun i hi => ?_
  have hne := everOob_trees hi
  have hc0 : ((oobTrees forest.length uns i).card : K) ≠ 0 := by
    rw [Nat.cast_ne_zero, Finset.card_ne_zero, Finset.nonempty_iff_ne_empty]
    exact hne
  have j := weighted_square_le (oobTrees forest.length uns i) (fun _ => (1 : K))
    (fun t => smoothedPred forest s pa lamb leafOf t i) (fun _ _ => zero_le_one) (y.getD i 0)
    (oobMean forest.length uns (fun t => smoothedPred forest s pa lamb leafOf t i) i) (by
      rw [oobMean, if_neg hne]
      simp only [Finset.sum_const, nsmul_eq_mul, mul_one, one_mul]
      rw [mul_div_cancel₀ _ hc0])
  simp only [Finset.sum_const, nsmul_eq_mul, mul_one, one_mul] at j
  refine le_trans (mul_le_mul_of_nonneg_right ?_ (sq_nonneg _)) j
  exact_mod_cast hm i hi

/-- C194: when no observation is out of bag for two trees (a single tree, say), the two costs differ by a constant
factor and a constant, so that they order all weights in the same way. -/
theorem C194_disjoint {forest : List (SkTree K 1)} (hwf : ∀ t ∈ forest, t.WF) (s : Style) (pa al : Bool)
    {leafOf : ℕ → ℕ → ℕ} {uns : ℕ → List ℕ} {y : List K} (hnd : ∀ t < forest.length, (uns t).Nodup)
    (hn : ∀ t < forest.length, ∀ i ∈ uns t, i < y.length)
    (hdis : ∀ t < forest.length, ∀ t' < forest.length, ∀ i, i ∈ uns t → i ∈ uns t' → t = t')
    (hl : ∀ t tr, forest[t]? = some tr → ∀ i < y.length, leafOf t i < tr.nLeaves)
    {yw : List ((Fin 1 → K) × K)}
    (hyw : tuneSummaries false forest (oobTuneRows (fun i => y.getD i 0) leafOf uns) = .ok yw) :
    (∃ W : K, 0 ≤ W ∧ ∀ (lamb : Fin (forestDepth forest + 1) → K) (x c : K),
      (∀ t ∈ forest, ∀ r, smoothDen t s pa lamb r = 0 → smoothNum .reg t s pa lamb r 0 = 0) →
      calcCost (flatRows (forestDepth forest + 1) al (gammaEtaForest .reg forest s pa) yw) lamb = .ok x →
      cleanCost (cleanData forest s pa y.length leafOf uns) y lamb (List.range y.length) = .ok c →
      ((everOobSet forest.length y.length uns).card : K) * c = x + W) ∧
    ∀ (lamb lamb' : Fin (forestDepth forest + 1) → K) (x c x' c' : K),
      (∀ t ∈ forest, ∀ r, smoothDen t s pa lamb r = 0 → smoothNum .reg t s pa lamb r 0 = 0) →
      (∀ t ∈ forest, ∀ r, smoothDen t s pa lamb' r = 0 → smoothNum .reg t s pa lamb' r 0 = 0) →
      calcCost (flatRows (forestDepth forest + 1) al (gammaEtaForest .reg forest s pa) yw) lamb = .ok x →
      cleanCost (cleanData forest s pa y.length leafOf uns) y lamb (List.range y.length) = .ok c →
      calcCost (flatRows (forestDepth forest + 1) al (gammaEtaForest .reg forest s pa) yw) lamb' = .ok x' →
      cleanCost (cleanData forest s pa y.length leafOf uns) y lamb' (List.range y.length) = .ok c' →
      (x ≤ x' ↔ c ≤ c') := by
  obtain ⟨W, hW, h⟩ := C194_smooth_cost hwf s pa al hnd
    (fun t tr ht i hi => hl t tr ht i (hn t (List.getElem?_eq_some_iff.1 ht).1 i hi)) hyw
  have key : ∀ (lamb : Fin (forestDepth forest + 1) → K) (x c : K),
      (∀ t ∈ forest, ∀ r, smoothDen t s pa lamb r = 0 → smoothNum .reg t s pa lamb r 0 = 0) →
      calcCost (flatRows (forestDepth forest + 1) al (gammaEtaForest .reg forest s pa) yw) lamb = .ok x →
      cleanCost (cleanData forest s pa y.length leafOf uns) y lamb (List.range y.length) = .ok c →
      ((everOobSet forest.length y.length uns).card : K) * c = x + W := by
    intro lamb x c hfin hx hc
    rw [h lamb x hx, (C194_clean_cost hwf s pa hl hfin hc).1, singleTreeSSE_by_obs _ _ _ hn]
    refine Finset.sum_congr rfl fun i hi => ?_
    obtain ⟨-, t, ht, hti⟩ := Finset.mem_filter.1 hi
    have e : oobTrees forest.length uns i = {t} := by
      ext t'
      simp only [oobTrees, Finset.mem_filter, Finset.mem_range, Finset.mem_singleton]
      exact ⟨fun q => hdis t' q.1 t ht i q.2 hti, fun q => q ▸ ⟨ht, hti⟩⟩
    rw [oobMean, if_neg (everOob_trees hi), e]
    simp
  refine ⟨⟨W, hW, key⟩, fun lamb lamb' x c x' c' hf hf' hx hc hx' hc' => ?_⟩
  have k1 := key lamb x c hf hx hc
  have k2 := key lamb' x' c' hf' hx' hc'
  have hpos : (0 : K) < ((everOobSet forest.length y.length uns).card : K) := by
    rw [Nat.cast_pos, Finset.card_pos, Finset.nonempty_iff_ne_empty]
    exact (C194_clean_cost hwf s pa hl hf hc).2
  rw [← mul_le_mul_iff_right₀ (b := c) hpos, k1, k2, add_le_add_iff_right]

/-- Stumps with leaf values 3, -3 and -3, 1. -/
abbrev exPair : List (SkTree ℚ 1) :=
  [{ toTopo := ⟨2, ![some 1, none, none], ![some 2, none, none]⟩
     value := fun i _ => ![0, 3, -3] i
     nSamp := ![2, 1, 1]
     impurity := ![7, 0, 0] },
   { toTopo := ⟨2, ![some 1, none, none], ![some 2, none, none]⟩
     value := fun i _ => ![-1, -3, 1] i
     nSamp := ![2, 1, 1]
     impurity := ![7, 0, 0] }]

/-- The costs of weights in `smooth` and in `smooth_clean`. -/
def bothCosts (forest : List (SkTree K 1)) (s : Style) (pa al : Bool) (leafOf : ℕ → ℕ → ℕ) (uns : ℕ → List ℕ)
    (y : List K) (lamb : Fin (forestDepth forest + 1) → K) : Option (K × K) :=
  match tuneSummaries false forest (oobTuneRows (fun i => y.getD i 0) leafOf uns) with
  | .ok yw =>
    match calcCost (flatRows (forestDepth forest + 1) al (gammaEtaForest .reg forest s pa) yw) lamb,
      cleanCost (cleanData forest s pa y.length leafOf uns) y lamb (List.range y.length) with
    | .ok x, .ok c => some (x, c)
    | _, _ => none
  | _ => none

/-- C194, full statement without the hypothesis that no observation is out of bag twice: of two weight vectors with
positive entries, `smooth` and `smooth_clean` find the same one better. -/
def C194Claim : Prop :=
  ∀ (forest : List (SkTree ℚ 1)) (_ : ∀ t ∈ forest, t.WF) (leafOf : ℕ → ℕ → ℕ) (uns : ℕ → List ℕ) (y : List ℚ)
    (lamb lamb' : Fin (forestDepth forest + 1) → ℚ) (x c x' c' : ℚ), (∀ i, 0 < lamb i) → (∀ i, 0 < lamb' i) →
    bothCosts forest .standard false true leafOf uns y lamb = some (x, c) →
    bothCosts forest .standard false true leafOf uns y lamb' = some (x', c') → (x ≤ x' ↔ c ≤ c')

/-- C194: two stumps with opposite errors. Little smoothing (weights 9/10, 1/10) costs `smooth` more and
`smooth_clean` less than equal weights. -/
theorem C194_refuted : ¬ C194Claim := by
  intro h
  have := (h exPair (by
    intro t ht
    simp only [List.mem_cons, List.not_mem_nil, or_false] at ht
    rcases ht with rfl | rfl <;> decide +kernel) (fun _ _ => 0) (fun _ => [0]) [0]
    (fun i => if i.1 = 0 then 9 / 10 else 1 / 10) (fun _ => 1 / 2) (313 / 25) (1 / 100) 1 (1 / 4)
    (fun i => by split_ifs <;> norm_num) (fun _ => by norm_num) (by decide +kernel)
    (by decide +kernel)).2 (by norm_num)
  norm_num at this

/-- The hypotheses of `C194_bound` (with `m` = 2) on the two stumps, and those of `C194_disjoint` on the first alone,
where both costs are positive. -/
example : (∀ t ∈ exPair, t.WF) ∧ (∀ i ∈ everOobSet 2 1 fun _ => [0], 2 ≤ (oobTrees 2 (fun _ => [0]) i).card) ∧
    everOobSet 2 1 (fun _ => [0]) = {0} ∧
    bothCosts exPair .standard false true (fun _ _ => 0) (fun _ => [0]) [0] (fun _ => 1 / 2) = some (1, 1 / 4) ∧
    bothCosts exPair .standard false true (fun t i => if t = i then 0 else 1) (fun t => [t]) [1, 2] (fun _ => 1 / 2) =
      some (10, 5) := by
  refine ⟨?_, by decide +kernel, by decide +kernel, by decide +kernel, by decide +kernel⟩
  intro t ht
  simp only [List.mem_cons, List.not_mem_nil, or_false] at ht
  rcases ht with rfl | rfl <;> decide +kernel

end SmoothRF
