import Verif.Props.CleanProps
import Verif.Proofs.Smooth2

/-!
# C156: the assertions of the smooth_clean tests, for all inputs

test_smooth_clean.py checks `generate_oob_info`, `create_G_H`, `calc_y_oob`, `calc_y_oob_grad` on random data.
-/

set_option linter.unusedSectionVars false

namespace SmoothRF
open SkTree Topo

variable {K : Type} [Field K] [LinearOrder K] [IsStrictOrderedRing K]

/-- C156, `idx_mat` (test_smooth_clean.py 36-46): one row per observation, one entry per tree, and entry `t` lies
between the number of leaves of the trees before `t` and that number with tree `t` included. -/
theorem C156_idx_mat (forest : List (SkTree K 1)) (nObs : ℕ) (leafOf : ℕ → ℕ → ℕ)
    (hl : ∀ t tr, forest[t]? = some tr → ∀ i < nObs, leafOf t i < tr.nLeaves) :
    (oobIdxMat forest nObs leafOf).length = nObs ∧
      ∀ i < nObs, ∃ row, (oobIdxMat forest nObs leafOf)[i]? = some row ∧ row.length = forest.length ∧
        ∀ t < forest.length, ∃ q, row[t]? = some q ∧ ((forest.take t).map fun t => t.nLeaves).sum ≤ q ∧
          q < ((forest.take (t + 1)).map fun t => t.nLeaves).sum := by
  refine ⟨by simp [oobIdxMat], fun i hi => ?_⟩
  refine ⟨_, oobIdxMat_entry forest nObs leafOf i hi, by simp, fun t ht => ?_⟩
  have htr : forest[t]? = some forest[t] := List.getElem?_eq_getElem ht
  have hlt := hl t _ htr i hi
  obtain ⟨row, h1, -, h3⟩ := oobIdxMat_get forest nObs leafOf hi htr hlt
  rw [oobIdxMat_entry forest nObs leafOf i hi, Option.some.injEq] at h1
  rw [h1]
  refine ⟨_, h3, Nat.le_add_left _ _, ?_⟩
  rw [List.take_succ, htr]
  simp only [Option.toList_some, List.map_append, List.map_cons, List.map_nil, List.sum_append,
    List.sum_cons, List.sum_nil]
  omega

/-- C156, `oob_weights` (49-61): every weight is in `[0, 1]`; the weights of one observation sum to 0 or 1; there
are `n_obs * n_trees` of them; their total is the number of observations that are ever out of bag. -/
theorem C156_weights (T nObs : ℕ) (uns : ℕ → List ℕ) :
    (oobWeights T nObs uns : List K).length = nObs * T ∧
      (∀ w ∈ (oobWeights T nObs uns : List K), 0 ≤ w ∧ w ≤ 1) ∧
      (∀ i < nObs, ∑ t ∈ Finset.range T, (oobWeights T nObs uns : List K).getD (T * i + t) 0 = 0 ∨
        ∑ t ∈ Finset.range T, (oobWeights T nObs uns : List K).getD (T * i + t) 0 = 1) ∧
      (oobWeights T nObs uns : List K).sum =
        ((((Finset.range nObs).filter fun i => ∃ t < T, i ∈ uns t).card : ℕ) : K) := by
  have hlen : (oobWeights T nObs uns : List K).length = nObs * T := by
    have e : (oobWeights T nObs uns : List K) = grid T (List.range nObs) fun i t =>
      oobPrime uns i t / (if ((List.range T).map fun t => (oobPrime uns i t : K)).sum = 0 then 1
        else ((List.range T).map fun t => (oobPrime uns i t : K)).sum) := rfl
    rw [e, grid_length, List.length_range]
  refine ⟨hlen, ?_, ?_, ?_⟩
  · intro w hw
    obtain ⟨q, hq, rfl⟩ := List.getElem_of_mem hw
    rw [hlen] at hq
    have hT : 0 < T := Nat.pos_of_ne_zero (by rintro rfl; simp at hq)
    have hi : q / T < nObs := Nat.div_lt_of_lt_mul (by rwa [Nat.mul_comm] at hq)
    have ht : q % T < T := Nat.mod_lt _ hT
    have := (C45_weights (K := K) T nObs uns hi).1 (q % T) ht
    rw [Nat.div_add_mod, List.getElem?_eq_getElem (by rw [hlen]; exact hq), Option.some.injEq] at this
    rw [this]
    split_ifs with hm
    · have hpos : 0 < ((Finset.range T).filter fun t => q / T ∈ uns t).card :=
        Finset.card_pos.2 ⟨q % T, Finset.mem_filter.2 ⟨Finset.mem_range.2 ht, hm⟩⟩
      have h1 : (1 : K) ≤ ((((Finset.range T).filter fun t => q / T ∈ uns t).card : ℕ) : K) := by
        exact_mod_cast hpos
      exact ⟨by positivity, (div_le_one (lt_of_lt_of_le one_pos h1)).2 h1⟩
    · exact ⟨le_rfl, zero_le_one⟩
  · intro i hi
    rw [(C45_weights (K := K) T nObs uns hi).2.1]
    split_ifs
    · right; rfl
    · left; rfl
  · have inner : ∀ i, ((List.range T).map fun t => (oobPrime uns i t : K) /
        (if ((List.range T).map fun t => (oobPrime uns i t : K)).sum = 0 then 1
          else ((List.range T).map fun t => (oobPrime uns i t : K)).sum)).sum =
        if ∃ t < T, i ∈ uns t then 1 else 0 := by
      intro i
      rw [sum_map_range]
      have h1 := (C45_weights (K := K) T (i + 1) uns (Nat.lt_succ_self i)).2.1
      rw [← h1]
      refine Finset.sum_congr rfl fun t ht => ?_
      have h2 := grid_getElem? T (List.range (i + 1)) (fun i t => (oobPrime uns i t : K) /
        (if ((List.range T).map fun t => (oobPrime uns i t : K)).sum = 0 then 1
          else ((List.range T).map fun t => (oobPrime uns i t : K)).sum)) i t (Finset.mem_range.1 ht)
      rw [List.getElem?_range (Nat.lt_succ_self i), Option.map_some, Nat.mul_comm i T] at h2
      rw [List.getD_eq_getElem?_getD]
      have h3 : (oobWeights T (i + 1) uns : List K)[T * i + t]? = _ := h2
      rw [h3]
      rfl
    unfold oobWeights
    rw [List.flatMap_def, List.sum_flatten, List.map_map]
    have : (List.sum ∘ fun i => (List.range T).map fun t => (oobPrime uns i t : K) /
        (if ((List.range T).map fun t => (oobPrime uns i t : K)).sum = 0 then 1
          else ((List.range T).map fun t => (oobPrime uns i t : K)).sum)) =
        fun i => if ∃ t < T, i ∈ uns t then (1 : K) else 0 := funext inner
    show ((List.range nObs).map (List.sum ∘ fun i => (List.range T).map fun t => (oobPrime uns i t : K) /
        (if ((List.range T).map fun t => (oobPrime uns i t : K)).sum = 0 then 1
          else ((List.range T).map fun t => (oobPrime uns i t : K)).sum))).sum = _
    rw [this, sum_map_range, Finset.sum_boole]

/-- Three observations: two trees out of bag, one, none. -/
example : (oobWeights 2 3 exUns : List ℚ).sum = 2 := by decide +kernel

/-- C156, `create_G_H` (66-102), for arbitrary matrices and any index matrix with one entry per tree in every row
and all entries within the matrices: `m * T` rows; rows `T * a, …, T * a + T - 1` are the rows of Gamma (eta) that
the index matrix names for the `a`-th requested observation. -/
theorem C156_G_H {k : ℕ} (d : CleanData K k) (hlen : d.gam.length = d.eta.length)
    (hrow : ∀ row ∈ d.idxMat, row.length = d.nTrees ∧ ∀ q ∈ row, q < d.gam.length)
    (obs : List ℕ) (ho : ∀ o ∈ obs, o < d.idxMat.length) :
    ∃ G H, createGH d obs = .ok (G, H) ∧ G.length = obs.length * d.nTrees ∧
      H.length = obs.length * d.nTrees ∧
      ∀ (a o : ℕ), obs[a]? = some o → ∀ t < d.nTrees, ∃ (row : List ℕ) (q : ℕ), d.idxMat[o]? = some row ∧
        row[t]? = some q ∧ q < d.gam.length ∧ G[a * d.nTrees + t]? = d.gam[q]? ∧
        H[a * d.nTrees + t]? = d.eta[q]? := by
  have V : CleanView { d with oobW := List.replicate (d.nTrees * d.idxMat.length) (0 : K) } d.idxMat.length
      (fun o t => (d.gam[((d.idxMat[o]?).getD [])[t]?.getD 0]?).getD fun _ => 0)
      (fun o t => (d.eta[((d.idxMat[o]?).getD [])[t]?.getD 0]?).getD fun _ => 0) (fun _ _ => 0) :=
    { len := rfl
      rows := fun o hoo => by
        have hr : d.idxMat[o]? = some d.idxMat[o] := List.getElem?_eq_getElem hoo
        obtain ⟨h1, h2⟩ := hrow _ (List.getElem_mem hoo)
        refine ⟨_, hr, h1, fun t ht => ?_⟩
        have ht' : t < d.idxMat[o].length := by rw [h1]; exact ht
        have hq := h2 _ (List.getElem_mem ht')
        refine ⟨_, List.getElem?_eq_getElem ht', ?_, ?_⟩
        · simp [hr, List.getElem?_eq_getElem ht', List.getElem?_eq_getElem hq]
        · simp [hr, List.getElem?_eq_getElem ht', List.getElem?_eq_getElem (hlen ▸ hq)]
      wts := fun o hoo t ht => by
        simp only
        rw [List.getElem?_replicate, if_pos]
        calc d.nTrees * o + t < d.nTrees * o + d.nTrees := Nat.add_lt_add_left ht _
          _ = d.nTrees * (o + 1) := by ring
          _ ≤ _ := Nat.mul_le_mul_left _ hoo }
  have h := createGH_eq V obs ho
  refine ⟨_, _, h, grid_length _ _ _, grid_length _ _ _, fun a o ha t ht => ?_⟩
  have hoo := ho o (List.mem_of_getElem? ha)
  have hr : d.idxMat[o]? = some d.idxMat[o] := List.getElem?_eq_getElem hoo
  obtain ⟨h1, h2⟩ := hrow _ (List.getElem_mem hoo)
  have ht' : t < d.idxMat[o].length := by rw [h1]; exact ht
  have hq := h2 _ (List.getElem_mem ht')
  refine ⟨_, _, hr, List.getElem?_eq_getElem ht', hq, ?_, ?_⟩
  · rw [grid_getElem? _ _ _ _ _ ht, ha]
    simp [hr, List.getElem?_eq_getElem ht', List.getElem?_eq_getElem hq]
  · rw [grid_getElem? _ _ _ _ _ ht, ha]
    simp [hr, List.getElem?_eq_getElem ht', List.getElem?_eq_getElem (hlen ▸ hq)]

/-- Two trees, three leaves, observation 1 requested. -/
example : (match createGH (⟨[![1], ![2], ![3]], [![4], ![5], ![6]], [[0, 2], [1, 2]], 2, []⟩ : CleanData ℚ 1)
      [1] with
    | .ok r => some (r.1.map (· 0), r.2.map (· 0))
    | .error _ => none) = some ([2, 3], [5, 6]) := by decide +kernel

/-- C156, `calc_y_oob` with the first unit vector (test_calc_y_oob): if all leaf values are in `[a, b]`, so is
`y_oob` of every observation that is out of bag somewhere; the others have `y_oob = 0`. -/
theorem C156_y_oob (forest : List (SkTree K 1)) (hwf : ∀ t ∈ forest, t.WF)
    (hn : ∀ t ∈ forest, ∀ r, t.nSamp (t.leafNode r) ≠ 0) (s : Style) (pa : Bool) (nObs : ℕ)
    (leafOf : ℕ → ℕ → ℕ) (uns : ℕ → List ℕ)
    (hl : ∀ t tr, forest[t]? = some tr → ∀ i < nObs, leafOf t i < tr.nLeaves) {a b : K}
    (hv : ∀ t ∈ forest, ∀ r, a ≤ t.value (t.leafNode r) 0 ∧ t.value (t.leafNode r) 0 ≤ b)
    (lamb : Fin (forestDepth forest + 1) → K) (hlamb : ∀ j, lamb j = if j = 0 then 1 else 0)
    (obs : List ℕ) (ho : ∀ i ∈ obs, i < nObs) :
    ∃ y ever, calcYOob (cleanData forest s pa nObs leafOf uns) lamb obs = .ok (y, ever) ∧
      y.length = obs.length ∧ ever.length = obs.length ∧
      ∀ (q : ℕ) (yq : K), y[q]? = some yq →
        (ever[q]? = some true ∧ a ≤ yq ∧ yq ≤ b) ∨ (ever[q]? = some false ∧ yq = 0) := by
  have hfin : ∀ t ∈ forest, ∀ r, smoothDen t s pa lamb r = 0 → smoothNum .reg t s pa lamb r 0 = 0 := by
    intro t ht r h0
    rw [smoothDen_e0 (hwf t ht) s pa r lamb hlamb] at h0
    exact absurd h0 (hn t ht r)
  refine ⟨_, _, C46_oob_average forest hwf s pa nObs leafOf uns hl lamb hfin obs ho, by simp, by simp, ?_⟩
  intro q yq hq
  rw [List.getElem?_map, Option.map_eq_some_iff] at hq
  obtain ⟨i, hi, rfl⟩ := hq
  have hmem := List.mem_of_getElem? hi
  rw [List.getElem?_map, hi]
  have hval : ∀ t < forest.length,
      a ≤ leafAt forest 0 (fun tr r => smoothSpec .reg tr s pa lamb r 0) t (leafOf t i) ∧
        leafAt forest 0 (fun tr r => smoothSpec .reg tr s pa lamb r 0) t (leafOf t i) ≤ b := by
    intro t ht
    have htr : forest[t]? = some forest[t] := List.getElem?_eq_getElem ht
    have hm : forest[t] ∈ forest := List.getElem_mem ht
    have hlt := hl t _ htr i (ho i hmem)
    rw [leafAt_pos htr hlt]
    have e : smoothSpec .reg forest[t] s pa lamb ⟨leafOf t i, hlt⟩ 0 =
        forest[t].value (forest[t].leafNode ⟨leafOf t i, hlt⟩) 0 := by
      unfold smoothSpec
      have h0 := hn _ hm ⟨leafOf t i, hlt⟩
      rw [smoothDen_e0 (hwf _ hm) s pa _ lamb hlamb, if_neg h0, smoothNum_e0 .reg (hwf _ hm) s pa _ _ lamb hlamb]
      unfold SkTree.mass
      exact mul_div_cancel_left₀ _ h0
    rw [e]
    exact hv _ hm _
  by_cases hex : ∃ t < forest.length, i ∈ uns t
  · left
    have hne : oobTrees forest.length uns i ≠ ∅ := by
      obtain ⟨t, ht, hm⟩ := hex
      exact Finset.ne_empty_of_mem (Finset.mem_filter.2 ⟨Finset.mem_range.2 ht, hm⟩)
    have hc : (0 : K) < ((oobTrees forest.length uns i).card : K) := by
      exact_mod_cast Finset.card_pos.2 (Finset.nonempty_iff_ne_empty.2 hne)
    unfold oobMean
    rw [if_neg hne]
    have hin : ∀ t ∈ oobTrees forest.length uns i, t < forest.length := fun t ht =>
      Finset.mem_range.1 (Finset.mem_filter.1 ht).1
    refine ⟨by simp [hex], ?_, ?_⟩
    · rw [le_div_iff₀ hc, mul_comm, ← nsmul_eq_mul]
      exact Finset.card_nsmul_le_sum _ _ _ fun t ht => (hval t (hin t ht)).1
    · rw [div_le_iff₀ hc, mul_comm, ← nsmul_eq_mul]
      exact Finset.sum_le_card_nsmul _ _ _ fun t ht => (hval t (hin t ht)).2
  · right
    have he : oobTrees forest.length uns i = ∅ := by
      unfold oobTrees
      rw [Finset.filter_eq_empty_iff]
      exact fun t ht hm => hex ⟨t, Finset.mem_range.1 ht, hm⟩
    refine ⟨by simp [hex], ?_⟩
    unfold oobMean
    rw [if_pos he]

/-- C156, `calc_y_oob_grad` (test_calc_y_oob_grad), for any weights vector: one row per requested observation, and
a zero row for every observation that is never out of bag. -/
theorem C156_grad (forest : List (SkTree K 1)) (hwf : ∀ t ∈ forest, t.WF) (s : Style) (pa : Bool) (nObs : ℕ)
    (leafOf : ℕ → ℕ → ℕ) (uns : ℕ → List ℕ)
    (hl : ∀ t tr, forest[t]? = some tr → ∀ i < nObs, leafOf t i < tr.nLeaves)
    (lamb : Fin (forestDepth forest + 1) → K) (obs : List ℕ) (ho : ∀ i ∈ obs, i < nObs) :
    ∃ g, calcYOobGrad (cleanData forest s pa nObs leafOf uns) lamb obs = .ok g ∧ g.length = obs.length ∧
      ∀ (q i : ℕ), obs[q]? = some i → (¬ ∃ t < forest.length, i ∈ uns t) → g[q]? = some fun _ => 0 := by
  refine ⟨_, calcYOobGrad_eq (cleanView forest hwf s pa nObs leafOf uns hl) lamb obs ho, by simp, ?_⟩
  intro q i hq hex
  rw [List.getElem?_map, hq, Option.map_some]
  congr 1
  funext j
  have h0 : ∀ t ∈ Finset.range (cleanData forest s pa nObs leafOf uns).nTrees, i ∉ uns t :=
    fun t ht hm => hex ⟨t, Finset.mem_range.1 ht, hm⟩
  rw [Finset.sum_eq_zero fun t ht => by rw [if_neg (h0 t ht)]; simp,
    Finset.sum_eq_zero fun t ht => by rw [if_neg (h0 t ht)]; simp, sub_zero]

/-- Two stumps, three observations, the last one never out of bag. -/
example : (match calcYOob (cleanData [exStump26, exStump] .standard true 3 exLeafOf exUns)
      ![1, 0] [0, 1, 2] with
    | .ok r => some r
    | .error _ => none) = some ([3 / 2, 4, 0], [true, true, false]) := by decide +kernel

end SmoothRF
