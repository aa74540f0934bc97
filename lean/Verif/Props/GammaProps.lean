import Verif.Proofs.Gamma2
import Verif.Props.TreeProps
import Mathlib.Data.Rat.Floor
import Mathlib.Tactic.NormNum

/-!
# C12–C16, C18: Gamma, eta, padding, level features
-/

set_option linter.unusedSectionVars false

namespace SmoothRF
open Topo SkTree

variable {K : Type} [Field K] [LinearOrder K] {C : ℕ}

/-- Example regression tree on `exTopo` with consistent statistics. -/
abbrev exTree : SkTree ℚ 1 :=
  { toTopo := exTopo
    value := fun i _ => ![13 / 2, 3, 1, 4, 10] i
    nSamp := ![6, 3, 1, 2, 3]
    impurity := ![9, 2, 0, 1, 3] }

/-- Example single-split regression tree (depth one). -/
abbrev exStump : SkTree ℚ 1 :=
  { toTopo := ⟨2, ![some 1, none, none], ![some 2, none, none]⟩
    value := fun i _ => ![5 / 2, 1, 4] i
    nSamp := ![2, 1, 1]
    impurity := ![7, 0, 5] }

/-- C12: `create_Gamma_eta_tree` for any non-negative leaf distance matrix: one row per leaf, columns
`0 .. largest distance`, each entry the documented sum. -/
theorem C12_gamma_eta_definition (kind : Kind) (t : SkTree K C) (h : t.WF) (pa : Bool)
    (D : Fin t.nLeaves → Fin t.nLeaves → ℤ) (hD : ∀ i j, 0 ≤ D i j) :
    ∃ W : ℕ, (∀ i j, D i j ≤ W) ∧ (∃ i j, D i j = W) ∧
      (∀ c, t.gammaTree kind pa D c = (List.finRange t.nLeaves).map fun i =>
        (List.range (W + 1)).map (levelSum pa D (fun j => t.mass kind (t.leafNode j) c) i)) ∧
      (t.etaTree pa D = (List.finRange t.nLeaves).map fun i =>
        (List.range (W + 1)).map (levelSum pa D (fun j => t.nSamp (t.leafNode j)) i)) := by
  refine ⟨t.maxDist D, ?_, t.maxDist_attained' h D hD, ?_, ?_⟩
  · intro i j; have := t.maxDist_le D i j; omega
  · intro c
    rw [← ny_eq]
    exact List.map_congr_left fun i _ => levelRow_eq t pa D _ i
  · exact List.map_congr_left fun i _ => levelRow_eq t pa D _ i

/-- C12 (depth distance): level `k` of leaf `i` sums over the leaves whose lowest common ancestor
with `i` is exactly `k` levels above `i`. -/
theorem C12_level_is_lca (t : Topo) (h : t.WF) (v : Fin t.nLeaves → K) (i : Fin t.nLeaves) (k : ℕ)
    [DecidablePred fun j => ∃ a, t.UpBy k (t.leafNode i) a ∧ t.IsLCA (t.leafNode i) (t.leafNode j) a] :
    levelSum false (t.distDepth .standard) v i k =
      ∑ j ∈ Finset.univ.filter
        (fun j => ∃ a, t.UpBy k (t.leafNode i) a ∧ t.IsLCA (t.leafNode i) (t.leafNode j) a), v j := by
  simp only [levelSum, Bool.false_eq_true, if_false]
  congr 1
  ext j
  simp only [Finset.mem_filter, Finset.mem_univ, true_and]
  obtain ⟨b, hb⟩ := exists_lca h (t.leafNode i) (t.leafNode j)
  have e : t.distDepth .standard i j = _ := distStandard_eq h i j hb
  have hble := anc_depth_le h hb.1
  rw [e]
  constructor
  · intro hk
    refine ⟨b, ?_, hb⟩
    have := anc_upBy h hb.1
    rwa [show t.depthPerNode (t.leafNode i) - t.depthPerNode b = k by omega] at this
  · rintro ⟨a, ha, hla⟩
    rw [lca_unique h hla hb] at ha
    have := (upBy_depth h ha).1
    omega

example : exTree.WF ∧ (exTree.gammaTree .reg false (exTree.distDepth .standard) 0 =
    [[1, 8, 30], [8, 1, 30], [30, 9, 0]]) ∧
    (exTree.etaTree false (exTree.distDepth .standard) = [[1, 2, 3], [2, 1, 3], [3, 3, 0]]) :=
  ⟨by decide, by decide +kernel, by decide +kernel⟩

/-- C13: without `parents_all` every row of eta sums to the tree's total leaf weight and every row of
Gamma to the total of `n_j y_j`. -/
theorem C13_mass_conserved (kind : Kind) (t : SkTree K C) (h : t.WF) (s : Style) :
    (∀ row ∈ t.etaTree false (t.distDepth s), row.sum = ∑ j, t.nSamp (t.leafNode j)) ∧
    (∀ c, ∀ row ∈ t.gammaTree kind false (t.distDepth s) c,
      row.sum = ∑ j, t.mass kind (t.leafNode j) c) := by
  have key : ∀ (v : Fin t.nLeaves → K) (i : Fin t.nLeaves),
      (t.levelRow false (t.distDepth s) v i).sum = ∑ j, v j := by
    intro v i
    rw [levelRow_eq, sum_map_range, sum_levelSum _ (distDepth_nonneg h s),
      levelSum_true_max t _ _ _ _ le_rfl]
  constructor
  · intro row hrow
    obtain ⟨i, _, rfl⟩ := List.mem_map.1 hrow
    exact key _ i
  · intro c row hrow
    obtain ⟨i, _, rfl⟩ := List.mem_map.1 hrow
    rw [← ny_eq]
    exact key _ i

example : ([2, 1, 3] : List ℚ).sum = ∑ j, exTree.nSamp (exTree.leafNode j) := by decide +kernel

/-- C14: the `parents_all` column `k` is the sum of the plain columns `0 .. k`, and its last column is
the whole tree's total. -/
theorem C14_parents_all_cumulative (kind : Kind) (t : SkTree K C) (h : t.WF) (s : Style)
    (i : Fin t.nLeaves) (c : Fin C) :
    (∃ ep e gp g, (t.etaTree true (t.distDepth s))[i.val]? = some ep ∧
      (t.etaTree false (t.distDepth s))[i.val]? = some e ∧
      (t.gammaTree kind true (t.distDepth s) c)[i.val]? = some gp ∧
      (t.gammaTree kind false (t.distDepth s) c)[i.val]? = some g ∧
      ep.length = e.length ∧ gp.length = g.length ∧ e.length = g.length ∧ e ≠ [] ∧
      (∀ k < e.length, ep[k]? = some ((e.take (k + 1)).sum)) ∧
      (∀ k < g.length, gp[k]? = some ((g.take (k + 1)).sum)) ∧
      ep.getLast? = some (∑ j, t.nSamp (t.leafNode j)) ∧
      gp.getLast? = some (∑ j, t.mass kind (t.leafNode j) c)) := by
  have hcum : ∀ (v : Fin t.nLeaves → K) k, k < (t.levelRow false (t.distDepth s) v i).length →
      (t.levelRow true (t.distDepth s) v i)[k]? =
        some (((t.levelRow false (t.distDepth s) v i).take (k + 1)).sum) := by
    intro v k hk
    rw [levelRow_eq] at hk ⊢
    rw [levelRow_eq]
    simp only [List.length_map, List.length_range] at hk
    rw [← List.map_take, List.take_range, show min (k + 1) (t.maxDist (t.distDepth s) + 1) = k + 1 by omega,
      sum_map_range, sum_levelSum _ (distDepth_nonneg h s)]
    simp [hk]
  have hlast : ∀ (v : Fin t.nLeaves → K),
      (t.levelRow true (t.distDepth s) v i).getLast? = some (∑ j, v j) := by
    intro v
    rw [levelRow_eq, List.range_succ, List.map_append, List.getLast?_append]
    simp only [List.map_cons, List.map_nil, List.getLast?_singleton, Option.some_or]
    rw [levelSum_true_max t _ _ _ _ le_rfl]
  have hlen : ∀ pa (v : Fin t.nLeaves → K), (t.levelRow pa (t.distDepth s) v i).length =
      t.maxDist (t.distDepth s) + 1 := by intro pa v; simp [levelRow]
  refine ⟨t.levelRow true (t.distDepth s) (fun j => t.nSamp (t.leafNode j)) i,
    t.levelRow false (t.distDepth s) (fun j => t.nSamp (t.leafNode j)) i,
    t.levelRow true (t.distDepth s) (fun j => t.mass kind (t.leafNode j) c) i,
    t.levelRow false (t.distDepth s) (fun j => t.mass kind (t.leafNode j) c) i,
    ?_, ?_, ?_, ?_, ?_, ?_, ?_, ?_, hcum _, hcum _, hlast _, hlast _⟩
  · simp [etaTree]
  · simp [etaTree]
  · simp [gammaTree, ny_eq]
  · simp [gammaTree, ny_eq]
  · rw [hlen, hlen]
  · rw [hlen, hlen]
  · rw [hlen, hlen]
  · intro e; have := hlen false (fun j => t.nSamp (t.leafNode j)); rw [e] at this; simp at this

example : exTree.etaTree true (exTree.distDepth .standard) = [[1, 3, 6], [2, 3, 6], [3, 6, 6]] := by
  decide +kernel

/-- C15: with `parents_all` (standard distance) and consistent statistics, the level-`k` entries for
leaf `i` are the statistics of the ancestor `k` levels up (the root beyond the leaf's depth), so the
ratio is the prediction stored at that ancestor. -/
theorem C15_parents_all_ratio (kind : Kind) (t : SkTree K C) (h : t.WF) (hc : t.Consistent kind)
    (i : Fin t.nLeaves) (c : Fin C) (k : ℕ) (a : t.Node)
    (hk : ∃ j d, t.DepthIs j d ∧ k ≤ d)
    (ha : t.UpBy k (t.leafNode i) a ∨ (∃ d, t.DepthIs (t.leafNode i) d ∧ d ≤ k ∧ a = 0)) :
    ∃ g e : K,
      (t.gammaTree kind true (t.distDepth .standard) c)[i.val]?.bind (·[k]?) = some g ∧
      (t.etaTree true (t.distDepth .standard))[i.val]?.bind (·[k]?) = some e ∧
      g = t.mass kind a c ∧ e = t.nSamp a ∧
      (t.nSamp a ≠ 0 → g / e = match kind with
        | .reg => t.value a c
        | .cls => t.value a c / t.nSamp a) := by
  classical
  replace hk : k < t.maxDist (t.distDepth .standard) + 1 := by
    obtain ⟨j, d, hj, hkd⟩ := hk
    rw [maxDist_standard t h]
    have := (npMax_spec t.depthPerNode).1 j
    rw [(depthIs_iff h _ _).1 hj] at this
    omega
  have ha' : t.UpBy k (t.leafNode i) a ∨ (t.depthPerNode (t.leafNode i) ≤ k ∧ a = 0) := by
    rcases ha with ha | ⟨d, hd, hdk, rfl⟩
    · exact Or.inl ha
    · exact Or.inr ⟨by rw [(depthIs_iff h _ _).1 hd]; exact hdk, rfl⟩
  have key : ∀ (f : t.Node → K), (∀ p l r : t.Node, t.left p = some l → t.right p = some r →
      f p = f l + f r) →
      levelSum true (t.distDepth .standard) (fun j => f (t.leafNode j)) i k = f a := by
    intro f hf
    rw [← sum_leaves_below t.toTopo h f hf a]
    simp only [levelSum, if_true]
    congr 1
    ext j
    simp only [Finset.mem_filter, Finset.mem_univ, true_and]
    exact distStandard_le_iff t.toTopo h i j k a ha'
  refine ⟨_, _, ?_, ?_, rfl, rfl, ?_⟩
  · simp only [gammaTree, levelRow_eq, ny_eq]
    simp only [List.getElem?_map, finRange_getElem?, Option.map_some,
      Option.bind_some]
    rw [List.getElem?_range hk]
    simp only [Option.map_some, Option.some.injEq]
    exact key (fun x => t.mass kind x c) (fun p l r hl hr => (hc p l r hl hr).2 c)
  · simp only [etaTree, levelRow_eq]
    simp only [List.getElem?_map, finRange_getElem?, Option.map_some,
      Option.bind_some]
    rw [List.getElem?_range hk]
    simp only [Option.map_some, Option.some.injEq]
    exact key t.nSamp (fun p l r hl hr => (hc p l r hl hr).1)
  · intro hn
    cases kind
    · simp only [mass, if_true]; field_simp
    · rfl

theorem exTree_consistent : exTree.Consistent .reg := by
  intro p l r hl hr
  revert p l r; decide +kernel

/-- Leaf 2 (row 0) at level 1: the prediction of its parent, node 1. -/
example : exTree.UpBy 1 (exTree.leafNode ⟨0, by decide⟩) (1 : Fin 5) ∧
    (exTree.gammaTree .reg true (exTree.distDepth .standard) 0)[0]? = some [1, 9, 39] ∧
    (9 : ℚ) / 3 = exTree.value (1 : Fin 5) 0 :=
  ⟨.step (p := (1 : Fin 5)) (by decide) (.zero _), by decide +kernel, by norm_num⟩

/-- C16: in `create_Gamma_eta_forest` the rows are the leaves of tree 0, tree 1, …; all rows have
`max_depth + 1` columns; every entry (padding included) equals the per-tree definition at that
column; `t_idx_all` names the tree of each row. -/
theorem C16_forest_stacking (kind : Kind) (forest : List (SkTree K C)) (hwf : ∀ t ∈ forest, t.WF)
    (s : Style) (pa : Bool) :
    let D := (Topo.calcDepthForForest (forest.map SkTree.toTopo)).2
    (∀ c, (gammaEtaForest kind forest s pa).gamma c = forest.flatMap fun t =>
      (List.finRange t.nLeaves).map fun i => (List.range (D + 1)).map
        (levelSum pa (t.distDepth s) (fun j => t.mass kind (t.leafNode j) c) i)) ∧
    (gammaEtaForest kind forest s pa).eta = (forest.flatMap fun t =>
      (List.finRange t.nLeaves).map fun i => (List.range (D + 1)).map
        (levelSum pa (t.distDepth s) (fun j => t.nSamp (t.leafNode j)) i)) ∧
    (gammaEtaForest kind forest s pa).tIdx =
      (forest.zipIdx.flatMap fun tt => List.replicate tt.1.nLeaves tt.2) := by
  obtain ⟨h1, h2, h3⟩ := gammaEtaForest_eq kind forest s pa
  have hw : ∀ t ∈ forest, t.maxDist (t.distDepth s) + 1 ≤ forestDepth forest + 1 := fun t ht => by
    have a := t.maxDist_le_depth (hwf t ht) s
    have b := forestDepth_ge forest t ht
    omega
  refine ⟨fun c => ?_, ?_, h3⟩
  · rw [h1 c]
    apply List.flatMap_congr
    intro t ht
    simp only [gammaTree, List.map_map, ny_eq]
    exact List.map_congr_left fun i _ => padRow_levelRow t pa _ _ i _ (hw t ht)
  · rw [h2]
    apply List.flatMap_congr
    intro t ht
    simp only [etaTree, List.map_map]
    exact List.map_congr_left fun i _ => padRow_levelRow t pa _ _ i _ (hw t ht)

example : (∀ t ∈ [exStump, exTree], t.WF) ∧
    (gammaEtaForest .reg [exStump, exTree] .standard true).eta =
      [[1, 2, 2], [1, 2, 2], [1, 3, 6], [2, 3, 6], [3, 6, 6]] ∧
    (gammaEtaForest .reg [exStump, exTree] .standard true).tIdx = [0, 0, 1, 1, 1] :=
  ⟨by simp; decide, by decide +kernel, by decide +kernel⟩

/-- C18 (what holds): with the standard distance `create_Gamma_eta_forest_more` does not raise;
`depth_full[i,k]` is the depth of the leaf's `k`-th ancestor (0 beyond the root) in every column,
padding included; `impurity_full[i,k]` is the impurity of the `k`-th ancestor (the root beyond the
leaf's depth) in every column up to the depth of the leaf's own tree.
Missing: the columns between the tree's depth and the forest's depth, which are wrong (see
`C18_padded_impurity_refuted`). -/
theorem C18_level_features_partial (forest : List (SkTree K C)) (hwf : ∀ t ∈ forest, t.WF) :
    let D := (Topo.calcDepthForForest (forest.map SkTree.toTopo)).2
    ∃ M, forestMore forest .standard = .ok M ∧
      (∃ R : (t : SkTree K C) → Fin t.nLeaves → List K,
        M.depthFull = forest.flatMap (fun t => (List.finRange t.nLeaves).map (R t)) ∧
        ∀ t ∈ forest, ∀ i, (R t i).length = D + 1 ∧
          (∀ k a d, t.UpBy k (t.leafNode i) a → t.DepthIs a d → (R t i)[k]? = some (d : K)) ∧
          (∀ k d, t.DepthIs (t.leafNode i) d → d ≤ k → k ≤ D → (R t i)[k]? = some 0)) ∧
      (∃ R : (t : SkTree K C) → Fin t.nLeaves → List K,
        M.impurityFull = forest.flatMap (fun t => (List.finRange t.nLeaves).map (R t)) ∧
        ∀ t ∈ forest, ∀ i, (R t i).length = D + 1 ∧
          (∀ k a, t.UpBy k (t.leafNode i) a → (R t i)[k]? = some (t.impurity a)) ∧
          (∀ k d, t.DepthIs (t.leafNode i) d → d ≤ k → (∃ j e, t.DepthIs j e ∧ k ≤ e) →
            (R t i)[k]? = some (t.impurity 0))) ∧
      M.numLeaf = forest.flatMap (fun t => (List.finRange t.nLeaves).map fun i =>
        t.nSamp (t.leafNode i)) ∧
      M.impurityLeaf = forest.flatMap (fun t => (List.finRange t.nLeaves).map fun i =>
        t.impurity (t.leafNode i)) ∧
      (∃ dl : (t : SkTree K C) → Fin t.nLeaves → ℕ,
        M.depthLeaf = forest.flatMap (fun t => (List.finRange t.nLeaves).map fun i => (dl t i : ℤ)) ∧
        ∀ t ∈ forest, ∀ i, t.DepthIs (t.leafNode i) (dl t i)) := by
  intro D
  obtain ⟨M, hM, h1, h2, h3, h4, h5⟩ := forestMore_standard forest hwf
  have hge := fun t ht => forestDepth_ge forest t ht
  refine ⟨M, hM, ⟨_, h1, ?_⟩, ⟨_, h2, ?_⟩, h3, h5, _, h4,
    fun t ht i => (depthIs_iff (hwf t ht) _ _).2 rfl⟩
  · intro t ht i
    have h := hwf t ht
    have hmax := (npMax_spec t.depthPerNode).1 (t.leafNode i)
    have hD : npMax t.depthPerNode ≤ D := hge t ht
    refine ⟨by simp; rfl, ?_, ?_⟩
    · intro k a d ha hd
      have hda := (upBy_depth h ha).1
      rw [(depthIs_iff h _ _).1 hd] at hda
      have hk : k < D + 1 := by omega
      rw [List.getElem?_map]
      have e : t.depthPerNode (t.leafNode i) - k = d := by omega
      have : (List.range (forestDepth forest + 1))[k]? = some k := List.getElem?_range hk
      rw [this]; simp [e]
    · intro k d hd hdk hkD
      rw [← (depthIs_iff h _ _).1 hd] at hdk
      rw [List.getElem?_map]
      have : (List.range (forestDepth forest + 1))[k]? = some k :=
        List.getElem?_range (Nat.lt_succ_of_le hkD)
      have e : t.depthPerNode (t.leafNode i) - k = 0 := by omega
      rw [this]; simp [e]
  · intro t ht i
    have h := hwf t ht
    obtain ⟨hlen, hent⟩ := impurityRow t h i
    have hD : npMax t.depthPerNode ≤ D := hge t ht
    have hmax := (npMax_spec t.depthPerNode).1
    refine ⟨?_, ?_, ?_⟩
    · unfold impPadded
      rw [List.length_append, hlen, List.length_replicate]
      show _ = D + 1
      have : forestDepth forest = D := rfl
      omega
    · intro k a ha
      have hda := (upBy_depth h ha).1
      have hm := hmax (t.leafNode i)
      unfold impPadded
      rw [List.getElem?_append_left (by rw [hlen]; omega)]
      exact hent k a (by omega) (Or.inl ha)
    · rintro k d hd hdk ⟨j, e, hj, hke⟩
      have hm := hmax j
      rw [(depthIs_iff h _ _).1 hj] at hm
      unfold impPadded
      rw [List.getElem?_append_left (by rw [hlen]; omega)]
      exact hent k 0 (by omega) (Or.inr ⟨by rw [(depthIs_iff h _ _).1 hd]; exact hdk, rfl⟩)

/-- C18 (refuted): in a forest of trees of different depths the padded impurity column holds the first
leaf's own impurity, not the root's. Witness: a stump next to a depth-two tree; row 0, column 2 should
be the stump's root impurity 7 but is 0. -/
theorem C18_padded_impurity_refuted :
    ¬ ∀ (forest : List (SkTree ℚ 1)), (∀ t ∈ forest, t.WF) →
      ∃ M, forestMore forest .standard = .ok M ∧
      ∃ R : (t : SkTree ℚ 1) → Fin t.nLeaves → List ℚ,
        M.impurityFull = forest.flatMap (fun t => (List.finRange t.nLeaves).map (R t)) ∧
        ∀ t ∈ forest, ∀ i k d, t.DepthIs (t.leafNode i) d → d ≤ k →
          k ≤ (Topo.calcDepthForForest (forest.map SkTree.toTopo)).2 →
            (R t i)[k]? = some (t.impurity 0) := by
  intro hall
  obtain ⟨M, hM, R, hR, hent⟩ := hall [exStump, exTree] (by simp; decide)
  have hlist : (match forestMore [exStump, exTree] .standard with
      | .ok M => M.impurityFull.head?
      | .error _ => none) = some [0, 7, 0] := by decide +kernel
  rw [hM] at hlist
  simp only at hlist
  have e1 : M.impurityFull.head? = some (R exStump ⟨0, by decide⟩) := by
    rw [hR]
    simp only [List.flatMap_cons]
    have : List.finRange exStump.nLeaves = ⟨0, by decide⟩ :: [⟨1, by decide⟩] := by decide
    rw [this]; rfl
  rw [hlist] at e1
  have := hent exStump (by simp) ⟨0, by decide⟩ 2 1
    (.child (p := (0 : Fin 3)) (by decide) .root) (by decide) (by decide +kernel)
  rw [← Option.some.inj e1] at this
  revert this; decide +kernel

/-- C18 (refuted for `dist_mat_style="min"`): the function raises ValueError on an ordinary tree. -/
theorem C18_min_style_raises :
    ∃ t : SkTree ℚ 1, t.WF ∧ (forestMore [t] .min).isOk = false ∧
      (match forestMore [t] .min with | .error e => some e | .ok _ => none) = some .valueError :=
  ⟨{ toTopo := exTopo2, value := fun _ _ => 0, nSamp := fun _ => 1, impurity := fun _ => 0 },
    by decide, by decide +kernel, by decide +kernel⟩

end SmoothRF
