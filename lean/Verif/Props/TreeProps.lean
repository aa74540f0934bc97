import Verif.Proofs.Tree2
import Mathlib.Data.Fin.VecNotation

/-!
# C01–C10: tree structure, decision paths, leaf distances
-/

namespace SmoothRF
open Topo

/-- Example: root 0 with children 1 and 4, node 1 with children 2 and 3 (leaves 2, 3, 4). -/
abbrev exTopo : Topo := ⟨4, ![some 1, some 2, none, none, none], ![some 4, some 3, none, none, none]⟩

theorem exTopo_wf : exTopo.WF := by decide

/-- A second example: depth three, children numbered right before left. -/
abbrev exTopo2 : Topo :=
  ⟨6, ![some 2, none, some 4, none, some 6, none, none],
      ![some 1, none, some 3, none, some 5, none, none]⟩

theorem exTopo2_wf : exTopo2.WF := by decide

/-- C01: `depth_per_node(tree)[i]` is the number of edges of the root path of `i`. -/
theorem C01_depth_per_node (t : Topo) (h : t.WF) (i : t.Node) (d : ℕ) :
    t.depthPerNode i = d ↔ t.DepthIs i d :=
  (depthIs_iff h i d).symm

example : exTopo2.WF ∧ exTopo2.depthPerNode (6 : Fin 7) = 3 := ⟨exTopo2_wf, by decide⟩

/-- C02: per-tree depths are right, and `max_depth` is the largest depth in the forest. -/
theorem C02_calc_depth_for_forest (forest : List Topo) (hne : forest ≠ [])
    (h : ∀ t ∈ forest, t.WF) :
    (calcDepthForForest forest).1.map Sigma.fst = forest ∧
    (∀ x ∈ (calcDepthForForest forest).1, ∀ i : x.1.Node, x.1.DepthIs i (x.2 i)) ∧
    (∀ t ∈ forest, ∀ (i : t.Node) (d : ℕ), t.DepthIs i d → d ≤ (calcDepthForForest forest).2) ∧
    (∃ t ∈ forest, ∃ i : t.Node, t.DepthIs i (calcDepthForForest forest).2) := by
  rw [calcDepthForForest_eq]
  refine ⟨?_, ?_, ?_, ?_⟩
  · simp [Function.comp_def]
  · intro x hx i
    simp only [List.mem_map] at hx
    obtain ⟨t, ht, rfl⟩ := hx
    exact depthPerNode_spec (h t ht) i
  · intro t ht i d hd
    rw [(depthIs_iff (h t ht) i d).1 hd |>.symm]
    refine le_trans ((npMax_spec t.depthPerNode).1 i) ?_
    exact (foldl_max_le _ 0).2.1 _ (List.mem_map.2 ⟨t, ht, rfl⟩)
  · rcases (foldl_max_le (forest.map fun t => npMax t.depthPerNode) 0).2.2 with h0 | hm
    · obtain ⟨t, ht⟩ := List.exists_mem_of_ne_nil _ hne
      refine ⟨t, ht, 0, ?_⟩
      simp only [h0]; exact .root
    · obtain ⟨t, ht, he⟩ := List.mem_map.1 hm
      obtain ⟨i, hi⟩ := (npMax_spec t.depthPerNode).2
      refine ⟨t, ht, i, ?_⟩
      rw [← he, hi]
      exact depthPerNode_spec (h t ht) i

example : (∀ t ∈ [exTopo, exTopo2], t.WF) ∧ (calcDepthForForest [exTopo, exTopo2]).2 = 3 :=
  ⟨by simp [exTopo_wf, exTopo2_wf], by decide⟩

/-- C03: `depth_per_node_plus_parent` gives depths and, in row `i` and column `k`, the ancestor
`k` levels up, the root beyond the depth of `i`; there are `max_depth + 1` columns. -/
theorem C03_depth_per_node_plus_parent (t : Topo) (h : t.WF) (i : t.Node) :
    t.DepthIs i (t.depthPerNodePlusParent.1 i) ∧
    (∃ D, (t.depthPerNodePlusParent.2 i).length = D + 1 ∧ (∀ j d, t.DepthIs j d → d ≤ D) ∧
      ∃ j, t.DepthIs j D) ∧
    (∀ k a, t.UpBy k i a → (t.depthPerNodePlusParent.2 i)[k]? = some a) ∧
    (∀ k d, t.DepthIs i d → d ≤ k → k < (t.depthPerNodePlusParent.2 i).length →
      (t.depthPerNodePlusParent.2 i)[k]? = some 0) := by
  obtain ⟨l, hl, hrow⟩ := plusParent_row h i
  have hmax := npMax_spec t.depthPerNode
  have hlen := hl.length h
  refine ⟨?_, ⟨npMax t.depthPerNode, ?_, ?_, ?_⟩, ?_, ?_⟩
  · simp only [depthPerNodePlusParent, (plusParent_fold h).1]
    exact depthPerNode_spec h i
  · rw [hrow]
    have := hmax.1 i
    simp [hlen]; omega
  · intro j d hd
    rw [← (depthIs_iff h j d).1 hd]; exact hmax.1 j
  · obtain ⟨j, hj⟩ := hmax.2
    exact ⟨j, by rw [hj]; exact depthPerNode_spec h j⟩
  · intro k a hu
    rw [hrow, List.getElem?_append_left]
    · exact hl.upBy h hu
    · have := (upBy_depth h hu).1
      simp [hlen]; omega
  · intro k d hd hk hkl
    rw [(depthIs_iff h i d).1 hd |>.symm] at hk
    rw [hrow] at hkl ⊢
    rcases Nat.eq_or_lt_of_le hk with rfl | hlt
    · rw [List.getElem?_append_left (by simp [hlen])]
      exact hl.last h
    · rw [List.getElem?_append_right (by simp [hlen]; omega)]
      rw [List.getElem?_replicate, if_pos]
      simp [hlen] at hkl ⊢; omega

example : exTopo2.UpBy 2 (6 : Fin 7) (2 : Fin 7) ∧
    (exTopo2.depthPerNodePlusParent.2 (6 : Fin 7))[2]? = some (2 : Fin 7) :=
  ⟨.step (p := (4 : Fin 7)) (by decide) (.step (p := (2 : Fin 7)) (by decide) (.zero _)), by decide⟩

/-- C04: `calc_parent` inverts the child arrays; `-1` exactly at the root. -/
theorem C04_calc_parent (t : Topo) (h : t.WF) (p c : t.Node) :
    (t.calcParent c = some p ↔ t.IsChild p c) ∧ (t.calcParent c = none ↔ c = 0) :=
  ⟨calcParent_iff h, calcParent_eq_none_iff h⟩

example : exTopo2.calcParent (6 : Fin 7) = some (4 : Fin 7) := by decide

/-- C05: the decision matrices are the ancestor relation; leaf rows are the leaves in
increasing node order. -/
theorem C05_create_decision_per_leafs (t : Topo) (h : t.WF) :
    (∀ i j, t.decisionAll i j = 0 ∨ t.decisionAll i j = 1) ∧
    (∀ i j, t.decisionAll i j = 1 ↔ t.Anc j i) ∧
    (∀ r j, t.decisionLeaf r j = 0 ∨ t.decisionLeaf r j = 1) ∧
    (∀ r j, t.decisionLeaf r j = 1 ↔ t.Anc j (t.leafNode r)) ∧
    StrictMono t.leafNode ∧ (∀ i, t.IsLeaf i ↔ ∃ r, t.leafNode r = i) := by
  have h01 : ∀ i j, t.decisionAll i j = 0 ∨ t.decisionAll i j = 1 := by
    intro i j; rw [decisionAll_spec h]; split_ifs <;> simp
  have h1 : ∀ i j, t.decisionAll i j = 1 ↔ t.Anc j i := by
    intro i j; rw [decisionAll_spec h]; split_ifs with ha <;> simp [ha]
  refine ⟨h01, h1, fun r => h01 _, fun r => h1 _, leafNode_strictMono, fun i => ?_⟩
  constructor
  · intro hi; exact exists_leafNode ((isLeaf_iff h).1 hi)
  · rintro ⟨r, rfl⟩; exact leafNode_isLeaf h r

example : exTopo.decisionAll (3 : Fin 5) (1 : Fin 5) = 1 ∧
    exTopo.decisionAll (3 : Fin 5) (4 : Fin 5) = 0 := by decide

/-- C06: the recursive `decision_path_nodes` terminates and returns the same matrix as
`create_decision_per_leafs`. -/
theorem C06_decision_path_nodes_agrees (t : Topo) (h : t.WF) :
    t.decisionPathNodes = some t.decisionLeaf := by
  classical
  obtain ⟨xs, ys, he, _, hleaf, hc⟩ := decisionListNodes_spec h (t.m + 1) 0 []
    (by simp) (by simpa using RootPath.root) (by simp) (by simp)
  unfold decisionPathNodes
  rw [he]
  simp only [Option.bind_eq_bind, Option.bind_some, Option.pure_def, Option.some.injEq]
  funext r j
  have hz : ∀ (xs ys : List t.Node), (∀ x ∈ xs, t.right x = none) →
      ((xs.map t.leafIdx).zip ys).count ((r.val : ℤ), j) = (xs.zip ys).count (t.leafNode r, j) := by
    intro xs
    induction xs with
    | nil => simp
    | cons x xs ih =>
      intro ys hx
      cases ys with
      | nil => simp
      | cons y ys =>
        simp only [List.map_cons, List.zip_cons_cons, List.count_cons]
        rw [ih ys (fun x' hx' => hx x' (by simp [hx']))]
        obtain ⟨r', hr'⟩ := exists_leafNode (hx x (by simp))
        subst hr'
        have e : ((t.leafIdx (t.leafNode r'), y) == ((r.val : ℤ), j)) =
            ((t.leafNode r', y) == (t.leafNode r, j)) := by
          rw [leafIdx_leafNode]
          rw [Bool.eq_iff_iff]
          simp only [beq_iff_eq, Prod.mk.injEq]
          constructor
          · rintro ⟨h1, h2⟩
            have : r' = r := Fin.ext (by exact_mod_cast h1)
            exact ⟨by rw [this], h2⟩
          · rintro ⟨h1, h2⟩
            exact ⟨by rw [leafNode_injective h1], h2⟩
        rw [e]
  rw [hz xs ys hleaf, hc, decisionLeaf_spec h]
  simp [leafNode_right, anc_root h]

example : exTopo2.decisionPathNodes.isSome = true := by decide

/-- C07: the standard distance is `depth(leaf i) - depth(lca)`; it is zero exactly on the diagonal
and otherwise between 1 and the depth of leaf `i`. The lowest common ancestor exists and is unique. -/
theorem C07_distance_standard (t : Topo) (h : t.WF) (i j : Fin t.nLeaves) :
    (∃! a, t.IsLCA (t.leafNode i) (t.leafNode j) a) ∧
    (∀ a di da, t.IsLCA (t.leafNode i) (t.leafNode j) a → t.DepthIs (t.leafNode i) di →
      t.DepthIs a da → t.distDepth .standard i j = (di : ℤ) - da) ∧
    (t.distDepth .standard i j = 0 ↔ i = j) ∧
    (i ≠ j → 1 ≤ t.distDepth .standard i j) ∧
    (∀ di, t.DepthIs (t.leafNode i) di → t.distDepth .standard i j ≤ di) := by
  show (∃! a, _) ∧ (∀ a di da, _ → _ → _ → t.distStandard i j = _) ∧
    (t.distStandard i j = 0 ↔ _) ∧ (_ → 1 ≤ t.distStandard i j) ∧ (∀ di, _ → t.distStandard i j ≤ _)
  refine ⟨?_, ?_, distStandard_eq_zero h i j, ?_, ?_⟩
  · obtain ⟨a, ha⟩ := exists_lca h (t.leafNode i) (t.leafNode j)
    exact ⟨a, ha, fun b hb => lca_unique h hb ha⟩
  · intro a di da ha hdi hda
    rw [distStandard_eq h i j ha, (depthIs_iff h _ _).1 hdi, (depthIs_iff h _ _).1 hda]
  · intro hij
    have h1 := distStandard_nonneg h i j
    have h2 : t.distStandard i j ≠ 0 := fun e => hij ((distStandard_eq_zero h i j).1 e)
    omega
  · intro di hdi
    rw [← (depthIs_iff h _ _).1 hdi]; exact distStandard_le h i j

example : exTopo.nLeaves = 3 ∧ exTopo.distDepth .standard ⟨0, by decide⟩ ⟨2, by decide⟩ = 2 ∧
    exTopo.distDepth .standard ⟨2, by decide⟩ ⟨0, by decide⟩ = 1 := by decide

/-- C08: the max/min styles are the max/min of the two directions; both are symmetric and separate
leaves, and every style is bounded by the tree depth. -/
theorem C08_distance_max_min (t : Topo) (h : t.WF) (i j : Fin t.nLeaves) :
    t.distDepth .max i j = max (t.distDepth .standard i j) (t.distDepth .standard j i) ∧
    t.distDepth .min i j = min (t.distDepth .standard i j) (t.distDepth .standard j i) ∧
    t.distDepth .max i j = t.distDepth .max j i ∧
    t.distDepth .min i j = t.distDepth .min j i ∧
    (t.distDepth .max i j = 0 ↔ i = j) ∧ (t.distDepth .min i j = 0 ↔ i = j) ∧
    (∀ s, 0 ≤ t.distDepth s i j) ∧
    (∀ s D, (∀ k d, t.DepthIs k d → d ≤ D) → t.distDepth s i j ≤ D) := by
  have n1 := distStandard_nonneg h i j
  have n2 := distStandard_nonneg h j i
  have z1 := distStandard_eq_zero h i j
  have z2 := distStandard_eq_zero h j i
  simp only [distDepth, applyStyle]
  refine ⟨trivial, trivial, max_comm _ _, min_comm _ _, ?_, ?_, ?_, ?_⟩
  · constructor
    · intro h0
      exact z1.1 (le_antisymm (h0 ▸ le_max_left _ _) n1)
    · rintro rfl; simp [z1.2 rfl]
  · constructor
    · intro h0
      rcases min_choice (t.distStandard i j) (t.distStandard j i) with e | e
      · exact z1.1 (e ▸ h0)
      · exact (z2.1 (e ▸ h0)).symm
    · rintro rfl; simp [z1.2 rfl]
  · intro s
    cases s
    · exact n1
    · exact le_trans n1 (le_max_left _ _)
    · exact le_min n1 n2
  · intro s D hD
    have b : ∀ i j, t.distStandard i j ≤ D := fun i j =>
      le_trans (distStandard_le h i j) (by exact_mod_cast hD _ _ (depthPerNode_spec h _))
    cases s
    · exact b i j
    · exact max_le (b i j) (b j i)
    · exact le_trans (min_le_left _ _) (b i j)

example : exTopo.distDepth .max ⟨0, by decide⟩ ⟨2, by decide⟩ = 2 ∧
    exTopo.distDepth .min ⟨0, by decide⟩ ⟨2, by decide⟩ = 1 := by decide

/-- C09: `change_in_impurity` telescopes along root paths. -/
theorem C09_change_in_impurity {K : Type*} [CommRing K] (t : Topo) (h : t.WF) (imp : t.Node → K) :
    t.changeInImpurity imp 0 = imp 0 ∧
    (∀ p c, t.IsChild p c → t.changeInImpurity imp c = imp c - imp p) ∧
    (∀ i l, t.RootPath i l → (l.map (t.changeInImpurity imp)).sum = imp i) := by
  obtain ⟨h0, h1⟩ := changeInImpurity_spec h imp
  refine ⟨h0, h1, ?_⟩
  intro i l hl
  induction hl with
  | root => simp [h0]
  | child hc _ ih =>
    rw [List.map_append, List.sum_append, ih]
    simp [h1 _ _ hc]

example : exTopo.RootPath (3 : Fin 5) [0, 1, 3] :=
  .child (p := (1 : Fin 5)) (l := [0, 1]) (by decide) (.child (p := (0 : Fin 5)) (l := [0]) (by decide) .root)

/-- C10: the impurity distance is `impurity(lca) - impurity(leaf i)` (and its max/min
symmetrisations), with zero diagonal. -/
theorem C10_distance_impurity {K : Type*} [CommRing K] [LinearOrder K] (t : Topo) (h : t.WF)
    (imp : t.Node → K) (i j : Fin t.nLeaves) (a : t.Node)
    (ha : t.IsLCA (t.leafNode i) (t.leafNode j) a) :
    t.distImpurity imp .standard i j = imp a - imp (t.leafNode i) ∧
    t.distImpurity imp .max i j =
      max (imp a - imp (t.leafNode i)) (imp a - imp (t.leafNode j)) ∧
    t.distImpurity imp .min i j =
      min (imp a - imp (t.leafNode i)) (imp a - imp (t.leafNode j)) ∧
    ∀ s, t.distImpurity imp s i i = 0 := by
  have key : ∀ (i j : Fin t.nLeaves) (a : t.Node), t.IsLCA (t.leafNode i) (t.leafNode j) a →
      -(t.Qmat (t.changeInImpurity imp) i i - t.Qmat (t.changeInImpurity imp) i j) =
        imp a - imp (t.leafNode i) := by
    intro i j a ha
    rw [Qmat_eq h _ i j ha, Qmat_eq h _ i i (isLCA_self _), sum_changeInImpurity h,
      sum_changeInImpurity h]
    ring
  refine ⟨key i j a ha, ?_, ?_, ?_⟩
  · simp only [distImpurity, applyStyle, key i j a ha, key j i a (isLCA_symm ha)]
  · simp only [distImpurity, applyStyle, key i j a ha, key j i a (isLCA_symm ha)]
  · intro s
    cases s <;> simp [distImpurity, applyStyle]

/-- C10 (last clause): impurity distances can be negative, so they are not a distance. -/
theorem C10_impurity_distance_can_be_negative :
    ∃ (t : Topo) (imp : t.Node → ℤ) (i j : Fin t.nLeaves), t.WF ∧ (∀ k, 0 ≤ imp k) ∧
      t.distImpurity imp .standard i j < 0 :=
  ⟨exTopo, fun k => if k.val = 3 then 5 else 1, ⟨1, by decide⟩, ⟨2, by decide⟩, by decide, by decide,
    by decide⟩

end SmoothRF
