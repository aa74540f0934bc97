import Verif.Props.ImpurityProps
import Verif.Proofs.Torch2

/-!
# C152: the assertions of the randomised Gamma/eta tests, for every tree and forest

tests/test_smooth_base.py 416-1560 and tests/test_pytorch_prep.py compare the stacked matrices of a forest
with the matrices of its trees, `g[t==t_idx,:][:,:max_depth_range]`. Here for all forests.
-/

set_option linter.unusedSectionVars false

namespace SmoothRF
open Topo SkTree

variable {K : Type} [Field K] [LinearOrder K] [IsStrictOrderedRing K] {C : ℕ}

theorem zipIdx_flatMap_sel {α β : Type} (l : List α) (n : α → ℕ) (f : α → List β) (o : ℕ)
    (hn : ∀ a ∈ l, (f a).length = n a) (k : ℕ) (a : α) (hk : l[k]? = some a) :
    maskSel ((l.zipIdx o).flatMap fun p => List.replicate (n p.1) p.2) (k + o) (l.flatMap f) = f a := by
  induction l generalizing o k with
  | nil => simp at hk
  | cons x l ih =>
    rw [List.zipIdx_cons, List.flatMap_cons, List.flatMap_cons]
    have hx := hn x (by simp)
    rw [maskSel_append _ _ _ _ (by simp [hx])]
    cases k with
    | zero =>
      simp only [List.getElem?_cons_zero, Option.some.injEq] at hk
      subst hk
      have h1 : maskSel (List.replicate (n x) o) o (f x) = f x := by
        unfold maskSel
        rw [List.filter_eq_self.2, List.map_snd_zip]
        · simp [hx]
        · rintro ⟨i, b⟩ hb
          have := (List.of_mem_zip hb).1
          simp [List.eq_of_mem_replicate this]
      rw [Nat.zero_add, h1, maskSel_none _ _ _ ?_, List.append_nil]
      intro i hi
      obtain ⟨⟨y, j⟩, hy, hi⟩ := List.mem_flatMap.1 hi
      have := List.le_snd_of_mem_zipIdx hy
      rw [List.eq_of_mem_replicate hi]
      simp only at this ⊢
      omega
    | succ k =>
      rw [maskSel_none _ _ _ ?_, List.nil_append]
      · have := ih (o + 1) (fun a ha => hn a (by simp [ha])) k (by simpa using hk)
        rw [← this]; congr 1; omega
      · intro i hi
        rw [List.eq_of_mem_replicate hi]; omega

theorem padRow_take (pa : Bool) (width : ℕ) (row : List K) :
    (padRow pa width row).take row.length = row ∧
    ∀ v ∈ (padRow pa width row).drop row.length, v = if pa then row.getLast?.getD 0 else 0 := by
  unfold padRow
  split
  · cases pa
    · simp only [Bool.false_eq_true, if_false]
      refine ⟨by simp, fun v hv => ?_⟩
      rw [List.drop_left] at hv
      exact List.eq_of_mem_replicate hv
    · simp only [if_true]
      refine ⟨by simp, fun v hv => ?_⟩
      rw [List.drop_left] at hv
      exact List.eq_of_mem_replicate hv
  · simp

/-- C152: test_create_Gamma_eta_tree_*: one row per leaf and one column per depth for Gamma (every class) and
eta; eta has no negative entry; its first column holds the leaf counts. -/
theorem C152_tree (kind : Kind) (t : SkTree K C) (h : t.WF) (pa : Bool)
    (hn : ∀ i, t.IsLeaf i → 0 ≤ t.nSamp i) :
    let W := npMax t.depthPerNode + 1
    (∀ c, (t.gammaTree kind pa (t.distDepth .standard) c).length = t.nLeaves ∧
      ∀ row ∈ t.gammaTree kind pa (t.distDepth .standard) c, row.length = W) ∧
    ((t.etaTree pa (t.distDepth .standard)).length = t.nLeaves ∧
      ∀ row ∈ t.etaTree pa (t.distDepth .standard), row.length = W ∧ ∀ v ∈ row, 0 ≤ v) ∧
    (t.etaTree pa (t.distDepth .standard)).map List.head? =
      (List.finRange t.nLeaves).map fun i => some (t.nSamp (t.leafNode i)) := by
  intro W
  have hW : t.maxDist (t.distDepth .standard) + 1 = W := by rw [maxDist_standard t h]
  refine ⟨fun c => ⟨by simp [gammaTree], fun row hr => ?_⟩, ⟨by simp [etaTree], fun row hr => ?_⟩, ?_⟩
  · obtain ⟨i, -, rfl⟩ := List.mem_map.1 hr
    simp [levelRow, hW]
  · obtain ⟨i, -, rfl⟩ := List.mem_map.1 hr
    refine ⟨by simp [levelRow, hW], fun v hv => ?_⟩
    rw [levelRow_eq] at hv
    obtain ⟨k, -, rfl⟩ := List.mem_map.1 hv
    have hj : ∀ j : Fin t.nLeaves, 0 ≤ t.nSamp (t.leafNode j) := fun j =>
      hn _ ((isLeaf_iff h).2 (leafNode_right j))
    unfold levelSum
    split <;> exact Finset.sum_nonneg fun j _ => hj j
  · unfold etaTree
    rw [List.map_map]
    refine List.map_congr_left fun i _ => ?_
    simp only [Function.comp, levelRow_eq, List.range_succ_eq_map, List.map_cons, List.head?_cons]
    congr 1
    have h0 : ∀ j, t.distDepth .standard i j = 0 ↔ i = j := distStandard_eq_zero h i
    have h1 : ∀ j, 0 ≤ t.distDepth .standard i j := distStandard_nonneg h i
    have e1 : (Finset.univ.filter fun j => t.distDepth .standard i j = (0 : ℕ)) = {i} := by
      ext j; simp [h0, eq_comm]
    have e2 : (Finset.univ.filter fun j => t.distDepth .standard i j ≤ (0 : ℕ)) = {i} := by
      ext j
      simp only [Finset.mem_filter, Finset.mem_univ, true_and, Finset.mem_singleton]
      rw [eq_comm, ← h0]
      have := h1 j
      push_cast
      constructor <;> intro <;> omega
    unfold levelSum
    rw [e1, e2]
    simp

example : exTree.WF ∧ (∀ i, exTree.IsLeaf i → 0 ≤ exTree.nSamp i) ∧ npMax exTree.depthPerNode + 1 = 3 ∧
    exTree.etaTree true (exTree.distDepth .standard) = [[1, 3, 6], [2, 3, 6], [3, 6, 6]] :=
  ⟨by decide, fun i _ => by
    have : ∀ i : Fin 5, 0 ≤ (![6, 3, 1, 2, 3] : Fin 5 → ℚ) i := by decide +kernel
    exact this i, by decide +kernel, by decide +kernel⟩

/-- The tree numbers of a stacked forest. -/
theorem tIdx_facts {α : Type} (l : List α) (n : α → ℕ) (hn : ∀ a ∈ l, 0 < n a) (o : ℕ) :
    ((l.zipIdx o).flatMap fun p => List.replicate (n p.1) p.2).Pairwise (· ≤ ·) ∧
    (∀ k, k ∈ (l.zipIdx o).flatMap (fun p => List.replicate (n p.1) p.2) ↔ o ≤ k ∧ k < o + l.length) := by
  have hmem : ∀ (l : List α) (o : ℕ), (∀ a ∈ l, 0 < n a) → ∀ k,
      k ∈ (l.zipIdx o).flatMap (fun p => List.replicate (n p.1) p.2) ↔ o ≤ k ∧ k < o + l.length := by
    intro l
    induction l with
    | nil => intro o _ k; simp
    | cons x l ih =>
      intro o hn k
      have hx := hn x (by simp)
      rw [List.zipIdx_cons, List.flatMap_cons, List.mem_append, ih (o + 1) (fun a ha => hn a (by simp [ha])),
        List.mem_replicate, List.length_cons]
      simp only
      omega
  refine ⟨?_, hmem l o hn⟩
  induction l generalizing o with
  | nil => simp
  | cons x l ih =>
    have hn' : ∀ a ∈ l, 0 < n a := fun a ha => hn a (by simp [ha])
    rw [List.zipIdx_cons, List.flatMap_cons]
    refine List.pairwise_append.2 ⟨List.pairwise_replicate.2 (Or.inr le_rfl), ih hn' (o + 1), ?_⟩
    intro a ha b hb
    have := (hmem l (o + 1) hn' b).1 hb
    rw [List.eq_of_mem_replicate ha]
    simp only
    omega

/-- What the tests ask of the rows `g[t==t_idx,:]` of one tree with `w` columns of its own. -/
def TreeRows (pa : Bool) (w width : ℕ) (rows tree : List (List K)) : Prop :=
  rows.map (List.take w) = tree ∧
  ∀ row ∈ rows, row.length = width ∧
    ∀ v ∈ row.drop w, if pa then row[w - 1]? = some v else v = 0

theorem treeRows_pad (pa : Bool) (w width : ℕ) (tree : List (List K)) (hw : 0 < w) (hww : w ≤ width)
    (hl : ∀ row ∈ tree, row.length = w) : TreeRows pa w width (tree.map (padRow pa width)) tree := by
  refine ⟨?_, fun row hr => ?_⟩
  · rw [List.map_map]
    conv_rhs => rw [← List.map_id tree]
    refine List.map_congr_left fun row hr => ?_
    have := (padRow_take pa width row).1
    rw [hl row hr] at this
    exact this
  · obtain ⟨r, hrt, rfl⟩ := List.mem_map.1 hr
    obtain ⟨h1, h2⟩ := padRow_take pa width r
    have hlr := hl r hrt
    rw [hlr] at h1 h2
    refine ⟨?_, fun v hv => ?_⟩
    · unfold padRow
      cases pa <;> split <;> simp [hlr] <;> omega
    · have h3 := h2 v hv
      cases pa
      · simpa using h3
      · simp only [if_true] at h3 ⊢
        have : ((padRow true width r).take w)[w - 1]? = r[w - 1]? := by rw [h1]
        rw [List.getElem?_take_of_lt (by omega)] at this
        rw [this, h3, List.getLast?_eq_getElem?, hlr, List.getElem?_eq_getElem (by omega)]
        simp

/-- C152: test_create_Gamma_eta_forest_*: the tree numbers are `0 .. T-1` in this order, one row per leaf; the
rows `t == k` begin with the matrices of tree `k`, and the columns beyond its depth are zero or, with
`parents_all`, repeat the last column. -/
theorem C152_forest (kind : Kind) (forest : List (SkTree K C)) (hwf : ∀ t ∈ forest, t.WF) (pa : Bool) :
    let G := gammaEtaForest kind forest .standard pa
    G.tIdx.Pairwise (· ≤ ·) ∧ (∀ k, k ∈ G.tIdx ↔ k < forest.length) ∧
    (∀ c, (G.gamma c).length = G.tIdx.length) ∧ G.eta.length = G.tIdx.length ∧
    ∀ k t, forest[k]? = some t →
      (∀ c, TreeRows pa (npMax t.depthPerNode + 1) (forestDepth forest + 1) (maskSel G.tIdx k (G.gamma c))
        (t.gammaTree kind pa (t.distDepth .standard) c)) ∧
      TreeRows pa (npMax t.depthPerNode + 1) (forestDepth forest + 1) (maskSel G.tIdx k G.eta)
        (t.etaTree pa (t.distDepth .standard)) := by
  intro G
  obtain ⟨h1, h2, h3⟩ := gammaEtaForest_eq kind forest .standard pa
  have ht := tIdx_facts forest (fun t => t.nLeaves) (fun t ht => nLeaves_pos (hwf t ht)) 0
  have hlen : ∀ (f : SkTree K C → List (List K)), (∀ t ∈ forest, (f t).length = t.nLeaves) →
      (forest.flatMap f).length = G.tIdx.length := by
    intro f hf
    rw [show G.tIdx = _ from h3, List.length_flatMap, List.length_flatMap]
    simp only [List.length_replicate]
    rw [show forest.zipIdx.map (fun tt => tt.1.nLeaves) = (forest.zipIdx.map Prod.fst).map
      (fun t => t.nLeaves) by rw [List.map_map]; rfl, List.zipIdx_map_fst]
    exact congrArg List.sum (List.map_congr_left hf)
  refine ⟨?_, ?_, fun c => ?_, ?_, ?_⟩
  · rw [show G.tIdx = _ from h3]; exact ht.1
  · intro k; rw [show G.tIdx = _ from h3, ht.2 k]; omega
  · rw [show G.gamma c = _ from h1 c]; exact hlen _ fun t _ => by simp [gammaTree]
  · rw [show G.eta = _ from h2]; exact hlen _ fun t _ => by simp [etaTree]
  · intro k t hk
    have hm : t ∈ forest := List.mem_of_getElem? hk
    have hW : t.maxDist (t.distDepth .standard) = npMax t.depthPerNode := maxDist_standard t (hwf t hm)
    have hge := forestDepth_ge forest t hm
    refine ⟨fun c => ?_, ?_⟩
    · rw [show G.gamma c = _ from h1 c, show G.tIdx = _ from h3]
      have := zipIdx_flatMap_sel forest (fun t => t.nLeaves)
        (fun t => (t.gammaTree kind pa (t.distDepth .standard) c).map (padRow pa (forestDepth forest + 1)))
        0 (fun t _ => by simp [gammaTree]) k t hk
      rw [Nat.add_zero] at this
      rw [this]
      refine treeRows_pad pa _ _ _ (by omega) (by omega) fun row hr => ?_
      obtain ⟨i, -, rfl⟩ := List.mem_map.1 hr
      simp [levelRow, hW]
    · rw [show G.eta = _ from h2, show G.tIdx = _ from h3]
      have := zipIdx_flatMap_sel forest (fun t => t.nLeaves)
        (fun t => (t.etaTree pa (t.distDepth .standard)).map (padRow pa (forestDepth forest + 1)))
        0 (fun t _ => by simp [etaTree]) k t hk
      rw [Nat.add_zero] at this
      rw [this]
      refine treeRows_pad pa _ _ _ (by omega) (by omega) fun row hr => ?_
      obtain ⟨i, -, rfl⟩ := List.mem_map.1 hr
      simp [levelRow, hW]

example : (∀ t ∈ [exStump, exTree], t.WF) ∧
    maskSel (gammaEtaForest .reg [exStump, exTree] .standard true).tIdx 0
      (gammaEtaForest .reg [exStump, exTree] .standard true).eta = [[1, 2, 2], [1, 2, 2]] ∧
    exStump.etaTree true (exStump.distDepth .standard) = [[1, 2], [1, 2]] :=
  ⟨by simp; decide, by decide +kernel, by decide +kernel⟩

/-- C152: test_create_Gamma_eta_forest_*_impurity: with the break values `lv` used for the forest (`levels`
itself, or the quantiles of its first five trees) the rows `t == k` begin with the matrices tree `k` has for
these breaks. -/
theorem C152_forest_impurity (kind : Kind) (forest : List (SkTree K C)) (hwf : ∀ t ∈ forest, t.WF)
    (s : Style) (pa : Bool) (levels : Option (Levels K)) (G : GE K C)
    (hok : gammaEtaForestImp kind forest s pa levels = .ok G) :
    ∃ lv width, resolveLevels forest s levels = .ok lv ∧
    G.tIdx.Pairwise (· ≤ ·) ∧ (∀ k, k ∈ G.tIdx ↔ k < forest.length) ∧
    (∀ c, (G.gamma c).length = G.tIdx.length) ∧ G.eta.length = G.tIdx.length ∧
    ∀ (k : ℕ) (t : SkTree K C), forest[k]? = some t → ∃ lev L, t.impLevels s (.arr lv) = .ok (lev, L) ∧
      let D : Fin t.nLeaves → Fin t.nLeaves → ℤ := fun i j => (lev i j : ℤ)
      (∀ c, TreeRows pa (t.maxDist D + 1) width (maskSel G.tIdx k (G.gamma c)) (t.gammaTree kind pa D c)) ∧
      TreeRows pa (t.maxDist D + 1) width (maskSel G.tIdx k G.eta) (t.etaTree pa D) := by
  obtain ⟨lv, hlv, h⟩ := bind_ok hok
  rcases forest with _ | ⟨t0, ts⟩
  · cases h
  obtain ⟨⟨lev0, L0⟩, h0, h⟩ := bind_ok h
  have hinv := fold_inv (t0 :: ts) 0 _ G h
  rw [impLevels_arr] at h0
  set forest := t0 :: ts with hf
  have hlev : ∀ t ∈ forest, ∃ lev L, discretise lv (t.impDist s) = .ok (lev, L) := hinv
  choose! lev L hlev using hlev
  have hL0 : 0 < L0 - 1 + 1 := by omega
  have hw : ∀ t ∈ forest, t.maxDist (fun i j => (lev t i j : ℤ)) + 1 ≤ L0 - 1 + 1 := by
    intro t ht
    refine maxDist_lt t _ _ hL0 fun i j => ?_
    have := lev_lt h0 (hlev t ht) i j
    omega
  obtain ⟨G', hG', g1, g2, g3⟩ := fold_ok (kind := kind) (pa := pa) (width := L0 - 1 + 1) forest 0
    { gamma := fun _ => [], eta := [], tIdx := [] } lev (fun t ht => ⟨_, hlev t ht⟩) hw
  rw [hf] at hG'
  have hGG : G' = G := by
    have := hG'.symm.trans h
    exact Except.ok.inj this
  subst hGG
  simp only [List.nil_append] at g1 g2 g3
  have ht := tIdx_facts forest (fun t => t.nLeaves) (fun t ht => nLeaves_pos (hwf t ht)) 0
  have hlen : ∀ (f : SkTree K C → List (List K)), (∀ t ∈ forest, (f t).length = t.nLeaves) →
      (forest.flatMap f).length = G'.tIdx.length := by
    intro f hf
    rw [g3, List.length_flatMap, List.length_flatMap]
    simp only [List.length_replicate]
    rw [show forest.zipIdx.map (fun tt => tt.1.nLeaves) = (forest.zipIdx.map Prod.fst).map
      (fun t : SkTree K C => t.nLeaves) by rw [List.map_map]; rfl, List.zipIdx_map_fst]
    exact congrArg List.sum (List.map_congr_left hf)
  refine ⟨lv, L0 - 1 + 1, hlv, ?_, ?_, fun c => ?_, ?_, ?_⟩
  · rw [g3]; exact ht.1
  · intro k; rw [g3, ht.2 k]; omega
  · rw [g1 c]; exact hlen _ fun t _ => by simp [gammaTree]
  · rw [g2]; exact hlen _ fun t _ => by simp [etaTree]
  · intro k t hk
    have hm : t ∈ forest := List.mem_of_getElem? hk
    refine ⟨lev t, L t, hlev t hm, fun c => ?_, ?_⟩
    · have := zipIdx_flatMap_sel forest (fun t => t.nLeaves)
        (fun t => (t.gammaTree kind pa (fun i j => (lev t i j : ℤ)) c).map (padRow pa (L0 - 1 + 1)))
        0 (fun t _ => by simp [gammaTree]) k t hk
      rw [Nat.add_zero] at this
      rw [g1 c, g3, this]
      refine treeRows_pad pa _ _ _ (by omega) (hw t hm) fun row hr => ?_
      obtain ⟨i, -, rfl⟩ := List.mem_map.1 hr
      simp [levelRow]
    · have := zipIdx_flatMap_sel forest (fun t => t.nLeaves)
        (fun t => (t.etaTree pa (fun i j => (lev t i j : ℤ))).map (padRow pa (L0 - 1 + 1)))
        0 (fun t _ => by simp [etaTree]) k t hk
      rw [Nat.add_zero] at this
      rw [g2, g3, this]
      refine treeRows_pad pa _ _ _ (by omega) (hw t hm) fun row hr => ?_
      obtain ⟨i, -, rfl⟩ := List.mem_map.1 hr
      simp [levelRow]

/-- Tree 1 uses levels 0-2 of the 4 columns. -/
example : (match gammaEtaForestImp .reg [exTree, exTree] .standard false (some (.arr [1, 3])) with
    | .ok G => some (maskSel G.tIdx 1 G.eta) | .error _ => none) =
      some [[1, 0, 5, 0], [2, 1, 3, 0], [3, 0, 3, 0]] := by decide +kernel

/-- C152: test_create_Gamma_eta_forest_more_*: leaf counts, depths and impurities of the rows `t == k` are those
of tree `k`, and so are the first columns of the full depths and impurities. -/
theorem C152_forest_more (kind : Kind) (forest : List (SkTree K C)) (hwf : ∀ t ∈ forest, t.WF) (pa : Bool) :
    ∃ M, forestMore forest .standard = .ok M ∧
    let I := (gammaEtaForest kind forest .standard pa).tIdx
    ∀ k t, forest[k]? = some t →
      maskSel I k M.numLeaf = (List.finRange t.nLeaves).map (fun i => t.nSamp (t.leafNode i)) ∧
      maskSel I k M.depthLeaf = (List.finRange t.nLeaves).map t.leafDepth ∧
      maskSel I k M.impurityLeaf = (List.finRange t.nLeaves).map (fun i => t.impurity (t.leafNode i)) ∧
      t.depthFullTree .standard =
        .ok ((maskSel I k M.depthFull).map (List.take (npMax t.depthPerNode + 1))) ∧
      t.impurityFullTree = (maskSel I k M.impurityFull).map (List.take (npMax t.depthPerNode + 1)) := by
  obtain ⟨M, hM, m1, m2, m3, m4, m5⟩ := forestMore_standard forest hwf
  refine ⟨M, hM, ?_⟩
  intro I k t hk
  have hm : t ∈ forest := List.mem_of_getElem? hk
  have hI : I = forest.zipIdx.flatMap fun tt => List.replicate tt.1.nLeaves tt.2 :=
    (gammaEtaForest_eq kind forest .standard pa).2.2
  have hsel : ∀ {β : Type} (f : SkTree K C → List β), (∀ t ∈ forest, (f t).length = t.nLeaves) →
      maskSel I k (forest.flatMap f) = f t := by
    intro β f hf
    have := zipIdx_flatMap_sel forest (fun t => t.nLeaves) f 0 hf k t hk
    rw [Nat.add_zero] at this
    rw [hI, this]
  have hge := forestDepth_ge forest t hm
  have hwt := hwf t hm
  refine ⟨?_, ?_, ?_, ?_, ?_⟩
  · rw [m3, hsel _ (by simp)]
  · rw [m4, hsel _ (by simp)]
    exact List.map_congr_left fun i _ => (leafDepth_eq t hwt i).symm
  · rw [m5, hsel _ (by simp)]
  · rw [m1, hsel _ (by simp), depthFullTree, maxDist_standard t hwt, List.map_map]
    refine mapM_ok _ _ _ fun i _ => ?_
    have hle := (npMax_spec t.depthPerNode).1 (t.leafNode i)
    rw [leafDepth_eq t hwt, Int.toNat_natCast, depthFullRow_eq _ _ (by omega)]
    simp only [Function.comp, ← List.map_take, List.take_range]
    rw [min_eq_left (by omega)]
  · rw [m2, hsel _ (by simp), impurityFullTree, List.map_map]
    refine List.map_congr_left fun i _ => ?_
    simp only [Function.comp, impPadded]
    rw [List.take_left' (impurityRow t hwt i).1]

example : ∃ M, forestMore [exStump, exTree] .standard = .ok M ∧
    maskSel (gammaEtaForest .reg [exStump, exTree] .standard false).tIdx 0 M.depthFull =
      [[1, 0, 0], [1, 0, 0]] := by
  refine ⟨(match forestMore [exStump, exTree] .standard with | .ok M => M | .error _ => ⟨[], [], [], [], []⟩),
    ?_, by decide +kernel⟩
  obtain ⟨M, hM, -⟩ := forestMore_standard [exStump, exTree] (by simp; decide)
  rw [hM]

end SmoothRF
