import Verif.Props.TorchSourceProps
import Verif.Props.TestGammaProps

/-!
# C159: assertions of the pytorch data preparation tests (tests/test_smooth_pytorch.py 20-244)

`test_pytorch_numpy_prep`, `test_ForestDataset` and `test_SoftmaxTreeFit` draw one classification forest. Their
assertions, for every forest and every tuning data for which `pytorch_numpy_prep` returns.
-/

set_option linter.unusedSectionVars false

namespace SmoothRF
open Topo SkTree

variable {K : Type} [Field K] [LinearOrder K] [IsStrictOrderedRing K] {C : ℕ}

theorem replicate_eraseDups (m o : ℕ) : (List.replicate (m + 1) o).eraseDups = [o] := by
  rw [List.replicate_succ, List.eraseDups_cons]
  simp

/-- Keys of `Counter` (in order of first appearance) of a stacked tree index. -/
theorem blocks_eraseDups {α : Type} (n : α → ℕ) : ∀ (l : List α) (o : ℕ), (∀ a ∈ l, 0 < n a) →
    ((l.zipIdx o).flatMap fun p => List.replicate (n p.1) p.2).eraseDups = List.range' o l.length
  | [], _, _ => rfl
  | a :: l, o, hn => by
    obtain ⟨m, hm⟩ := Nat.exists_eq_succ_of_ne_zero (hn a (by simp)).ne'
    have hl : ∀ b ∈ l, 0 < n b := fun b hb => hn b (by simp [hb])
    have hmem := (tIdx_facts l n hl (o + 1)).2
    rw [List.zipIdx_cons, List.flatMap_cons, List.eraseDups_append]
    have e : ((l.zipIdx (o + 1)).flatMap fun p => List.replicate (n p.1) p.2).removeAll
        (List.replicate (n (a, o).1) (a, o).2) = (l.zipIdx (o + 1)).flatMap fun p => List.replicate (n p.1) p.2 := by
      unfold List.removeAll
      rw [List.filter_eq_self]
      intro k hk
      have := (hmem k).1 hk
      have hne : k ≠ o := by omega
      simp [hm, hne]
    rw [e, blocks_eraseDups n l (o + 1) hl, show n (a, o).1 = m + 1 from hm, replicate_eraseDups,
      List.length_cons, List.range'_succ]
    rfl

theorem tile_eraseDups (L : List ℕ) : ∀ {β : Type} (cs : List β), cs ≠ [] →
    (cs.flatMap fun _ => L).eraseDups = L.eraseDups
  | _, [], h => absurd rfl h
  | _, _ :: cs, _ => by
    rw [List.flatMap_cons, List.eraseDups_append]
    have : (cs.flatMap fun _ => L).removeAll L = [] := by
      unfold List.removeAll
      rw [List.filter_eq_nil_iff]
      intro k hk
      obtain ⟨_, -, hk⟩ := List.mem_flatMap.1 hk
      simpa using hk
    rw [this]
    simp

theorem leafListI_tree (forest : List (SkTree K C)) : (leafListI forest).map Prod.snd =
    forest.zipIdx.flatMap fun tt => List.replicate tt.1.nLeaves tt.2 := by
  unfold leafListI
  rw [List.map_flatMap]
  congr 1
  funext tt
  rw [List.map_map]
  apply List.ext_getElem <;> simp

/-- A row of `pytorch_numpy_prep` and where it is from. -/
theorem mem_prepRows {kind : Kind} {forest : List (SkTree K C)} {s : Style} {pa : Bool}
    {tune : ℕ → List (TuneRow K C)} {row : Row K (forestDepth forest + 1)}
    (h : row ∈ prepRows kind forest s pa tune) : ∃ (i : ℕ) (t : SkTree K C) (r : Fin t.nLeaves) (c : Fin C),
      forest[i]? = some t ∧ row = specRow kind s pa false tune (forestDepth forest + 1) c (⟨t, r⟩, i) := by
  unfold prepRows at h
  obtain ⟨c, -, h⟩ := List.mem_flatMap.1 h
  obtain ⟨q, hq, rfl⟩ := List.mem_map.1 h
  unfold leafListI at hq
  obtain ⟨tt, htt, hq⟩ := List.mem_flatMap.1 hq
  obtain ⟨r, -, rfl⟩ := List.mem_map.1 hq
  exact ⟨tt.2, tt.1, r, c, List.mem_zipIdx_iff_getElem?.1 htt, rfl⟩

theorem leafMean_range {rows : List (TuneRow K C)} {i : ℕ} {c : Fin C} {lo hi : K}
    (h : ∀ r ∈ rows, lo ≤ r.y c ∧ r.y c ≤ hi) :
    (leafWeight rows i ≠ 0 → lo ≤ leafMean rows i c ∧ leafMean rows i c ≤ hi) ∧
    (leafWeight rows i = 0 → leafMean rows i c = 0) := by
  unfold leafMean leafWeight
  have h' : ∀ r ∈ rows.filter (fun r => r.leaf == i), lo ≤ r.y c ∧ r.y c ≤ hi := fun r hr =>
    h r (List.mem_filter.1 hr).1
  generalize rows.filter (fun r => r.leaf == i) = l at h'
  constructor
  · intro hw
    rw [if_neg hw]
    have hp : (0 : K) < l.length := lt_of_le_of_ne (Nat.cast_nonneg _) (Ne.symm hw)
    have key : lo * l.length ≤ (l.map fun r => r.y c).sum ∧ (l.map fun r => r.y c).sum ≤ hi * l.length := by
      clear hw hp
      induction l with
      | nil => simp
      | cons r l ih =>
        have h1 := h' r (by simp)
        have h2 := ih fun q hq => h' q (by simp [hq])
        simp only [List.map_cons, List.sum_cons, List.length_cons, Nat.cast_add, Nat.cast_one]
        constructor <;> nlinarith [h1.1, h1.2, h2.1, h2.2]
    exact ⟨(le_div_iff₀ hp).2 key.1, (div_le_iff₀ hp).2 key.2⟩
  · intro hw
    have : l = [] := by
      rw [Nat.cast_eq_zero] at hw
      exact List.length_eq_zero_iff.1 hw
    simp [this]

theorem levelSum_nat {n : ℕ} (pa : Bool) (D : Fin n → Fin n → ℤ) {v : Fin n → K} (hv : ∀ j, ∃ m : ℕ, v j = m)
    (i : Fin n) (k : ℕ) : ∃ m : ℕ, levelSum pa D v i k = m := by
  choose f hf using hv
  unfold levelSum
  simp only [hf]
  split_ifs
  · exact ⟨∑ j ∈ Finset.univ.filter (fun j => D i j ≤ k), f j, by push_cast; rfl⟩
  · exact ⟨∑ j ∈ Finset.univ.filter (fun j => D i j = k), f j, by push_cast; rfl⟩

/-- C159: test_pytorch_numpy_prep: one row per class and leaf; the tree ids appear in the order 0, 1, ..; eta and
the weights are non-negative, whole if the leaf sizes are; gamma is non-negative if the responses are; a row's
response lies within the range of the tuning responses of its class, or is 0 with weight 0; all dictionary entries
have one row per row and, if two-dimensional, as many columns as gamma. -/
theorem C159_prep (hC : 0 < C) {kind : Kind} {forest : List (SkTree K C)} (hwf : ∀ t ∈ forest, t.WF) {pa : Bool}
    {a : DataArgs} {tO : Bool} {sources : PSrc → ℕ → List (TuneRow K C)} {pr : Prep K (forestDepth forest + 1)}
    (h : pytorchPrep (some kind) forest .standard pa a tO sources = .ok pr) :
    pr.rows.length = C * (forest.map fun t => t.nLeaves).sum ∧
    (pr.rows.map Row.tree).eraseDups = List.range forest.length ∧
    DictOk pr.rows.length (forestDepth forest + 1) pr.one pr.two ∧ pr.one.length + pr.two.length = 5 ∧
    ∀ row ∈ pr.rows,
      ((∀ t ∈ forest, ∀ j, 0 ≤ t.nSamp (t.leafNode j)) → ∀ k, 0 ≤ row.eta k) ∧
      ((∀ t ∈ forest, ∀ j, ∃ m : ℕ, t.nSamp (t.leafNode j) = m) → ∀ k, ∃ m : ℕ, row.eta k = m) ∧
      ((∀ t ∈ forest, ∀ j, 0 ≤ t.nSamp (t.leafNode j) ∧ ∀ c, 0 ≤ t.value (t.leafNode j) c) → ∀ k, 0 ≤ row.gam k) ∧
      (∃ m : ℕ, row.w = m) ∧
      (∀ lo hi : K, (∀ src i, ∀ r ∈ sources src i, ∀ c, lo ≤ r.y c ∧ r.y c ≤ hi) →
        (row.w ≠ 0 → lo ≤ row.y ∧ row.y ≤ hi) ∧ (row.w = 0 → row.y = 0)) := by
  obtain ⟨src, more, -, hM, -, h4, h5, h6⟩ := prep_ok hwf h
  obtain ⟨M, hM', e1, e2, e3, e4, e5⟩ := forestMore_standard forest hwf
  rw [hM] at hM'
  cases hM'
  have hlen : (leafListI forest).length = (forest.map fun t => t.nLeaves).sum := by
    rw [← List.length_map (f := Prod.snd), leafListI_tree, List.length_flatMap]
    simp only [List.length_replicate]
    congr 1
    apply List.ext_getElem <;> simp
  have hrows : pr.rows.length = C * (forest.map fun t => t.nLeaves).sum := by
    rw [h4, prepRows_length, hlen]
  have htile : ∀ {α : Type} (f : (t : SkTree K C) → Fin t.nLeaves → α),
      (tile C (forest.flatMap fun t => (List.finRange t.nLeaves).map (f t))).length = pr.rows.length := by
    intro α f
    rw [tile_length, hrows, List.length_flatMap]
    simp
  refine ⟨hrows, ?_, ⟨?_, ?_⟩, by rw [h5, h6]; rfl, ?_⟩
  · rw [h4, prepRows_tree, tile_eraseDups _ _ (by
      intro e
      have := congrArg List.length e
      simp at this
      omega), leafListI_tree, blocks_eraseDups _ _ _ (fun t ht => nLeaves_pos (hwf t ht)), List.range_eq_range']
  · rw [h5]
    intro e he
    simp only [List.mem_cons, List.not_mem_nil, or_false] at he
    rcases he with rfl | rfl | rfl
    · simp only [e3]; exact htile _
    · have : more.depthLeaf.map (fun z : ℤ => (z : K)) =
          forest.flatMap fun t => (List.finRange t.nLeaves).map fun i => ((t.depthPerNode (t.leafNode i) : ℤ) : K) := by
        rw [e4, List.map_flatMap]
        simp only [List.map_map]
        rfl
      simp only [this]
      exact htile _
    · simp only [e5]; exact htile _
  · rw [h6]
    intro e he
    simp only [List.mem_cons, List.not_mem_nil, or_false] at he
    rcases he with rfl | rfl
    · refine ⟨by simp only [e1]; exact htile _, fun r hr => ?_⟩
      have := mem_tile hr
      rw [e1] at this
      obtain ⟨t, -, hx⟩ := List.mem_flatMap.1 this
      obtain ⟨i, -, rfl⟩ := List.mem_map.1 hx
      simp
    · refine ⟨by simp only [e2]; exact htile _, fun r hr => ?_⟩
      have := mem_tile hr
      rw [e2] at this
      obtain ⟨t, ht, hx⟩ := List.mem_flatMap.1 this
      obtain ⟨i, -, rfl⟩ := List.mem_map.1 hx
      have hge := forestDepth_ge forest t ht
      have := (impurityRow t (hwf t ht) i).1
      simp only [impPadded, List.length_append, List.length_replicate]
      omega
  · intro row hrow
    rw [h4] at hrow
    obtain ⟨i, t, r, c, ht, rfl⟩ := mem_prepRows hrow
    have hm := List.mem_of_getElem? ht
    refine ⟨fun hn k => levelSum_nonneg _ _ _ (hn t hm) _ _, fun hn k => levelSum_nat _ _ (hn t hm) _ _,
      fun hn k => levelSum_nonneg _ _ _ (fun j => ?_) _ _, ⟨_, rfl⟩, fun lo hi hb => ?_⟩
    · unfold SkTree.mass
      split_ifs
      · exact mul_nonneg (hn t hm j).1 ((hn t hm j).2 c)
      · exact (hn t hm j).2 c
    · exact leafMean_range fun q hq => hb _ _ q hq c

/-- C159: test_ForestDataset: the data set is created from the result of `pytorch_numpy_prep`, has one batch per
tree, and the batch of tree `idx` has one entry per class and leaf in each of its arrays. -/
theorem C159_dataset (hC : 0 < C) {kind : Kind} {forest : List (SkTree K C)} (hwf : ∀ t ∈ forest, t.WF) {pa : Bool}
    {a : DataArgs} {tO : Bool} {sources : PSrc → ℕ → List (TuneRow K C)} {pr : Prep K (forestDepth forest + 1)}
    (h : pytorchPrep (some kind) forest .standard pa a tO sources = .ok pr) :
    ∃ d, mkDataset pr.rows pr.one pr.two = .ok d ∧ d.numTrees = forest.length ∧ d.numVars = 5 ∧
      d.tVec.length = pr.rows.length ∧
      ∀ idx t, forest[idx]? = some t →
        (d.item idx).y.length = C * t.nLeaves ∧ (d.item idx).gamma.length = C * t.nLeaves ∧
        (d.item idx).eta.length = C * t.nLeaves ∧ (d.item idx).weights.length = C * t.nLeaves ∧
        (d.item idx).feats.length = C * t.nLeaves ∧
        (pr.rows.filter fun r => decide (r.tree = idx)).length = C * t.nLeaves := by
  obtain ⟨-, -, hd, h5, -⟩ := C159_prep hC hwf h
  obtain ⟨d, hd'⟩ := (C66_shapes pr.rows pr.one pr.two).1 hd
  obtain ⟨src, more, -, -, -, h4, -, -⟩ := prep_ok hwf h
  have hb := C65_batches hd'
  refine ⟨d, hd', ?_, by rw [(C66_feature_layout hd').1, h5], ?_, fun idx t ht => ?_⟩
  · obtain ⟨-, -, -, -, -, -, h6, -, -⟩ := mkDataset_ok hd'
    rw [h6, h4, prepRows_ids kind forest hwf hC]
  · obtain ⟨-, -, -, -, -, h5, -, -, -⟩ := mkDataset_ok hd'
    rw [h5, List.length_map]
  · have hcl : (classLeaf t).length = C * t.nLeaves := by
      unfold classLeaf
      rw [List.length_flatMap]
      simp
    have hy := (hb.2 idx).1
    rw [h4] at hd'
    obtain ⟨g1, g2, g3, g4, g5, -⟩ := item_forest hd' ht
    refine ⟨by rw [g1, List.length_map, hcl], by rw [g3, List.length_map, hcl], by rw [g4, List.length_map, hcl],
      by rw [g2, List.length_map, hcl], by rw [g5, List.length_map, hcl], ?_⟩
    rw [g1] at hy
    have := congrArg List.length hy
    rw [List.length_map, List.length_map, hcl] at this
    exact this.symm

/-- C159: test_SoftmaxTreeFit: on the batch of a tree the network (up to five variables) returns one value per
class and leaf, as many as there are weights. -/
theorem C159_forward (hC : 0 < C) {exp : K → K} (hexp : ∀ x, 0 < exp x) {kind : Kind} {forest : List (SkTree K C)}
    (hwf : ∀ t ∈ forest, t.WF) (hn : ∀ t ∈ forest, ∀ j, 0 < t.nSamp (t.leafNode j)) {pa : Bool}
    {a : DataArgs} {tO : Bool} {sources : PSrc → ℕ → List (TuneRow K C)} {pr : Prep K (forestDepth forest + 1)}
    (h : pytorchPrep (some kind) forest .standard pa a tO sources = .ok pr)
    {d : Dataset K (forestDepth forest + 1)} (hd : mkDataset pr.rows pr.one pr.two = .ok d)
    {net : Net K} (h1 : 0 < net.numVars) (h2 : net.numVars ≤ 5) {idx : ℕ} {t : SkTree K C}
    (ht : forest[idx]? = some t) :
    ∃ out, forward exp net (d.item idx) = .ok out ∧ out.length = C * t.nLeaves ∧
      out.length = (d.item idx).weights.length := by
  obtain ⟨d', hd', -, -, -, hl⟩ := C159_dataset hC hwf h
  rw [hd] at hd'
  cases hd'
  obtain ⟨-, -, -, hw, -, -⟩ := hl idx t ht
  obtain ⟨-, -, -, h5, -⟩ := C159_prep hC hwf h
  obtain ⟨src, more, -, -, -, h4, -, -⟩ := prep_ok hwf h
  have hm := List.mem_of_getElem? ht
  rw [h4] at hd
  rw [forward_forest hd ht, if_neg (by omega), hw]
  refine ⟨_, mapM_ok _ _ (fun e => smoothNum kind t .standard pa (net.lamb exp
    (d.feats (e.1.val * (leafListI forest).length + (leafOff forest idx + e.2.val))) :
      Fin (forestDepth forest + 1) → K) e.2 e.1 / smoothDen t .standard pa (net.lamb exp
    (d.feats (e.1.val * (leafListI forest).length + (leafOff forest idx + e.2.val))) :
      Fin (forestDepth forest + 1) → K) e.2) fun e _ => ?_, ?_, ?_⟩
  · exact if_neg (smoothDen_pos (hwf t hm) .standard pa _ (fun k => lamb_pos hexp net _ k) (hn t hm) e.2).ne'
  all_goals
    unfold classLeaf
    simp

/-- Out-of-bag rows that all end in leaf 0. -/
abbrev exOneLeaf : ℕ → List (TuneRow ℚ 1) := fun _ => [⟨0, fun _ => 3⟩, ⟨0, fun _ => 5⟩]

/-- Instance of C159_prep: ids, weights, responses and eta of two stumps. -/
example : (match pytorchPrep (some .reg) [exStump, exStump] .standard false exTorchData false
      (fun _ => exOneLeaf) with
    | .ok pr => some ((pr.rows.map Row.tree).eraseDups, pr.rows.map Row.w, pr.rows.map Row.y,
        pr.rows.map fun r => List.ofFn r.eta)
    | .error _ => none) = some ([0, 1], [2, 0, 2, 0], [4, 0, 4, 0], [[1, 1], [1, 1], [1, 1], [1, 1]]) := by
  decide +kernel

/-- Instance of C159_dataset and C159_forward. -/
example : (match pytorchPrep (some .cls) [exClsStump] .standard true exTorchData false (fun _ => exClsTune) with
    | .ok pr => (match mkDataset pr.rows pr.one pr.two with
      | .ok d => (match forward exExp exNet (d.item 0) with
        | .ok out => some (d.numTrees, (d.item 0).y.length, out.length) | .error _ => none)
      | .error _ => none)
    | .error _ => none) = some (1, 4, 4) := by
  decide +kernel

/-- The commented-out assertions for regression (lines 78-80, and "non-zero for regression") do not hold: a leaf
without tuning observations has weight 0 and response 0, outside the range of the responses. -/
theorem C159_regression_refuted : ∃ (forest : List (SkTree ℚ 1)) (pr : Prep ℚ (forestDepth forest + 1))
    (sources : PSrc → ℕ → List (TuneRow ℚ 1)), (∀ t ∈ forest, t.WF) ∧
    pytorchPrep (some .reg) forest .standard true exTorchData false sources = .ok pr ∧
    (∀ src i, ∀ r ∈ sources src i, ∀ c, 3 ≤ r.y c) ∧ ∃ row ∈ pr.rows, row.w = 0 ∧ row.y = 0 := by
  have h : ∃ pr, pytorchPrep (some .reg) [exStump] .standard true exTorchData false (fun _ => exOneLeaf) = .ok pr ∧
      ∃ row ∈ pr.rows, row.w = 0 ∧ row.y = 0 := by
    have e : (match pytorchPrep (some .reg) [exStump] .standard true exTorchData false (fun _ => exOneLeaf) with
        | .ok pr => decide (∃ row ∈ pr.rows, row.w = 0 ∧ row.y = 0) | .error _ => false) = true := by
      decide +kernel
    cases hp : pytorchPrep (some .reg) [exStump] .standard true exTorchData false (fun _ => exOneLeaf) with
    | error x => rw [hp] at e; cases e
    | ok pr =>
      rw [hp] at e
      exact ⟨pr, rfl, of_decide_eq_true e⟩
  obtain ⟨pr, h1, h2⟩ := h
  refine ⟨[exStump], pr, _, by simp; decide, h1, ?_, h2⟩
  intro _ _ r hr _
  simp only [List.mem_cons, List.not_mem_nil, or_false] at hr
  rcases hr with rfl | rfl <;> norm_num

end SmoothRF
