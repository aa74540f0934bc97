import Verif.Props.KernelProps
import Verif.Props.SmoothAllProps
import Verif.Props.FloatProps
import Mathlib.Analysis.SpecialFunctions.Log.Base

/-!
# C157: the assertions of the smooth_level tests, for all inputs

tests/test_smooth_level.py asserts these facts for forests fitted to random data.
-/

set_option linter.unusedSectionVars false

namespace SmoothRF
open Topo SkTree

variable {K : Type} [Field K] [LinearOrder K] [IsStrictOrderedRing K]

/-! ### level blocks -/

/-- C157: test_make_Vt_mat (25-66) and test_make_Vt_mat_tree (69-105): one dictionary per tree; the keys of a
dictionary are distinct, and together its blocks hold every column of the decision path matrix exactly
once, so their widths add up to the number of nodes. The number of rows is part of the type. -/
theorem C157_level_blocks {n : ℕ} (forest : List (Paths n)) (t : Topo) (path : Fin n → t.Node → ℕ)
    (dv : Option (t.Node → ℕ)) :
    (makeVt forest).length = forest.length ∧
    ((vtTree t path dv).map Prod.fst).Nodup ∧
    ((vtTree t path dv).flatMap Prod.snd).Perm ((List.finRange (t.m + 1)).map fun i x => path x i) ∧
    ((vtTree t path dv).map fun e => e.2.length).sum = t.m + 1 := by
  have hnd : ∀ f : t.Node → ℕ, ((((List.finRange (t.m + 1)).map f).dedup).insertionSort (· ≤ ·)).Nodup :=
    fun f => (List.perm_insertionSort _ _).nodup_iff.2 (List.nodup_dedup _)
  have hperm : ((vtTree t path dv).flatMap Prod.snd).Perm
      ((List.finRange (t.m + 1)).map fun i x => path x i) := by
    unfold vtTree
    simp only [List.flatMap_map]
    rw [← List.map_flatMap]
    refine List.Perm.map _ ?_
    rw [List.perm_ext_iff_of_nodup _ (List.nodup_finRange _)]
    · intro i
      simp only [List.mem_flatMap, List.mem_finRange, iff_true, List.mem_filter, true_and,
        decide_eq_true_eq]
      exact ⟨_, by simp [List.mem_insertionSort], rfl⟩
    · rw [List.nodup_flatMap]
      refine ⟨fun d _ => (List.nodup_finRange _).filter _, ?_⟩
      refine (hnd _).imp fun {a b} hab => ?_
      intro i hi hj
      simp only [List.mem_filter, List.mem_finRange, true_and, decide_eq_true_eq] at hi hj
      exact hab (hi.symm.trans hj)
  refine ⟨by simp [makeVt], ?_, hperm, ?_⟩
  · unfold vtTree
    simp only [List.map_map, Function.comp_def, List.map_id']
    exact hnd _
  · have := hperm.length_eq
    simpa [List.length_flatMap] using this

example : (vtTree exTopo exRoutes.path none).map (fun e => (e.1, e.2.length)) = [(0, 1), (1, 2), (2, 2)] := by
  decide +kernel

/-! ### kernels and distances -/

/-- The preparation of test_make_kernel, test_depth_dist, test_max_depth_dist and test_min_depth_dist (143-158,
210-224, 316-331, 389-404) for one data set: depths of the forest, level blocks, level products up to the
maximum depth, level 0 removed, kernel. `none` is the branch with no level left. -/
def testKernel {a : ℕ} (forest : List (Routes a a)) : Except PyErr (Option (Fin a → Fin a → K)) := do
  let maxDepth := (calcDepthForForest (forest.map fun r => r.t)).2
  let v := forest.map fun r => vtTree r.t r.path (some r.t.depthPerNode)
  let u ← makeUt v v (some maxDepth)
  let u' ← remove0 u
  if u'.length > 0 then do
    let k ← makeKernel u' none
    pure (some k)
  else pure none

/-- Number of depths `1, …, D - 1` at which two nodes have a common ancestor. -/
noncomputable def sharedLevels (t : Topo) (D : ℕ) (i j : t.Node) : ℕ :=
  ((List.range (D - 1)).filter fun l => @decide (t.ShareAt (l + 1) i j) (Classical.dec _)).length

theorem testKernel_eq {a : ℕ} (forest : List (Routes a a)) (hne : forest ≠ []) (hf : ∀ r ∈ forest, r.Ok)
    (D : ℕ) (hD : (calcDepthForForest (forest.map fun r => r.t)).2 = D + 1) :
    testKernel (K := K) forest = .ok (if 0 < D then
      some fun x y => ((List.range D).map fun l =>
        treeMean (forest.map fun r => shareMat ⟨r.t, r.path, r.path, r.leaf, r.leaf⟩ (l + 1)) x y).sum
      else none) := by
  have hu := makeUt_spec (forest.map fun r : Routes a a => (⟨r.t, r.path, r.path, r.leaf, r.leaf⟩ : Routes a a))
    (by simpa using hne) (by
      intro s hs
      obtain ⟨r, hr, rfl⟩ := List.mem_map.1 hs
      exact ⟨(hf r hr).wf, (hf r hr).isOld, (hf r hr).isOld⟩) (some (D + 1))
  have hv : vtNew (forest.map fun r : Routes a a => (⟨r.t, r.path, r.path, r.leaf, r.leaf⟩ : Routes a a)) =
      forest.map fun r => vtTree r.t r.path (some r.t.depthPerNode) := by
    simp only [vtNew, makeVt, List.map_map, Function.comp_def]
    rfl
  have hv' : vtOld (forest.map fun r : Routes a a => (⟨r.t, r.path, r.path, r.leaf, r.leaf⟩ : Routes a a)) =
      forest.map fun r => vtTree r.t r.path (some r.t.depthPerNode) := by
    simp only [vtOld, makeVt, List.map_map, Function.comp_def]
    rfl
  rw [hv, hv'] at hu
  unfold testKernel
  simp only [hD]
  rw [hu]
  simp only [Option.getD_some, bind, Except.bind, List.map_map, Function.comp_def]
  rw [(C82_remove_level_zero (K := K) D
    (fun k => forest.map fun r => shareMat ⟨r.t, r.path, r.path, r.leaf, r.leaf⟩ k)
    (fun k => by simpa using hne)).1]
  simp only [List.length_map, List.length_range, gt_iff_lt]
  by_cases h : 0 < D
  · rw [if_pos h, if_pos h]
    unfold makeKernel
    simp only [Option.getD_none, List.length_map, List.length_range, List.length_replicate]
    rw [if_neg (by simp), kernel_range D _ (List.replicate D 1) (by simp)]
    simp only [pure, Except.pure]
    congr 2
    funext x y
    congr 1
    refine List.map_congr_left fun k hk => ?_
    simp [List.mem_range.1 hk]
  · rw [if_neg h, if_neg h]
    rfl

theorem shareAt_refl_of_le {t : Topo} (h : t.WF) (i : t.Node) {k : ℕ} (hk : k ≤ t.depthPerNode i) :
    t.ShareAt k i i := by
  have key : ∀ {j e}, t.DepthIs j e → ∀ d ≤ e, ∃ v, t.DepthIs v d ∧ t.Anc v j := by
    intro j e hj
    induction hj with
    | root => intro d hd; obtain rfl : d = 0 := by omega
              exact ⟨0, .root, .refl _⟩
    | child hc hp ih =>
      intro d hd
      rcases Nat.lt_or_eq_of_le hd with hlt | rfl
      · obtain ⟨v, hv, ha⟩ := ih d (Nat.lt_succ_iff.1 hlt)
        exact ⟨v, hv, .step ha hc⟩
      · exact ⟨_, .child hc hp, .refl _⟩
  obtain ⟨v, hv, ha⟩ := key (depthPerNode_spec h i) k hk
  exact ⟨v, hv, ha, ha⟩

/-- C157: test_make_kernel, 125-170, and the common part of the distance tests. For every non-empty forest of
well formed trees and every data set: a forest of single-node trees makes `remove_0_from_Ut_prime` raise; a
forest of maximum depth 1 has no level left; otherwise the kernel counts, averaged over the trees, the
shared depths `1, …, D - 1`, so the deepest level `D` is never counted. -/
theorem C157_kernel {a : ℕ} (forest : List (Routes a a)) (hne : forest ≠ []) (hf : ∀ r ∈ forest, r.Ok) :
    ((∀ r ∈ forest, r.t.m = 0) → testKernel (K := K) forest = .error .assertionError) ∧
    (∀ D, (∀ r ∈ forest, ∀ i d, r.t.DepthIs i d → d ≤ D) → (∃ r ∈ forest, ∃ i, r.t.DepthIs i D) →
      (D = 1 → testKernel (K := K) forest = .ok none) ∧
      (1 < D → ∃ k, testKernel (K := K) forest = .ok (some k) ∧
        ∀ x y, k x y = ((forest.map fun r => (sharedLevels r.t D (r.leaf x) (r.leaf y) : K)).sum) /
          (forest.length : K))) := by
  have hmax : ∀ D, (∀ r ∈ forest, ∀ i d, r.t.DepthIs i d → d ≤ D) → (∃ r ∈ forest, ∃ i, r.t.DepthIs i D) →
      (calcDepthForForest (forest.map fun r => r.t)).2 = D := by
    rintro D h1 ⟨r, hr, i, hi⟩
    rw [calcDepthForForest_eq]
    simp only [List.map_map, Function.comp_def]
    obtain ⟨-, f2, f3⟩ := foldl_max_le (forest.map fun r => npMax r.t.depthPerNode) 0
    apply le_antisymm
    · rcases f3 with f3 | f3
      · rw [f3]; exact Nat.zero_le _
      · obtain ⟨s, hs, e⟩ := List.mem_map.1 f3
        rw [← e]
        obtain ⟨-, j, hj⟩ := npMax_spec s.t.depthPerNode
        rw [hj]
        exact h1 s hs j _ (depthPerNode_spec (hf s hs).wf j)
    · refine le_trans ?_ (f2 _ (List.mem_map.2 ⟨r, hr, rfl⟩))
      rw [(depthIs_iff (hf r hr).wf i D).1 hi |>.symm]
      exact (npMax_spec r.t.depthPerNode).1 i
  constructor
  · intro hm
    have h0 : (calcDepthForForest (forest.map fun r => r.t)).2 = 0 := by
      obtain ⟨r, l, hrl⟩ := List.exists_cons_of_ne_nil hne
      have hr : r ∈ forest := by simp [hrl]
      refine hmax 0 (fun s hs i d hd => ?_) ⟨r, hr, 0, .root⟩
      cases hd with
      | root => exact le_rfl
      | child hc hp =>
        exfalso
        have hlt : _ < i.val := (hf s hs).wf.lt _ _ hc
        have h1 : i.val < s.t.m + 1 := i.isLt
        have h2 := hm s hs
        omega
    have hu := makeUt_spec (forest.map fun r : Routes a a => (⟨r.t, r.path, r.path, r.leaf, r.leaf⟩ : Routes a a))
      (by simpa using hne) (by
        intro s hs
        obtain ⟨r, hr, rfl⟩ := List.mem_map.1 hs
        exact ⟨(hf r hr).wf, (hf r hr).isOld, (hf r hr).isOld⟩) (some 0)
    have hv : vtNew (forest.map fun r : Routes a a => (⟨r.t, r.path, r.path, r.leaf, r.leaf⟩ : Routes a a)) =
        forest.map fun r => vtTree r.t r.path (some r.t.depthPerNode) := by
      simp only [vtNew, makeVt, List.map_map, Function.comp_def]
      rfl
    have hv' : vtOld (forest.map fun r : Routes a a => (⟨r.t, r.path, r.path, r.leaf, r.leaf⟩ : Routes a a)) =
        forest.map fun r => vtTree r.t r.path (some r.t.depthPerNode) := by
      simp only [vtOld, makeVt, List.map_map, Function.comp_def]
      rfl
    rw [hv, hv'] at hu
    unfold testKernel
    simp only [h0]
    rw [hu]
    rfl
  · intro D h1 h2
    have hD := hmax D h1 h2
    constructor
    · rintro rfl
      rw [testKernel_eq forest hne hf 0 hD]
      rfl
    · intro hlt
      obtain ⟨E, rfl⟩ : ∃ E, D = E + 1 := ⟨D - 1, by omega⟩
      rw [testKernel_eq forest hne hf E hD, if_pos (by omega)]
      refine ⟨_, rfl, fun x y => ?_⟩
      unfold treeMean
      simp only [List.length_map, List.map_map, Function.comp_def, div_eq_mul_inv]
      rw [List.sum_map_mul_right]
      congr 1
      clear hne hf hmax h1 h2 hD
      induction forest with
      | nil => simp
      | cons r l ih =>
        simp only [List.map_cons, List.sum_cons]
        rw [List.sum_map_add, ih]
        congr 1
        unfold sharedLevels shareMat
        simp only [Nat.add_sub_cancel]
        generalize List.range E = q
        induction q with
        | nil => simp
        | cons e q ihq =>
          rw [List.map_cons, List.sum_cons, ihq, List.filter_cons]
          by_cases hs : r.t.ShareAt (e + 1) (r.leaf x) (r.leaf y)
          · simp [hs]; ring
          · simp [hs]

theorem sharedLevels_le (t : Topo) (D : ℕ) (i j : t.Node) : sharedLevels t D i j ≤ sharedLevels t D i i := by
  classical
  unfold sharedLevels
  refine List.Sublist.length_le (List.monotone_filter_right _ fun l hl => ?_)
  simp only [decide_eq_true_eq] at hl ⊢
  obtain ⟨v, h1, h2, -⟩ := hl
  exact ⟨v, h1, h2, h2⟩

theorem sharedLevels_comm (t : Topo) (D : ℕ) (i j : t.Node) : sharedLevels t D i j = sharedLevels t D j i := by
  classical
  unfold sharedLevels
  congr 1
  refine List.filter_congr fun l _ => ?_
  rw [decide_eq_decide]
  exact ⟨fun ⟨v, h1, h2, h3⟩ => ⟨v, h1, h3, h2⟩, fun ⟨v, h1, h2, h3⟩ => ⟨v, h1, h3, h2⟩⟩

/-- C157: test_depth_dist, test_max_depth_dist and test_min_depth_dist, 194-248 and 301-443. For every
non-empty forest of well formed trees with maximum depth above 1 and at least one observation, all of them
ending in leaves: the three distance matrices exist, have zero diagonals and no negative entry; the larger one
is at least and the smaller one at most the basic one, and where they differ from it they are its transpose.
Both are symmetric, which the tests state but do not test (they compare the matrix with itself). -/
theorem C157_distances {a : ℕ} (ha : 0 < a) (forest : List (Routes a a)) (hf : ∀ r ∈ forest, r.Ok)
    (hleaf : ∀ r ∈ forest, ∀ x, r.t.left (r.leaf x) = none ∧ r.t.right (r.leaf x) = none)
    (D : ℕ) (h1 : ∀ r ∈ forest, ∀ i d, r.t.DepthIs i d → d ≤ D)
    (h2 : ∃ r ∈ forest, ∃ i, r.t.DepthIs i D) (hlt : 1 < D) :
    ∃ k dd mx mn, testKernel (K := K) forest = .ok (some k) ∧ depthDist k = .ok dd ∧
      maxDepthDist (some k) none = .ok mx ∧ minDepthDist (some k) none = .ok mn ∧
      (∀ x, dd x x = 0 ∧ mx x x = 0 ∧ mn x x = 0) ∧
      (∀ x y, 0 ≤ dd x y ∧ 0 ≤ mx x y ∧ 0 ≤ mn x y) ∧
      (∀ x y, dd x y ≤ mx x y ∧ mn x y ≤ dd x y) ∧
      (∀ x y, (mx x y ≠ dd x y → mx x y = dd y x) ∧ (mn x y ≠ dd x y → mn x y = dd y x)) ∧
      (∀ x y, mx x y = mx y x ∧ mn x y = mn y x) := by
  obtain ⟨r, hr, i, hi⟩ := h2
  have hne : forest ≠ [] := List.ne_nil_of_mem hr
  obtain ⟨k, hk, hv⟩ := ((C157_kernel (K := K) forest hne hf).2 D h1 ⟨r, hr, i, hi⟩).2 hlt
  have hle : ∀ x y, k x y ≤ k x x := by
    intro x y
    rw [hv, hv]
    refine div_le_div_of_nonneg_right ?_ (Nat.cast_nonneg _)
    exact List.sum_le_sum fun s _ => Nat.cast_le.2 (sharedLevels_le _ _ _ _)
  have hpos : k ⟨0, ha⟩ ⟨0, ha⟩ ≠ 0 := by
    rw [hv]
    refine (div_pos ?_ (Nat.cast_pos.2 (List.length_pos_iff.2 hne))).ne'
    have hwf := (hf r hr).wf
    have hd : 1 ≤ r.t.depthPerNode (r.leaf ⟨0, ha⟩) := by
      by_contra hc
      have h0 : r.t.depthPerNode (r.leaf ⟨0, ha⟩) = 0 := by omega
      have hdi := depthPerNode_spec hwf (r.leaf ⟨0, ha⟩)
      rw [h0] at hdi
      have hroot : r.leaf ⟨0, ha⟩ = 0 := by
        generalize r.leaf ⟨0, ha⟩ = q at hdi
        cases hdi
        rfl
      have key : ∀ {j e}, r.t.DepthIs j e → 0 < e → ∃ c, r.t.left 0 = some c ∨ r.t.right 0 = some c := by
        intro j e hj
        induction hj with
        | root => intro h; omega
        | child hc hp ih =>
          intro _
          cases hp with
          | root => exact ⟨_, hc⟩
          | child hc' hp' => exact ih (by omega)
      obtain ⟨c, hc⟩ := key hi (by omega)
      obtain ⟨hl, hrr⟩ := hleaf r hr ⟨0, ha⟩
      rw [hroot] at hl hrr
      rw [hl, hrr] at hc
      simp at hc
    have hone : 0 < sharedLevels r.t D (r.leaf ⟨0, ha⟩) (r.leaf ⟨0, ha⟩) := by
      classical
      unfold sharedLevels
      refine List.length_pos_iff.2 (List.ne_nil_of_mem (a := 0) ?_)
      simp only [List.mem_filter, List.mem_range, decide_eq_true_eq]
      exact ⟨by omega, shareAt_refl_of_le hwf _ hd⟩
    have hnn : ∀ x ∈ forest.map (fun s => (sharedLevels s.t D (s.leaf ⟨0, ha⟩) (s.leaf ⟨0, ha⟩) : K)), 0 ≤ x := by
      intro x hx
      obtain ⟨s, -, rfl⟩ := List.mem_map.1 hx
      exact Nat.cast_nonneg _
    refine lt_of_lt_of_le (Nat.cast_pos.2 hone : (0 : K) < _) (List.single_le_sum hnn _ ?_)
    exact List.mem_map.2 ⟨r, hr, rfl⟩
  obtain ⟨dd, hdd, hde⟩ := (C61_depth_dist k).1 ⟨⟨0, ha⟩, hpos⟩
  obtain ⟨mx, mn, e1, e2, e3, e4, e5⟩ := C61_max_min k ⟨⟨0, ha⟩, hpos⟩
  have nn : ∀ x y, 0 ≤ dd x y := fun x y => by rw [hde]; exact sub_nonneg.2 (hle x y)
  refine ⟨k, dd, mx, mn, hk, hdd, e1, e2, fun x => ⟨by rw [hde, sub_self], e4 x⟩, fun x y => ?_, fun x y => ?_,
    fun x y => ?_, e3⟩
  · obtain ⟨f1, -, -, -, -, f6⟩ := e5 x y
    refine ⟨nn x y, le_trans (nn x y) (by rw [hde]; exact f1), ?_⟩
    rcases f6 with f6 | f6
    · rw [f6, ← hde]; exact nn x y
    · rw [f6, ← hde]; exact nn y x
  · obtain ⟨f1, -, -, f4, -, -⟩ := e5 x y
    rw [hde]
    exact ⟨f1, f4⟩
  · obtain ⟨-, -, f3, -, -, f6⟩ := e5 x y
    rw [hde, hde]
    exact ⟨fun h => f3.resolve_left h, fun h => f6.resolve_left h⟩

example : exRoutes.Ok ∧ (∀ x, exRoutes.t.left (exRoutes.leaf x) = none ∧ exRoutes.t.right (exRoutes.leaf x) = none) ∧
    (match testKernel (K := ℚ) [exRoutes] with
      | .ok (some k) => some (List.ofFn fun i => List.ofFn (k i)) | _ => none) =
      some [[1, 1, 0], [1, 1, 0], [0, 0, 1]] :=
  ⟨exRoutes_ok, by decide +kernel, by decide +kernel⟩

/-! ### tuning attributes -/

/-- C157: test_process_tuning_leaf_attributes_tree, 475-522, for any `eps` outside (0, 1] (the test uses -1): the
marked leaves have value 0, the weights of the others add up to 1, weights times values of the others add up to
the mean response of the tuning data, and both vectors have one entry per leaf. -/
theorem C157_tuning (n : ℕ) (eps : K) (heps : eps ≤ 0 ∨ 1 < eps) (rows : List (TuneRow K 1)) (hne : rows ≠ [])
    (hr : ∀ q ∈ rows, q.leaf < n) :
    ∃ l, processTuning n eps rows = .ok l ∧ l.length = n ∧
      (∀ e ∈ l, e.1 = eps → e.2 = 0) ∧
      ((l.filter fun e => decide (e.1 ≠ eps)).map Prod.fst).sum = 1 ∧
      ((l.filter fun e => decide (e.1 ≠ eps)).map fun e => e.1 * e.2).sum =
        (rows.map fun q => q.y 0).sum / (rows.length : K) := by
  have hlen : (0 : K) < rows.length := Nat.cast_pos.2 (List.length_pos_iff.2 hne)
  have htot : ((List.range n).map (leafWeight rows)).sum = (rows.length : K) := by
    have := sum_by_leaf (K := K) rows n hr fun _ => 1
    simp only [List.map_const', List.sum_replicate, nsmul_eq_mul, mul_one] at this
    rw [this]
    rfl
  have hnil : ∀ i, (leafWeight rows i : K) = 0 → (rows.filter fun q => q.leaf == i) = [] := by
    intro i h
    unfold leafWeight at h
    rw [Nat.cast_eq_zero, List.length_eq_zero_iff] at h
    exact h
  have hw0 : ∀ i, (0 : K) ≤ leafWeight rows i := fun i => Nat.cast_nonneg _
  have hw1 : ∀ i, (leafWeight rows i : K) ≤ rows.length := fun i =>
    Nat.cast_le.2 (List.length_filter_le _ _)
  have hm0 : ∀ i, (leafWeight rows i : K) = 0 → leafMean rows i 0 = 0 := by
    intro i h
    unfold leafMean
    rw [hnil i h]
    simp
  have hiff : ∀ i, (if leafWeight rows i / (rows.length : K) = 0 then eps else
      leafWeight rows i / (rows.length : K)) = eps ↔ (leafWeight rows i : K) = 0 := by
    intro i
    by_cases h : (leafWeight rows i : K) = 0
    · simp [h]
    · have hq : leafWeight rows i / (rows.length : K) ≠ 0 := div_ne_zero h hlen.ne'
      rw [if_neg hq]
      refine ⟨fun e => ?_, fun e => absurd e h⟩
      have p1 : 0 < leafWeight rows i / (rows.length : K) :=
        div_pos (lt_of_le_of_ne (hw0 i) (Ne.symm h)) hlen
      have p2 : leafWeight rows i / (rows.length : K) ≤ 1 := (div_le_one hlen).2 (hw1 i)
      rcases heps with he | he
      · exact absurd (e ▸ p1) (not_lt.2 he)
      · exact absurd (e ▸ p2) (not_le.2 he)
  have hfil : ∀ f : K × K → K,
      ((((List.range n).map fun i => ((if leafWeight rows i / (rows.length : K) = 0 then eps else
        leafWeight rows i / (rows.length : K)), leafMean rows i 0)).filter
          fun e => decide (e.1 ≠ eps)).map f).sum =
      ((List.range n).map fun i => if (leafWeight rows i : K) = 0 then 0 else
        f (leafWeight rows i / (rows.length : K), leafMean rows i 0)).sum := by
    intro f
    generalize List.range n = q
    induction q with
    | nil => simp
    | cons i q ih =>
      rw [List.map_cons, List.filter_cons]
      by_cases h : (leafWeight rows i : K) = 0
      · rw [if_neg (by simpa using (hiff i).2 h), ih, List.map_cons, List.sum_cons, if_pos h, zero_add]
      · rw [if_pos (by simpa using fun e => h ((hiff i).1 e)), List.map_cons, List.sum_cons, ih, List.map_cons,
          List.sum_cons, if_neg h, if_neg (div_ne_zero h hlen.ne')]
  refine ⟨(List.range n).map fun i => ((if leafWeight rows i / (rows.length : K) = 0 then eps else
      leafWeight rows i / (rows.length : K)), leafMean rows i 0), ?_, by simp, ?_, ?_, ?_⟩
  · unfold processTuning
    rw [if_neg hne]
    simp only [htot]
  · intro e he h
    obtain ⟨i, -, rfl⟩ := List.mem_map.1 he
    exact hm0 i ((hiff i).1 h)
  · rw [hfil Prod.fst]
    have : ∀ i ∈ List.range n, (if (leafWeight rows i : K) = 0 then 0 else
        leafWeight rows i / (rows.length : K)) = leafWeight rows i * (rows.length : K)⁻¹ := by
      intro i _
      by_cases h : (leafWeight rows i : K) = 0
      · rw [if_pos h, h, zero_mul]
      · rw [if_neg h, div_eq_mul_inv]
    rw [List.map_congr_left this, List.sum_map_mul_right, htot, mul_inv_cancel₀ hlen.ne']
  · rw [hfil fun e => e.1 * e.2]
    have : ∀ i ∈ List.range n, (if (leafWeight rows i : K) = 0 then 0 else
        leafWeight rows i / (rows.length : K) * leafMean rows i 0) =
        ((rows.filter fun q => q.leaf == i).map fun q => q.y 0).sum * (rows.length : K)⁻¹ := by
      intro i _
      by_cases h : (leafWeight rows i : K) = 0
      · rw [if_pos h, hnil i h]; simp
      · rw [if_neg h]
        unfold leafMean
        rw [if_neg h]
        field_simp
    rw [List.map_congr_left this, List.sum_map_mul_right, ← sum_by_leaf rows n hr, div_eq_mul_inv]

example : (match processTuning 3 (-1 : ℚ) [⟨0, fun _ => 100⟩, ⟨2, fun _ => 101⟩, ⟨2, fun _ => 100⟩, ⟨0, fun _ => 101⟩] with
    | .ok l => some l | .error _ => none) = some [(1 / 2, 201 / 2), (-1, 0), (1 / 2, 201 / 2)] := by decide +kernel

/-- The weights of `process_tuning_leaf_attributes_tree` in double precision: whole counts are exact, the division
is rounded; `np.sum` of them is compared with 1 in the test (510). -/
def flTuneWeights (counts : List ℕ) : List ℚ := counts.map fun c => fl ((c : ℚ) / (counts.sum : ℚ))

/-- C157: the test compares with `==`; in double precision that fails for some data with 100 tuning rows
(as in the test) in three leaves. -/
theorem C157_tuning_rounded : ∃ counts : List ℕ, counts.sum = 100 ∧ (∀ c ∈ counts, 0 < c) ∧
    counts.length = 3 ∧ npSum (flTuneWeights counts) ≠ 1 :=
  ⟨[31, 58, 11], by decide, by decide, by decide, by decide +kernel⟩

/-! ### diagonal update -/

/-- C157: test_update_til_psd, 545-569. When the matrix is changed, only the diagonal is, by the same amount
everywhere, and the base-2 logarithm of this amount over the machine epsilon is within 0.05 of a whole number;
the amount itself is never a power of two times the machine epsilon (it is 1000 times such a number), so
the check passes only because it rounds to one decimal. -/
theorem C157_update {n : ℕ} (pd : (Fin n → Fin n → ℝ) → Bool) (mach : ℝ) (hm : 0 < mach) (g : Fin n → Fin n → ℝ)
    (fuel : ℕ) (r : Fin n → Fin n → ℝ) (hr : updateTilPsd pd (mach * 1000) fuel g = .ok (some r))
    (hne : r ≠ g) :
    ∃ w : ℝ, (∀ i j, i ≠ j → r i j = g i j) ∧ (∀ i, r i i - g i i = w) ∧
      (∃ z : ℕ, |Real.logb 2 (w / mach) - z| < 1 / 20) ∧ ∀ z : ℕ, w ≠ 2 ^ z * mach := by
  have hs : ∀ i j, g i j = g j i := by
    by_contra hc
    rw [C63_not_symmetric pd _ fuel g hc] at hr
    cases hr
  obtain ⟨-, -, h3⟩ := C63_least_shift pd (mach * 1000) g hs
  rcases (h3 fuel r hr).2 with h | ⟨k, rfl, -, -⟩
  · exact absurd h hne
  refine ⟨mach * 1000 * 2 ^ k, fun i j hij => by simp [shiftMat, hij], fun i => by simp [shiftMat], ⟨k + 10, ?_⟩, ?_⟩
  · have e : mach * 1000 * 2 ^ k / mach = 1000 * 2 ^ k := by field_simp
    rw [e, Real.logb_mul (by norm_num) (by positivity), Real.logb_pow, Real.logb_self_eq_one (by norm_num)]
    have u1 : Real.logb 2 1000 < 10 := by
      rw [Real.logb_lt_iff_lt_rpow (by norm_num) (by norm_num)]
      norm_num
    have u2 : (199 : ℝ) / 20 < Real.logb 2 1000 := by
      have : (199 : ℝ) < 20 * Real.logb 2 1000 := by
        have e2 : 20 * Real.logb 2 1000 = Real.logb 2 (1000 ^ 20) := by
          rw [Real.logb_pow]; norm_num
        rw [e2, Real.lt_logb_iff_rpow_lt (by norm_num) (by norm_num)]
        norm_num
      linarith
    push_cast
    rw [abs_lt]
    constructor <;> linarith
  · intro z hz
    have e : (1000 : ℝ) * 2 ^ k = 2 ^ z := by
      have : mach * (1000 * 2 ^ k) = mach * 2 ^ z := by linarith
      exact mul_left_cancel₀ hm.ne' this
    have e' : 1000 * 2 ^ k = 2 ^ z := by exact_mod_cast e
    have h5 : 5 ∣ 2 ^ z := ⟨200 * 2 ^ k, by rw [← e']; ring⟩
    have := Nat.Prime.dvd_of_dvd_pow Nat.prime_five h5
    omega

/-- The 1x1 matrix (-5) is changed. -/
example : (match updateTilPsd (fun m : Fin 1 → Fin 1 → ℚ => decide (0 < m 0 0)) (1 / 1000 * 1000) 10 ![![-5]] with
    | .ok (some r) => some (r 0 0) | _ => none) = some 3 := by decide +kernel

end SmoothRF
