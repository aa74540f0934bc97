import Verif.Spec.Gamma
import Verif.Proofs.Tree2

set_option linter.unusedSectionVars false

namespace SmoothRF
namespace SkTree
open Topo

variable {K : Type} [Field K] [LinearOrder K] {C : ℕ}

theorem ny_eq (kind : Kind) (t : SkTree K C) : t.ny kind = t.mass kind := by
  cases kind <;> rfl

theorem maxDist_le (t : SkTree K C) (D : Fin t.nLeaves → Fin t.nLeaves → ℤ)
    (i j : Fin t.nLeaves) : (D i j).toNat ≤ t.maxDist D :=
  (foldl_max_le _ 0).2.1 _ (List.mem_flatMap.2 ⟨i, List.mem_finRange _,
    List.mem_map.2 ⟨j, List.mem_finRange _, rfl⟩⟩)

theorem maxDist_attained (t : SkTree K C) (D : Fin t.nLeaves → Fin t.nLeaves → ℤ) :
    t.maxDist D = 0 ∨ ∃ i j, t.maxDist D = (D i j).toNat := by
  rcases (foldl_max_le ((List.finRange t.nLeaves).flatMap fun i =>
    (List.finRange t.nLeaves).map fun j => (D i j).toNat) 0).2.2 with h | h
  · exact Or.inl h
  · obtain ⟨i, _, hi⟩ := List.mem_flatMap.1 h
    obtain ⟨j, _, hj⟩ := List.mem_map.1 hi
    exact Or.inr ⟨i, j, hj.symm⟩

theorem sum_inner (pa : Bool) {n : ℕ} (D : Fin n → Fin n → ℤ) (v : Fin n → K) (i : Fin n) (k : ℕ) :
    ∑ j, inner pa D k i j * v j = levelSum pa D v i k := by
  unfold inner levelSum
  cases pa <;> simp [Finset.sum_filter]

theorem levelRow_eq (t : SkTree K C) (pa : Bool) (D : Fin t.nLeaves → Fin t.nLeaves → ℤ)
    (v : Fin t.nLeaves → K) (i : Fin t.nLeaves) :
    t.levelRow pa D v i = (List.range (t.maxDist D + 1)).map (levelSum pa D v i) := by
  unfold levelRow
  apply List.map_congr_left
  intro k _
  exact sum_inner pa D v i k

/-- Beyond the largest distance the defining sum is 0, or constant for `parents_all`. -/
theorem levelSum_beyond (t : SkTree K C) (pa : Bool) (D : Fin t.nLeaves → Fin t.nLeaves → ℤ)
    (v : Fin t.nLeaves → K) (i : Fin t.nLeaves) (k : ℕ)
    (hk : t.maxDist D < k) :
    levelSum pa D v i k = if pa then levelSum pa D v i (t.maxDist D) else 0 := by
  have hle : ∀ j, D i j ≤ t.maxDist D := fun j => by
    have := t.maxDist_le D i j; omega
  cases pa
  · simp only [levelSum, Bool.false_eq_true, if_false]
    apply Finset.sum_eq_zero
    intro j hj
    simp only [Finset.mem_filter, Finset.mem_univ, true_and] at hj
    have := hle j; omega
  · simp only [levelSum, if_true]
    congr 1
    ext j
    simp only [Finset.mem_filter, Finset.mem_univ, true_and]
    have := hle j
    constructor <;> intro _ <;> omega

theorem padRow_levelRow (t : SkTree K C) (pa : Bool) (D : Fin t.nLeaves → Fin t.nLeaves → ℤ)
    (v : Fin t.nLeaves → K) (i : Fin t.nLeaves) (width : ℕ) (hw : t.maxDist D + 1 ≤ width) :
    padRow pa width (t.levelRow pa D v i) = (List.range width).map (levelSum pa D v i) := by
  rw [levelRow_eq]
  have hsplit : (List.range width).map (levelSum pa D v i) =
      (List.range (t.maxDist D + 1)).map (levelSum pa D v i) ++
        List.replicate (width - (t.maxDist D + 1))
          (if pa then levelSum pa D v i (t.maxDist D) else 0) := by
    apply List.ext_getElem
    · simp; omega
    · intro k h1 h2
      simp only [List.length_map, List.length_range] at h1
      by_cases hk : k < t.maxDist D + 1
      · rw [List.getElem_append_left (by simpa using hk)]; simp
      · rw [List.getElem_append_right (by simpa using Nat.not_lt.1 hk)]
        simp only [List.getElem_map, List.getElem_range, List.getElem_replicate]
        exact levelSum_beyond t pa D v i k (by omega)
  unfold padRow
  simp only [List.length_map, List.length_range]
  by_cases he : t.maxDist D + 1 = width
  · subst he; simp
  · rw [if_pos he, hsplit]
    cases pa
    · simp
    · simp [List.range_succ]

/-! ### leaves of a well-formed tree -/

theorem WF.last_leaf {t : Topo} (h : t.WF) : t.right (Fin.last t.m) = none := by
  rw [← isLeaf_iff h]
  intro c hc
  exact absurd (h.lt _ _ hc) (not_lt.2 (Fin.le_last c))

theorem nLeaves_pos {t : Topo} (h : t.WF) : 0 < t.nLeaves := by
  obtain ⟨r, _⟩ := exists_leafNode (WF.last_leaf h)
  exact r.pos

theorem maxDist_le_depth (t : SkTree K C) (h : t.WF) (s : Style) :
    t.maxDist (t.distDepth s) ≤ npMax t.depthPerNode := by
  rcases t.maxDist_attained (t.distDepth s) with h0 | ⟨i, j, hij⟩
  · omega
  · rw [hij]
    have b : ∀ i j, t.distStandard i j ≤ npMax t.depthPerNode := fun i j =>
      le_trans (distStandard_le h i j) (by exact_mod_cast (npMax_spec _).1 _)
    have : t.distDepth s i j ≤ npMax t.depthPerNode := by
      cases s
      · exact b i j
      · exact max_le (b i j) (b j i)
      · exact le_trans (min_le_left _ _) (b i j)
    omega

theorem forestDepth_ge (forest : List (SkTree K C)) (t : SkTree K C) (ht : t ∈ forest) :
    npMax t.depthPerNode ≤ forestDepth forest := by
  unfold forestDepth
  rw [calcDepthForForest_eq]
  apply (foldl_max_le _ 0).2.1
  exact List.mem_map.2 ⟨t.toTopo, List.mem_map.2 ⟨t, ht, rfl⟩, rfl⟩

/-! ### the forest fold -/

theorem gammaEtaForest_eq (kind : Kind) (forest : List (SkTree K C)) (s : Style) (pa : Bool) :
    (∀ c, (gammaEtaForest kind forest s pa).gamma c = forest.flatMap fun t =>
      (t.gammaTree kind pa (t.distDepth s) c).map (padRow pa (forestDepth forest + 1))) ∧
    ((gammaEtaForest kind forest s pa).eta = forest.flatMap fun t =>
      (t.etaTree pa (t.distDepth s)).map (padRow pa (forestDepth forest + 1))) ∧
    ((gammaEtaForest kind forest s pa).tIdx =
      forest.zipIdx.flatMap fun tt => List.replicate tt.1.nLeaves tt.2) := by
  unfold gammaEtaForest
  generalize forestDepth forest + 1 = width
  have key : ∀ (l : List (SkTree K C × ℕ)) (acc : GE K C),
      let r := l.foldl (fun acc tt =>
        ({ gamma := fun c => acc.gamma c ++
            (tt.1.gammaTree kind pa (tt.1.distDepth s) c).map (padRow pa width)
           eta := acc.eta ++ (tt.1.etaTree pa (tt.1.distDepth s)).map (padRow pa width)
           tIdx := acc.tIdx ++ List.replicate tt.1.nLeaves tt.2 } : GE K C)) acc
      (∀ c, r.gamma c = acc.gamma c ++ l.flatMap fun tt =>
        (tt.1.gammaTree kind pa (tt.1.distDepth s) c).map (padRow pa width)) ∧
      (r.eta = acc.eta ++ l.flatMap fun tt =>
        (tt.1.etaTree pa (tt.1.distDepth s)).map (padRow pa width)) ∧
      (r.tIdx = acc.tIdx ++ l.flatMap fun tt => List.replicate tt.1.nLeaves tt.2) := by
    intro l
    induction l with
    | nil => intro acc; simp
    | cons x l ih =>
      intro acc
      obtain ⟨h1, h2, h3⟩ := ih ⟨fun c => acc.gamma c ++
            (x.1.gammaTree kind pa (x.1.distDepth s) c).map (padRow pa width),
           acc.eta ++ (x.1.etaTree pa (x.1.distDepth s)).map (padRow pa width),
           acc.tIdx ++ List.replicate x.1.nLeaves x.2⟩
      simp only [List.foldl_cons]
      refine ⟨fun c => ?_, ?_, ?_⟩
      · rw [h1 c]; simp
      · rw [h2]; simp
      · rw [h3]; simp
  obtain ⟨h1, h2, h3⟩ := key forest.zipIdx { gamma := fun _ => [], eta := [], tIdx := [] }
  have hz : ∀ {β : Type} (f : SkTree K C → List β),
      forest.zipIdx.flatMap (fun tt => f tt.1) = forest.flatMap f := by
    intro β f
    have : (forest.zipIdx.map Prod.fst).flatMap f = forest.flatMap f := by
      rw [List.zipIdx_map_fst]
    rw [← this, List.flatMap_map]
  refine ⟨fun c => ?_, ?_, ?_⟩
  · rw [h1 c, ← hz]; simp
  · rw [h2, ← hz]; simp
  · rw [h3]; simp

/-! ### subtree sums -/

/-- An additive node function summed over the leaves below `a` is its value at `a`. -/
theorem sum_leaves_below (t : Topo) (h : t.WF) (f : t.Node → K)
    (hadd : ∀ p l r : t.Node, t.left p = some l → t.right p = some r → f p = f l + f r)
    (a : t.Node) [DecidablePred fun r : Fin t.nLeaves => t.Anc a (t.leafNode r)] :
    ∑ r ∈ Finset.univ.filter (fun r => t.Anc a (t.leafNode r)), f (t.leafNode r) = f a := by
  classical
  have hconv : ∀ b : t.Node, ∀ (inst : DecidablePred fun r : Fin t.nLeaves => t.Anc b (t.leafNode r)),
      @Finset.filter _ (fun r => t.Anc b (t.leafNode r)) inst Finset.univ =
        Finset.univ.filter (fun r => t.Anc b (t.leafNode r)) := by
    intro b inst; congr
  rw [hconv]
  induction hn : t.m - a.val using Nat.strong_induction_on generalizing a with
  | _ n ih =>
    subst hn
    rcases left_cases h a with ⟨hl, hr⟩ | ⟨l, r, hl, hr, hlr⟩
    · obtain ⟨q, hq⟩ := exists_leafNode hr
      have : Finset.univ.filter (fun r : Fin t.nLeaves => t.Anc a (t.leafNode r)) = {q} := by
        ext r
        simp only [Finset.mem_filter, Finset.mem_univ, true_and, Finset.mem_singleton]
        constructor
        · intro ha
          have := leaf_anc_eq h ((isLeaf_iff h).2 hr) ha
          exact leafNode_injective (by rw [hq, this])
        · rintro rfl; rw [hq]; exact .refl _
      rw [this, Finset.sum_singleton, hq]
    · have hcl : t.IsChild a l := Or.inl hl
      have hcr : t.IsChild a r := Or.inr hr
      have h1 : a.val < l.val := h.lt _ _ hcl
      have h2 : a.val < r.val := h.lt _ _ hcr
      have hlm := l.isLt
      have hrm := r.isLt
      have hunion : Finset.univ.filter (fun q : Fin t.nLeaves => t.Anc a (t.leafNode q)) =
          Finset.univ.filter (fun q => t.Anc l (t.leafNode q)) ∪
          Finset.univ.filter (fun q => t.Anc r (t.leafNode q)) := by
        ext q
        simp only [Finset.mem_filter, Finset.mem_univ, true_and, Finset.mem_union]
        constructor
        · intro ha
          have hne : a ≠ t.leafNode q := by
            intro e; have := leafNode_right (t := t) q; rw [← e, hr] at this; cases this
          obtain ⟨c, hc, hcq⟩ := anc_top h ha hne
          rcases hc with hc | hc
          · rw [hl] at hc; cases hc; exact Or.inl hcq
          · rw [hr] at hc; cases hc; exact Or.inr hcq
        · rintro (hq | hq)
          · exact (Anc.step (.refl _) hcl).trans hq
          · exact (Anc.step (.refl _) hcr).trans hq
      have hdisj : Disjoint (Finset.univ.filter (fun q : Fin t.nLeaves => t.Anc l (t.leafNode q)))
          (Finset.univ.filter (fun q => t.Anc r (t.leafNode q))) := by
        rw [Finset.disjoint_left]
        intro q hq1 hq2
        simp only [Finset.mem_filter, Finset.mem_univ, true_and] at hq1 hq2
        exact siblings_disjoint h hcl hcr hlr hq1 hq2
      rw [hunion, Finset.sum_union hdisj, ih (t.m - l.val) (by omega) l rfl,
        ih (t.m - r.val) (by omega) r rfl, hadd a l r hl hr]

/-- `D_ij ≤ k` selects the leaves below the `k`-th ancestor. -/
theorem distStandard_le_iff (t : Topo) (h : t.WF) (i j : Fin t.nLeaves) (k : ℕ) (a : t.Node)
    (ha : t.UpBy k (t.leafNode i) a ∨ (t.depthPerNode (t.leafNode i) ≤ k ∧ a = 0)) :
    t.distStandard i j ≤ k ↔ t.Anc a (t.leafNode j) := by
  obtain ⟨b, hb⟩ := exists_lca h (t.leafNode i) (t.leafNode j)
  rw [distStandard_eq h i j hb]
  have hble := anc_depth_le h hb.1
  rcases ha with ha | ⟨hd, rfl⟩
  · obtain ⟨hda, haa⟩ := upBy_depth h ha
    constructor
    · intro hle
      rcases anc_chain h haa hb.1 with h1 | h1
      · exact h1.trans hb.2.1
      · have := anc_depth_le h h1
        have e := anc_eq_of_depth h h1 (by omega)
        subst e; exact hb.2.1
    · intro haj
      have := anc_depth_le h (hb.2.2 a haa haj)
      omega
  · constructor
    · intro _; exact anc_root h _
    · intro _; omega

end SkTree
end SmoothRF
