import Verif.Proofs.Gamma

set_option linter.unusedSectionVars false

namespace SmoothRF
namespace SkTree
open Topo

variable {K : Type} [Field K] [LinearOrder K] {C : ℕ}

theorem sum_map_range (n : ℕ) (f : ℕ → K) : ((List.range n).map f).sum = ∑ k ∈ Finset.range n, f k := by
  induction n with
  | zero => simp
  | succ n ih => rw [List.range_succ, List.map_append, List.sum_append, ih, Finset.sum_range_succ]; simp

theorem sum_levelSum {n : ℕ} (D : Fin n → Fin n → ℤ) (hD : ∀ i j, 0 ≤ D i j) (v : Fin n → K)
    (i : Fin n) (k : ℕ) :
    ∑ l ∈ Finset.range (k + 1), levelSum false D v i l = levelSum true D v i k := by
  induction k with
  | zero =>
    simp only [Nat.zero_add, Finset.range_one, Finset.sum_singleton, levelSum, Bool.false_eq_true,
      if_false, if_true]
    congr 1
    ext j
    simp only [Finset.mem_filter, Finset.mem_univ, true_and]
    have := hD i j
    constructor <;> intro h <;> push_cast at h ⊢ <;> omega
  | succ k ih =>
    rw [Finset.sum_range_succ, ih]
    simp only [levelSum, Bool.false_eq_true, if_false, if_true]
    rw [← Finset.sum_union]
    · congr 1
      ext j
      simp only [Finset.mem_union, Finset.mem_filter, Finset.mem_univ, true_and]
      constructor
      · rintro (h | h) <;> push_cast at * <;> omega
      · intro h; push_cast at *; omega
    · rw [Finset.disjoint_left]
      intro j h1 h2
      simp only [Finset.mem_filter, Finset.mem_univ, true_and] at h1 h2
      push_cast at *; omega

theorem levelSum_true_max (t : SkTree K C) (D : Fin t.nLeaves → Fin t.nLeaves → ℤ)
    (v : Fin t.nLeaves → K) (i : Fin t.nLeaves) (k : ℕ) (hk : t.maxDist D ≤ k) :
    levelSum true D v i k = ∑ j, v j := by
  simp only [levelSum, if_true]
  congr 1
  ext j
  simp only [Finset.mem_filter, Finset.mem_univ, true_and, iff_true]
  have := t.maxDist_le D i j
  omega

theorem distDepth_nonneg {t : Topo} (h : t.WF) (s : Style) (i j : Fin t.nLeaves) :
    0 ≤ t.distDepth s i j := by
  cases s
  · exact distStandard_nonneg h i j
  · exact le_trans (distStandard_nonneg h i j) (le_max_left _ _)
  · exact le_min (distStandard_nonneg h i j) (distStandard_nonneg h j i)

theorem maxDist_attained' (t : SkTree K C) (h : t.WF) (D : Fin t.nLeaves → Fin t.nLeaves → ℤ)
    (hD : ∀ i j, 0 ≤ D i j) : ∃ i j, D i j = t.maxDist D := by
  rcases t.maxDist_attained D with h0 | ⟨i, j, hij⟩
  · have r : Fin t.nLeaves := ⟨0, nLeaves_pos h⟩
    refine ⟨r, r, ?_⟩
    have := t.maxDist_le D r r
    have := hD r r
    omega
  · exact ⟨i, j, by have := hD i j; omega⟩

/-! ### the deepest leaf is at standard distance equal to the depth -/

theorem exists_leaf_below {t : Topo} (h : t.WF) (a : t.Node) : ∃ r, t.Anc a (t.leafNode r) := by
  induction hn : t.m - a.val using Nat.strong_induction_on generalizing a with
  | _ n ih =>
    subst hn
    rcases left_cases h a with ⟨hl, hr⟩ | ⟨l, r, hl, hr, hlr⟩
    · obtain ⟨q, hq⟩ := exists_leafNode hr
      exact ⟨q, by rw [hq]; exact .refl _⟩
    · have hcl : t.IsChild a l := Or.inl hl
      have h1 : a.val < l.val := h.lt _ _ hcl
      have hlm := l.isLt
      obtain ⟨q, hq⟩ := ih (t.m - l.val) (by omega) l rfl
      exact ⟨q, (Anc.step (.refl _) hcl).trans hq⟩

theorem maxDist_standard (t : SkTree K C) (h : t.WF) :
    t.maxDist (t.distDepth .standard) = npMax t.depthPerNode := by
  apply le_antisymm (t.maxDist_le_depth h .standard)
  obtain ⟨d, hd⟩ := (npMax_spec t.depthPerNode).2
  obtain ⟨i, hi⟩ := exists_leaf_below h d
  have hdeep : t.depthPerNode (t.leafNode i) = npMax t.depthPerNode := by
    have h1 := anc_depth_le h hi
    have h2 := (npMax_spec t.depthPerNode).1 (t.leafNode i)
    omega
  rw [← hdeep]
  by_cases h0 : t.depthPerNode (t.leafNode i) = 0
  · omega
  · have hne : (0 : t.Node) ≠ t.leafNode i := by
      intro e; rw [← e, depth_root h] at h0; exact h0 rfl
    obtain ⟨c, hc, hci⟩ := anc_top h (anc_root h _) hne
    rcases left_cases h (0 : t.Node) with ⟨hl, hr⟩ | ⟨l, r, hl, hr, hlr⟩
    · rcases hc with hc | hc <;> simp_all
    · obtain ⟨c', hc', hcc⟩ : ∃ c', t.IsChild 0 c' ∧ c ≠ c' := by
        by_cases e : c = l
        · exact ⟨r, Or.inr hr, by rw [e]; exact hlr⟩
        · exact ⟨l, Or.inl hl, e⟩
      obtain ⟨j, hj⟩ := exists_leaf_below h c'
      have hlca : t.IsLCA (t.leafNode i) (t.leafNode j) 0 := by
        refine ⟨anc_root h _, anc_root h _, fun b hbi hbj => ?_⟩
        by_cases hb : b = 0
        · subst hb; exact .refl _
        · exfalso
          obtain ⟨e, he, heb⟩ := anc_top h (anc_root h b) (fun x => hb x.symm)
          have e1 : e = c := by
            by_contra hne
            exact siblings_disjoint h he hc hne (heb.trans hbi) hci
          have e2 : e = c' := by
            by_contra hne
            exact siblings_disjoint h he hc' hne (heb.trans hbj) hj
          exact hcc (e1.symm.trans e2)
      have hdist := distStandard_eq h i j hlca
      rw [depth_root h] at hdist
      have := t.maxDist_le (t.distDepth .standard) i j
      have e : t.distDepth .standard i j = t.distStandard i j := rfl
      rw [e, hdist] at this
      omega

theorem leafDepth_eq (t : SkTree K C) (h : t.WF) (i : Fin t.nLeaves) :
    t.leafDepth i = t.depthPerNode (t.leafNode i) := by
  unfold leafDepth
  rw [Qmat_eq h _ i i (isLCA_self _)]
  simp [card_ancs h]

theorem mapM_ok {α β : Type} (l : List α) (f : α → Except PyErr β) (g : α → β)
    (hf : ∀ a ∈ l, f a = .ok (g a)) : l.mapM f = .ok (l.map g) := by
  induction l with
  | nil => rfl
  | cons a l ih =>
    rw [List.mapM_cons, hf a (by simp), ih (fun b hb => hf b (by simp [hb]))]
    rfl

/-- `leaf_depth_full` rows. -/
theorem depthFullRow_eq (width ld : ℕ) (h : ld + 1 ≤ width) :
    depthFullRow (K := K) width ld = .ok ((List.range width).map fun k => ((ld - k : ℕ) : K)) := by
  unfold depthFullRow
  rw [if_pos h]
  congr 1
  apply List.ext_getElem
  · simp; omega
  · intro k h1 h2
    simp only [List.length_map, List.length_range] at h2
    by_cases hk : k < ld + 1
    · rw [List.getElem_append_left (by simpa using hk)]
      simp
    · rw [List.getElem_append_right (by simpa using Nat.not_lt.1 hk)]
      simp
      have : ld - k = 0 := by omega
      simp [this]

theorem impurityRow (t : SkTree K C) (h : t.WF) (i : Fin t.nLeaves) :
    ((t.depthPerNodePlusParent.2 (t.leafNode i)).map t.impurity).length = npMax t.depthPerNode + 1 ∧
    ∀ k a, k ≤ npMax t.depthPerNode →
      (t.UpBy k (t.leafNode i) a ∨ (t.depthPerNode (t.leafNode i) ≤ k ∧ a = 0)) →
      ((t.depthPerNodePlusParent.2 (t.leafNode i)).map t.impurity)[k]? = some (t.impurity a) := by
  obtain ⟨l, hl, hrow⟩ := plusParent_row h (t.leafNode i)
  have hlen := hl.length h
  have hmax := (npMax_spec t.depthPerNode).1 (t.leafNode i)
  rw [hrow]
  constructor
  · simp [hlen]; omega
  · intro k a hk ha
    rw [List.getElem?_map]
    have : (l.reverse ++ List.replicate (npMax t.depthPerNode - t.depthPerNode (t.leafNode i)) 0)[k]? = some a := by
      rcases ha with ha | ⟨hd, rfl⟩
      · rw [List.getElem?_append_left]
        · exact hl.upBy h ha
        · have := (upBy_depth h ha).1
          simp [hlen]; omega
      · rcases Nat.eq_or_lt_of_le hd with e | hlt
        · rw [← e, List.getElem?_append_left (by simp [hlen])]
          exact hl.last h
        · rw [List.getElem?_append_right (by simp [hlen]; omega), List.getElem?_replicate, if_pos]
          simp [hlen]; omega
    rw [this]; rfl

/-- Row of `impurity_full` after the forest padding. -/
def impPadded (width : ℕ) (t : SkTree K C) (i : Fin t.nLeaves) : List K :=
  ((t.depthPerNodePlusParent.2 (t.leafNode i)).map t.impurity) ++
    List.replicate (width - (npMax t.depthPerNode + 1)) (topLeft t.impurityFullTree)

theorem forestMore_standard (forest : List (SkTree K C)) (hwf : ∀ t ∈ forest, t.WF) :
    ∃ M, forestMore forest .standard = .ok M ∧
      M.depthFull = forest.flatMap (fun t => (List.finRange t.nLeaves).map fun i =>
        (List.range (forestDepth forest + 1)).map fun k =>
          ((t.depthPerNode (t.leafNode i) - k : ℕ) : K)) ∧
      M.impurityFull = forest.flatMap (fun t => (List.finRange t.nLeaves).map
        (impPadded (forestDepth forest + 1) t)) ∧
      M.numLeaf = forest.flatMap (fun t => (List.finRange t.nLeaves).map fun i =>
        t.nSamp (t.leafNode i)) ∧
      M.depthLeaf = forest.flatMap (fun t => (List.finRange t.nLeaves).map fun i =>
        (t.depthPerNode (t.leafNode i) : ℤ)) ∧
      M.impurityLeaf = forest.flatMap (fun t => (List.finRange t.nLeaves).map fun i =>
        t.impurity (t.leafNode i)) := by
  have hge := fun t ht => forestDepth_ge forest t ht
  unfold forestMore
  generalize forestDepth forest = D at hge ⊢
  have key : ∀ (l : List (SkTree K C)) (acc : More K), (∀ t ∈ l, t.WF) →
      (∀ t ∈ l, npMax t.depthPerNode ≤ D) →
      ∃ M, l.foldlM (fun acc t => (do
        let fd ← t.depthFullTree .standard
        let fi := t.impurityFullTree
        let gw := t.maxDist (t.distDepth .standard) + 1
        let diff := (D + 1) - gw
        let fd' := if gw ≠ D + 1 then fd.map (· ++ List.replicate diff 0) else fd
        let fi' := if gw ≠ D + 1 then fi.map (· ++ List.replicate diff (topLeft fi)) else fi
        pure { depthFull := acc.depthFull ++ fd'
               impurityFull := acc.impurityFull ++ fi'
               numLeaf := acc.numLeaf ++ (List.finRange t.nLeaves).map fun i => t.nSamp (t.leafNode i)
               depthLeaf := acc.depthLeaf ++ (List.finRange t.nLeaves).map t.leafDepth
               impurityLeaf := acc.impurityLeaf ++
                 (List.finRange t.nLeaves).map fun i => t.impurity (t.leafNode i) } :
          Except PyErr (More K))) acc = .ok M ∧
      M.depthFull = acc.depthFull ++ l.flatMap (fun t => (List.finRange t.nLeaves).map fun i =>
        (List.range (D + 1)).map fun k => ((t.depthPerNode (t.leafNode i) - k : ℕ) : K)) ∧
      M.impurityFull = acc.impurityFull ++ l.flatMap (fun t => (List.finRange t.nLeaves).map
        (impPadded (D + 1) t)) ∧
      M.numLeaf = acc.numLeaf ++ l.flatMap (fun t => (List.finRange t.nLeaves).map fun i =>
        t.nSamp (t.leafNode i)) ∧
      M.depthLeaf = acc.depthLeaf ++ l.flatMap (fun t => (List.finRange t.nLeaves).map fun i =>
        (t.depthPerNode (t.leafNode i) : ℤ)) ∧
      M.impurityLeaf = acc.impurityLeaf ++ l.flatMap (fun t => (List.finRange t.nLeaves).map fun i =>
        t.impurity (t.leafNode i)) := by
    intro l
    induction l with
    | nil => intro acc _ _; exact ⟨acc, rfl, by simp, by simp, by simp, by simp, by simp⟩
    | cons t l ih =>
      intro acc hw hd
      have ht := hw t (by simp)
      have hdt := hd t (by simp)
      have hgw := maxDist_standard t ht
      have hfd : t.depthFullTree .standard = .ok ((List.finRange t.nLeaves).map fun i =>
          (List.range (npMax t.depthPerNode + 1)).map fun k =>
            ((t.depthPerNode (t.leafNode i) - k : ℕ) : K)) := by
        unfold depthFullTree
        apply mapM_ok
        intro i _
        rw [leafDepth_eq t ht, hgw, Int.toNat_natCast]
        exact depthFullRow_eq _ _ (by have := (npMax_spec t.depthPerNode).1 (t.leafNode i); omega)
      obtain ⟨M, hM, h1, h2, h3, h4, h5⟩ := ih
        ⟨acc.depthFull ++ (List.finRange t.nLeaves).map fun i =>
            (List.range (D + 1)).map fun k => ((t.depthPerNode (t.leafNode i) - k : ℕ) : K),
         acc.impurityFull ++ (List.finRange t.nLeaves).map (impPadded (D + 1) t),
         acc.numLeaf ++ (List.finRange t.nLeaves).map fun i => t.nSamp (t.leafNode i),
         acc.depthLeaf ++ (List.finRange t.nLeaves).map fun i => (t.depthPerNode (t.leafNode i) : ℤ),
         acc.impurityLeaf ++ (List.finRange t.nLeaves).map fun i => t.impurity (t.leafNode i)⟩
        (fun t' h' => hw t' (by simp [h'])) (fun t' h' => hd t' (by simp [h']))
      refine ⟨M, ?_, ?_, ?_, ?_, ?_, ?_⟩
      · rw [List.foldlM_cons, ← hM]
        rw [hfd, hgw]
        simp only [bind, Except.bind, pure, Except.pure]
        congr 2
        · -- depth rows
          congr 1
          by_cases he : npMax t.depthPerNode + 1 = D + 1
          · simp only [he, ne_eq, not_true_eq_false, if_false]
          · rw [if_pos he, List.map_map]
            apply List.map_congr_left
            intro i _
            simp only [Function.comp]
            apply List.ext_getElem
            · simp; omega
            · intro k hk1 hk2
              simp only [List.length_map, List.length_range] at hk2
              by_cases hk : k < npMax t.depthPerNode + 1
              · rw [List.getElem_append_left (by simpa using hk)]; simp
              · rw [List.getElem_append_right (by simpa using Nat.not_lt.1 hk)]
                have h6 := (npMax_spec t.depthPerNode).1 (t.leafNode i)
                have : t.depthPerNode (t.leafNode i) - k = 0 := by omega
                simp [this]
        · congr 1
          by_cases he : npMax t.depthPerNode + 1 = D + 1
          · simp only [he, ne_eq, not_true_eq_false, if_false]
            unfold impurityFullTree
            apply List.map_congr_left
            intro i _
            simp [impPadded, he]
          · rw [if_pos he]
            conv_lhs => rw [impurityFullTree]
            rw [List.map_map]
            rfl
        · congr 1
          apply List.map_congr_left
          intro i _
          exact leafDepth_eq t ht i
      · rw [h1]; simp
      · rw [h2]; simp
      · rw [h3]; simp
      · rw [h4]; simp
      · rw [h5]; simp
  obtain ⟨M, hM, h1, h2, h3, h4, h5⟩ := key forest ⟨[], [], [], [], []⟩ hwf hge
  exact ⟨M, hM, by simpa using h1, by simpa using h2, by simpa using h3, by simpa using h4,
    by simpa using h5⟩

end SkTree
end SmoothRF
