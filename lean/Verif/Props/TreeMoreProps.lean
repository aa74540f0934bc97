import Verif.Props.GammaProps

/-!
# C106: `create_Gamma_eta_tree_more`
-/

set_option linter.unusedSectionVars false

namespace SmoothRF
open Topo SkTree

variable {K : Type} [Field K] [LinearOrder K] {C : ℕ}

/-- C106: for a regressor or a classifier the function returns with every distance style; the level
sums are the documented ones, the leaf features are the leaf's sample count, its number of edges to
the root and its impurity, in the row order of Gamma. -/
theorem C106_tree_more (ty : TreeType) (kind : Kind)
    (hty : (ty = .regressor ∧ kind = .reg) ∨ (ty = .classifier ∧ kind = .cls))
    (t : SkTree K C) (h : t.WF) (pa : Bool) (s : Style) :
    ∃ (W : ℕ) (dl : Fin t.nLeaves → ℕ),
      gammaEtaTreeMore ty t pa s = .ok
        (fun c => (List.finRange t.nLeaves).map fun i => (List.range (W + 1)).map
          (levelSum pa (t.distDepth s) (fun j => t.mass kind (t.leafNode j) c) i),
         (List.finRange t.nLeaves).map fun i => (List.range (W + 1)).map
          (levelSum pa (t.distDepth s) (fun j => t.nSamp (t.leafNode j)) i),
         (List.finRange t.nLeaves).map fun i => t.nSamp (t.leafNode i),
         (List.finRange t.nLeaves).map fun i => (dl i : ℤ),
         (List.finRange t.nLeaves).map fun i => t.impurity (t.leafNode i)) ∧
      (∀ i, t.DepthIs (t.leafNode i) (dl i)) ∧
      (∀ i j, t.distDepth s i j ≤ W) ∧ (∃ i j, t.distDepth s i j = W) ∧
      (∀ i, s ≠ .min → dl i ≤ W) ∧ (s ≠ .min → ∃ i, dl i = W) := by
  obtain ⟨W, hW, ⟨i0, j0, hij⟩, hg, he⟩ :=
    C12_gamma_eta_definition kind t h pa (t.distDepth s) (distDepth_nonneg h s)
  have hWm : W = t.maxDist (t.distDepth s) := by
    apply le_antisymm
    · have := t.maxDist_le (t.distDepth s) i0 j0; omega
    · obtain ⟨i, j, e⟩ := t.maxDist_attained' h (t.distDepth s) (distDepth_nonneg h s)
      have := hW i j; omega
  have hstd := maxDist_standard t h
  have hmx : ∀ i, t.depthPerNode (t.leafNode i) ≤ npMax t.depthPerNode :=
    fun i => (npMax_spec t.depthPerNode).1 _
  have hdle : ∀ i, s ≠ .min → t.depthPerNode (t.leafNode i) ≤ W := by
    intro i hs
    have key : t.maxDist (t.distDepth .standard) ≤ W := by
      obtain ⟨a, b, e⟩ := t.maxDist_attained' h (t.distDepth .standard) (distDepth_nonneg h .standard)
      have h1 : t.distDepth .standard a b ≤ t.distDepth s a b := by
        cases s
        · exact le_rfl
        · exact le_max_left _ _
        · exact absurd rfl hs
      have := hW a b
      omega
    have := hmx i
    omega
  refine ⟨W, fun i => t.depthPerNode (t.leafNode i), ?_, fun i => (depthIs_iff h _ _).2 rfl, hW,
    ⟨i0, j0, hij⟩, hdle, ?_⟩
  · have hd : (List.finRange t.nLeaves).map t.leafDepth =
        (List.finRange t.nLeaves).map fun i => ((t.depthPerNode (t.leafNode i) : ℕ) : ℤ) :=
      List.map_congr_left fun i _ => leafDepth_eq t h i
    have hgf : (fun c => (List.finRange t.nLeaves).map fun i => (List.range (W + 1)).map
        (levelSum pa (t.distDepth s) (fun j => t.mass kind (t.leafNode j) c) i)) =
        t.gammaTree kind pa (t.distDepth s) := funext fun c => (hg c).symm
    rw [hgf, ← he, ← hd]
    rcases hty with ⟨rfl, rfl⟩ | ⟨rfl, rfl⟩ <;> rfl
  · intro hs
    obtain ⟨a, b, e⟩ := t.maxDist_attained' h (t.distDepth .standard) (distDepth_nonneg h .standard)
    refine ⟨a, ?_⟩
    show t.depthPerNode (t.leafNode a) = W
    obtain ⟨l, hl⟩ := exists_lca h (t.leafNode a) (t.leafNode b)
    have e' : t.distDepth .standard a b = _ := distStandard_eq h a b hl
    have h1 := t.maxDist_le_depth h s
    have h2 := hdle a hs
    omega

/-- C106: any other type of tree raises ValueError. -/
theorem C106_other_type_raises (t : SkTree K C) (pa : Bool) (s : Style) :
    gammaEtaTreeMore .other t pa s = .error .valueError := rfl

/-- C106, the `min` style: the number of columns need not reach the leaf depths (which is why
`create_Gamma_eta_tree_more_per`, which writes a ramp of that length into a row, raises; see
`C18_min_style_raises`), but this function still returns. -/
theorem C106_min_is_narrower :
    exTree.WF ∧ (match gammaEtaTreeMore .regressor exTree false .min with
      | .ok (_, e, n, d, i) => some (e, n, d, i) | .error _ => none) =
      some ([[1, 5], [2, 4], [3, 3]], [1, 2, 3], [2, 2, 1], [0, 1, 3]) := by
  refine ⟨by decide, by decide +kernel⟩

example : exTree.WF ∧ (match gammaEtaTreeMore .regressor exTree true .standard with
      | .ok (g, e, n, d, i) => some (g 0, e, n, d, i) | .error _ => none) =
      some ([[1, 9, 39], [8, 9, 39], [30, 39, 39]], [[1, 3, 6], [2, 3, 6], [3, 6, 6]],
        [1, 2, 3], [2, 2, 1], [0, 1, 3]) := by
  refine ⟨by decide, by decide +kernel⟩

end SmoothRF
