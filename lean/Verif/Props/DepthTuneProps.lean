import Verif.Props.SmoothProps
import Verif.Proofs.DepthTune

/-!
# C50–C52: tune_depth.py
-/

set_option linter.unusedSectionVars false

namespace SmoothRF
open SkTree Topo

variable {K : Type} [Field K] [LinearOrder K] {C : ℕ}

/-- C50: `leaf_predicted_values` has one entry for each `d` below the tree's depth; entry `d` holds for
leaf `r` the stored value of the deepest ancestor-or-self of depth at most `d`, and that node is
unique. -/
theorem C50_leaf_predicted_values {t : SkTree K C} (h : t.WF) {D : ℕ} (hD : t.IsTreeDepth D) :
    ∃ L, leafPredictedValues t = .ok L ∧ L.length = D ∧
      ∀ d < D, ∃ row, L[d]? = some row ∧ row.length = t.nLeaves ∧
        ∀ r : Fin t.nLeaves, ∃ a, t.Deepest d (t.leafNode r) a ∧
          (∀ b, t.Deepest d (t.leafNode r) b → b = a) ∧ row[r.val]? = some (t.value a) := by
  classical
  choose tr htr using fun (d : ℕ) (i : t.Node) => exists_deepest h d i
  refine ⟨_, leafPredictedValues_eq h hD htr, by simp, fun d hd => ?_⟩
  refine ⟨(List.finRange t.nLeaves).map fun r => t.value (tr d (t.leafNode r)), ?_, by simp, ?_⟩
  · rw [List.getElem?_map, List.getElem?_range hd]; rfl
  · intro r
    refine ⟨tr d (t.leafNode r), htr _ _, fun b hb => deepest_unique h hb (htr _ _), ?_⟩
    rw [List.getElem?_map, finRange_getElem? r]
    rfl

/-- Instance: depth two, so the candidates are depths 0 and 1; the leaves are nodes 2, 3, 4. -/
example : exTree.WF ∧ (match leafPredictedValues exTree with
    | .ok L => some (L.map fun row => row.map fun v => v 0)
    | .error _ => none) = some [[13 / 2, 13 / 2, 13 / 2], [3, 3, 10]] := by
  decide +kernel

/-- C51: with trees of depth at least one and tuning rows for every tree, `depth_tune` returns the loss of every candidate depth
(each tree truncated at that depth, or at its own last candidate if shallower), and the forest truncated
at the first depth of least loss. `dep` gives the trees' depths and `tr t d` the truncation of `t` at
depth `d`. -/
theorem C51_depth_tune [IsStrictOrderedRing K] [NeZero C] {kind : Kind} {forest : List (SkTree K C)}
    (hwf : ∀ t ∈ forest, t.WF) {dep : SkTree K C → ℕ} (hdep : ∀ t ∈ forest, t.IsTreeDepth (dep t))
    (hpos : ∀ t ∈ forest, 0 < dep t) {D : ℕ} (hD : ∃ t ∈ forest, dep t = D)
    (hmax : ∀ t ∈ forest, dep t ≤ D) {tr : (t : SkTree K C) → ℕ → t.Node → t.Node}
    (htr : ∀ t ∈ forest, ∀ d i, t.Deepest d i (tr t d i)) {data : DataArgs} {src : TuneSrc}
    (hsrc : tuneSource data = .ok src) {sources : TuneSrc → ℕ → List (LossRow K)}
    (hrows : ∀ tt ∈ forest.zipIdx, (∀ r ∈ sources src tt.2, r.leaf < tt.1.nLeaves) ∧ sources src tt.2 ≠ []) :
    let loss := fun d => (forest.zipIdx.map fun tt =>
      truncLoss kind tt.1 (tr tt.1 (min d (dep tt.1 - 1))) (sources src tt.2)).sum
    ∃ out best, depthTune (some kind) forest data sources = .ok (out, (List.range D).map loss) ∧
      best < D ∧ (∀ d < D, loss best ≤ loss d) ∧ (∀ d < best, loss best < loss d) ∧
      List.Forall₂ (fun t t' => LeafUpdate t t' fun r =>
        t.value (tr t (min best (dep t - 1)) (t.leafNode r))) forest out := by
  intro loss
  have hfd : forestDepth forest = D := by
    have hne : forest.map SkTree.toTopo ≠ [] := by
      obtain ⟨t, ht, -⟩ := hD
      intro e
      rw [List.map_eq_nil_iff] at e
      simp [e] at ht
    obtain ⟨-, -, h3, h4⟩ := C02_calc_depth_for_forest (forest.map SkTree.toTopo) hne (by
      intro t ht
      obtain ⟨s, hs, rfl⟩ := List.mem_map.1 ht
      exact hwf s hs)
    apply le_antisymm
    · obtain ⟨t, ht, i, hi⟩ := h4
      obtain ⟨s, hs, rfl⟩ := List.mem_map.1 ht
      exact ((hdep s hs).2 i _ hi).trans (hmax s hs)
    · obtain ⟨t, ht, rfl⟩ := hD
      obtain ⟨i, hi⟩ := (hdep t ht).1
      exact h3 t.toTopo (List.mem_map.2 ⟨t, ht, rfl⟩) i _ hi
  have hD0 : 0 < D := by
    obtain ⟨t, ht, e⟩ := hD
    exact e ▸ hpos t ht
  obtain ⟨j, hj⟩ := depthFold kind D (sources src) dep tr forest.zipIdx (fun tt htt => by
    have hm : tt.1 ∈ forest := by
      rw [← List.zipIdx_map_fst 0 forest]
      exact List.mem_map.2 ⟨tt, htt, rfl⟩
    exact ⟨hwf _ hm, hdep _ hm, hpos _ hm, hmax _ hm, htr _ hm, hrows _ htt⟩) (fun _ => 0) none
  obtain ⟨best, b1, b2, b3, b4⟩ := npArgmin_range D hD0 loss
  obtain ⟨out, o1, o2⟩ := mapM_forall2 (l := forest) (f := truncateTree best)
    (R := fun t t' => LeafUpdate t t' fun r =>
        t.value (tr t (min best (dep t - 1)) (t.leafNode r)))
    (fun t ht => truncateTree_eq (hwf t ht) (hdep t ht) (hpos t ht) (htr t ht) best)
  refine ⟨out, best, ?_, b2, b3, b4, o2⟩
  have e0 : List.replicate D (0 : K) = (List.range D).map fun _ => 0 := by simp
  simp only [depthTune, hsrc, hfd, bind, Except.bind]
  rw [e0, hj]
  simp only [zero_add]
  have e1 : npArgmin ((List.range D).map fun d => (forest.zipIdx.map fun tt =>
      truncLoss kind tt.1 (tr tt.1 (min d (dep tt.1 - 1))) (sources src tt.2)).sum) = .ok best := b1
  rw [e1]
  simp only [o1]
  rfl

/-- Tuning rows for the instances: two observations in the first leaf, one in the second. -/
abbrev exLossRows : TuneSrc → ℕ → List (LossRow ℚ) := fun _ _ => [⟨0, 3⟩, ⟨0, 2⟩, ⟨1, 4⟩]

/-- The tuning data are given. -/
abbrev exData : DataArgs := ⟨false, false, true, true, false⟩

/-- Instance with a stump (depth one) and a tree of depth two: the losses are 11/4 + 155/4 and 11/4 + 2,
depth one wins, and the stump keeps its own last candidate 0. -/
example : (match depthTune (some .reg) [exStump, exTree] exData exLossRows with
    | .ok (out, loss) => some (valuesOf out, loss)
    | .error _ => none) =
      some ([[[5 / 2], [5 / 2], [5 / 2]], [[13 / 2], [3], [3], [3], [10]]], [83 / 2, 19 / 4]) := by
  decide +kernel

/-- The hypotheses of C51 hold for that forest. -/
example : (∀ t ∈ [exStump, exTree], t.WF) ∧ exStump.IsTreeDepth 1 ∧ exTree.IsTreeDepth 2 := by
  have h1 : exStump.WF := by decide
  have h2 : exTree.WF := by decide
  refine ⟨by simp [h1, h2], ?_, ?_⟩
  · have := isTreeDepth_npMax h1
    rwa [show npMax exStump.depthPerNode = 1 by decide +kernel] at this
  · have := isTreeDepth_npMax h2
    rwa [show npMax exTree.depthPerNode = 2 by decide +kernel] at this

/-- C51, degenerate forests: if the first tree is a single node, the loop variable of the loss loop is
unbound. -/
theorem C51_single_node_raises {kind : Kind} {t : SkTree K C} {forest : List (SkTree K C)}
    (hwf : t.WF) (h0 : t.IsTreeDepth 0) {data : DataArgs} {src : TuneSrc}
    (hsrc : tuneSource data = .ok src) {sources : TuneSrc → ℕ → List (LossRow K)} :
    depthTune (some kind) (t :: forest) data sources = .error .unboundLocalError := by
  have e : leafPredictedValues t = .ok [] := by
    unfold leafPredictedValues
    rw [isTreeDepth_unique (isTreeDepth_npMax hwf) h0]
    rfl
  simp only [depthTune, hsrc, bind, Except.bind, List.zipIdx_cons, List.foldlM_cons, depthTuneStep, e]
  rfl

/-- C51, degenerate forests: if any tree is a single node, `depth_tune` does not return, so the
restriction to depth at least one cannot be dropped. -/
theorem C51_any_single_node_raises {kind : Kind} {t : SkTree K C} {forest : List (SkTree K C)}
    (hwf : t.WF) (h0 : t.IsTreeDepth 0) (hmem : t ∈ forest) (data : DataArgs)
    (sources : TuneSrc → ℕ → List (LossRow K)) :
    ∃ e, depthTune (some kind) forest data sources = .error e := by
  have e : leafPredictedValues t = .ok [] := by
    unfold leafPredictedValues
    rw [isTreeDepth_unique (isTreeDepth_npMax hwf) h0]
    rfl
  have hmap : ∀ best (l : List (SkTree K C)), t ∈ l → ∃ x, l.mapM (truncateTree best) = .error x := by
    intro best l hl
    induction l with
    | nil => simp at hl
    | cons a l ih =>
      rw [List.mapM_cons]
      cases ha : truncateTree best a with
      | error x => exact ⟨x, rfl⟩
      | ok a' =>
        rcases List.mem_cons.1 hl with rfl | hl
        · rw [truncateTree, e] at ha
          simp [bind, Except.bind] at ha
        · obtain ⟨x, hx⟩ := ih hl
          exact ⟨x, by simp only [bind, Except.bind, hx]⟩
  cases hr : depthTune (some kind) forest data sources with
  | error x => exact ⟨x, rfl⟩
  | ok p =>
    simp only [depthTune] at hr
    obtain ⟨src, -, hr⟩ := bind_ok hr
    obtain ⟨s, -, hr⟩ := bind_ok hr
    obtain ⟨best, -, hr⟩ := bind_ok hr
    obtain ⟨out, ho, -⟩ := bind_ok hr
    obtain ⟨x, hx⟩ := hmap best forest hmem
    rw [hx] at ho
    cases ho

/-- A single-node tree. -/
abbrev exLone : SkTree ℚ 1 :=
  { toTopo := ⟨0, ![none], ![none]⟩, value := fun _ _ => 2, nSamp := ![3], impurity := ![1] }

example : exLone.WF ∧ exLone.IsTreeDepth 0 := by
  have h : exLone.WF := by decide
  refine ⟨h, ?_⟩
  have := isTreeDepth_npMax h
  rwa [show npMax exLone.depthPerNode = 0 by decide +kernel] at this

/-- With the single-node tree second the error comes from the second loop. -/
example : (match depthTune (some .reg) [exStump, exLone] exData (fun _ _ => [⟨0, 1⟩]) with
    | .ok _ => none
    | .error e => some e) = some .valueError := by decide +kernel

/-- Argument checks of `depth_tune`: another object raises ValueError, then missing training data raise
TypeError. -/
theorem C51_argument_checks (rf : Option Kind) (forest : List (SkTree K C)) (data : DataArgs)
    (sources : TuneSrc → ℕ → List (LossRow K)) :
    (rf = none → depthTune rf forest data sources = .error .valueError) ∧
    (∀ kind, rf = some kind → tuneSource data = .error .typeError →
      depthTune rf forest data sources = .error .typeError) := by
  refine ⟨?_, ?_⟩
  · rintro rfl; rfl
  · rintro kind rfl h
    simp only [depthTune, h]
    rfl

example : tuneSource ⟨false, true, false, true, false⟩ = .error .typeError := by decide

/-! ### C52 -/

/-- The full claim of C52: if truncating at any candidate depth is no better than not truncating
(`tr` = identity), the forest comes back unchanged. -/
def C52Claim : Prop :=
  ∀ (forest : List (SkTree ℚ 1)) (data : DataArgs) (sources : TuneSrc → ℕ → List (LossRow ℚ))
    (src : TuneSrc) (out : List (SkTree ℚ 1)) (loss : List ℚ),
    (∀ t ∈ forest, t.WF) → tuneSource data = .ok src →
    depthTune (some .reg) forest data sources = .ok (out, loss) →
    (∀ x ∈ loss, (forest.zipIdx.map fun tt =>
      truncLoss .reg tt.1 id (sources src tt.2)).sum ≤ x) → out = forest

/-- C52 fails: the tuning responses equal the stump's own leaf values, so the full tree has loss 0 and
the only candidate (the root) has loss 9/2, yet the leaves are overwritten with the root value. -/
theorem C52_refuted : ¬ C52Claim := by
  intro h
  have hrun : ∃ out loss, depthTune (some .reg) [exStump] exData
      (fun _ _ => [⟨0, 1⟩, ⟨1, 4⟩]) = .ok (out, loss) ∧ loss = [9 / 2] ∧
        valuesOf out = [[[5 / 2], [5 / 2], [5 / 2]]] := by
    have hk : (match depthTune (some .reg) [exStump] exData (fun _ _ => [⟨0, 1⟩, ⟨1, 4⟩]) with
      | .ok (out, loss) => some (loss, valuesOf out)
      | .error _ => none) = some ([9 / 2], [[[5 / 2], [5 / 2], [5 / 2]]]) := by decide +kernel
    revert hk
    cases depthTune (some .reg) [exStump] exData (fun _ _ => [⟨0, 1⟩, ⟨1, 4⟩]) with
    | error e => simp
    | ok p =>
      intro hk
      simp only [Option.some.injEq, Prod.mk.injEq] at hk
      exact ⟨p.1, p.2, rfl, hk.1, hk.2⟩
  obtain ⟨out, loss, h1, h2, h3⟩ := hrun
  have := h [exStump] exData (fun _ _ => [⟨0, 1⟩, ⟨1, 4⟩]) .given out loss
    (by simp only [List.mem_singleton, forall_eq]; decide) (by decide) h1 (by
      intro x hx
      rw [h2, List.mem_singleton] at hx
      have n2 : exStump.nLeaves = 2 := by decide +kernel
      have l0 : exStump.leafNode ⟨0, by decide +kernel⟩ = 1 := by decide +kernel
      have l1 : exStump.leafNode ⟨1, by decide +kernel⟩ = 2 := by decide +kernel
      have hz : truncLoss .reg exStump id [⟨0, 1⟩, ⟨1, 4⟩] = 0 := by
        simp only [truncLoss, List.map_cons, List.map_nil]
        rw [dif_pos (by rw [n2]; decide), dif_pos (by rw [n2]; decide), l0, l1]
        simp [pointLoss]
      simp only [List.zipIdx_cons, List.zipIdx_nil, List.map_cons, List.map_nil, hz, hx]
      norm_num)
  rw [this] at h3
  exact absurd h3 (by decide +kernel)

/-- C52, the part that holds: a leaf keeps its value if its depth is at most the chosen depth and below
its tree's depth; a leaf at full depth always receives the value of a proper ancestor, whatever the
losses. Missing from C52: the full depth is never a candidate. -/
theorem C52_depth_tune_partial [IsStrictOrderedRing K] [NeZero C] {kind : Kind}
    {forest : List (SkTree K C)}
    (hwf : ∀ t ∈ forest, t.WF) (hpos : ∀ t ∈ forest, ∀ D, t.IsTreeDepth D → 0 < D)
    {data : DataArgs} {src : TuneSrc} (hne : forest ≠ [])
    (hsrc : tuneSource data = .ok src) {sources : TuneSrc → ℕ → List (LossRow K)}
    (hrows : ∀ tt ∈ forest.zipIdx, (∀ r ∈ sources src tt.2, r.leaf < tt.1.nLeaves) ∧ sources src tt.2 ≠ []) :
    ∃ out loss best, depthTune (some kind) forest data sources = .ok (out, loss) ∧
      loss[best]?.any (fun m => loss.all fun x => decide (m ≤ x)) = true ∧
      List.Forall₂ (fun t t' => ∃ f, LeafUpdate t t' f ∧ ∀ r : Fin t.nLeaves, ∀ d D,
        t.DepthIs (t.leafNode r) d → t.IsTreeDepth D →
        (d ≤ best → d < D → f r = t.value (t.leafNode r)) ∧
        (d = D → ∃ a, t.Anc a (t.leafNode r) ∧ a ≠ t.leafNode r ∧ f r = t.value a)) forest out := by
  classical
  let dep : SkTree K C → ℕ := fun t => npMax t.depthPerNode
  have hdep : ∀ t ∈ forest, t.IsTreeDepth (dep t) := fun t ht => isTreeDepth_npMax (hwf t ht)
  let tr : (t : SkTree K C) → ℕ → t.Node → t.Node := fun t d i =>
    if h : t.WF then (exists_deepest h d i).choose else i
  have htr : ∀ t ∈ forest, ∀ d i, t.Deepest d i (tr t d i) := by
    intro t ht d i
    simp only [tr, dif_pos (hwf t ht)]
    exact (exists_deepest (hwf t ht) d i).choose_spec
  obtain ⟨t0, h0, hm0⟩ : ∃ t ∈ forest, ∀ s ∈ forest, dep s ≤ dep t := by
    clear htr hdep hrows hpos hwf
    induction forest with
    | nil => exact absurd rfl hne
    | cons a l ih =>
      by_cases hl : l = []
      · subst hl
        exact ⟨a, by simp, by simp⟩
      · obtain ⟨t, ht, hm⟩ := ih hl
        rcases le_total (dep a) (dep t) with h | h
        · exact ⟨t, by simp [ht], by simpa [h] using hm⟩
        · refine ⟨a, by simp, ?_⟩
          intro s hs
          rcases List.mem_cons.1 hs with rfl | hs
          · exact le_rfl
          · exact (hm s hs).trans h
  obtain ⟨out, best, h1, h2, h3, -, h5⟩ := C51_depth_tune (kind := kind) hwf hdep
    (fun t ht => hpos t ht _ (hdep t ht)) ⟨t0, h0, rfl⟩ hm0 htr hsrc hrows
  refine ⟨out, _, best, h1, ?_, ?_⟩
  · rw [List.getElem?_map, List.getElem?_range h2]
    simp only [Option.map_some, Option.any_some, List.all_eq_true, List.mem_map, List.mem_range,
      decide_eq_true_eq]
    rintro x ⟨d, hd, rfl⟩
    exact h3 d hd
  · refine forall2_imp_mem h5 (fun t ht t' hu => ⟨_, hu, ?_⟩)
    intro r d D hd hD'
    have w := hwf t ht
    have eD := isTreeDepth_unique hD' (hdep t ht)
    subst eD
    have dpos := hpos t ht _ (hdep t ht)
    obtain ⟨a1, ⟨e, he, a2⟩, a3⟩ := htr t ht (min best (dep t - 1)) (t.leafNode r)
    refine ⟨fun hb hlt => ?_, fun hfull => ⟨_, a1, ?_, rfl⟩⟩
    · have := a3 (t.leafNode r) d (.refl _) hd (by omega)
      rw [a1.antisymm w this]
    · intro eq
      rw [eq, depthIs_iff w] at a2
      rw [depthIs_iff w] at hd
      omega

end SmoothRF
