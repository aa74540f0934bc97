import Verif.Proofs.Box
import Verif.Props.TreeProps

/-!
# Bounding boxes, centres and pooled distances (C58, C79, C80)
-/

set_option linter.unusedSectionVars false

namespace SmoothRF
open SplitTree Topo

variable {K : Type} [Field K] [LinearOrder K] [IsStrictOrderedRing K] {p : ℕ}

/-- Two splits on two features: `x0 <= 1`, then on the right `x1 <= 2`. -/
abbrev exSplit : SplitTree ℚ 2 :=
  { toTopo := ⟨4, ![some 1, none, some 3, none, none], ![some 2, none, some 4, none, none]⟩
    feature := ![0, 0, 1, 0, 0]
    threshold := ![1, 0, 2, 0, 0] }

/-- Rows reaching the three leaves. -/
abbrev exSplitRows : List (Fin 2 → ℚ) := [![0, 0], ![2, 1], ![3, 5]]

/-- Boxes for display. -/
def boxesOf (t : SplitTree K p) (X : List (Fin p → K)) : Option (List (List (K × K))) :=
  match t.boundBox X with
  | .ok b => some (List.ofFn fun i => List.ofFn (b i))
  | .error _ => none

/-- C58: for every non-empty data set the boxes are computed; the root's box is the exact range of the
data, and every row of `X` that reaches a node lies in that node's box. -/
theorem C58_boxes_contain {t : SplitTree K p} (h : t.WF) {X : List (Fin p → K)} (hX : X ≠ []) :
    ∃ b, t.boundBox X = .ok b ∧
      (∀ j, (∀ x ∈ X, (b 0 j).1 ≤ x j ∧ x j ≤ (b 0 j).2) ∧
        (∃ x ∈ X, x j = (b 0 j).1) ∧ ∃ x ∈ X, x j = (b 0 j).2) ∧
      ∀ i, ∀ x ∈ X, t.Routed x i → ∀ j, (b i j).1 ≤ x j ∧ x j ≤ (b i j).2 := by
  obtain ⟨x, xs, rfl⟩ := List.exists_cons_of_ne_nil hX
  obtain ⟨b, e, h0, hc⟩ := boundBox_spec h x xs
  have hr : ∀ j, ∀ z ∈ x :: xs, (b 0 j).1 ≤ z j ∧ z j ≤ (b 0 j).2 := by
    intro j z hz
    rw [h0 j]
    exact ⟨colMin_le x xs j z hz, le_colMax x xs j z hz⟩
  refine ⟨b, e, fun j => ⟨hr j, ?_, ?_⟩, fun i z hz hi => routed_inBox hc (fun j => hr j z hz) hi⟩
  · rw [h0 j]
    obtain ⟨r, hr, e⟩ := colMin_mem x xs j
    exact ⟨r, hr, e.symm⟩
  · rw [h0 j]
    obtain ⟨r, hr, e⟩ := colMax_mem x xs j
    exact ⟨r, hr, e.symm⟩

/-- C58, exactness: when every split of the tree sends at least one row of `X` each way (as for the data
the tree was grown on), the box of a node is exactly the part of the data range cut out by the closed
split constraints on the node's root path. -/
theorem C58_boxes_exact {t : SplitTree K p} (h : t.WF) {X : List (Fin p → K)} (hX : X ≠ [])
    (hg : t.Grown X) {b : t.Boxes} (hb : t.boundBox X = .ok b) (i : t.Node) (z : Fin p → K) :
    InBox (b i) z ↔ InBox (b 0) z ∧ t.InRegion z i := by
  obtain ⟨x, xs, rfl⟩ := List.exists_cons_of_ne_nil hX
  obtain ⟨b', e, h0, hc⟩ := boundBox_spec h x xs
  rw [e] at hb
  cases hb
  have hr : ∀ w ∈ x :: xs, InBox (b 0) w := by
    intro w hw j
    rw [h0 j]
    exact ⟨colMin_le x xs j w hw, le_colMax x xs j w hw⟩
  have key : ∀ i, t.Anc 0 i → (InBox (b i) z ↔ InBox (b 0) z ∧ t.InRegion z i) := by
    intro i hi
    induction hi with
    | refl =>
      refine ⟨fun hz => ⟨hz, fun a c hac => ?_⟩, fun hz => hz.1⟩
      have hc0 := (anc_zero_iff h).1 hac
      subst hc0
      have hn : ¬ t.IsChild a 0 := fun e => absurd (h.lt a 0 e) (Nat.not_lt_zero _)
      exact ⟨fun e => absurd (Or.inl e) hn, fun e => absurd (Or.inr e) hn⟩
    | @step q c _ hqc ih =>
      obtain ⟨l, r, hl, hr'⟩ := children_of_not_leaf h (fun e : t.IsLeaf q => e c hqc)
      obtain ⟨xl, mxl, rl⟩ := (hg q).1 l hl
      obtain ⟨xr, mxr, rr⟩ := (hg q).2 r hr'
      obtain ⟨rl', cl⟩ := (routed_child h rl).1 hl
      obtain ⟨rr', cr⟩ := (routed_child h rr).2 hr'
      have blo := (routed_inBox hc (hr xl mxl) rl' (t.feature q)).1.trans cl
      have bhi := cr.le.trans (routed_inBox hc (hr xr mxr) rr' (t.feature q)).2
      rw [inRegion_child h hqc, ← and_assoc, ← ih]
      rcases hqc with e | e
      · have hne : t.right q ≠ some c := h.ne q c e
        rw [(hc q).1 c e]
        constructor
        · intro hz
          have hzf := hz (t.feature q)
          simp only [leftBox, Function.update_self] at hzf
          refine ⟨fun j => ?_, fun _ => hzf.2, fun e' => absurd e' hne⟩
          by_cases hj : j = t.feature q
          · subst hj
            exact ⟨hzf.1, hzf.2.trans bhi⟩
          · have := hz j
            simpa only [leftBox, Function.update_of_ne hj] using this
        · rintro ⟨hz, h1, -⟩
          exact inBox_left hz (h1 e)
      · have hne : t.left q ≠ some c := fun e' => h.ne q c e' e
        rw [(hc q).2 c e]
        constructor
        · intro hz
          have hzf := hz (t.feature q)
          simp only [rightBox, Function.update_self] at hzf
          refine ⟨fun j => ?_, fun e' => absurd e' hne, fun _ => hzf.1⟩
          by_cases hj : j = t.feature q
          · subst hj
            exact ⟨blo.trans hzf.1, hzf.2⟩
          · have := hz j
            simpa only [rightBox, Function.update_of_ne hj] using this
        · rintro ⟨hz, -, h1⟩
          exact inBox_right hz (h1 e)
  exact key i (anc_root h i)

/-- C58, centres: the centre is the midpoint of the box in every coordinate, and lies in the box of every
node that some row of `X` reaches. -/
theorem C58_center {t : SplitTree K p} (h : t.WF) {X : List (Fin p → K)} (hX : X ≠ []) :
    ∃ b c, t.boundBox X = .ok b ∧ t.centerTree X = .ok c ∧
      (∀ i j, c i j - (b i j).1 = (b i j).2 - c i j) ∧
      (∀ i, (∃ z, InBox (b i) z) → InBox (b i) (c i)) ∧
      ∀ i, (∃ x ∈ X, t.Routed x i) → InBox (b i) (c i) := by
  obtain ⟨b, e, -, hin⟩ := C58_boxes_contain h hX
  have hmid : ∀ i, (∃ z, InBox (b i) z) →
      InBox (b i) (fun j => ((b i j).1 + (b i j).2) / 2) := by
    rintro i ⟨z, hz⟩ j
    have := (hz j).1.trans (hz j).2
    constructor <;> linarith
  refine ⟨b, fun i j => ((b i j).1 + (b i j).2) / 2, e, ?_, ?_, hmid, ?_⟩
  · unfold centerTree; rw [e]; rfl
  · intro i j; ring
  · rintro i ⟨x, hx, hr⟩
    exact hmid i ⟨x, hin i x hx hr⟩

/-- C58: an empty data set raises ValueError. -/
theorem C58_empty (t : SplitTree K p) : t.boundBox [] = .error .valueError ∧
    t.centerTree [] = .error .valueError := ⟨rfl, rfl⟩

theorem exSplit_grown : exSplit.Grown exSplitRows := by
  have h1 : exSplit.Routed ![0, 0] (1 : Fin 5) :=
    .goLeft (i := (0 : Fin 5)) .root rfl (by decide +kernel)
  have h2 : exSplit.Routed ![2, 1] (2 : Fin 5) :=
    .goRight (i := (0 : Fin 5)) .root rfl (by decide +kernel)
  have h2' : exSplit.Routed ![3, 5] (2 : Fin 5) :=
    .goRight (i := (0 : Fin 5)) .root rfl (by decide +kernel)
  have h3 : exSplit.Routed ![2, 1] (3 : Fin 5) := .goLeft h2 rfl (by decide +kernel)
  have h4 : exSplit.Routed ![3, 5] (4 : Fin 5) := .goRight h2' rfl (by decide +kernel)
  intro i
  fin_cases i
  · refine ⟨fun l e => ?_, fun r e => ?_⟩
    · cases e; exact ⟨_, by simp, h1⟩
    · cases e; exact ⟨_, by simp, h2⟩
  · exact ⟨nofun, nofun⟩
  · refine ⟨fun l e => ?_, fun r e => ?_⟩
    · cases e; exact ⟨_, by simp, h3⟩
    · cases e; exact ⟨_, by simp, h4⟩
  · exact ⟨nofun, nofun⟩
  · exact ⟨nofun, nofun⟩

example : exSplit.WF ∧ boxesOf exSplit exSplitRows =
    some [[(0, 3), (0, 5)], [(0, 1), (0, 5)], [(1, 3), (0, 5)], [(1, 3), (0, 2)], [(1, 3), (2, 5)]] :=
  ⟨by decide, by decide +kernel⟩

/-- C79: `center_forest` stacks the centres of all nodes tree by tree and in node order, with the tree's
number beside each: row `offset + i` belongs to node `i` of its tree. -/
theorem C79_center_forest {forest : List (SplitTree K p)} (hwf : ∀ t ∈ forest, t.WF)
    {X : List (Fin p → K)} (hX : X ≠ []) :
    ∃ rows idx, centerForest forest X = .ok (rows, idx) ∧ rows.length = idx.length ∧
      rows.length = (forest.map fun t => t.m + 1).sum ∧
      ∀ pre t post, forest = pre ++ t :: post → ∀ c, t.centerTree X = .ok c → ∀ i : t.Node,
        rows[(pre.map fun s => s.m + 1).sum + i.val]? = some (c i) ∧
        idx[(pre.map fun s => s.m + 1).sum + i.val]? = some pre.length := by
  classical
  have hcen : ∀ t ∈ forest, ∃ c, t.centerTree X = .ok c := by
    intro t ht
    obtain ⟨b, c, -, e, -⟩ := C58_center (hwf t ht) hX
    exact ⟨c, e⟩
  let cen : (t : SplitTree K p) → t.Node → Fin p → K := fun t =>
    match t.centerTree X with | .ok c => c | .error _ => fun _ _ => 0
  have hcen' : ∀ t ∈ forest, t.centerTree X = .ok (cen t) := by
    intro t ht
    obtain ⟨c, e⟩ := hcen t ht
    simp only [cen]
    rw [e]
  have run : ∀ (l : List (SplitTree K p)) (k : ℕ) (a : List (Fin p → K)) (n : List ℕ),
      (∀ t ∈ l, t.centerTree X = .ok (cen t)) →
      (l.zipIdx k).foldlM (m := Except PyErr)
        (fun acc tt => do
          let c ← tt.1.centerTree X
          pure (acc.1 ++ (List.finRange (tt.1.m + 1)).map c,
            acc.2 ++ List.replicate (tt.1.m + 1) tt.2)) (a, n) =
      .ok (a ++ l.flatMap fun t => (List.finRange (t.m + 1)).map (cen t),
        n ++ (l.zipIdx k).flatMap fun tt => List.replicate (tt.1.m + 1) tt.2) := by
    intro l
    induction l with
    | nil => intro k a n _; simp [pure, Except.pure]
    | cons t l ih =>
      intro k a n hl
      rw [List.zipIdx_cons, List.foldlM_cons]
      simp only
      rw [hl t (by simp)]
      simp only [bind, Except.bind, pure, Except.pure] at ih ⊢
      rw [ih (k + 1) _ _ (fun s hs => hl s (by simp [hs]))]
      simp [List.append_assoc]
  refine ⟨forest.flatMap fun t => (List.finRange (t.m + 1)).map (cen t),
    forest.zipIdx.flatMap fun tt => List.replicate (tt.1.m + 1) tt.2, ?_, ?_, ?_, ?_⟩
  · have := run forest 0 [] [] hcen'
    simpa [centerForest] using this
  · rw [List.length_flatMap, List.length_flatMap]
    simp only [List.length_map, List.length_finRange, List.length_replicate]
    rw [show (fun a : SplitTree K p × ℕ => a.1.m + 1) = (fun t => t.m + 1) ∘ Prod.fst from rfl,
      ← List.map_map, List.zipIdx_map_fst]
  · rw [List.length_flatMap]
    simp
  · rintro pre t post rfl c hc i
    have ec : cen t = c := by
      have := hcen' t (by simp)
      rw [hc] at this
      exact (Except.ok.inj this).symm
    have hlen : (pre.flatMap fun t => (List.finRange (t.m + 1)).map (cen t)).length =
        (pre.map fun s => s.m + 1).sum := by
      rw [List.length_flatMap]; simp
    have hlen2 : (pre.zipIdx.flatMap fun tt => List.replicate (tt.1.m + 1) tt.2).length =
        (pre.map fun s => s.m + 1).sum := by
      rw [List.length_flatMap]
      simp only [List.length_replicate]
      rw [show (fun a : SplitTree K p × ℕ => a.1.m + 1) = (fun t => t.m + 1) ∘ Prod.fst from rfl,
        ← List.map_map, List.zipIdx_map_fst]
    constructor
    · rw [List.flatMap_append, List.flatMap_cons, ← hlen, List.getElem?_append_right (by omega),
        Nat.add_sub_cancel_left, List.getElem?_append_left (by simp; omega), List.getElem?_map,
        finRange_getElem? i, ec]
      rfl
    · rw [List.zipIdx_append, List.flatMap_append, List.zipIdx_cons, List.flatMap_cons, ← hlen2,
        List.getElem?_append_right (by omega), Nat.add_sub_cancel_left,
        List.getElem?_append_left (by simp; omega), List.getElem?_replicate, if_pos i.2]
      simp

example : (match centerForest [exSplit, exSplit] exSplitRows with
    | .ok (r, i) => some (r.map fun f => List.ofFn f, i) | .error _ => none) =
    some ([[3 / 2, 5 / 2], [1 / 2, 5 / 2], [2, 5 / 2], [2, 1], [2, 7 / 2],
      [3 / 2, 5 / 2], [1 / 2, 5 / 2], [2, 5 / 2], [2, 1], [2, 7 / 2]],
      [0, 0, 0, 0, 0, 1, 1, 1, 1, 1]) := by decide +kernel

/-- C80: `quantiles_distance_trees` without `levels` returns every leaf-to-leaf distance of every tree
exactly once: as many values as there are ordered pairs of leaves, and the number of occurrences of a
value is the number of pairs at that distance. -/
theorem C80_all_distances (forest : List Topo) (s : Topo.Style) :
    (allDistances forest s).length = (forest.map fun t => t.nLeaves * t.nLeaves).sum ∧
    ∀ v, (allDistances forest s).count v = (forest.map fun t =>
      (Finset.univ.filter fun ij : Fin t.nLeaves × Fin t.nLeaves => t.distDepth s ij.1 ij.2 = v).card).sum := by
  have run : ∀ (l : List Topo) (a : List ℤ), l.foldl
      (fun acc t => acc ++ (List.finRange t.nLeaves).flatMap fun i =>
        (List.finRange t.nLeaves).map fun j => t.distDepth s i j) a =
      a ++ l.flatMap fun t => (List.finRange t.nLeaves).flatMap fun i =>
        (List.finRange t.nLeaves).map fun j => t.distDepth s i j := by
    intro l
    induction l with
    | nil => simp
    | cons t l ih => intro a; rw [List.foldl_cons, ih]; simp
  have e : allDistances forest s = forest.flatMap fun t => (List.finRange t.nLeaves).flatMap fun i =>
      (List.finRange t.nLeaves).map fun j => t.distDepth s i j := by
    unfold allDistances; rw [run]; simp
  rw [e]
  constructor
  · rw [List.length_flatMap]
    congr 1
    refine List.map_congr_left fun t _ => ?_
    rw [List.length_flatMap]
    simp
  · intro v
    rw [List.count_flatMap]
    congr 1
    refine List.map_congr_left fun t _ => ?_
    simp only [Function.comp_apply]
    rw [List.count_flatMap]
    have h1 : ∀ (l : List (Fin t.nLeaves)) (f : Fin t.nLeaves → ℤ),
        (l.map f).count v = (l.map fun j => if f j = v then 1 else 0).sum := by
      intro l f
      induction l with
      | nil => simp
      | cons a l ih =>
        rw [List.map_cons, List.count_cons, ih, List.map_cons, List.sum_cons]
        by_cases hv : f a = v <;> simp [hv, add_comm]
    rw [Finset.card_filter, Fintype.sum_prod_type, Fin.sum_univ_def]
    congr 1
    refine List.map_congr_left fun i _ => ?_
    simp only [Function.comp_apply]
    rw [h1, Fin.sum_univ_def]

example : allDistances [exTopo] .standard = [0, 1, 2, 1, 0, 2, 1, 1, 0] := by decide +kernel

end SmoothRF
