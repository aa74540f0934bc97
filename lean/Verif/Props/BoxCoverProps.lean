import Verif.Props.BoxProps
import Verif.Proofs.Gamma

/-!
# Leaf boxes tile the box of the data (C105)
-/

set_option linter.unusedSectionVars false

namespace SmoothRF
open SplitTree Topo

variable {K : Type} [Field K] [LinearOrder K] [IsStrictOrderedRing K] {p : ℕ}

/-- Every point reaches a leaf. -/
theorem routed_leaf {t : SplitTree K p} (h : t.WF) (z : Fin p → K) (i : t.Node) (hi : t.Routed z i) :
    ∃ c, t.IsLeaf c ∧ t.Routed z c := by
  induction hn : t.m - i.val using Nat.strong_induction_on generalizing i with
  | _ n ih =>
    by_cases hl : t.IsLeaf i
    · exact ⟨i, hl, hi⟩
    · obtain ⟨l, r, el, er⟩ := children_of_not_leaf h hl
      have h1 : i.val < l.val := h.lt i l (Or.inl el)
      have h2 : i.val < r.val := h.lt i r (Or.inr er)
      have l1 := l.isLt
      have r1 := r.isLt
      rcases le_or_gt (z (t.feature i)) (t.threshold i) with hc | hc
      · exact ih (t.m - l.val) (by omega) l (.goLeft hi el hc) rfl
      · exact ih (t.m - r.val) (by omega) r (.goRight hi er hc) rfl

/-- C105: the boxes of the leaves cover the box of the data; a point of it lies in the box of the leaf it
is routed to. -/
theorem C105_cover {t : SplitTree K p} (h : t.WF) {X : List (Fin p → K)} {b : t.Boxes}
    (hb : t.boundBox X = .ok b) (z : Fin p → K) (hz : InBox (b 0) z) :
    (∀ i, t.Routed z i → InBox (b i) z) ∧ ∃ i, t.IsLeaf i ∧ t.Routed z i ∧ InBox (b i) z := by
  cases X with
  | nil => cases hb
  | cons x xs =>
    obtain ⟨b', e, -, hc⟩ := boundBox_spec h x xs
    rw [e] at hb
    cases hb
    have hall : ∀ i, t.Routed z i → InBox (b i) z := fun i hi => routed_inBox hc hz hi
    obtain ⟨c, h1, h2⟩ := routed_leaf h z 0 .root
    exact ⟨hall, c, h1, h2, hall c h2⟩

/-- C105: the boxes of two different leaves meet at most on a face: a common point has the threshold of the
split that separates the leaves in that split's feature. -/
theorem C105_faces {t : SplitTree K p} (h : t.WF) {X : List (Fin p → K)} (hX : X ≠ []) (hg : t.Grown X)
    {b : t.Boxes} (hb : t.boundBox X = .ok b) {i j : t.Node} (hi : t.IsLeaf i) (hj : t.IsLeaf j) (hne : i ≠ j)
    (z : Fin p → K) (h1 : InBox (b i) z) (h2 : InBox (b j) z) :
    ∃ a, t.IsLCA i j a ∧ z (t.feature a) = t.threshold a ∧
      ((b i (t.feature a)).2 = t.threshold a ∧ (b j (t.feature a)).1 = t.threshold a ∨
       (b j (t.feature a)).2 = t.threshold a ∧ (b i (t.feature a)).1 = t.threshold a) := by
  obtain ⟨a, ha⟩ := exists_lca h i j
  have hai : a ≠ i := fun e => hne (leaf_anc_eq h hi (e ▸ ha.2.1))
  have haj : a ≠ j := fun e => hne (leaf_anc_eq h hj (e ▸ ha.1)).symm
  obtain ⟨ci, hci, hci'⟩ := anc_top h ha.1 hai
  obtain ⟨cj, hcj, hcj'⟩ := anc_top h ha.2.1 haj
  have hcne : ci ≠ cj := by
    rintro rfl
    have := anc_depth_le h (ha.2.2 ci hci' hcj')
    have h3 := (depthIs_iff h ci _).1 (.child hci (depthPerNode_spec h a))
    omega
  have mono : ∀ {u v : t.Node}, t.Anc u v → ∀ w, InBox (b v) w → InBox (b u) w := by
    intro u v huv w hw
    rw [C58_boxes_exact h hX hg hb] at hw ⊢
    exact ⟨hw.1, fun q c hc => hw.2 q c (hc.trans huv)⟩
  have hc : ∀ a, (∀ l, t.left a = some l → b l = t.leftBox a (b a)) ∧
        (∀ r, t.right a = some r → b r = t.rightBox a (b a)) := by
    obtain ⟨x, xs, rfl⟩ := List.exists_cons_of_ne_nil hX
    obtain ⟨b', e, -, hc⟩ := boundBox_spec h x xs
    rw [e] at hb
    cases hb
    exact hc
  have hzi := mono hci' z h1
  have hzj := mono hcj' z h2
  -- a non-empty box inside another has its end points inside
  have hend : ∀ {u v : t.Node}, t.Anc u v → ∀ w, InBox (b v) w → ∀ q,
      (b u q).1 ≤ (b v q).1 ∧ (b v q).2 ≤ (b u q).2 := by
    intro u v huv w hw q
    have hlo : InBox (b v) fun s => (b v s).1 := fun s => ⟨le_rfl, (hw s).1.trans (hw s).2⟩
    have hhi : InBox (b v) fun s => (b v s).2 := fun s => ⟨(hw s).1.trans (hw s).2, le_rfl⟩
    exact ⟨(mono huv _ hlo q).1, (mono huv _ hhi q).2⟩
  have ei := hend hci' z h1 (t.feature a)
  have ej := hend hcj' z h2 (t.feature a)
  have z1 := h1 (t.feature a)
  have z2 := h2 (t.feature a)
  rcases hci with l1 | r1
  · rcases hcj with l2 | r2
    · exact absurd (Option.some.inj (l1.symm.trans l2)) hcne
    · have b1 : (b ci (t.feature a)).2 = t.threshold a := by
        rw [(hc a).1 ci l1]; simp [leftBox]
      have b2 : (b cj (t.feature a)).1 = t.threshold a := by
        rw [(hc a).2 cj r2]; simp [rightBox]
      rw [b1] at ei
      rw [b2] at ej
      have e1 : z (t.feature a) = t.threshold a := le_antisymm (z1.2.trans ei.2) (ej.1.trans z2.1)
      refine ⟨a, ha, e1, Or.inl ⟨le_antisymm ei.2 (e1 ▸ z1.2), le_antisymm (e1 ▸ z2.1) ej.1⟩⟩
  · rcases hcj with l2 | r2
    · have b1 : (b ci (t.feature a)).1 = t.threshold a := by
        rw [(hc a).2 ci r1]; simp [rightBox]
      have b2 : (b cj (t.feature a)).2 = t.threshold a := by
        rw [(hc a).1 cj l2]; simp [leftBox]
      rw [b1] at ei
      rw [b2] at ej
      have e1 : z (t.feature a) = t.threshold a := le_antisymm (z2.2.trans ej.2) (ei.1.trans z1.1)
      refine ⟨a, ha, e1, Or.inr ⟨le_antisymm ej.2 (e1 ▸ z2.2), le_antisymm (e1 ▸ z1.1) ei.1⟩⟩
    · exact absurd (Option.some.inj (r1.symm.trans r2)) hcne

/-- C105: the volumes of the leaf boxes add up to the volume of the box of the data. -/
theorem C105_volume {t : SplitTree K p} (h : t.WF) {X : List (Fin p → K)} {b : t.Boxes}
    (hb : t.boundBox X = .ok b) :
    ∑ r : Fin t.nLeaves, ∏ j, ((b (t.leafNode r) j).2 - (b (t.leafNode r) j).1) =
      ∏ j, ((b 0 j).2 - (b 0 j).1) := by
  classical
  cases X with
  | nil => cases hb
  | cons x xs =>
    obtain ⟨b', e, -, hc⟩ := boundBox_spec h x xs
    rw [e] at hb
    cases hb
    have key := SkTree.sum_leaves_below t.toTopo h (fun i => ∏ j, ((b i j).2 - (b i j).1)) (fun q l r hl hr => by
      rw [(hc q).1 l hl, (hc q).2 r hr]
      simp only [leftBox, rightBox]
      rw [← Finset.mul_prod_erase Finset.univ _ (Finset.mem_univ (t.feature q)),
        ← Finset.mul_prod_erase Finset.univ (fun j => ((Function.update (b q) (t.feature q)
          ((b q (t.feature q)).1, t.threshold q) j).2 - (Function.update (b q) (t.feature q)
          ((b q (t.feature q)).1, t.threshold q) j).1)) (Finset.mem_univ (t.feature q)),
        ← Finset.mul_prod_erase Finset.univ (fun j => ((Function.update (b q) (t.feature q)
          (t.threshold q, (b q (t.feature q)).2) j).2 - (Function.update (b q) (t.feature q)
          (t.threshold q, (b q (t.feature q)).2) j).1)) (Finset.mem_univ (t.feature q))]
      have e1 : ∀ v : K × K, ∏ j ∈ Finset.univ.erase (t.feature q),
          ((Function.update (b q) (t.feature q) v j).2 - (Function.update (b q) (t.feature q) v j).1) =
          ∏ j ∈ Finset.univ.erase (t.feature q), ((b q j).2 - (b q j).1) := by
        intro v
        refine Finset.prod_congr rfl fun j hj => ?_
        rw [Function.update_of_ne (Finset.ne_of_mem_erase hj)]
      rw [e1, e1]
      simp only [Function.update_self]
      ring) 0
    rw [← key]
    refine (Finset.sum_congr ?_ fun _ _ => rfl)
    rw [Finset.filter_true_of_mem fun r _ => anc_root h _]

/-- Two adjacent leaves of `exSplit` share the point (2, 2) on the face `x1 = 2`; volumes 5 + 4 + 6 = 15. -/
example : exSplit.WF ∧ exSplit.Grown exSplitRows ∧ (match exSplit.boundBox exSplitRows with
    | .ok b => some ((List.finRange 2).map fun j => (decide ((b (3 : Fin 5) j).1 ≤ 2 ∧ 2 ≤ (b (3 : Fin 5) j).2 ∧
        (b (4 : Fin 5) j).1 ≤ 2 ∧ 2 ≤ (b (4 : Fin 5) j).2)),
      [(1 : Fin 5), 3, 4, 0].map fun i => ((b i 0).2 - (b i 0).1) * ((b i 1).2 - (b i 1).1))
    | .error _ => none) = some ([true, true], [5, 4, 6, 15]) :=
  ⟨by decide, exSplit_grown, by decide +kernel⟩

end SmoothRF
