import Verif.Props.TreeProps

/-!
# C151: the assertions of the randomised tree tests, for every tree

tests/test_smooth_base.py and tests/test_pytorch_prep.py assert these facts on a few trees fitted to random
data; here they are stated for all trees.
-/

set_option linter.unusedSectionVars false

namespace SmoothRF
open Topo

/-- The loop of test_change_in_impurity, tests/test_smooth_base.py 2331-2342, which rebuilds the impurities from
their changes. -/
def Topo.rebuildImpurity {K : Type*} [CommRing K] (t : Topo) (diff : t.Node → K) : t.Node → K :=
  (List.finRange (t.m + 1)).foldl
    (fun imp split =>
      let imp := Function.update imp split (imp split + diff split)
      let imp := updChild imp (t.left split) (fun x => x + imp split)
      updChild imp (t.right split) (fun x => x + imp split))
    (fun _ => 0)

/-- C151: test_depth_per_node, 45-54: along every edge the depth grows by one, and the depths that occur are
`0, 1, …, D` without a gap. -/
theorem C151_depths (t : Topo) (h : t.WF) :
    (∀ p c, t.left p = some c ∨ t.right p = some c →
      (t.depthPerNode p : ℤ) - t.depthPerNode c = -1) ∧
    ∃ D, ∀ d, (∃ i, t.depthPerNode i = d) ↔ d ≤ D := by
  refine ⟨fun p c hc => by rw [depth_child h hc]; push_cast; ring, npMax t.depthPerNode, fun d => ?_⟩
  obtain ⟨hle, i, hi⟩ := npMax_spec t.depthPerNode
  constructor
  · rintro ⟨j, rfl⟩
    exact hle j
  · intro hd
    rw [hi] at hd
    have key : ∀ {j e}, t.DepthIs j e → ∀ d ≤ e, ∃ i, t.depthPerNode i = d := by
      intro j e hj
      induction hj with
      | root => intro d hd; exact ⟨0, by rw [depth_root h]; omega⟩
      | child hc hp ih =>
        intro d hd
        rcases Nat.lt_or_eq_of_le hd with hlt | rfl
        · exact ih d (Nat.lt_succ_iff.1 hlt)
        · exact ⟨_, (depthIs_iff h _ _).1 (.child hc hp)⟩
    exact key (depthPerNode_spec h i) d hd

example : exTopo2.WF ∧ (exTopo2.left 2 = some 4) ∧ exTopo2.depthPerNode (2 : Fin 7) = 1 ∧
    exTopo2.depthPerNode (4 : Fin 7) = 2 := by decide

theorem rootPath_sorted {t : Topo} (h : t.WF) {i : t.Node} {l : List t.Node} (hp : t.RootPath i l) :
    l.Pairwise (· < ·) ∧ (∀ a ∈ l, a ≤ i) := by
  induction hp with
  | root => simp
  | child hc _ ih =>
    have hlt := h.lt _ _ hc
    refine ⟨List.pairwise_append.2 ⟨ih.1, List.pairwise_singleton _ _, fun a ha b hb => ?_⟩, fun a ha => ?_⟩
    · rw [List.mem_singleton.1 hb]
      exact lt_of_le_of_lt (ih.2 a ha) hlt
    · rcases List.mem_append.1 ha with ha | ha
      · exact (lt_of_le_of_lt (ih.2 a ha) hlt).le
      · rw [List.mem_singleton.1 ha]

theorem rootPath_head {t : Topo} {i : t.Node} {l : List t.Node} (hp : t.RootPath i l) :
    ∃ r, l = 0 :: r := by
  induction hp with
  | root => exact ⟨[], rfl⟩
  | child _ _ ih =>
    obtain ⟨r, rfl⟩ := ih
    exact ⟨r ++ [_], rfl⟩

/-- C151: test_depth_per_node_plus_parent, 760-768: the node numbers in a row of `parent_mat` never increase, and
as many of them are positive as the node is deep. -/
theorem C151_parent_mat (t : Topo) (h : t.WF) (i : t.Node) :
    (t.depthPerNodePlusParent.2 i).Pairwise (· ≥ ·) ∧
    ((t.depthPerNodePlusParent.2 i).filter (fun a => 0 < a.val)).length = t.depthPerNodePlusParent.1 i := by
  obtain ⟨l, hl, hrow⟩ := plusParent_row h i
  have hd : t.depthPerNodePlusParent.1 i = t.depthPerNode i :=
    (depthIs_iff h _ _).1 (C03_depth_per_node_plus_parent t h i).1 |>.symm
  obtain ⟨hs, -⟩ := rootPath_sorted h hl
  rw [hrow, hd]
  constructor
  · refine List.pairwise_append.2 ⟨List.pairwise_reverse.2 (hs.imp fun hab => hab.le), ?_, ?_⟩
    · exact List.pairwise_replicate.2 (Or.inr le_rfl)
    · intro a _ b hb
      rw [List.eq_of_mem_replicate hb]
      exact Fin.zero_le _
  · have hlen := hl.length h
    obtain ⟨r, rfl⟩ := rootPath_head hl
    have hr : ∀ a ∈ r, 0 < a.val := fun a ha => (List.pairwise_cons.1 hs).1 a ha
    rw [List.filter_append, List.filter_reverse, List.length_append, List.length_reverse, List.filter_cons,
      if_neg (by simp), List.filter_eq_self.2 (fun a ha => by simpa using hr a ha),
      List.filter_eq_nil_iff.2 (fun a ha => by rw [List.eq_of_mem_replicate ha]; simp)]
    simpa using hlen

example : exTopo2.depthPerNodePlusParent.2 (6 : Fin 7) = [6, 4, 2, 0] ∧
    exTopo2.depthPerNodePlusParent.2 (3 : Fin 7) = [3, 2, 0, 0] := by decide +kernel

/-- C151: test_change_in_impurity, 2344: the changes in impurity re-create the impurities. -/
theorem C151_impurity {K : Type*} [CommRing K] (t : Topo) (h : t.WF) (imp : t.Node → K) :
    t.rebuildImpurity (t.changeInImpurity imp) = imp := by
  obtain ⟨h0, hd⟩ := changeInImpurity_spec h imp
  have key : ∀ c : t.Node, t.rebuildImpurity (t.changeInImpurity imp) c = imp c := by
    have := foldl_finRange_inv (n := t.m + 1)
      (fun (a : t.Node → K) split =>
        let a := Function.update a split (a split + t.changeInImpurity imp split)
        let a := updChild a (t.left split) (fun x => x + a split)
        updChild a (t.right split) (fun x => x + a split))
      (fun k a => ∀ c : t.Node, (c.val < k → a c = imp c) ∧ (k ≤ c.val →
        (∀ p, t.IsChild p c → a c = if p.val < k then imp p else 0) ∧ (c = 0 → a c = 0)))
      (fun _ => 0)
      (fun c => ⟨fun hc => absurd hc (Nat.not_lt_zero _), fun _ => ⟨fun p _ => by simp, fun _ => rfl⟩⟩)
      (by
        intro i s hs c
        have hli : ¬ t.left i = some i := fun e => absurd (h.lt i i (Or.inl e)) (lt_irrefl _)
        have hri : ¬ t.right i = some i := fun e => absurd (h.lt i i (Or.inr e)) (lt_irrefl _)
        have hi : s i + t.changeInImpurity imp i = imp i := by
          by_cases e0 : i = 0
          · subst e0
            rw [((hs 0).2 le_rfl).2 rfl, h0, zero_add]
          · obtain ⟨p, hp⟩ := h.parent i e0
            have hlt : p.val < i.val := h.lt _ _ hp
            rw [((hs i).2 le_rfl).1 p hp, if_pos hlt, hd p i hp]
            ring
        have hval : (updChild (updChild (Function.update s i (s i + t.changeInImpurity imp i)) (t.left i)
            (fun x => x + (Function.update s i (s i + t.changeInImpurity imp i)) i)) (t.right i)
            (fun x => x + (updChild (Function.update s i (s i + t.changeInImpurity imp i)) (t.left i)
            (fun x => x + (Function.update s i (s i + t.changeInImpurity imp i)) i)) i)) c =
            if c = i then imp i else if t.IsChild i c then s c + imp i else s c := by
          simp only [updChild_apply, IsChild, hi]
          by_cases hci : c = i
          · subst hci; simp [hli, hri]
          · by_cases hl : t.left i = some c
            · have := h.ne i c hl; simp [hci, hl, this]
            · by_cases hr : t.right i = some c <;> simp [hci, hl, hr, hli]
        simp only [hval]
        constructor
        · intro hc
          by_cases hci : c = i
          · rw [if_pos hci, hci]
          · have hlt : c.val < i.val := by
              have : c.val ≠ i.val := fun e => hci (Fin.ext e)
              omega
            have hnc : ¬ t.IsChild i c := fun hch => absurd (h.lt _ _ hch) (not_lt.2 hlt.le)
            rw [if_neg hci, if_neg hnc, (hs c).1 hlt]
        · intro hc
          have hci : ¬ c = i := fun e => by rw [e] at hc; omega
          have hge := (hs c).2 (by omega)
          refine ⟨fun p hp => ?_, fun e => ?_⟩
          · rw [if_neg hci, hge.1 p hp]
            by_cases hch : t.IsChild i c
            · have := h.uniq _ _ _ hp hch
              subst this
              simp [hch]
            · have : p.val ≠ i.val := fun e => hch (by rwa [← show p = i from Fin.ext e])
              rw [if_neg hch]
              by_cases hlt : p.val < i.val
              · rw [if_pos hlt, if_pos (by omega)]
              · rw [if_neg hlt, if_neg (by omega)]
          · rw [if_neg hci, if_neg (fun hch => h.root_no_parent _ (e ▸ hch)), hge.2 e])
    exact fun c => (this c).1 c.isLt
  exact funext key

example : List.ofFn (exTopo2.rebuildImpurity (K := ℤ)
    (exTopo2.changeInImpurity ![7, 2, 3, 2, 1, 0, 0])) = [7, 2, 3, 2, 1, 0, 0] := by decide +kernel

end SmoothRF
