import Verif.Proofs.Tree
import Mathlib.Algebra.BigOperators.Ring.Finset
import Mathlib.Tactic.Ring
import Mathlib.Tactic.Linarith

/-! Parent matrices, distances, impurity differences, decision lists. -/

namespace SmoothRF
namespace Topo

variable {t : Topo}

/-! ### calc_depth_for_forest -/

theorem calcDepthForForest_eq (forest : List Topo) :
    calcDepthForForest forest =
      (forest.map fun t => ⟨t, t.depthPerNode⟩,
        (forest.map fun t => npMax t.depthPerNode).foldl max 0) := by
  unfold calcDepthForForest
  have key : ∀ (l : List Topo) (a : List ((t : Topo) × (t.Node → ℕ))) (b : ℕ),
      l.foldl (fun acc t => (acc.1 ++ [⟨t, t.depthPerNode⟩], max acc.2 (npMax t.depthPerNode)))
        (a, b) = (a ++ l.map fun t => ⟨t, t.depthPerNode⟩,
          (l.map fun t => npMax t.depthPerNode).foldl max b) := by
    intro l
    induction l with
    | nil => intro a b; simp
    | cons t l ih => intro a b; simp [ih]
  simpa using key forest [] 0

theorem foldl_max_le (l : List ℕ) (b : ℕ) :
    b ≤ l.foldl max b ∧ (∀ x ∈ l, x ≤ l.foldl max b) ∧ (l.foldl max b = b ∨ l.foldl max b ∈ l) := by
  induction l generalizing b with
  | nil => simp
  | cons x l ih =>
    obtain ⟨h1, h2, h3⟩ := ih (max b x)
    simp only [List.foldl_cons]
    refine ⟨le_trans (le_max_left _ _) h1, ?_, ?_⟩
    · intro y hy
      rcases List.mem_cons.1 hy with rfl | hy
      · exact le_trans (le_max_right _ _) h1
      · exact h2 y hy
    · rcases h3 with h3 | h3
      · rcases le_total b x with h | h
        · right; rw [h3, max_eq_right h]; simp
        · left; rw [h3, max_eq_left h]
      · right; exact List.mem_cons_of_mem _ h3

/-! ### depth_per_node_plus_parent -/

def ParInv (t : Topo) (k : ℕ) (pl : t.Node → List t.Node) : Prop :=
  ∀ c : t.Node, (c.val < k → t.RootPath c (pl c)) ∧
    (k ≤ c.val → ∀ p : t.Node, p.val < k → t.IsChild p c → t.RootPath p (pl c)) ∧
    (k ≤ c.val → (∀ p : t.Node, p.val < k → ¬ t.IsChild p c) → pl c = [0])

theorem parInv_step (h : t.WF) (i : t.Node) (s : (t.Node → ℕ) × (t.Node → List t.Node))
    (hI : ParInv t i.val s.2) : ParInv t (i.val + 1) (t.plusParentStep s i).2 := by
  have hval : ∀ c, (t.plusParentStep s i).2 c =
      if i.val = 0 then s.2 c
      else if c = i ∨ t.IsChild i c then s.2 i ++ [i] else s.2 c := by
    intro c
    have hli : ¬ t.left i = some i := fun e => absurd (h.lt i i (Or.inl e)) (lt_irrefl _)
    have hri : ¬ t.right i = some i := fun e => absurd (h.lt i i (Or.inr e)) (lt_irrefl _)
    by_cases h0 : i.val = 0
    · simp [plusParentStep, h0]
    · have h0' : 0 < i.val := Nat.pos_of_ne_zero h0
      simp only [plusParentStep, h0', if_true, updChild_apply, hli, if_false, h0,
        Function.update_self, IsChild]
      by_cases hci : c = i
      · subst hci; simp [hli, hri]
      · by_cases hl : t.left i = some c <;> by_cases hr : t.right i = some c <;>
          simp [hl, hr, hci]
  have hself : i.val ≠ 0 → t.RootPath i (s.2 i ++ [i]) := by
    intro h0
    have hi0 : i ≠ 0 := by rintro rfl; exact h0 rfl
    obtain ⟨p, hp⟩ := h.parent i hi0
    exact .child hp ((hI i).2.1 le_rfl p (h.lt _ _ hp) hp)
  intro c
  rw [hval]
  by_cases h0 : i.val = 0
  · have hi0 : i = 0 := Fin.ext h0
    subst hi0
    simp only [Fin.val_zero, if_true]
    have hz : ∀ c : t.Node, s.2 c = [0] := by
      intro c
      exact (hI c).2.2 (Nat.zero_le _) fun p hp => absurd hp (Nat.not_lt_zero _)
    refine ⟨?_, ?_, ?_⟩
    · intro hc
      have : c = 0 := Fin.ext (by simpa using hc)
      subst this; rw [hz]; exact .root
    · intro _ p hp _
      have : p = 0 := Fin.ext (by simpa using hp)
      subst this; rw [hz]; exact .root
    · intro _ _; exact hz c
  · simp only [h0, if_false]
    by_cases hci : c = i
    · subst hci
      simp only [true_or, if_true]
      refine ⟨fun _ => hself h0, fun hk => absurd hk (by omega), fun hk => absurd hk (by omega)⟩
    · by_cases hch : t.IsChild i c
      · simp only [hch, or_true, if_true]
        have hlt := h.lt _ _ hch
        refine ⟨fun hc => absurd hlt (not_lt.2 (Nat.lt_succ_iff.1 hc)), ?_, ?_⟩
        · intro _ p _ hpc
          rw [← h.uniq _ _ _ hch hpc]; exact hself h0
        · intro _ hn; exact absurd hch (hn i (Nat.lt_succ_self _))
      · simp only [hci, hch, or_self, if_false]
        have hne : c.val ≠ i.val := fun e => hci (Fin.ext e)
        have hp' : ∀ p : t.Node, p.val < i.val + 1 → t.IsChild p c → p.val < i.val := by
          intro p hp hpc
          rcases Nat.lt_succ_iff_lt_or_eq.mp hp with hlt | heq
          · exact hlt
          · exact absurd (by rwa [show i = p from Fin.ext heq.symm]) hch
        refine ⟨fun hc => (hI c).1 (by omega), ?_, ?_⟩
        · intro hk p hp hpc
          exact (hI c).2.1 (by omega) p (hp' p hp hpc) hpc
        · intro hk hn
          exact (hI c).2.2 (by omega) fun p hp => hn p (Nat.lt_succ_of_lt hp)

theorem plusParent_fold (h : t.WF) :
    ((List.finRange (t.m + 1)).foldl t.plusParentStep (fun _ => 0, fun _ => [0])).1 =
      t.depthPerNode ∧
    ∀ i, t.RootPath i
      (((List.finRange (t.m + 1)).foldl t.plusParentStep (fun _ => 0, fun _ => [0])).2 i) := by
  constructor
  · unfold depthPerNode
    have key : ∀ (l : List t.Node) (a : t.Node → ℕ) (b : t.Node → List t.Node),
        (l.foldl t.plusParentStep (a, b)).1 = l.foldl t.depthStep a := by
      intro l
      induction l with
      | nil => intro a b; rfl
      | cons x l ih =>
        intro a b
        simp only [List.foldl_cons]
        exact ih _ _
    exact key _ _ _
  · intro i
    have := foldl_finRange_inv t.plusParentStep (fun k s => ParInv t k s.2)
      (fun _ => 0, fun _ => [0])
      (fun c => ⟨fun hc => absurd hc (Nat.not_lt_zero _),
        fun _ p hp => absurd hp (Nat.not_lt_zero _), fun _ _ => rfl⟩)
      (fun i s hs => parInv_step h i s hs)
    exact (this i).1 i.isLt

theorem RootPath.length (h : t.WF) {i : t.Node} {l : List t.Node} (hp : t.RootPath i l) :
    l.length = t.depthPerNode i + 1 := by
  induction hp with
  | root => simp [depth_root h]
  | child hc _ ih => simp [ih, depth_child h hc]

theorem RootPath.mem (h : t.WF) {i : t.Node} {l : List t.Node} (hp : t.RootPath i l) (a : t.Node) :
    a ∈ l ↔ t.Anc a i := by
  induction hp with
  | root => simp [anc_zero_iff h]
  | child hc _ ih => simp [ih, anc_child_iff h hc, or_comm]

theorem RootPath.upBy (h : t.WF) {i : t.Node} {l : List t.Node} (hp : t.RootPath i l)
    {k : ℕ} {a : t.Node} (hu : t.UpBy k i a) : l.reverse[k]? = some a := by
  induction hp generalizing k a with
  | root =>
    cases hu with
    | zero => rfl
    | step hc _ => exact absurd hc (h.root_no_parent _)
  | child hc _ ih =>
    simp only [List.reverse_append, List.reverse_cons, List.reverse_nil, List.nil_append,
      List.singleton_append]
    cases hu with
    | zero => rfl
    | step hc' hu' =>
      rw [h.uniq _ _ _ hc' hc] at hu'
      simpa using ih hu'

theorem RootPath.last (h : t.WF) {i : t.Node} {l : List t.Node} (hp : t.RootPath i l) :
    l.reverse[t.depthPerNode i]? = some 0 := by
  induction hp with
  | root => simp [depth_root h]
  | child hc _ ih =>
    rw [depth_child h hc]
    simpa using ih

theorem upBy_depth (h : t.WF) {k : ℕ} {i a : t.Node} (hu : t.UpBy k i a) :
    t.depthPerNode a + k = t.depthPerNode i ∧ t.Anc a i := by
  induction hu with
  | zero => exact ⟨rfl, .refl _⟩
  | step hc _ ih =>
    rw [depth_child h hc]
    exact ⟨by omega, .step ih.2 hc⟩

theorem exists_upBy (h : t.WF) (i : t.Node) (k : ℕ) (hk : k ≤ t.depthPerNode i) :
    ∃ a, t.UpBy k i a := by
  induction k generalizing i with
  | zero => exact ⟨i, .zero i⟩
  | succ k ih =>
    have h0 : i ≠ 0 := by rintro rfl; rw [depth_root h] at hk; omega
    obtain ⟨p, hp⟩ := h.parent i h0
    rw [depth_child h hp] at hk
    obtain ⟨a, ha⟩ := ih p (by omega)
    exact ⟨a, .step hp ha⟩

theorem upBy_unique (h : t.WF) {k : ℕ} {i a b : t.Node} (ha : t.UpBy k i a) (hb : t.UpBy k i b) :
    a = b := by
  obtain ⟨h1, h2⟩ := upBy_depth h ha
  obtain ⟨h3, h4⟩ := upBy_depth h hb
  rcases anc_chain h h2 h4 with h5 | h5
  · exact anc_eq_of_depth h h5 (by omega)
  · exact (anc_eq_of_depth h h5 (by omega)).symm

theorem anc_upBy (h : t.WF) {a i : t.Node} (ha : t.Anc a i) :
    t.UpBy (t.depthPerNode i - t.depthPerNode a) i a := by
  have hle := anc_depth_le h ha
  obtain ⟨b, hb⟩ := exists_upBy h i (t.depthPerNode i - t.depthPerNode a) (by omega)
  obtain ⟨h1, h2⟩ := upBy_depth h hb
  rcases anc_chain h ha h2 with h5 | h5
  · have e := anc_eq_of_depth h h5 (by omega)
    subst e; exact hb
  · have e := anc_eq_of_depth h h5 (by omega)
    subst e; exact hb

theorem plusParent_row (h : t.WF) (i : t.Node) :
    ∃ l, t.RootPath i l ∧ (t.depthPerNodePlusParent.2 i) =
      l.reverse ++ List.replicate (npMax t.depthPerNode - t.depthPerNode i) 0 := by
  obtain ⟨h1, h2⟩ := plusParent_fold h
  refine ⟨_, h2 i, ?_⟩
  simp only [depthPerNodePlusParent]
  rw [List.reverse_append, List.reverse_replicate, h1, (h2 i).length h]
  congr 2
  omega

/-! ### distances -/

theorem Qmat_eq {K : Type*} [CommRing K] (h : t.WF) (w : t.Node → K) (i j : Fin t.nLeaves)
    {a : t.Node} (ha : t.IsLCA (t.leafNode i) (t.leafNode j) a) :
    t.Qmat w i j = ∑ k ∈ t.ancs a, w k := by
  classical
  rw [← ancs_inter h ha]
  unfold Qmat
  rw [← Finset.sum_filter_add_sum_filter_not Finset.univ
    (fun k => k ∈ t.ancs (t.leafNode i) ∩ t.ancs (t.leafNode j))]
  rw [Finset.sum_eq_zero (s := Finset.univ.filter
    (fun k => ¬ k ∈ t.ancs (t.leafNode i) ∩ t.ancs (t.leafNode j))), add_zero]
  · apply Finset.sum_congr
    · ext k; simp
    · intro k hk
      simp only [Finset.mem_inter, mem_ancs] at hk
      simp [decisionLeaf_spec h, hk.1, hk.2]
  · intro k hk
    simp only [Finset.mem_filter, Finset.mem_inter, mem_ancs, Finset.mem_univ, true_and,
      not_and] at hk
    by_cases h1 : t.Anc k (t.leafNode i)
    · simp [decisionLeaf_spec h, hk h1]
    · simp [decisionLeaf_spec h, h1]

theorem isLCA_self (i : t.Node) : t.IsLCA i i i := ⟨.refl _, .refl _, fun _ hb _ => hb⟩

theorem distStandard_eq (h : t.WF) (i j : Fin t.nLeaves) {a : t.Node}
    (ha : t.IsLCA (t.leafNode i) (t.leafNode j) a) :
    t.distStandard i j = (t.depthPerNode (t.leafNode i) : ℤ) - t.depthPerNode a := by
  unfold distStandard
  rw [Qmat_eq h _ i j ha, Qmat_eq h _ i i (isLCA_self _)]
  simp [card_ancs h]

theorem distStandard_nonneg (h : t.WF) (i j : Fin t.nLeaves) : 0 ≤ t.distStandard i j := by
  obtain ⟨a, ha⟩ := exists_lca h (t.leafNode i) (t.leafNode j)
  rw [distStandard_eq h i j ha]
  have := anc_depth_le h ha.1
  omega

theorem distStandard_eq_zero (h : t.WF) (i j : Fin t.nLeaves) :
    t.distStandard i j = 0 ↔ i = j := by
  obtain ⟨a, ha⟩ := exists_lca h (t.leafNode i) (t.leafNode j)
  constructor
  · intro h0
    rw [distStandard_eq h i j ha] at h0
    have e : a = t.leafNode i := anc_eq_of_depth h ha.1 (by omega)
    subst e
    exact leafNode_injective (leaf_anc_eq h (leafNode_isLeaf h i) ha.2.1)
  · rintro rfl
    rw [distStandard_eq h i i (isLCA_self _)]; omega

theorem distStandard_le (h : t.WF) (i j : Fin t.nLeaves) :
    t.distStandard i j ≤ t.depthPerNode (t.leafNode i) := by
  obtain ⟨a, ha⟩ := exists_lca h (t.leafNode i) (t.leafNode j)
  rw [distStandard_eq h i j ha]; omega

/-! ### impurity -/

def ImpInv {K : Type*} [CommRing K] (t : Topo) (imp : t.Node → K) (k : ℕ) (dv : t.Node → K) : Prop :=
  ∀ c : t.Node,
    (∀ p : t.Node, t.IsChild p c →
      dv c = (if c.val < k then imp c else 0) - (if p.val < k then imp p else 0)) ∧
    ((∀ p : t.Node, ¬ t.IsChild p c) → dv c = if c.val < k then imp c else 0)

theorem changeInImpurity_spec {K : Type*} [CommRing K] (h : t.WF) (imp : t.Node → K) :
    t.changeInImpurity imp 0 = imp 0 ∧
    ∀ p c, t.IsChild p c → t.changeInImpurity imp c = imp c - imp p := by
  have key : ImpInv t imp (t.m + 1) (t.changeInImpurity imp) := by
    unfold changeInImpurity
    apply foldl_finRange_inv
    · intro c; simp
    · intro i s hs c
      have hli : ¬ t.left i = some i := fun e => absurd (h.lt i i (Or.inl e)) (lt_irrefl _)
      have hri : ¬ t.right i = some i := fun e => absurd (h.lt i i (Or.inr e)) (lt_irrefl _)
      have hval : (updChild (updChild (Function.update s i (s i + imp i)) (t.left i)
          (fun x => x - imp i)) (t.right i) (fun x => x - imp i)) c =
          if c = i then s c + imp c else if t.IsChild i c then s c - imp i else s c := by
        simp only [updChild_apply, IsChild]
        by_cases hci : c = i
        · subst hci; simp [hli, hri]
        · by_cases hl : t.left i = some c
          · have := h.ne i c hl; simp [hci, hl, this]
          · by_cases hr : t.right i = some c <;> simp [hci, hl, hr]
      simp only [hval]
      constructor
      · intro p hp
        have hpc := h.lt _ _ hp
        rw [(hs c).1 p hp]
        by_cases hci : c = i
        · subst hci
          have h1 : p.val < c.val := hpc
          have h2 : p.val < c.val + 1 := Nat.lt_succ_of_lt h1
          simp only [if_true, lt_irrefl, if_false, h1, h2, Nat.lt_succ_self]
          ring
        · have e1 : (c.val < i.val + 1) = (c.val < i.val) := by
            have : c.val ≠ i.val := fun e => hci (Fin.ext e)
            apply propext; omega
          simp only [hci, if_false, e1]
          by_cases hch : t.IsChild i c
          · have := h.uniq _ _ _ hp hch
            subst this
            simp [hch]
          · have e2 : (p.val < i.val + 1) = (p.val < i.val) := by
              have : p.val ≠ i.val := fun e => hch (by rwa [show i = p from Fin.ext e.symm])
              apply propext; omega
            simp [hch, e2]
      · intro hn
        rw [(hs c).2 hn]
        have hch := hn i
        by_cases hci : c = i
        · subst hci; simp
        · have e1 : (c.val < i.val + 1) = (c.val < i.val) := by
            have : c.val ≠ i.val := fun e => hci (Fin.ext e)
            apply propext; omega
          simp only [hci, hch, if_false, e1]
  constructor
  · have := (key 0).2 (fun p => h.root_no_parent p)
    simpa using this
  · intro p c hc
    have := (key c).1 p hc
    simpa [p.isLt, c.isLt] using this

theorem sum_changeInImpurity {K : Type*} [CommRing K] (h : t.WF) (imp : t.Node → K) (i : t.Node) :
    ∑ k ∈ t.ancs i, t.changeInImpurity imp k = imp i := by
  classical
  obtain ⟨h0, h1⟩ := changeInImpurity_spec h imp
  have := depthPerNode_spec h i
  generalize t.depthPerNode i = d at this
  induction this with
  | root =>
    have : t.ancs (0 : t.Node) = {0} := by
      ext a; simp [mem_ancs, anc_zero_iff h]
    rw [this]; simp [h0]
  | @child p c d hc _ ih =>
    have : t.ancs c = insert c (t.ancs p) := by
      ext a; simp [mem_ancs, anc_child_iff h hc]
    rw [this, Finset.sum_insert (by rw [mem_ancs]; exact not_anc_child h hc), ih, h1 p c hc]
    ring

/-! ### decision_path_nodes -/

theorem left_cases (h : t.WF) (i : t.Node) :
    (t.left i = none ∧ t.right i = none) ∨ ∃ l r, t.left i = some l ∧ t.right i = some r ∧ l ≠ r := by
  cases hl : t.left i with
  | none => exact Or.inl ⟨rfl, (h.both i).1 hl⟩
  | some l =>
    cases hr : t.right i with
    | none => rw [(h.both i).2 hr] at hl; cases hl
    | some r =>
      refine Or.inr ⟨l, r, rfl, rfl, ?_⟩
      rintro rfl; exact h.ne i l hl hr

open Classical in
theorem decisionListNodes_spec (h : t.WF) (fuel : ℕ) (idx : t.Node) (elders : List t.Node)
    (hf : t.m < fuel + idx.val) (hpath : t.RootPath idx (elders ++ [idx])) (hnd : elders.Nodup)
    (hnin : idx ∉ elders) :
    ∃ xs ys, t.decisionListNodes fuel idx elders = some (xs, ys) ∧ xs.length = ys.length ∧
      (∀ x ∈ xs, t.right x = none) ∧
      ∀ x j, (xs.zip ys).count (x, j) =
        if t.right x = none ∧ t.Anc idx x ∧ t.Anc j x then 1 else 0 := by
  induction fuel generalizing idx elders with
  | zero => exact absurd hf (by omega)
  | succ fuel ih =>
    rcases left_cases h idx with ⟨hl, hr⟩ | ⟨l, r, hl, hr, hlr⟩
    · refine ⟨List.replicate (elders.length + 1) idx, elders ++ [idx], ?_, by simp, ?_, ?_⟩
      · simp only [decisionListNodes, hl]
      · intro x hx; rw [List.eq_of_mem_replicate hx]; exact hr
      · intro x j
        have hmem : j ∈ elders ++ [idx] ↔ t.Anc j idx := RootPath.mem h hpath j
        have hnd' : (elders ++ [idx]).Nodup := by
          rw [List.nodup_append]; simp [hnd]; rintro a ha rfl; exact hnin ha
        have hz : ∀ (L : List t.Node), ((List.replicate L.length idx).zip L).count (x, j) =
            if x = idx then L.count j else 0 := by
          intro L
          induction L with
          | nil => simp
          | cons y L ih =>
            simp only [List.length_cons, List.replicate_succ, List.zip_cons_cons, List.count_cons, ih]
            by_cases hx : x = idx
            · subst hx; by_cases hy : y = j <;> simp [hy]
            · have : ¬ idx = x := fun e => hx e.symm
              simp [hx, this]
        have := hz (elders ++ [idx])
        rw [show (elders ++ [idx]).length = elders.length + 1 by simp] at this
        rw [this, hnd'.count]
        have hanc : t.Anc idx x ↔ x = idx :=
          ⟨fun ha => (leaf_anc_eq h ((isLeaf_iff h).2 hr) ha).symm, fun e => e ▸ .refl _⟩
        by_cases hx : x = idx
        · subst hx
          simp only [if_true, hr, Anc.refl, true_and, hmem]
        · simp [hx, hanc]
    · have hcl : t.IsChild idx l := Or.inl hl
      have hcr : t.IsChild idx r := Or.inr hr
      have hltl := h.lt _ _ hcl
      have hltr := h.lt _ _ hcr
      have hnd' : (elders ++ [idx]).Nodup := by
        rw [List.nodup_append]; simp [hnd]; rintro a ha rfl; exact hnin ha
      have hninl : l ∉ elders ++ [idx] := by
        rw [RootPath.mem h hpath]; exact not_anc_child h hcl
      have hninr : r ∉ elders ++ [idx] := by
        rw [RootPath.mem h hpath]; exact not_anc_child h hcr
      obtain ⟨xs1, ys1, he1, hlen1, hleaf1, hc1⟩ := ih l (elders ++ [idx])
        (by have : idx.val < l.val := hltl; omega) (.child hcl hpath) hnd' hninl
      obtain ⟨xs2, ys2, he2, hlen2, hleaf2, hc2⟩ := ih r (elders ++ [idx])
        (by have : idx.val < r.val := hltr; omega) (.child hcr hpath) hnd' hninr
      refine ⟨xs1 ++ xs2, ys1 ++ ys2, ?_, by simp [hlen1, hlen2], ?_, ?_⟩
      · simp [decisionListNodes, hl, hr, he1, he2]
      · intro x hx
        rcases List.mem_append.1 hx with hx | hx
        · exact hleaf1 x hx
        · exact hleaf2 x hx
      · intro x j
        rw [List.zip_append hlen1, List.count_append, hc1, hc2]
        by_cases hx : t.right x = none
        · by_cases hj : t.Anc j x
          · simp only [hx, hj, true_and, and_true]
            by_cases h1 : t.Anc l x
            · have h2 := siblings_disjoint h hcl hcr hlr h1
              have h3 : t.Anc idx x := (Anc.step (.refl _) hcl).trans h1
              simp [h1, h2, h3]
            · by_cases h2 : t.Anc r x
              · have h3 : t.Anc idx x := (Anc.step (.refl _) hcr).trans h2
                simp [h1, h2, h3]
              · have h3 : ¬ t.Anc idx x := by
                  intro h3
                  have hne : idx ≠ x := by rintro rfl; rw [hr] at hx; cases hx
                  obtain ⟨c, hc, hcx⟩ := anc_top h h3 hne
                  rcases hc with hc | hc
                  · rw [hl] at hc; cases hc; exact h1 hcx
                  · rw [hr] at hc; cases hc; exact h2 hcx
                simp [h1, h2, h3]
          · simp [hj]
        · simp [hx]

theorem filter_le_sorted {n : ℕ} {l : List (Fin n)} (hs : l.Pairwise (· < ·)) (r : Fin l.length) :
    (l.filter (fun j => j ≤ l.get r)).length = r.val + 1 := by
  induction l with
  | nil => exact r.elim0
  | cons a l ih =>
    rw [List.pairwise_cons] at hs
    rcases r with ⟨r, hr⟩
    cases r with
    | zero =>
      have : l.filter (fun j => j ≤ a) = [] := by
        rw [List.filter_eq_nil_iff]
        intro b hb
        simpa using hs.1 b hb
      simp [this]
    | succ r =>
      have hr' : r < l.length := by simpa using hr
      have hle : a ≤ l[r] := (hs.1 _ (List.getElem_mem _)).le
      have := ih hs.2 ⟨r, hr'⟩
      simp only [List.get_eq_getElem] at this
      simp [hle, this]

theorem leafIdx_leafNode (r : Fin t.nLeaves) : t.leafIdx (t.leafNode r) = r.val := by
  have := filter_le_sorted (leaves_sorted (t := t)) r
  unfold leafIdx leafNode
  unfold leaves at this ⊢
  rw [List.filter_filter] at this
  simp only [← Bool.decide_and] at this
  rw [this]; push_cast; ring

end Topo
end SmoothRF
