import Verif.Spec.Tree
import Verif.Proofs.Fold
import Mathlib.Tactic.Common
import Mathlib.Tactic.Push
import Mathlib.Order.Fin.Basic
import Mathlib.Data.Finset.Card
import Mathlib.Data.Finset.Max

/-! Facts about well-formed trees and the structural loops. -/

namespace SmoothRF
namespace Topo

variable {t : Topo}

theorem updChild_apply {n : ℕ} {α : Type*} (arr : Fin n → α) (c : Option (Fin n)) (f : α → α)
    (j : Fin n) : updChild arr c f j = if c = some j then f (arr j) else arr j := by
  cases c with
  | none => simp [updChild]
  | some k =>
    simp only [updChild, Option.some.injEq, Function.update_apply]
    by_cases h : j = k
    · subst h; simp
    · simp [h, Ne.symm h]

theorem WF.root_no_parent (h : t.WF) (p : t.Node) : ¬ t.IsChild p 0 := fun hc => by
  have := h.lt p 0 hc
  exact absurd this (by simp)

theorem WF.exists_depth (h : t.WF) (i : t.Node) : ∃ d, t.DepthIs i d := by
  induction hn : i.val using Nat.strong_induction_on generalizing i with
  | _ n ih =>
    subst hn
    by_cases hi : i = 0
    · subst hi; exact ⟨0, .root⟩
    · obtain ⟨p, hp⟩ := h.parent i hi
      obtain ⟨d, hd⟩ := ih p.val (h.lt _ _ hp) p rfl
      exact ⟨d + 1, .child hp hd⟩

theorem WF.depth_unique (h : t.WF) {i : t.Node} {d e : ℕ} (hd : t.DepthIs i d)
    (he : t.DepthIs i e) : d = e := by
  induction hd generalizing e with
  | root =>
    cases he with
    | root => rfl
    | child hc _ => exact absurd hc (h.root_no_parent _)
  | child hc hp ih =>
    cases he with
    | root => exact absurd hc (h.root_no_parent _)
    | child hc' hp' =>
      have := h.uniq _ _ _ hc hc'
      subst this
      rw [ih hp']

/-! ### depth_per_node -/

/-- The value that the child updates write. -/
theorem depthStep_apply (h : t.WF) (dv : t.Node → ℕ) (i c : t.Node) :
    t.depthStep dv i c = if t.IsChild i c then dv c + (dv i + 1) else dv c := by
  have hli : ¬ t.left i = some i := fun e => absurd (h.lt i i (Or.inl e)) (lt_irrefl _)
  simp only [depthStep, updChild_apply, hli, if_false, IsChild]
  by_cases h1 : t.left i = some c
  · have := h.ne i c h1; simp [h1, this]
  · simp [h1]

def DepthInv (t : Topo) (k : ℕ) (dv : t.Node → ℕ) : Prop :=
  (∀ c : t.Node, (c = 0 ∨ ∃ p : t.Node, p.val < k ∧ t.IsChild p c) → t.DepthIs c (dv c)) ∧
  (∀ c : t.Node, c ≠ 0 → (∀ p : t.Node, p.val < k → ¬ t.IsChild p c) → dv c = 0)

theorem depthInv_step (h : t.WF) (i : t.Node) (dv : t.Node → ℕ) (hI : DepthInv t i.val dv) :
    DepthInv t (i.val + 1) (t.depthStep dv i) := by
  obtain ⟨h1, h2⟩ := hI
  constructor
  · intro c hc
    rw [depthStep_apply h]
    by_cases hic : t.IsChild i c
    · have hi : t.DepthIs i (dv i) := by
        apply h1
        by_cases h0 : i = 0
        · exact Or.inl h0
        · obtain ⟨p, hp⟩ := h.parent i h0
          exact Or.inr ⟨p, h.lt _ _ hp, hp⟩
      have hc0 : dv c = 0 := by
        apply h2
        · rintro rfl; exact h.root_no_parent _ hic
        · intro p hp hpc
          have := h.uniq _ _ _ hic hpc
          subst this; exact lt_irrefl _ hp
      simp only [hic, if_true, hc0, Nat.zero_add]
      exact .child hic hi
    · simp only [hic, if_false]
      apply h1
      rcases hc with hc | ⟨p, hp, hpc⟩
      · exact Or.inl hc
      · refine Or.inr ⟨p, ?_, hpc⟩
        rcases Nat.lt_succ_iff_lt_or_eq.mp hp with hlt | heq
        · exact hlt
        · exact absurd (by rwa [show i = p from Fin.ext heq.symm]) hic
  · intro c hc0 hc
    rw [depthStep_apply h]
    have : ¬ t.IsChild i c := hc i (Nat.lt_succ_self _)
    simp only [this, if_false]
    exact h2 c hc0 fun p hp => hc p (Nat.lt_succ_of_lt hp)

theorem depthInv_init : DepthInv t 0 (fun _ => 0) :=
  ⟨fun c hc => by
    rcases hc with rfl | ⟨p, hp, _⟩
    · exact .root
    · exact absurd hp (Nat.not_lt_zero _), fun _ _ _ => rfl⟩

theorem depthInv_final (h : t.WF) (dv : t.Node → ℕ) (hI : DepthInv t (t.m + 1) dv) (i : t.Node) :
    t.DepthIs i (dv i) := by
  apply hI.1
  by_cases h0 : i = 0
  · exact Or.inl h0
  · obtain ⟨p, hp⟩ := h.parent i h0
    exact Or.inr ⟨p, p.isLt, hp⟩

theorem depthPerNode_spec (h : t.WF) (i : t.Node) : t.DepthIs i (t.depthPerNode i) :=
  depthInv_final h _ (foldl_finRange_inv t.depthStep (DepthInv t) _ depthInv_init
    (fun i s => depthInv_step h i s)) i

theorem depthIs_iff (h : t.WF) (i : t.Node) (d : ℕ) : t.DepthIs i d ↔ t.depthPerNode i = d :=
  ⟨fun hd => h.depth_unique (depthPerNode_spec h i) hd, fun e => e ▸ depthPerNode_spec h i⟩

theorem depth_root (h : t.WF) : t.depthPerNode 0 = 0 := (depthIs_iff h _ _).1 .root

theorem depth_child (h : t.WF) {p c : t.Node} (hc : t.IsChild p c) :
    t.depthPerNode c = t.depthPerNode p + 1 :=
  (depthIs_iff h _ _).1 (.child hc (depthPerNode_spec h p))

/-! ### npMax -/

theorem npMax_spec {n : ℕ} (a : Fin (n + 1) → ℕ) :
    (∀ i, a i ≤ npMax a) ∧ ∃ i, npMax a = a i := by
  have := foldl_finRange_inv (n := n + 1) (fun acc i => max acc (a i))
    (fun k acc => (∀ i : Fin (n + 1), i.val < k → a i ≤ acc) ∧ ∃ i, acc = a i) (a 0)
    ⟨fun i hi => absurd hi (Nat.not_lt_zero _), 0, rfl⟩
    (by
      rintro i s ⟨h1, j, rfl⟩
      constructor
      · intro l hl
        rcases Nat.lt_succ_iff_lt_or_eq.mp hl with hlt | heq
        · exact le_trans (h1 l hlt) (le_max_left _ _)
        · rw [show l = i from Fin.ext heq]; exact le_max_right _ _
      · rcases le_total (a j) (a i) with h | h
        · exact ⟨i, max_eq_right h⟩
        · exact ⟨j, max_eq_left h⟩)
  exact ⟨fun i => this.1 i i.isLt, this.2⟩

/-! ### ancestors -/

theorem Anc.trans {a b c : t.Node} (h1 : t.Anc a b) (h2 : t.Anc b c) : t.Anc a c := by
  induction h2 with
  | refl => exact h1
  | step _ hc ih => exact .step ih hc

theorem Anc.le (h : t.WF) {a i : t.Node} (ha : t.Anc a i) : a ≤ i := by
  induction ha with
  | refl => exact le_rfl
  | step _ hc ih => exact le_trans ih (h.lt _ _ hc).le

theorem Anc.antisymm (h : t.WF) {a b : t.Node} (h1 : t.Anc a b) (h2 : t.Anc b a) : a = b :=
  le_antisymm (h1.le h) (h2.le h)

theorem anc_root (h : t.WF) (i : t.Node) : t.Anc 0 i := by
  have := depthPerNode_spec h i
  generalize t.depthPerNode i = d at this
  induction this with
  | root => exact .refl _
  | child hc _ ih => exact .step ih hc

theorem anc_child_iff (h : t.WF) {a p c : t.Node} (hc : t.IsChild p c) :
    t.Anc a c ↔ a = c ∨ t.Anc a p := by
  constructor
  · intro ha
    cases ha with
    | refl => exact Or.inl rfl
    | step h1 hc' => rw [h.uniq _ _ _ hc hc']; exact Or.inr h1
  · rintro (rfl | ha)
    · exact .refl _
    · exact .step ha hc

theorem anc_zero_iff (h : t.WF) {a : t.Node} : t.Anc a 0 ↔ a = 0 := by
  constructor
  · intro ha
    cases ha with
    | refl => rfl
    | step _ hc => exact absurd hc (h.root_no_parent _)
  · rintro rfl; exact .refl _

theorem not_anc_child (h : t.WF) {p c : t.Node} (hc : t.IsChild p c) : ¬ t.Anc c p :=
  fun ha => absurd (lt_of_lt_of_le (h.lt _ _ hc) (ha.le h)) (lt_irrefl _)

theorem anc_chain (h : t.WF) {a b i : t.Node} (ha : t.Anc a i) (hb : t.Anc b i) :
    t.Anc a b ∨ t.Anc b a := by
  induction ha generalizing b with
  | refl => exact Or.inr hb
  | step h1 hc ih =>
    rcases (anc_child_iff h hc).1 hb with rfl | hb
    · exact Or.inl (.step h1 hc)
    · exact ih hb

theorem anc_depth_le (h : t.WF) {a i : t.Node} (ha : t.Anc a i) :
    t.depthPerNode a ≤ t.depthPerNode i := by
  induction ha with
  | refl => exact le_rfl
  | step _ hc ih => rw [depth_child h hc]; omega

theorem anc_eq_of_depth (h : t.WF) {a i : t.Node} (ha : t.Anc a i)
    (hd : t.depthPerNode a = t.depthPerNode i) : a = i := by
  cases ha with
  | refl => rfl
  | step h1 hc =>
    have := anc_depth_le h h1
    rw [depth_child h hc] at hd
    omega

theorem anc_top (h : t.WF) {a i : t.Node} (ha : t.Anc a i) (hne : a ≠ i) :
    ∃ c, t.IsChild a c ∧ t.Anc c i := by
  induction ha with
  | refl => exact absurd rfl hne
  | @step p c h1 hc ih =>
    by_cases hap : a = p
    · subst hap; exact ⟨c, hc, .refl _⟩
    · obtain ⟨d, hd, hdp⟩ := ih hap
      exact ⟨d, hd, .step hdp hc⟩

/-- Two different nodes with the same parent have disjoint subtrees. -/
theorem siblings_disjoint (h : t.WF) {p c d x : t.Node} (hc : t.IsChild p c) (hd : t.IsChild p d)
    (hcd : c ≠ d) (hcx : t.Anc c x) : ¬ t.Anc d x := by
  intro hdx
  rcases anc_chain h hcx hdx with h1 | h1
  · rcases (anc_child_iff h hd).1 h1 with h2 | h2
    · exact hcd h2
    · exact not_anc_child h hc h2
  · rcases (anc_child_iff h hc).1 h1 with h2 | h2
    · exact hcd h2.symm
    · exact not_anc_child h hd h2

open Classical in
/-- The ancestor-or-self set. -/
noncomputable def ancs (t : Topo) (i : t.Node) : Finset t.Node :=
  Finset.univ.filter (fun a => t.Anc a i)

theorem mem_ancs {a i : t.Node} : a ∈ t.ancs i ↔ t.Anc a i := by simp [ancs]

theorem card_ancs (h : t.WF) (i : t.Node) : (t.ancs i).card = t.depthPerNode i + 1 := by
  classical
  have := depthPerNode_spec h i
  generalize t.depthPerNode i = d at this
  induction this with
  | root =>
    have : t.ancs (0 : t.Node) = {0} := by
      ext a; simp [mem_ancs, anc_zero_iff h]
    rw [this]; simp
  | @child p c d hc _ ih =>
    have : t.ancs c = insert c (t.ancs p) := by
      ext a; simp [mem_ancs, anc_child_iff h hc]
    rw [this, Finset.card_insert_of_notMem (by rw [mem_ancs]; exact not_anc_child h hc), ih]

theorem exists_lca (h : t.WF) (i j : t.Node) : ∃ a, t.IsLCA i j a := by
  classical
  have hne : (t.ancs i ∩ t.ancs j).Nonempty :=
    ⟨0, by simp [mem_ancs, anc_root h]⟩
  obtain ⟨a, ha, hmax⟩ := Finset.exists_max_image _ (fun x : t.Node => x) hne
  simp only [Finset.mem_inter, mem_ancs] at ha hmax
  refine ⟨a, ha.1, ha.2, fun b hbi hbj => ?_⟩
  rcases anc_chain h hbi ha.1 with h1 | h1
  · exact h1
  · have h2 := hmax b ⟨hbi, hbj⟩
    have : a = b := le_antisymm (h1.le h) h2
    subst this; exact .refl _

theorem lca_unique (h : t.WF) {i j a b : t.Node} (ha : t.IsLCA i j a) (hb : t.IsLCA i j b) :
    a = b := (hb.2.2 a ha.1 ha.2.1).antisymm h (ha.2.2 b hb.1 hb.2.1)

theorem isLCA_symm {i j a : t.Node} (ha : t.IsLCA i j a) : t.IsLCA j i a :=
  ⟨ha.2.1, ha.1, fun b hb hb' => ha.2.2 b hb' hb⟩

theorem ancs_inter (_h : t.WF) {i j a : t.Node} (ha : t.IsLCA i j a) :
    t.ancs i ∩ t.ancs j = t.ancs a := by
  ext b
  simp only [Finset.mem_inter, mem_ancs]
  exact ⟨fun ⟨h1, h2⟩ => ha.2.2 b h1 h2, fun hb => ⟨hb.trans ha.1, hb.trans ha.2.1⟩⟩

/-! ### leaves -/

theorem isLeaf_iff (h : t.WF) {i : t.Node} : t.IsLeaf i ↔ t.right i = none := by
  constructor
  · intro hl
    cases hr : t.right i with
    | none => rfl
    | some c => exact absurd (Or.inr hr) (hl c)
  · intro hr c hc
    have hl := (h.both i).2 hr
    rcases hc with hc | hc <;> simp_all

theorem mem_leaves {i : t.Node} : i ∈ t.leaves ↔ t.right i = none := by
  simp [leaves]

theorem leaves_nodup : t.leaves.Nodup := (List.nodup_finRange _).filter _

theorem leafNode_right (r : Fin t.nLeaves) : t.right (t.leafNode r) = none :=
  mem_leaves.1 (List.get_mem _ _)

theorem leafNode_isLeaf (h : t.WF) (r : Fin t.nLeaves) : t.IsLeaf (t.leafNode r) :=
  (isLeaf_iff h).2 (leafNode_right r)

theorem leafNode_injective : Function.Injective t.leafNode := fun a b hab =>
  List.nodup_iff_injective_get.1 leaves_nodup hab

theorem exists_leafNode {i : t.Node} (hi : t.right i = none) : ∃ r, t.leafNode r = i := by
  obtain ⟨r, hr⟩ := List.get_of_mem (mem_leaves.2 hi)
  exact ⟨r, hr⟩

theorem leaves_sorted : t.leaves.Pairwise (· < ·) :=
  (List.pairwise_lt_finRange _).filter _

theorem leafNode_strictMono : StrictMono t.leafNode := by
  intro a b hab
  exact List.pairwise_iff_get.1 leaves_sorted a b hab

theorem leaf_anc_eq (h : t.WF) {a i : t.Node} (hl : t.IsLeaf a) (ha : t.Anc a i) : a = i := by
  by_contra hne
  obtain ⟨c, hc, _⟩ := anc_top h ha hne
  exact hl c hc

/-! ### calc_parent -/

theorem assignParents_spec (c : t.Node → Option t.Node) (par : t.Node → Option t.Node)
    (hu : ∀ p q x, c p = some x → c q = some x → p = q) (x : t.Node) :
    (∀ p, c p = some x → t.assignParents c par x = some p) ∧
    ((∀ p, c p ≠ some x) → t.assignParents c par x = par x) := by
  have := foldl_finRange_inv (n := t.m + 1)
    (fun (par : t.Node → Option t.Node) idx => updChild par (c idx) (fun _ => some idx))
    (fun k par' => ∀ x : t.Node, (∀ p : t.Node, p.val < k → c p = some x → par' x = some p) ∧
      ((∀ p : t.Node, p.val < k → c p ≠ some x) → par' x = par x)) par
    (fun x => ⟨fun p hp => absurd hp (Nat.not_lt_zero _), fun _ => rfl⟩)
    (by
      intro i s hs x
      constructor
      · intro p hp hpx
        rw [updChild_apply]
        by_cases hi : c i = some x
        · simp [hi, hu p i x hpx hi]
        · simp only [hi, if_false]
          refine (hs x).1 p ?_ hpx
          rcases Nat.lt_succ_iff_lt_or_eq.mp hp with hlt | heq
          · exact hlt
          · exact absurd (by rwa [show i = p from Fin.ext heq.symm]) hi
      · intro hn
        rw [updChild_apply, if_neg (hn i (Nat.lt_succ_self _))]
        exact (hs x).2 fun p hp => hn p (Nat.lt_succ_of_lt hp))
  exact ⟨fun p hp => (this x).1 p p.isLt hp, fun hn => (this x).2 fun p _ => hn p⟩

theorem calcParent_some (h : t.WF) {p c : t.Node} (hc : t.IsChild p c) :
    t.calcParent c = some p := by
  have huL : ∀ p q x : t.Node, t.left p = some x → t.left q = some x → p = q :=
    fun p q x h1 h2 => h.uniq p q x (Or.inl h1) (Or.inl h2)
  have huR : ∀ p q x : t.Node, t.right p = some x → t.right q = some x → p = q :=
    fun p q x h1 h2 => h.uniq p q x (Or.inr h1) (Or.inr h2)
  unfold calcParent
  by_cases hr : t.right p = some c
  · exact (assignParents_spec _ _ huR c).1 p hr
  · have hl : t.left p = some c := hc.resolve_right hr
    rw [(assignParents_spec _ _ huR c).2]
    · exact (assignParents_spec _ _ huL c).1 p hl
    · intro q hq
      have := h.uniq _ _ _ hc (Or.inr hq)
      subst this; exact hr hq

theorem calcParent_none (h : t.WF) : t.calcParent (0 : t.Node) = none := by
  have huL : ∀ p q x : t.Node, t.left p = some x → t.left q = some x → p = q :=
    fun p q x h1 h2 => h.uniq p q x (Or.inl h1) (Or.inl h2)
  have huR : ∀ p q x : t.Node, t.right p = some x → t.right q = some x → p = q :=
    fun p q x h1 h2 => h.uniq p q x (Or.inr h1) (Or.inr h2)
  unfold calcParent
  rw [(assignParents_spec _ _ huR 0).2 (fun p hp => h.root_no_parent p (Or.inr hp)),
    (assignParents_spec _ _ huL 0).2 (fun p hp => h.root_no_parent p (Or.inl hp))]

theorem calcParent_iff (h : t.WF) {p c : t.Node} : t.calcParent c = some p ↔ t.IsChild p c := by
  constructor
  · intro hc
    by_cases h0 : c = 0
    · subst h0; rw [calcParent_none h] at hc; cases hc
    · obtain ⟨q, hq⟩ := h.parent c h0
      rw [calcParent_some h hq] at hc
      cases hc; exact hq
  · exact calcParent_some h

theorem calcParent_eq_none_iff (h : t.WF) {c : t.Node} : t.calcParent c = none ↔ c = 0 := by
  constructor
  · intro hc
    by_contra h0
    obtain ⟨q, hq⟩ := h.parent c h0
    rw [calcParent_some h hq] at hc; cases hc
  · rintro rfl; exact calcParent_none h

/-! ### create_decision_per_leafs -/

open Classical in
def DecInv (t : Topo) (k : ℕ) (st : t.Node → t.Node → ℕ) : Prop :=
  ∀ c j : t.Node, st c j =
    if t.Anc j c ∧ ((j ≠ c ∧ ∃ p : t.Node, p.val < k ∧ t.IsChild p c) ∨ (j = c ∧ c.val < k))
    then 1 else 0

open Classical in
theorem decInv_step (h : t.WF) (i : t.Node) (st : t.Node → t.Node → ℕ) (hI : DecInv t i.val st) :
    DecInv t (i.val + 1) (t.decisionStep st i) := by
  -- row `i` after setting the diagonal entry
  have hrow : ∀ j, Function.update st i (Function.update (st i) i 1) i j =
      if t.Anc j i then 1 else 0 := by
    intro j
    by_cases hj : j = i
    · subst hj; simp [Anc.refl]
    · rw [Function.update_self, Function.update_of_ne hj, hI i j]
      by_cases ha : t.Anc j i
      · have hi0 : i ≠ 0 := by
          rintro rfl; exact hj ((anc_zero_iff h).1 ha)
        obtain ⟨p, hp⟩ := h.parent i hi0
        have : ∃ p : t.Node, p.val < i.val ∧ t.IsChild p i := ⟨p, h.lt _ _ hp, hp⟩
        rw [if_pos ⟨ha, Or.inl ⟨hj, this⟩⟩, if_pos ha]
      · simp [ha]
  have hother : ∀ c, c ≠ i → ∀ j, Function.update st i (Function.update (st i) i 1) c j = st c j := by
    intro c hc j; rw [Function.update_of_ne hc]
  -- children rows are still zero
  have hzero : ∀ c, t.IsChild i c → ∀ j, st c j = 0 := by
    intro c hc j
    rw [hI c j, if_neg]
    rintro ⟨_, ⟨_, p, hp, hpc⟩ | ⟨_, hlt⟩⟩
    · have := h.uniq _ _ _ hc hpc
      subst this; exact lt_irrefl _ hp
    · exact absurd (h.lt _ _ hc) (not_lt.2 (le_of_lt hlt))
  -- final values, by kind of row
  have hfinal : ∀ c j, t.decisionStep st i c j =
      if c = i then (if t.Anc j i then 1 else 0)
      else if t.IsChild i c then (if t.Anc j i then 1 else 0) else st c j := by
    intro c j
    unfold decisionStep
    cases hr : t.right i with
    | none =>
      have hl := (h.both i).2 hr
      have hnc : ¬ t.IsChild i c := by rintro (hc | hc) <;> simp_all
      by_cases hci : c = i
      · subst hci; simpa using hrow j
      · simp [hci, hnc, hother c hci j]
    | some r =>
      obtain ⟨l, hl⟩ : ∃ l, t.left i = some l := by
        cases hl : t.left i with
        | none => rw [(h.both i).1 hl] at hr; cases hr
        | some l => exact ⟨l, rfl⟩
      have hlr : l ≠ r := by rintro rfl; exact h.ne i l hl hr
      have hli : l ≠ i := ne_of_gt (h.lt _ _ (Or.inl hl))
      have hri : r ≠ i := ne_of_gt (h.lt _ _ (Or.inr hr))
      simp only [hl, Option.getD_some, copyRow]
      have hzl := hzero l (Or.inl hl)
      have hzr := hzero r (Or.inr hr)
      by_cases hci : c = i
      · subst hci
        rw [Function.update_of_ne hli.symm, Function.update_of_ne hri.symm]
        simpa using hrow j
      · by_cases hcl : c = l
        · subst hcl
          have hch : t.IsChild i c := Or.inl hl
          rw [Function.update_self]
          rw [Function.update_of_ne hri.symm, hrow j, Function.update_of_ne hlr, hother c hci j, hzl j]
          simp only [hci, hch, if_true, if_false]
          split_ifs <;> simp_all
        · by_cases hcr : c = r
          · subst hcr
            have hch : t.IsChild i c := Or.inr hr
            rw [Function.update_of_ne hcl, Function.update_self, hrow j, hother c hci j, hzr j]
            simp only [hci, hch, if_true, if_false]
            split_ifs <;> simp_all
          · have hnc : ¬ t.IsChild i c := by
              rintro (hc | hc)
              · rw [hl] at hc; exact hcl (Option.some.inj hc).symm
              · rw [hr] at hc; exact hcr (Option.some.inj hc).symm
            rw [Function.update_of_ne hcl, Function.update_of_ne hcr, hother c hci j]
            simp [hci, hnc]
  intro c j
  rw [hfinal c j]
  by_cases hci : c = i
  · subst hci
    simp only [if_true]
    congr 1
    apply propext
    constructor
    · intro ha
      refine ⟨ha, ?_⟩
      by_cases hj : j = c
      · exact Or.inr ⟨hj, Nat.lt_succ_self _⟩
      · have hi0 : c ≠ 0 := by
          rintro rfl; exact hj ((anc_zero_iff h).1 ha)
        obtain ⟨p, hp⟩ := h.parent c hi0
        exact Or.inl ⟨hj, p, Nat.lt_succ_of_lt (h.lt _ _ hp), hp⟩
    · exact fun h => h.1
  · by_cases hch : t.IsChild i c
    · simp only [hci, hch, if_true, if_false]
      congr 1
      apply propext
      constructor
      · intro ha
        have hjc : j ≠ c := by rintro rfl; exact not_anc_child h hch ha
        exact ⟨.step ha hch, Or.inl ⟨hjc, i, Nat.lt_succ_self _, hch⟩⟩
      · rintro ⟨ha, ⟨hjc, _⟩ | ⟨_, hlt⟩⟩
        · exact ((anc_child_iff h hch).1 ha).resolve_left hjc
        · have := h.lt _ _ hch
          exact absurd this (not_lt.2 (Nat.lt_succ_iff.1 hlt))
    · simp only [hci, hch, if_false]
      rw [hI c j]
      congr 1
      apply propext
      have e1 : (∃ p : t.Node, p.val < i.val ∧ t.IsChild p c) ↔
          (∃ p : t.Node, p.val < i.val + 1 ∧ t.IsChild p c) := by
        constructor
        · rintro ⟨p, hp, hpc⟩; exact ⟨p, Nat.lt_succ_of_lt hp, hpc⟩
        · rintro ⟨p, hp, hpc⟩
          rcases Nat.lt_succ_iff_lt_or_eq.mp hp with hlt | heq
          · exact ⟨p, hlt, hpc⟩
          · exact absurd (by rwa [show i = p from Fin.ext heq.symm]) hch
      have e2 : c.val < i.val ↔ c.val < i.val + 1 := by
        have : c.val ≠ i.val := fun e => hci (Fin.ext e)
        omega
      rw [e1, e2]

open Classical in
theorem decisionAll_spec (h : t.WF) (i j : t.Node) :
    t.decisionAll i j = if t.Anc j i then 1 else 0 := by
  have := foldl_finRange_inv t.decisionStep (DecInv t) (fun _ _ => 0)
    (by
      intro c j
      rw [if_neg]
      rintro ⟨_, ⟨_, p, hp, _⟩ | ⟨_, hlt⟩⟩
      · exact absurd hp (Nat.not_lt_zero _)
      · exact absurd hlt (Nat.not_lt_zero _))
    (fun i s => decInv_step h i s)
  have := this i j
  unfold decisionAll
  rw [this]
  congr 1
  apply propext
  constructor
  · exact fun h => h.1
  · intro ha
    refine ⟨ha, ?_⟩
    by_cases hj : j = i
    · exact Or.inr ⟨hj, i.isLt⟩
    · have hi0 : i ≠ 0 := by
        rintro rfl; exact hj ((anc_zero_iff h).1 ha)
      obtain ⟨p, hp⟩ := h.parent i hi0
      exact Or.inl ⟨hj, p, p.isLt, hp⟩

open Classical in
theorem decisionLeaf_spec (h : t.WF) (r : Fin t.nLeaves) (j : t.Node) :
    t.decisionLeaf r j = if t.Anc j (t.leafNode r) then 1 else 0 :=
  decisionAll_spec h _ j

end Topo
end SmoothRF
