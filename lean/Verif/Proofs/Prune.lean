import Verif.Spec.Prune
import Verif.Proofs.DepthTune
import Mathlib.Algebra.BigOperators.Field
import Mathlib.Tactic.FieldSimp

set_option linter.unusedSectionVars false

namespace SmoothRF
open SkTree Topo

namespace Topo
variable {t : Topo} {P : t.Node → Prop}

theorem mem_curLeaves {i l : t.Node} : l ∈ t.curLeaves P i ↔ t.Anc i l ∧ t.CurLeaf P l := by
  classical
  simp [curLeaves]

theorem Removed.anc (h : t.WF) {i x : t.Node} (hr : t.Removed P i) (ha : t.Anc i x) : t.Removed P x := by
  obtain ⟨p, hp, h1, h2⟩ := hr
  refine ⟨p, hp, h1.trans ha, ?_⟩
  rintro rfl
  exact h2 (h1.antisymm h ha)

theorem curLeaves_leaf (h : t.WF) {i : t.Node} (hc : t.CurLeaf P i) : t.curLeaves P i = {i} := by
  ext l
  rw [mem_curLeaves, Finset.mem_singleton]
  constructor
  · rintro ⟨ha, hl⟩
    by_contra hne
    rcases hc.2 with h1 | h1
    · exact hne (leaf_anc_eq h h1 ha).symm
    · exact hl.1 ⟨i, h1, ha, fun e => hne e.symm⟩
  · rintro rfl
    exact ⟨.refl _, hc⟩

theorem curLeaves_node (h : t.WF) {i l r : t.Node} (hl : t.left i = some l) (hr : t.right i = some r)
    (hP : ¬ P i) : Disjoint (t.curLeaves P l) (t.curLeaves P r) ∧
      t.curLeaves P i = (t.curLeaves P l).disjUnion (t.curLeaves P r) (by
        rw [Finset.disjoint_left]
        intro x hx hy
        rw [mem_curLeaves] at hx hy
        exact siblings_disjoint h (Or.inl hl) (Or.inr hr) (fun e => h.ne i l hl (e ▸ hr)) hx.1 hy.1) := by
  have hcl : t.IsChild i l := Or.inl hl
  have hcr : t.IsChild i r := Or.inr hr
  refine ⟨?_, ?_⟩
  · rw [Finset.disjoint_left]
    intro x hx hy
    rw [mem_curLeaves] at hx hy
    exact siblings_disjoint h hcl hcr (fun e => h.ne i l hl (e ▸ hr)) hx.1 hy.1
  · ext x
    rw [Finset.mem_disjUnion, mem_curLeaves, mem_curLeaves, mem_curLeaves]
    constructor
    · rintro ⟨ha, hx⟩
      have hne : i ≠ x := by
        rintro rfl
        rcases hx.2 with h1 | h1
        · exact h1 l hcl
        · exact hP h1
      obtain ⟨c, hc, hcx⟩ := anc_top h ha hne
      rcases hc with hc | hc
      · rw [hl] at hc; cases hc; exact Or.inl ⟨hcx, hx⟩
      · rw [hr] at hc; cases hc; exact Or.inr ⟨hcx, hx⟩
    · rintro (⟨ha, hx⟩ | ⟨ha, hx⟩)
      · exact ⟨(Anc.step (.refl _) hcl).trans ha, hx⟩
      · exact ⟨(Anc.step (.refl _) hcr).trans ha, hx⟩

/-- A node that is not a leaf has both children. -/
theorem children_of_not_leaf (h : t.WF) {i : t.Node} (hi : ¬ t.IsLeaf i) :
    ∃ l r, t.left i = some l ∧ t.right i = some r := by
  rw [isLeaf_iff h] at hi
  cases hr : t.right i with
  | none => exact absurd hr hi
  | some r =>
    cases hl : t.left i with
    | none => exact absurd ((h.both i).1 hl) hi
    | some l => exact ⟨l, r, rfl, rfl⟩

theorem left_none_of_leaf (h : t.WF) {i : t.Node} (hi : t.IsLeaf i) : t.left i = none :=
  (h.both i).2 ((isLeaf_iff h).1 hi)

theorem curLeaves_card_pos (h : t.WF) {i : t.Node} (hr : ¬ t.Removed P i) :
    0 < (t.curLeaves P i).card := by
  induction hn : t.m - i.val using Nat.strong_induction_on generalizing i with
  | _ n ih =>
    by_cases hc : t.CurLeaf P i
    · rw [curLeaves_leaf h hc]; simp
    · have hl : ¬ t.IsLeaf i := fun e => hc ⟨hr, Or.inl e⟩
      have hP : ¬ P i := fun e => hc ⟨hr, Or.inr e⟩
      obtain ⟨l, r, h1, h2⟩ := children_of_not_leaf h hl
      rw [(curLeaves_node h h1 h2 hP).2, Finset.card_disjUnion]
      have hlt := h.lt i l (Or.inl h1)
      have : 0 < (t.curLeaves P l).card := by
        refine ih (t.m - l.val) ?_ (fun hrl => ?_) rfl
        · have : i.val < l.val := hlt
          have := l.2
          omega
        · obtain ⟨p, hp, h3, h4⟩ := hrl
          rcases (anc_child_iff h (Or.inl h1)).1 h3 with h5 | h5
          · exact h4 h5
          · by_cases h6 : p = i
            · exact hP (h6 ▸ hp)
            · exact hr ⟨p, hp, h5, h6⟩
      omega

theorem not_removed_child (h : t.WF) {i c : t.Node} (hc : t.IsChild i c) (hr : ¬ t.Removed P i)
    (hP : ¬ P i) : ¬ t.Removed P c := by
  rintro ⟨p, hp, h3, h4⟩
  rcases (anc_child_iff h hc).1 h3 with h5 | h5
  · exact h4 h5
  · by_cases h6 : p = i
    · exact hP (h6 ▸ hp)
    · exact hr ⟨p, hp, h5, h6⟩

end Topo

variable {K : Type} [Field K] [LinearOrder K] [IsStrictOrderedRing K] {C : ℕ}

/-- Sum of the risks of the current leaves below `i`, weighted by their observations. -/
noncomputable def leafRisk (t : SkTree K C) (r : t.Node → K) (P : t.Node → Prop) (i : t.Node) : K :=
  ∑ l ∈ t.curLeaves P i, t.nSamp l * r l

/-- The columns that never change. -/
def Fixed (t : SkTree K C) (r : t.Node → K) (i : t.Node) (row : PRow K (t.m + 1)) : Prop :=
  row.rOne = r i ∧ row.parent = t.calcParent i ∧ row.nObs = t.nSamp i

/-- Size and risk of a remaining node. -/
def Sized (t : SkTree K C) (r : t.Node → K) (P : t.Node → Prop) (i : t.Node)
    (row : PRow K (t.m + 1)) : Prop :=
  row.size = (t.curLeaves P i).card ∧ t.nSamp i * row.rSub = leafRisk t r P i

section
variable {t : SkTree K C} {r : t.Node → K} {P : t.Node → Prop}

theorem sized_leaf (h : t.WF) {i : t.Node} (hc : t.CurLeaf P i) {row : PRow K (t.m + 1)}
    (hs : row.size = 1) (hr : row.rSub = r i) : Sized t r P i row := by
  unfold Sized leafRisk
  rw [curLeaves_leaf h hc]
  simp [hs, hr]

theorem sized_node (h : t.WF) {i l q : t.Node} (hl : t.left i = some l) (hq : t.right i = some q)
    (hP : ¬ P i) (hn : t.nSamp i ≠ 0) {rl rq row : PRow K (t.m + 1)}
    (h1 : Sized t r P l rl) (h2 : Sized t r P q rq) (hnl : rl.nObs = t.nSamp l)
    (hnq : rq.nObs = t.nSamp q) (hs : row.size = rl.size + rq.size)
    (hr : row.rSub = (rl.rSub * rl.nObs + rq.rSub * rq.nObs) / t.nSamp i) : Sized t r P i row := by
  obtain ⟨-, e⟩ := curLeaves_node h hl hq hP
  unfold Sized leafRisk at *
  rw [e, Finset.card_disjUnion, Finset.sum_disjUnion, ← h1.1, ← h2.1, ← h1.2, ← h2.2]
  refine ⟨hs, ?_⟩
  rw [hr, hnl, hnq, mul_div_cancel₀ _ hn]
  ring

end

/-! ### initial table -/

/-- Columns of the table during the first recursion. -/
def Base (t : SkTree K C) (r : t.Node → K) (df : PDf K t.toTopo) : Prop :=
  ∀ x, Fixed t r x (df x) ∧ (df x).cLeft = .ofChild (t.left x) ∧ (df x).cRight = .ofChild (t.right x)

theorem recInit_spec {t : SkTree K C} (h : t.WF) {r : t.Node → K} (hn : ∀ i, t.nSamp i ≠ 0)
    (fuel : ℕ) (df : PDf K t.toTopo) (i : t.Node) (hf : t.m + 1 ≤ i.val + fuel) (hb : Base t r df)
    (h0 : ∀ x, t.Anc i x → (df x).rSub = r x) :
    ∃ df', recInit t.toTopo fuel df i = .ok df' ∧ Base t r df' ∧
      (∀ x, ¬ t.Anc i x → df' x = df x) ∧
      ∀ x, t.Anc i x → Sized t r (fun _ => False) x (df' x) := by
  have hrem : ∀ x, ¬ t.Removed (fun _ => False) x := fun x ⟨_, hp, _⟩ => hp
  induction fuel generalizing df i with
  | zero => exact absurd i.2 (by omega)
  | succ fuel ih =>
    by_cases hi : t.IsLeaf i
    · have hl := left_none_of_leaf h hi
      refine ⟨Function.update df i { df i with size := 1 }, ?_, ?_, ?_, ?_⟩
      · unfold recInit
        rw [(hb i).2.1, hl]
        rfl
      · intro x
        by_cases hx : x = i
        · subst hx; rw [Function.update_self]; exact hb x
        · rw [Function.update_of_ne hx]; exact hb x
      · intro x hx
        rw [Function.update_of_ne]
        rintro rfl
        exact hx (.refl _)
      · intro x hx
        have := leaf_anc_eq h hi hx
        subst this
        rw [Function.update_self]
        exact sized_leaf h ⟨hrem _, Or.inl hi⟩ rfl (h0 _ (.refl _))
    · obtain ⟨l, q, hl, hq⟩ := children_of_not_leaf h hi
      have hcl : t.IsChild i l := Or.inl hl
      have hcq : t.IsChild i q := Or.inr hq
      have hlq : l ≠ q := fun e => h.ne i l hl (e ▸ hq)
      have hil : i.val < l.val := h.lt _ _ hcl
      have hiq : i.val < q.val := h.lt _ _ hcq
      obtain ⟨d1, e1, b1, k1, s1⟩ := ih df l (by omega) hb
        (fun x hx => h0 x ((Anc.step (.refl _) hcl).trans hx))
      obtain ⟨d2, e2, b2, k2, s2⟩ := ih d1 q (by omega) b1 (fun x hx => by
        rw [k1 x fun hlx => siblings_disjoint h hcl hcq hlq hlx hx]
        exact h0 x ((Anc.step (.refl _) hcq).trans hx))
      let row : PRow K (t.m + 1) := { d2 i with
          size := (d2 l).size + (d2 q).size
          rSub := ((d2 l).rSub * (d2 l).nObs + (d2 q).rSub * (d2 q).nObs) / (d2 i).nObs }
      refine ⟨Function.update d2 i row, ?_, ?_, ?_, ?_⟩
      · unfold recInit
        rw [(hb i).2.1, (hb i).2.2, hl, hq]
        simp only [CId.ofChild, e1, e2, bind, Except.bind]
        rw [if_neg (by rw [(b2 i).1.2.2]; exact hn i)]
        rfl
      · intro x
        by_cases hx : x = i
        · subst hx; rw [Function.update_self]; exact b2 x
        · rw [Function.update_of_ne hx]; exact b2 x
      · intro x hx
        have h1 : x ≠ i := by rintro rfl; exact hx (.refl _)
        rw [Function.update_of_ne h1, k2 x, k1 x]
        · exact fun e => hx ((Anc.step (.refl _) hcl).trans e)
        · exact fun e => hx ((Anc.step (.refl _) hcq).trans e)
      · have sl : Sized t r (fun _ => False) l (d2 l) := by
          rw [k2 l fun e => siblings_disjoint h hcl hcq hlq (.refl _) e]
          exact s1 l (.refl _)
        have sq : Sized t r (fun _ => False) q (d2 q) := s2 q (.refl _)
        intro x hx
        by_cases hxi : i = x
        · subst hxi
          rw [Function.update_self]
          refine sized_node h hl hq (fun e => e) (hn i) sl sq (b2 l).1.2.2 (b2 q).1.2.2 rfl ?_
          simp only [row, (b2 i).1.2.2]
        · rw [Function.update_of_ne (Ne.symm hxi)]
          obtain ⟨c, hc, hcx⟩ := anc_top h hx hxi
          rcases hc with hc | hc
          · rw [hl] at hc; cases hc
            rw [k2 x fun e => siblings_disjoint h hcl hcq hlq hcx e]
            exact s1 x hcx
          · rw [hq] at hc; cases hc
            exact s2 x hcx

/-! ### invariant -/

/-- What the table says about node `i` when the nodes in `P` have been pruned. -/
structure RowOk (t : SkTree K C) (r : t.Node → K) (P : t.Node → Prop) (i : t.Node)
    (row : PRow K (t.m + 1)) : Prop where
  fixed : Fixed t r i row
  removed : t.Removed P i → row.size = 0 ∧ row.rSub = r i ∧ row.cLeft = .pruned ∧
    row.cRight = .pruned ∧ row.g1 = .nan
  sized : ¬ t.Removed P i → Sized t r P i row
  cutHere : ¬ t.Removed P i → P i → row.cLeft = .leaf ∧ row.cRight = .leaf ∧ ∃ x, row.g1 = .fin x
  intact : ¬ t.Removed P i → ¬ P i →
    row.cLeft = .ofChild (t.left i) ∧ row.cRight = .ofChild (t.right i)
  inner : ¬ t.Removed P i → ¬ P i → ¬ t.IsLeaf i →
    row.g1 = .fin ((r i - row.rSub) / ((row.size : K) - 1))
  leaf : t.IsLeaf i → row.g1 = .nan

/-- The invariant of reachable tables. -/
def PInv (t : SkTree K C) (r : t.Node → K) (P : t.Node → Prop) (df : PDf K t.toTopo) : Prop :=
  (∀ i, P i → ¬ t.IsLeaf i) ∧ ∀ i, RowOk t r P i (df i)

section
variable {t : SkTree K C} {r : t.Node → K} {P : t.Node → Prop}

theorem curLeaves_node_card (h : t.WF) {i : t.Node} (hr : ¬ t.Removed P i) (hP : ¬ P i)
    (hl : ¬ t.IsLeaf i) : 2 ≤ (t.curLeaves P i).card := by
  obtain ⟨l, q, h1, h2⟩ := children_of_not_leaf h hl
  rw [(curLeaves_node h h1 h2 hP).2, Finset.card_disjUnion]
  have := curLeaves_card_pos h (not_removed_child h (Or.inl h1) hr hP)
  have := curLeaves_card_pos h (not_removed_child h (Or.inr h2) hr hP)
  omega

theorem size_sub_ne {n : ℕ} (h : 2 ≤ n) : ((n : K) - 1) ≠ 0 := by
  intro e
  rw [sub_eq_zero] at e
  have : n = 1 := by exact_mod_cast e
  omega

theorem initDfOf_spec (h : t.WF) (hn : ∀ i, t.nSamp i ≠ 0) :
    ∃ df, initDfOf t r = .ok df ∧ PInv t r (fun _ => False) df := by
  have hrem : ∀ x, ¬ t.Removed (fun _ => False) x := fun x ⟨_, hp, _⟩ => hp
  obtain ⟨df, e, hb, -, hs⟩ := recInit_spec (r := r) h hn (t.m + 1) (rawDf t r) 0 (by omega)
    (fun x => ⟨⟨rfl, rfl, rfl⟩, rfl, rfl⟩) (fun _ _ => rfl)
  refine ⟨appendG1 t.toTopo df, ?_, ?_, ?_⟩
  · unfold initDfOf
    rw [e]
    rfl
  · exact fun _ e => e.elim
  · intro i
    have hsi := hs i (anc_root h i)
    refine ⟨(hb i).1, fun e => absurd e (hrem i), fun _ => hsi, fun _ e => e.elim, fun _ _ => (hb i).2,
      ?_, ?_⟩
    · intro _ _ hl
      have hc := curLeaves_node_card (P := fun _ => False) h (hrem i) (fun e => e) hl
      unfold appendG1 flDiv
      simp only
      rw [(hb i).1.1, hsi.1, if_neg (size_sub_ne hc)]
    · intro hl
      have hc : t.CurLeaf (fun _ => False) i := ⟨hrem i, Or.inl hl⟩
      obtain ⟨h1, h2⟩ := hsi
      unfold leafRisk at h2
      rw [curLeaves_leaf h hc, Finset.sum_singleton] at h2
      rw [curLeaves_leaf h hc, Finset.card_singleton] at h1
      unfold appendG1 flDiv
      simp only
      rw [(hb i).1.1, h1, mul_left_cancel₀ (hn i) h2]
      simp

/-! ### cutting -/

theorem recCut_spec (h : t.WF) {df : PDf K t.toTopo} (hI : PInv t r P df) (fuel : ℕ)
    (out : PDf K t.toTopo) (i : t.Node) (hf : t.m + 1 ≤ i.val + fuel) (hr : ¬ t.Removed P i) :
    ∃ out', recCut t.toTopo df fuel out i = .ok out' ∧
      ∀ x, (t.Anc i x ∧ ¬ t.Removed P x → out' x = cutRow (out x) (r x)) ∧
        (¬ (t.Anc i x ∧ ¬ t.Removed P x) → out' x = out x) := by
  induction fuel generalizing out i with
  | zero => exact absurd i.2 (by omega)
  | succ fuel ih =>
    have ho : (df i).rOne = r i := (hI.2 i).fixed.1
    by_cases hc : t.CurLeaf P i
    · have hcl : (df i).cLeft = .leaf := by
        by_cases hP : P i
        · exact ((hI.2 i).cutHere hr hP).1
        · rw [((hI.2 i).intact hr hP).1, left_none_of_leaf h (hc.2.resolve_right hP)]
          rfl
      refine ⟨Function.update out i (cutRow (out i) (df i).rOne), ?_, ?_⟩
      · unfold recCut
        rw [hcl]
        rfl
      · intro x
        constructor
        · rintro ⟨ha, hx⟩
          have : x = i := by
            by_contra hne
            rcases hc.2 with h1 | h1
            · exact hne (leaf_anc_eq h h1 ha).symm
            · exact hx ⟨i, h1, ha, fun e => hne e.symm⟩
          subst this
          rw [Function.update_self, ho]
        · intro hx
          rw [Function.update_of_ne]
          rintro rfl
          exact hx ⟨.refl _, hr⟩
    · have hl : ¬ t.IsLeaf i := fun e => hc ⟨hr, Or.inl e⟩
      have hP : ¬ P i := fun e => hc ⟨hr, Or.inr e⟩
      obtain ⟨l, q, hl, hq⟩ := children_of_not_leaf h hl
      have hcl : t.IsChild i l := Or.inl hl
      have hcq : t.IsChild i q := Or.inr hq
      have hlq : l ≠ q := fun e => h.ne i l hl (e ▸ hq)
      have hil : i.val < l.val := h.lt _ _ hcl
      have hiq : i.val < q.val := h.lt _ _ hcq
      obtain ⟨c1, c2⟩ := (hI.2 i).intact hr hP
      rw [hl] at c1
      rw [hq] at c2
      obtain ⟨o1, e1, s1⟩ := ih out l (by omega) (not_removed_child h hcl hr hP)
      obtain ⟨o2, e2, s2⟩ := ih o1 q (by omega) (not_removed_child h hcq hr hP)
      refine ⟨Function.update o2 i (cutRow (o2 i) (df i).rOne), ?_, ?_⟩
      · unfold recCut
        rw [c1, c2]
        simp only [CId.ofChild, e1, e2, bind, Except.bind]
        rfl
      · have hil' : ¬ t.Anc l i := not_anc_child h hcl
        have hiq' : ¬ t.Anc q i := not_anc_child h hcq
        intro x
        by_cases hxi : i = x
        · subst hxi
          rw [Function.update_self, ho, (s2 i).2 (fun e => hiq' e.1), (s1 i).2 (fun e => hil' e.1)]
          exact ⟨fun _ => rfl, fun e => absurd ⟨.refl _, hr⟩ e⟩
        · rw [Function.update_of_ne (Ne.symm hxi)]
          constructor
          · rintro ⟨ha, hx⟩
            obtain ⟨c, hc, hcx⟩ := anc_top h ha hxi
            rcases hc with hc | hc
            · rw [hl] at hc; cases hc
              rw [(s2 x).2 fun e => siblings_disjoint h hcl hcq hlq hcx e.1, (s1 x).1 ⟨hcx, hx⟩]
            · rw [hq] at hc; cases hc
              rw [(s2 x).1 ⟨hcx, hx⟩, (s1 x).2 fun e => siblings_disjoint h hcl hcq hlq e.1 hcx]
          · intro hx
            rw [(s2 x).2, (s1 x).2]
            · exact fun e => hx ⟨(Anc.step (.refl _) hcl).trans e.1, e.2⟩
            · exact fun e => hx ⟨(Anc.step (.refl _) hcq).trans e.1, e.2⟩

/-- `P` with `p` added. -/
def addP (P : t.Node → Prop) (p : t.Node) : t.Node → Prop := fun x => P x ∨ x = p

theorem removed_add {p i : t.Node} :
    t.Removed (addP P p) i ↔ t.Removed P i ∨ (t.Anc p i ∧ p ≠ i) := by
  constructor
  · rintro ⟨q, hq | rfl, h1, h2⟩
    · exact Or.inl ⟨q, hq, h1, h2⟩
    · exact Or.inr ⟨h1, h2⟩
  · rintro (⟨q, hq, h1, h2⟩ | ⟨h1, h2⟩)
    · exact ⟨q, Or.inl hq, h1, h2⟩
    · exact ⟨p, Or.inr rfl, h1, h2⟩

/-- Nodes unrelated to `p` keep their current leaves. -/
theorem curLeaves_add (h : t.WF) {p i : t.Node} (h1 : ¬ t.Anc p i) (h2 : ¬ t.Anc i p) :
    t.curLeaves (addP P p) i = t.curLeaves P i := by
  ext l
  rw [mem_curLeaves, mem_curLeaves]
  refine and_congr_right fun ha => ?_
  have hpl : ¬ t.Anc p l := fun e => (anc_chain h e ha).elim h1 h2
  have hne : l ≠ p := by rintro rfl; exact hpl (.refl _)
  unfold CurLeaf
  rw [removed_add]
  simp [addP, hne, hpl]

theorem pruneDown_spec (h : t.WF) {df : PDf K t.toTopo} (hI : PInv t r P df) {p : t.Node}
    (hr : ¬ t.Removed P p) (hP : ¬ P p) (hl : ¬ t.IsLeaf p) :
    ∃ out, pruneDown t.toTopo df p = .ok out ∧ (out p).g1 = (df p).g1 ∧
      (∀ x, ¬ t.Anc p x → out x = df x) ∧
      ∀ x, ¬ (t.Anc x p ∧ x ≠ p) → RowOk t r (addP P p) x (out x) := by
  classical
  obtain ⟨l, q, hl', hq⟩ := children_of_not_leaf h hl
  have hcl : t.IsChild p l := Or.inl hl'
  have hcq : t.IsChild p q := Or.inr hq
  have hlq : l ≠ q := fun e => h.ne p l hl' (e ▸ hq)
  obtain ⟨c1, c2⟩ := (hI.2 p).intact hr hP
  rw [hl'] at c1
  rw [hq] at c2
  let o0 : PDf K t.toTopo := Function.update df p
    { df p with size := 1, rSub := (df p).rOne, cLeft := .leaf, cRight := .leaf }
  obtain ⟨o1, e1, s1⟩ := recCut_spec h hI (t.m + 1) o0 l (by omega) (not_removed_child h hcl hr hP)
  obtain ⟨o2, e2, s2⟩ := recCut_spec h hI (t.m + 1) o1 q (by omega) (not_removed_child h hcq hr hP)
  have hlp : ¬ t.Anc l p := not_anc_child h hcl
  have hqp : ¬ t.Anc q p := not_anc_child h hcq
  have hat : o2 p = o0 p := by rw [(s2 p).2 fun e => hqp e.1, (s1 p).2 fun e => hlp e.1]
  have hout : ∀ x, ¬ t.Anc p x → o2 x = df x := by
    intro x hx
    have hne : x ≠ p := by rintro rfl; exact hx (.refl _)
    rw [(s2 x).2 fun e => hx ((Anc.step (.refl _) hcq).trans e.1),
      (s1 x).2 fun e => hx ((Anc.step (.refl _) hcl).trans e.1)]
    exact Function.update_of_ne hne _ _
  have hbelow : ∀ x, t.Anc p x → p ≠ x →
      o2 x = if t.Removed P x then df x else cutRow (df x) (r x) := by
    intro x hx hne
    have h0 : o0 x = df x := Function.update_of_ne (Ne.symm hne) _ _
    obtain ⟨c, hc, hcx⟩ := anc_top h hx hne
    rcases hc with hc | hc
    · rw [hl'] at hc; cases hc
      rw [(s2 x).2 fun e => siblings_disjoint h hcl hcq hlq hcx e.1]
      by_cases hrx : t.Removed P x
      · rw [if_pos hrx, (s1 x).2 fun e => e.2 hrx, h0]
      · rw [if_neg hrx, (s1 x).1 ⟨hcx, hrx⟩, h0]
    · rw [hq] at hc; cases hc
      have h1 : o1 x = df x := by
        rw [(s1 x).2 fun e => siblings_disjoint h hcl hcq hlq e.1 hcx, h0]
      by_cases hrx : t.Removed P x
      · rw [if_pos hrx, (s2 x).2 fun e => e.2 hrx, h1]
      · rw [if_neg hrx, (s2 x).1 ⟨hcx, hrx⟩, h1]
  refine ⟨o2, ?_, ?_, ?_, ?_⟩
  · unfold pruneDown
    rw [c1, c2]
    simp only [CId.ofChild]
    simp only [bind, Except.bind]
    erw [e1]
    exact e2
  · rw [hat]; simp [o0]
  · exact hout
  · intro x hx
    have hrow := hI.2 x
    by_cases hpx : t.Anc p x
    · by_cases hxp : p = x
      · subst hxp
        rw [hat]
        have hrp : ¬ t.Removed (addP P p) p := by
          rw [removed_add]
          rintro (e | ⟨-, e⟩)
          · exact hr e
          · exact e rfl
        have hg : (o0 p).g1 = (df p).g1 := by simp [o0]
        refine ⟨?_, fun e => absurd e hrp, fun _ => ?_, fun _ _ => ?_, fun _ e => absurd (Or.inr rfl) e,
          fun _ e => absurd (Or.inr rfl) e, fun e => absurd e hl⟩
        · simpa [o0, Fixed] using hrow.fixed
        · exact sized_leaf h ⟨hrp, Or.inr (Or.inr rfl)⟩ (by simp [o0])
            (by simpa [o0] using hrow.fixed.1)
        · refine ⟨by simp [o0], by simp [o0], ?_⟩
          rw [hg, hrow.inner hr hP hl]
          exact ⟨_, rfl⟩
      · have hrx : t.Removed (addP P p) x := removed_add.2 (Or.inr ⟨hpx, hxp⟩)
        rw [hbelow x hpx hxp]
        by_cases hx' : t.Removed P x
        · rw [if_pos hx']
          refine ⟨hrow.fixed, fun _ => hrow.removed hx', ?_, ?_, ?_, ?_, hrow.leaf⟩
          all_goals exact fun e => absurd hrx e
        · rw [if_neg hx']
          refine ⟨hrow.fixed, fun _ => ⟨rfl, rfl, rfl, rfl, rfl⟩, ?_, ?_, ?_, ?_, fun _ => rfl⟩
          all_goals exact fun e => absurd hrx e
    · have hne : x ≠ p := by rintro rfl; exact hpx (.refl _)
      have hxp : ¬ t.Anc x p := fun e => hx ⟨e, hne⟩
      rw [hout x hpx]
      have e1 : t.Removed (addP P p) x ↔ t.Removed P x := by
        rw [removed_add]
        exact ⟨fun e => e.resolve_right fun e => hpx e.1, Or.inl⟩
      have e2 : addP P p x ↔ P x := ⟨fun e => e.resolve_right hne, Or.inl⟩
      have e3 := curLeaves_add (P := P) h hpx hxp
      refine ⟨hrow.fixed, ?_, ?_, ?_, ?_, ?_, hrow.leaf⟩
      · rw [e1]; exact hrow.removed
      · rw [e1]
        unfold Sized leafRisk
        rw [e3]
        exact hrow.sized
      · rw [e1, e2]; exact hrow.cutHere
      · rw [e1, e2]; exact hrow.intact
      · rw [e1, e2]; exact hrow.inner

/-! ### upward loop -/

theorem upLoop_spec (h : t.WF) (hn : ∀ i, t.nSamp i ≠ 0) (hPl : ∀ i, P i → ¬ t.IsLeaf i) (fuel : ℕ)
    (df : PDf K t.toTopo) (i : t.Node) (hf : i.val + 1 ≤ fuel)
    (hanc : ∀ x, t.Anc x i → Fixed t r x (df x) ∧ ¬ t.Removed P x ∧ ¬ P x ∧ ¬ t.IsLeaf x ∧
      (df x).cLeft = .ofChild (t.left x) ∧ (df x).cRight = .ofChild (t.right x))
    (hok : ∀ x, ¬ t.Anc x i → RowOk t r P x (df x)) :
    ∃ df', upLoop t.toTopo fuel df i = .ok df' ∧ (∀ x, ¬ t.Anc x i → df' x = df x) ∧
      PInv t r P df' := by
  induction fuel generalizing df i with
  | zero => omega
  | succ fuel ih =>
    obtain ⟨fx, hri, hPi, hli, c1, c2⟩ := hanc i (.refl _)
    obtain ⟨l, q, hl, hq⟩ := children_of_not_leaf h hli
    have hcl : t.IsChild i l := Or.inl hl
    have hcq : t.IsChild i q := Or.inr hq
    rw [hl] at c1
    rw [hq] at c2
    have kl := hok l (not_anc_child h hcl)
    have kq := hok q (not_anc_child h hcq)
    have sl := kl.sized (not_removed_child h hcl hri hPi)
    have sq := kq.sized (not_removed_child h hcq hri hPi)
    let row : PRow K (t.m + 1) := { df i with
        size := (df l).size + (df q).size
        rSub := ((df l).rSub * (df l).nObs + (df q).rSub * (df q).nObs) / (df i).nObs
        g1 := flDiv ((df i).rOne - ((df l).rSub * (df l).nObs + (df q).rSub * (df q).nObs) /
          (df i).nObs) ((((df l).size + (df q).size : ℕ) : K) - 1) }
    have estep : upStep t.toTopo df i = .ok (Function.update df i row) := by
      unfold upStep
      rw [c1, c2]
      simp only [CId.ofChild]
      rw [if_neg (by rw [fx.2.2]; exact hn i)]
    have srow : Sized t r P i row :=
      sized_node h hl hq hPi (hn i) sl sq kl.fixed.2.2 kq.fixed.2.2 rfl (by simp only [row, fx.2.2])
    have hrow : RowOk t r P i row := by
      refine ⟨fx, fun e => absurd e hri, fun _ => srow, fun _ e => absurd e hPi, fun _ _ => ?_,
        fun _ _ _ => ?_, fun e => absurd e hli⟩
      · exact ⟨by rw [hl]; exact c1, by rw [hq]; exact c2⟩
      · have hc := curLeaves_node_card h hri hPi hli
        rw [← srow.1] at hc
        show flDiv _ _ = _
        unfold flDiv
        rw [if_neg (size_sub_ne (K := K) hc), fx.1]
    have hpar : (Function.update df i row i).parent = t.calcParent i := by
      rw [Function.update_self]; exact fx.2.1
    unfold upLoop
    rw [estep]
    simp only [bind, Except.bind]
    cases hp : t.calcParent i with
    | none =>
      rw [hpar, hp]
      have hi0 := (calcParent_eq_none_iff h).1 hp
      subst hi0
      refine ⟨_, rfl, ?_, hPl, ?_⟩
      · intro x hx
        exact Function.update_of_ne (by rintro rfl; exact hx (.refl _)) _ _
      · intro x
        by_cases hx : x = 0
        · subst hx; rw [Function.update_self]; exact hrow
        · rw [Function.update_of_ne hx]
          exact hok x fun e => hx ((anc_zero_iff h).1 e)
    | some p =>
      rw [hpar, hp]
      have hpc := (calcParent_iff h).1 hp
      have hpi : p.val < i.val := h.lt _ _ hpc
      have hne : ∀ x, t.Anc x p → x ≠ i := by
        rintro x hx rfl
        exact not_anc_child h hpc hx
      obtain ⟨df', e, k, hI⟩ := ih (Function.update df i row) p (by omega)
        (fun x hx => by
          rw [Function.update_of_ne (hne x hx)]
          exact hanc x (hx.trans (Anc.step (.refl _) hpc)))
        (fun x hx => by
          by_cases hxi : x = i
          · subst hxi; rw [Function.update_self]; exact hrow
          · rw [Function.update_of_ne hxi]
            exact hok x fun e => ((anc_child_iff h hpc).1 e).elim hxi hx)
      refine ⟨df', e, ?_, hI⟩
      intro x hx
      rw [k x fun e => hx (e.trans (Anc.step (.refl _) hpc)), Function.update_of_ne]
      rintro rfl
      exact hx (.refl _)

/-! ### one prune -/

theorem innerPrune_ok (h : t.WF) (hn : ∀ i, t.nSamp i ≠ 0) {df : PDf K t.toTopo} (hI : PInv t r P df)
    {p : t.Node} (hr : ¬ t.Removed P p) (hP : ¬ P p) (hl : ¬ t.IsLeaf p) :
    ∃ df', innerPrune t.toTopo df p.val = .ok df' ∧ PInv t r (addP P p) df' ∧
      (df' p).g1 = (df p).g1 := by
  obtain ⟨out, e, hg, hkeep, hok⟩ := pruneDown_spec h hI hr hP hl
  have hPl : ∀ i, addP P p i → ¬ t.IsLeaf i := by
    rintro i (hi | rfl)
    · exact hI.1 i hi
    · exact hl
  obtain ⟨l, q, hl', hq⟩ := children_of_not_leaf h hl
  have c1 : (df p).cLeft = .node l := by rw [((hI.2 p).intact hr hP).1, hl']; rfl
  have e0 : innerPrune t.toTopo df p.val = pruneUp t.toTopo out p := by
    unfold innerPrune
    rw [dif_pos p.2]
    simp only [Fin.eta, c1, bind, Except.bind]
    rw [e]
  rw [e0]
  have hpp := hok p fun e => e.2 rfl
  have hpar := hpp.fixed.2.1
  unfold pruneUp
  cases hp : t.calcParent p with
  | none =>
    rw [hpar, hp]
    have hp0 := (calcParent_eq_none_iff h).1 hp
    refine ⟨out, rfl, ⟨hPl, fun x => hok x fun e => ?_⟩, hg⟩
    exact e.2 (by rw [hp0] at e ⊢; exact (anc_zero_iff h).1 e.1)
  | some d =>
    rw [hpar, hp]
    have hdc := (calcParent_iff h).1 hp
    have hstrict : ∀ x, t.Anc x d → t.Anc x p ∧ x ≠ p := fun x hx =>
      ⟨hx.trans (Anc.step (.refl _) hdc), by rintro rfl; exact not_anc_child h hdc hx⟩
    obtain ⟨df', e', k, hI'⟩ := upLoop_spec (r := r) h hn hPl (t.m + 1) out d (by have := d.2; omega)
      (fun x hx => by
        obtain ⟨h1, h2⟩ := hstrict x hx
        rw [hkeep x fun e => h2 (h1.antisymm h e)]
        have hrow := hI.2 x
        have hrx : ¬ t.Removed P x := fun e => hr (e.anc h h1)
        have hPx : ¬ P x := fun e => hr ⟨x, e, h1, h2⟩
        have hlx : ¬ t.IsLeaf x := fun e => h2 (leaf_anc_eq h e h1)
        refine ⟨hrow.fixed, ?_, ?_, hlx, (hrow.intact hrx hPx).1, (hrow.intact hrx hPx).2⟩
        · rw [removed_add]
          rintro (e | e)
          · exact hrx e
          · exact h2 (h1.antisymm h e.1)
        · rintro (e | e)
          · exact hPx e
          · exact h2 e)
      (fun x hx => hok x fun e => hx (by
        rcases (anc_child_iff h hdc).1 e.1 with h1 | h1
        · exact absurd h1 e.2
        · exact h1))
    refine ⟨df', e', hI', ?_⟩
    rw [k p (not_anc_child h hdc), hg]

theorem innerPrune_reject (h : t.WF) {df : PDf K t.toTopo} (hI : PInv t r P df) {p : t.Node}
    (hc : t.Removed P p ∨ t.CurLeaf P p) : innerPrune t.toTopo df p.val = .error .valueError := by
  have hcl : (df p).cLeft = .leaf ∨ (df p).cLeft = .pruned := by
    by_cases hr : t.Removed P p
    · exact Or.inr ((hI.2 p).removed hr).2.2.1
    · have hc := hc.resolve_left hr
      by_cases hP : P p
      · exact Or.inl ((hI.2 p).cutHere hr hP).1
      · left
        rw [((hI.2 p).intact hr hP).1, left_none_of_leaf h (hc.2.resolve_right hP)]
        rfl
  unfold innerPrune
  rw [dif_pos p.2]
  rcases hcl with e | e <;> simp only [Fin.eta, e]

theorem pruneMany_spec (h : t.WF) (hn : ∀ i, t.nSamp i ≠ 0) (ops : List ℕ) {df df' : PDf K t.toTopo}
    (hI : PInv t r P df) (he : pruneMany t.toTopo df ops = .ok df') :
    PInv t r (fun i => P i ∨ i.val ∈ ops) df' := by
  induction ops generalizing df P with
  | nil =>
    simp only [pruneMany, List.foldlM_nil, pure, Except.pure, Except.ok.injEq] at he
    subst he
    simpa using hI
  | cons o ops ih =>
    unfold pruneMany at he
    rw [List.foldlM_cons] at he
    obtain ⟨d1, e1, he⟩ := bind_ok he
    by_cases ho : o < t.m + 1
    · by_cases hc : t.Removed P ⟨o, ho⟩ ∨ t.CurLeaf P ⟨o, ho⟩
      · rw [innerPrune_reject h hI hc] at e1
        cases e1
      · rw [not_or] at hc
        have hP : ¬ P ⟨o, ho⟩ := fun e => hc.2 ⟨hc.1, Or.inr e⟩
        have hl : ¬ t.IsLeaf ⟨o, ho⟩ := fun e => hc.2 ⟨hc.1, Or.inl e⟩
        obtain ⟨d2, e2, hI2, -⟩ := innerPrune_ok h hn hI hc.1 hP hl
        rw [e2] at e1
        cases e1
        have := ih hI2 he
        have e : (fun i : t.Node => addP P ⟨o, ho⟩ i ∨ i.val ∈ ops) =
            fun i : t.Node => P i ∨ i.val ∈ o :: ops := by
          funext i
          simp only [addP, List.mem_cons, or_assoc, Fin.ext_iff]
        rwa [e] at this
    · unfold innerPrune at e1
      rw [dif_neg ho] at e1
      cases e1

end

/-! ### risks -/

theorem misclassified_eq {v : Fin C → K} {c : Fin C} (hc : IsArgmax v c) :
    misclassified v = (∑ j, v j) - v c := by
  obtain ⟨c', e, hc'⟩ := npArgmax_ofFn v (Nat.pos_of_ne_zero fun e => by subst e; exact c.elim0)
  have : c' = c := isArgmax_unique hc' hc
  subst this
  unfold misclassified
  rw [e, eq_sub_iff_add_eq]
  have h1 : ∀ j : Fin C, (if j.val = c'.val then 0 else v j) = if j = c' then 0 else v j := by
    intro j
    simp only [Fin.ext_iff]
  rw [Finset.sum_congr rfl fun j _ => h1 j, Finset.sum_ite, Finset.sum_const_zero, zero_add,
    ← Finset.sum_erase_add _ _ (Finset.mem_univ c')]
  congr 1
  exact Finset.sum_congr (by ext j; simp) fun _ _ => rfl

theorem misclassified_nonneg {v : Fin C → K} (hv : ∀ c, 0 ≤ v c) : 0 ≤ misclassified v :=
  Finset.sum_nonneg fun c _ => by split_ifs <;> simp [hv c]

theorem misclassified_superadd (v a b : Fin C → K) (h : ∀ c, v c = a c + b c) :
    misclassified a + misclassified b ≤ misclassified v := by
  rcases Nat.eq_zero_or_pos C with hC | hC
  · subst hC; simp [misclassified]
  · obtain ⟨c, -, hc⟩ := npArgmax_ofFn v hC
    obtain ⟨ca, -, ha⟩ := npArgmax_ofFn a hC
    obtain ⟨cb, -, hb⟩ := npArgmax_ofFn b hC
    rw [misclassified_eq hc, misclassified_eq ha, misclassified_eq hb]
    have h1 : ∑ j, v j = ∑ j, a j + ∑ j, b j := by
      rw [← Finset.sum_add_distrib]
      exact Finset.sum_congr rfl fun j _ => h j
    have := ha.1 c
    have := hb.1 c
    rw [h1, h c]
    linarith

theorem leafRisk_le {t : SkTree K C} (h : t.WF) {r : t.Node → K} {P : t.Node → Prop}
    (hsup : ∀ i l q, t.left i = some l → t.right i = some q →
      t.nSamp l * r l + t.nSamp q * r q ≤ t.nSamp i * r i) {i : t.Node} (hr : ¬ t.Removed P i) :
    leafRisk t r P i ≤ t.nSamp i * r i := by
  induction hn : t.m - i.val using Nat.strong_induction_on generalizing i with
  | _ n ih =>
    by_cases hc : t.CurLeaf P i
    · unfold leafRisk
      rw [curLeaves_leaf h hc]; simp
    · have hl : ¬ t.IsLeaf i := fun e => hc ⟨hr, Or.inl e⟩
      have hP : ¬ P i := fun e => hc ⟨hr, Or.inr e⟩
      obtain ⟨l, q, h1, h2⟩ := children_of_not_leaf h hl
      have hlt : i.val < l.val := h.lt i l (Or.inl h1)
      have hqt : i.val < q.val := h.lt i q (Or.inr h2)
      have hm := l.2
      have hm' := q.2
      have e1 := ih (t.m - l.val) (by omega) (not_removed_child h (Or.inl h1) hr hP) rfl
      have e2 := ih (t.m - q.val) (by omega) (not_removed_child h (Or.inr h2) hr hP) rfl
      have e3 := hsup i l q h1 h2
      unfold leafRisk at *
      rw [(curLeaves_node h h1 h2 hP).2, Finset.sum_disjUnion]
      linarith

/-- The array `r_single_t(tree)`. -/
def riskOf (kind : Kind) (t : SkTree K C) (i : t.Node) : K :=
  match kind with
  | .reg => t.impurity i
  | .cls => misclassified (t.value i) / t.nSamp i

theorem initDf_eq (kind : Kind) {t : SkTree K C} (hn : ∀ i, t.nSamp i ≠ 0) :
    initDf kind t = initDfOf t (riskOf kind t) := by
  have h1 : ∀ i ∈ List.finRange (t.m + 1), rSingle kind t i = .ok (riskOf kind t i) := by
    intro i _
    unfold rSingle riskOf
    cases kind
    · rfl
    · simp only [if_neg (hn i)]
  have h2 : rSingleAll kind t = .ok ((List.finRange (t.m + 1)).map (riskOf kind t)) := by
    unfold rSingleAll
    exact mapM_ok _ _ _ h1
  unfold initDf
  rw [h2]
  simp only [bind, Except.bind]
  congr 1
  funext i
  have := finRange_getElem? i
  simp [List.getD, this]

end SmoothRF
