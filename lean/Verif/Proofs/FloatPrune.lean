import Verif.Proofs.Prune
import Verif.Model.FloatPrune
import Verif.Proofs.Float

/-!
# The pruning table in double precision: proofs
-/

namespace SmoothRF
open Topo SkTree
set_option linter.unusedSectionVars false

variable {C : ℕ}

/-- `FlRisk t r P i x`: `x` is `R(T_i)` of the tree cut at `P`, computed from the bottom up with every operation rounded.
The value at a node at which the tree ends is its own risk `r`. -/
inductive FlRisk (t : SkTree ℚ C) (r : t.Node → ℚ) (P : t.Node → Prop) : t.Node → ℚ → Prop
  | stop {i : t.Node} : t.IsLeaf i ∨ P i → FlRisk t r P i (r i)
  | node {i l q : t.Node} {a b : ℚ} : t.left i = some l → t.right i = some q → ¬ P i →
      FlRisk t r P l a → FlRisk t r P q b →
      FlRisk t r P i (fl (fl (fl (a * t.nSamp l) + fl (b * t.nSamp q)) / t.nSamp i))

/-- Size and rounded risk of a remaining node. -/
def FSized (t : SkTree ℚ C) (r : t.Node → ℚ) (P : t.Node → Prop) (i : t.Node)
    (row : PRow ℚ (t.m + 1)) : Prop :=
  row.size = (t.curLeaves P i).card ∧ FlRisk t r P i row.rSub

section
variable {t : SkTree ℚ C} {r : t.Node → ℚ} {P P' : t.Node → Prop}

theorem FlRisk.congr {i : t.Node} {x : ℚ} (hx : FlRisk t r P i x)
    (h : ∀ j, t.Anc i j → (P j ↔ P' j)) : FlRisk t r P' i x := by
  induction hx with
  | @stop i hs => exact .stop (hs.imp_right (h i (.refl _)).1)
  | @node i l q a b hl hq hP _ _ iha ihb =>
    exact .node hl hq (fun e => hP ((h i (.refl _)).2 e))
      (iha fun j hj => h j ((Anc.step (.refl _) (Or.inl hl)).trans hj))
      (ihb fun j hj => h j ((Anc.step (.refl _) (Or.inr hq)).trans hj))

theorem FlRisk.unique {i : t.Node} {x y : ℚ} (hx : FlRisk t r P i x) (hy : FlRisk t r P i y) : x = y := by
  induction hx generalizing y with
  | @stop i hs =>
    cases hy with
    | stop => rfl
    | @node _ l _ _ _ hl _ hP _ _ =>
      rcases hs with hs | hs
      · exact absurd (Or.inl hl) (hs l)
      · exact absurd hs hP
  | @node i l q a b hl hq hP _ _ iha ihb =>
    cases hy with
    | stop hs =>
      rcases hs with hs | hs
      · exact absurd (Or.inl hl) (hs l)
      · exact absurd hs hP
    | @node _ l' q' a' b' hl' hq' _ h1 h2 =>
      rw [hl] at hl'; cases hl'
      rw [hq] at hq'; cases hq'
      rw [iha h1, ihb h2]

theorem FlRisk.exists (h : t.WF) (i : t.Node) : ∃ x, FlRisk t r P i x := by
  induction hn : t.m - i.val using Nat.strong_induction_on generalizing i with
  | _ n ih =>
    by_cases hs : t.IsLeaf i ∨ P i
    · exact ⟨_, .stop hs⟩
    · rw [not_or] at hs
      obtain ⟨l, q, hl, hq⟩ := children_of_not_leaf h hs.1
      have h1 : i.val < l.val := h.lt _ _ (Or.inl hl)
      have h2 : i.val < q.val := h.lt _ _ (Or.inr hq)
      have := l.2
      have := q.2
      obtain ⟨a, ha⟩ := ih (t.m - l.val) (by omega) l rfl
      obtain ⟨b, hb⟩ := ih (t.m - q.val) (by omega) q rfl
      exact ⟨_, .node hl hq hs.2 ha hb⟩

/-- Nodes under a cut node do not matter. -/
theorem FlRisk.congr_cut (h : t.WF) {i : t.Node} {x : ℚ} (hx : FlRisk t r P i x) (hr : ¬ t.Removed P i)
    (hP : ∀ j, ¬ t.Removed P j → (t.IsLeaf j ∨ P j ↔ t.IsLeaf j ∨ P' j)) : FlRisk t r P' i x := by
  induction hx with
  | @stop i hs => exact .stop ((hP i hr).1 hs)
  | @node i l q a b hl hq hPi _ _ iha ihb =>
    refine .node hl hq (fun e => ?_) (iha (not_removed_child h (Or.inl hl) hr hPi))
      (ihb (not_removed_child h (Or.inr hq) hr hPi))
    rcases (hP i hr).2 (Or.inr e) with h1 | h1
    · exact h1 l (Or.inl hl)
    · exact hPi h1

theorem fsized_leaf (h : t.WF) {i : t.Node} (hc : t.CurLeaf P i) {row : PRow ℚ (t.m + 1)}
    (hs : row.size = 1) (hr : row.rSub = r i) : FSized t r P i row := by
  refine ⟨?_, hr ▸ .stop hc.2⟩
  rw [curLeaves_leaf h hc]
  simp [hs]

theorem fsized_node (h : t.WF) {i l q : t.Node} (hl : t.left i = some l) (hq : t.right i = some q)
    (hP : ¬ P i) (_hn : t.nSamp i ≠ 0) {rl rq row : PRow ℚ (t.m + 1)}
    (h1 : FSized t r P l rl) (h2 : FSized t r P q rq) (hnl : rl.nObs = t.nSamp l)
    (hnq : rq.nObs = t.nSamp q) (hs : row.size = rl.size + rq.size)
    (hr : row.rSub = flComb rl.rSub rl.nObs rq.rSub rq.nObs (t.nSamp i)) : FSized t r P i row := by
  obtain ⟨-, e⟩ := curLeaves_node h hl hq hP
  refine ⟨?_, ?_⟩
  · rw [e, Finset.card_disjUnion, ← h1.1, ← h2.1, hs]
  · rw [hr, hnl, hnq]
    exact .node hl hq hP h1.2 h2.2

end

/-! ### initial table -/

theorem flRecInit_spec {t : SkTree ℚ C} (h : t.WF) {r : t.Node → ℚ} (hn : ∀ i, t.nSamp i ≠ 0)
    (fuel : ℕ) (df : PDf ℚ t.toTopo) (i : t.Node) (hf : t.m + 1 ≤ i.val + fuel) (hb : Base t r df)
    (h0 : ∀ x, t.Anc i x → (df x).rSub = r x) :
    ∃ df', flRecInit t.toTopo fuel df i = .ok df' ∧ Base t r df' ∧
      (∀ x, ¬ t.Anc i x → df' x = df x) ∧
      ∀ x, t.Anc i x → FSized t r (fun _ => False) x (df' x) := by
  have hrem : ∀ x, ¬ t.Removed (fun _ => False) x := fun x ⟨_, hp, _⟩ => hp
  induction fuel generalizing df i with
  | zero => exact absurd i.2 (by omega)
  | succ fuel ih =>
    by_cases hi : t.IsLeaf i
    · have hl := left_none_of_leaf h hi
      refine ⟨Function.update df i { df i with size := 1 }, ?_, ?_, ?_, ?_⟩
      · unfold flRecInit
        rw [(hb i).2.1, hl]
        rfl
      · intro x
        by_cases hx : x = i
        · subst hx; rw [Function.update_self]; exact hb x
        · rw [Function.update_of_ne hx]; exact hb x
      · intro x hx
        rw [Function.update_of_ne]
        rintro rfl
        exact hx (.refl _)
      · intro x hx
        have := leaf_anc_eq h hi hx
        subst this
        rw [Function.update_self]
        exact fsized_leaf h ⟨hrem _, Or.inl hi⟩ rfl (h0 _ (.refl _))
    · obtain ⟨l, q, hl, hq⟩ := children_of_not_leaf h hi
      have hcl : t.IsChild i l := Or.inl hl
      have hcq : t.IsChild i q := Or.inr hq
      have hlq : l ≠ q := fun e => h.ne i l hl (e ▸ hq)
      have hil : i.val < l.val := h.lt _ _ hcl
      have hiq : i.val < q.val := h.lt _ _ hcq
      obtain ⟨d1, e1, b1, k1, s1⟩ := ih df l (by omega) hb
        (fun x hx => h0 x ((Anc.step (.refl _) hcl).trans hx))
      obtain ⟨d2, e2, b2, k2, s2⟩ := ih d1 q (by omega) b1 (fun x hx => by
        rw [k1 x fun hlx => siblings_disjoint h hcl hcq hlq hlx hx]
        exact h0 x ((Anc.step (.refl _) hcq).trans hx))
      let row : PRow ℚ (t.m + 1) := { d2 i with
          size := (d2 l).size + (d2 q).size
          rSub := flComb (d2 l).rSub (d2 l).nObs (d2 q).rSub (d2 q).nObs (d2 i).nObs }
      refine ⟨Function.update d2 i row, ?_, ?_, ?_, ?_⟩
      · unfold flRecInit
        rw [(hb i).2.1, (hb i).2.2, hl, hq]
        simp only [CId.ofChild, e1, e2, bind, Except.bind]
        rw [if_neg (by rw [(b2 i).1.2.2]; exact hn i)]
        rfl
      · intro x
        by_cases hx : x = i
        · subst hx; rw [Function.update_self]; exact b2 x
        · rw [Function.update_of_ne hx]; exact b2 x
      · intro x hx
        have h1 : x ≠ i := by rintro rfl; exact hx (.refl _)
        rw [Function.update_of_ne h1, k2 x, k1 x]
        · exact fun e => hx ((Anc.step (.refl _) hcl).trans e)
        · exact fun e => hx ((Anc.step (.refl _) hcq).trans e)
      · have sl : FSized t r (fun _ => False) l (d2 l) := by
          rw [k2 l fun e => siblings_disjoint h hcl hcq hlq (.refl _) e]
          exact s1 l (.refl _)
        have sq : FSized t r (fun _ => False) q (d2 q) := s2 q (.refl _)
        intro x hx
        by_cases hxi : i = x
        · subst hxi
          rw [Function.update_self]
          refine fsized_node h hl hq (fun e => e) (hn i) sl sq (b2 l).1.2.2 (b2 q).1.2.2 rfl ?_
          simp only [row, (b2 i).1.2.2]
        · rw [Function.update_of_ne (Ne.symm hxi)]
          obtain ⟨c, hc, hcx⟩ := anc_top h hx hxi
          rcases hc with hc | hc
          · rw [hl] at hc; cases hc
            rw [k2 x fun e => siblings_disjoint h hcl hcq hlq hcx e]
            exact s1 x hcx
          · rw [hq] at hc; cases hc
            exact s2 x hcx

/-! ### invariant -/

/-- What the table says about node `i` when the nodes in `P` have been pruned. -/
structure FRowOk (t : SkTree ℚ C) (r : t.Node → ℚ) (P : t.Node → Prop) (i : t.Node)
    (row : PRow ℚ (t.m + 1)) : Prop where
  fixed : Fixed t r i row
  removed : t.Removed P i → row.size = 0 ∧ row.rSub = r i ∧ row.cLeft = .pruned ∧
    row.cRight = .pruned ∧ row.g1 = .nan
  sized : ¬ t.Removed P i → FSized t r P i row
  cutHere : ¬ t.Removed P i → P i → row.cLeft = .leaf ∧ row.cRight = .leaf ∧ ∃ x, row.g1 = .fin x
  intact : ¬ t.Removed P i → ¬ P i →
    row.cLeft = .ofChild (t.left i) ∧ row.cRight = .ofChild (t.right i)
  inner : ¬ t.Removed P i → ¬ P i → ¬ t.IsLeaf i →
    row.g1 = .fin (fl (fl (r i - row.rSub) / ((row.size : ℚ) - 1)))
  leaf : t.IsLeaf i → row.g1 = .nan

/-- The invariant of reachable tables. -/
def FInv (t : SkTree ℚ C) (r : t.Node → ℚ) (P : t.Node → Prop) (df : PDf ℚ t.toTopo) : Prop :=
  (∀ i, P i → ¬ t.IsLeaf i) ∧ ∀ i, FRowOk t r P i (df i)

section
variable {t : SkTree ℚ C} {r : t.Node → ℚ} {P : t.Node → Prop}

theorem flInitDfOf_spec (h : t.WF) (hn : ∀ i, t.nSamp i ≠ 0) :
    ∃ df, flInitDfOf t r = .ok df ∧ FInv t r (fun _ => False) df := by
  have hrem : ∀ x, ¬ t.Removed (fun _ => False) x := fun x ⟨_, hp, _⟩ => hp
  obtain ⟨df, e, hb, -, hs⟩ := flRecInit_spec (r := r) h hn (t.m + 1) (rawDf t r) 0 (by omega)
    (fun x => ⟨⟨rfl, rfl, rfl⟩, rfl, rfl⟩) (fun _ _ => rfl)
  refine ⟨flAppendG1 t.toTopo df, ?_, ?_, ?_⟩
  · unfold flInitDfOf
    rw [e]
    rfl
  · exact fun _ e => e.elim
  · intro i
    have hsi := hs i (anc_root h i)
    refine ⟨(hb i).1, fun e => absurd e (hrem i), fun _ => hsi, fun _ e => e.elim, fun _ _ => (hb i).2,
      ?_, ?_⟩
    · intro _ _ hl
      have hc := curLeaves_node_card (P := fun _ => False) h (hrem i) (fun e => e) hl
      unfold flAppendG1 flG1 flDivR
      simp only
      rw [(hb i).1.1, hsi.1, if_neg (size_sub_ne hc)]
    · intro hl
      have hc : t.CurLeaf (fun _ => False) i := ⟨hrem i, Or.inl hl⟩
      obtain ⟨h1, h2⟩ := hsi
      have h3 : (df i).rSub = r i := h2.unique (.stop (Or.inl hl))
      rw [curLeaves_leaf h hc, Finset.card_singleton] at h1
      unfold flAppendG1 flG1 flDivR
      simp only
      rw [(hb i).1.1, h1, h3]
      simp [fl_zero]

/-! ### cutting -/

theorem flRecCut_spec (h : t.WF) {df : PDf ℚ t.toTopo} (hI : FInv t r P df) (fuel : ℕ)
    (out : PDf ℚ t.toTopo) (i : t.Node) (hf : t.m + 1 ≤ i.val + fuel) (hr : ¬ t.Removed P i) :
    ∃ out', recCut t.toTopo df fuel out i = .ok out' ∧
      ∀ x, (t.Anc i x ∧ ¬ t.Removed P x → out' x = cutRow (out x) (r x)) ∧
        (¬ (t.Anc i x ∧ ¬ t.Removed P x) → out' x = out x) := by
  induction fuel generalizing out i with
  | zero => exact absurd i.2 (by omega)
  | succ fuel ih =>
    have ho : (df i).rOne = r i := (hI.2 i).fixed.1
    by_cases hc : t.CurLeaf P i
    · have hcl : (df i).cLeft = .leaf := by
        by_cases hP : P i
        · exact ((hI.2 i).cutHere hr hP).1
        · rw [((hI.2 i).intact hr hP).1, left_none_of_leaf h (hc.2.resolve_right hP)]
          rfl
      refine ⟨Function.update out i (cutRow (out i) (df i).rOne), ?_, ?_⟩
      · unfold recCut
        rw [hcl]
        rfl
      · intro x
        constructor
        · rintro ⟨ha, hx⟩
          have : x = i := by
            by_contra hne
            rcases hc.2 with h1 | h1
            · exact hne (leaf_anc_eq h h1 ha).symm
            · exact hx ⟨i, h1, ha, fun e => hne e.symm⟩
          subst this
          rw [Function.update_self, ho]
        · intro hx
          rw [Function.update_of_ne]
          rintro rfl
          exact hx ⟨.refl _, hr⟩
    · have hl : ¬ t.IsLeaf i := fun e => hc ⟨hr, Or.inl e⟩
      have hP : ¬ P i := fun e => hc ⟨hr, Or.inr e⟩
      obtain ⟨l, q, hl, hq⟩ := children_of_not_leaf h hl
      have hcl : t.IsChild i l := Or.inl hl
      have hcq : t.IsChild i q := Or.inr hq
      have hlq : l ≠ q := fun e => h.ne i l hl (e ▸ hq)
      have hil : i.val < l.val := h.lt _ _ hcl
      have hiq : i.val < q.val := h.lt _ _ hcq
      obtain ⟨c1, c2⟩ := (hI.2 i).intact hr hP
      rw [hl] at c1
      rw [hq] at c2
      obtain ⟨o1, e1, s1⟩ := ih out l (by omega) (not_removed_child h hcl hr hP)
      obtain ⟨o2, e2, s2⟩ := ih o1 q (by omega) (not_removed_child h hcq hr hP)
      refine ⟨Function.update o2 i (cutRow (o2 i) (df i).rOne), ?_, ?_⟩
      · unfold recCut
        rw [c1, c2]
        simp only [CId.ofChild, e1, e2, bind, Except.bind]
        rfl
      · have hil' : ¬ t.Anc l i := not_anc_child h hcl
        have hiq' : ¬ t.Anc q i := not_anc_child h hcq
        intro x
        by_cases hxi : i = x
        · subst hxi
          rw [Function.update_self, ho, (s2 i).2 (fun e => hiq' e.1), (s1 i).2 (fun e => hil' e.1)]
          exact ⟨fun _ => rfl, fun e => absurd ⟨.refl _, hr⟩ e⟩
        · rw [Function.update_of_ne (Ne.symm hxi)]
          constructor
          · rintro ⟨ha, hx⟩
            obtain ⟨c, hc, hcx⟩ := anc_top h ha hxi
            rcases hc with hc | hc
            · rw [hl] at hc; cases hc
              rw [(s2 x).2 fun e => siblings_disjoint h hcl hcq hlq hcx e.1, (s1 x).1 ⟨hcx, hx⟩]
            · rw [hq] at hc; cases hc
              rw [(s2 x).1 ⟨hcx, hx⟩, (s1 x).2 fun e => siblings_disjoint h hcl hcq hlq e.1 hcx]
          · intro hx
            rw [(s2 x).2, (s1 x).2]
            · exact fun e => hx ⟨(Anc.step (.refl _) hcl).trans e.1, e.2⟩
            · exact fun e => hx ⟨(Anc.step (.refl _) hcq).trans e.1, e.2⟩

theorem flPruneDown_spec (h : t.WF) {df : PDf ℚ t.toTopo} (hI : FInv t r P df) {p : t.Node}
    (hr : ¬ t.Removed P p) (hP : ¬ P p) (hl : ¬ t.IsLeaf p) :
    ∃ out, pruneDown t.toTopo df p = .ok out ∧ (out p).g1 = (df p).g1 ∧
      (∀ x, ¬ t.Anc p x → out x = df x) ∧
      ∀ x, ¬ (t.Anc x p ∧ x ≠ p) → FRowOk t r (addP P p) x (out x) := by
  classical
  obtain ⟨l, q, hl', hq⟩ := children_of_not_leaf h hl
  have hcl : t.IsChild p l := Or.inl hl'
  have hcq : t.IsChild p q := Or.inr hq
  have hlq : l ≠ q := fun e => h.ne p l hl' (e ▸ hq)
  obtain ⟨c1, c2⟩ := (hI.2 p).intact hr hP
  rw [hl'] at c1
  rw [hq] at c2
  let o0 : PDf ℚ t.toTopo := Function.update df p
    { df p with size := 1, rSub := (df p).rOne, cLeft := .leaf, cRight := .leaf }
  obtain ⟨o1, e1, s1⟩ := flRecCut_spec h hI (t.m + 1) o0 l (by omega) (not_removed_child h hcl hr hP)
  obtain ⟨o2, e2, s2⟩ := flRecCut_spec h hI (t.m + 1) o1 q (by omega) (not_removed_child h hcq hr hP)
  have hlp : ¬ t.Anc l p := not_anc_child h hcl
  have hqp : ¬ t.Anc q p := not_anc_child h hcq
  have hat : o2 p = o0 p := by rw [(s2 p).2 fun e => hqp e.1, (s1 p).2 fun e => hlp e.1]
  have hout : ∀ x, ¬ t.Anc p x → o2 x = df x := by
    intro x hx
    have hne : x ≠ p := by rintro rfl; exact hx (.refl _)
    rw [(s2 x).2 fun e => hx ((Anc.step (.refl _) hcq).trans e.1),
      (s1 x).2 fun e => hx ((Anc.step (.refl _) hcl).trans e.1)]
    exact Function.update_of_ne hne _ _
  have hbelow : ∀ x, t.Anc p x → p ≠ x →
      o2 x = if t.Removed P x then df x else cutRow (df x) (r x) := by
    intro x hx hne
    have h0 : o0 x = df x := Function.update_of_ne (Ne.symm hne) _ _
    obtain ⟨c, hc, hcx⟩ := anc_top h hx hne
    rcases hc with hc | hc
    · rw [hl'] at hc; cases hc
      rw [(s2 x).2 fun e => siblings_disjoint h hcl hcq hlq hcx e.1]
      by_cases hrx : t.Removed P x
      · rw [if_pos hrx, (s1 x).2 fun e => e.2 hrx, h0]
      · rw [if_neg hrx, (s1 x).1 ⟨hcx, hrx⟩, h0]
    · rw [hq] at hc; cases hc
      have h1 : o1 x = df x := by
        rw [(s1 x).2 fun e => siblings_disjoint h hcl hcq hlq e.1 hcx, h0]
      by_cases hrx : t.Removed P x
      · rw [if_pos hrx, (s2 x).2 fun e => e.2 hrx, h1]
      · rw [if_neg hrx, (s2 x).1 ⟨hcx, hrx⟩, h1]
  refine ⟨o2, ?_, ?_, ?_, ?_⟩
  · unfold pruneDown
    rw [c1, c2]
    simp only [CId.ofChild]
    simp only [bind, Except.bind]
    erw [e1]
    exact e2
  · rw [hat]; simp [o0]
  · exact hout
  · intro x hx
    have hrow := hI.2 x
    by_cases hpx : t.Anc p x
    · by_cases hxp : p = x
      · subst hxp
        rw [hat]
        have hrp : ¬ t.Removed (addP P p) p := by
          rw [removed_add]
          rintro (e | ⟨-, e⟩)
          · exact hr e
          · exact e rfl
        have hg : (o0 p).g1 = (df p).g1 := by simp [o0]
        refine ⟨?_, fun e => absurd e hrp, fun _ => ?_, fun _ _ => ?_, fun _ e => absurd (Or.inr rfl) e,
          fun _ e => absurd (Or.inr rfl) e, fun e => absurd e hl⟩
        · simpa [o0, Fixed] using hrow.fixed
        · exact fsized_leaf h ⟨hrp, Or.inr (Or.inr rfl)⟩ (by simp [o0])
            (by simpa [o0] using hrow.fixed.1)
        · refine ⟨by simp [o0], by simp [o0], ?_⟩
          rw [hg, hrow.inner hr hP hl]
          exact ⟨_, rfl⟩
      · have hrx : t.Removed (addP P p) x := removed_add.2 (Or.inr ⟨hpx, hxp⟩)
        rw [hbelow x hpx hxp]
        by_cases hx' : t.Removed P x
        · rw [if_pos hx']
          refine ⟨hrow.fixed, fun _ => hrow.removed hx', ?_, ?_, ?_, ?_, hrow.leaf⟩
          all_goals exact fun e => absurd hrx e
        · rw [if_neg hx']
          refine ⟨hrow.fixed, fun _ => ⟨rfl, rfl, rfl, rfl, rfl⟩, ?_, ?_, ?_, ?_, fun _ => rfl⟩
          all_goals exact fun e => absurd hrx e
    · have hne : x ≠ p := by rintro rfl; exact hpx (.refl _)
      have hxp : ¬ t.Anc x p := fun e => hx ⟨e, hne⟩
      rw [hout x hpx]
      have e1 : t.Removed (addP P p) x ↔ t.Removed P x := by
        rw [removed_add]
        exact ⟨fun e => e.resolve_right fun e => hpx e.1, Or.inl⟩
      have e2 : addP P p x ↔ P x := ⟨fun e => e.resolve_right hne, Or.inl⟩
      have e3 := curLeaves_add (P := P) h hpx hxp
      refine ⟨hrow.fixed, ?_, ?_, ?_, ?_, ?_, hrow.leaf⟩
      · rw [e1]; exact hrow.removed
      · rw [e1]
        intro hx'
        obtain ⟨s1, s2⟩ := hrow.sized hx'
        refine ⟨by rw [e3]; exact s1, s2.congr fun j hj => ?_⟩
        refine ⟨Or.inl, fun e => e.resolve_right ?_⟩
        rintro rfl
        exact hxp hj
      · rw [e1, e2]; exact hrow.cutHere
      · rw [e1, e2]; exact hrow.intact
      · rw [e1, e2]; exact hrow.inner

/-! ### upward loop -/

theorem flUpLoop_spec (h : t.WF) (hn : ∀ i, t.nSamp i ≠ 0) (hPl : ∀ i, P i → ¬ t.IsLeaf i) (fuel : ℕ)
    (df : PDf ℚ t.toTopo) (i : t.Node) (hf : i.val + 1 ≤ fuel)
    (hanc : ∀ x, t.Anc x i → Fixed t r x (df x) ∧ ¬ t.Removed P x ∧ ¬ P x ∧ ¬ t.IsLeaf x ∧
      (df x).cLeft = .ofChild (t.left x) ∧ (df x).cRight = .ofChild (t.right x))
    (hok : ∀ x, ¬ t.Anc x i → FRowOk t r P x (df x)) :
    ∃ df', flUpLoop t.toTopo fuel df i = .ok df' ∧ (∀ x, ¬ t.Anc x i → df' x = df x) ∧
      FInv t r P df' := by
  induction fuel generalizing df i with
  | zero => omega
  | succ fuel ih =>
    obtain ⟨fx, hri, hPi, hli, c1, c2⟩ := hanc i (.refl _)
    obtain ⟨l, q, hl, hq⟩ := children_of_not_leaf h hli
    have hcl : t.IsChild i l := Or.inl hl
    have hcq : t.IsChild i q := Or.inr hq
    rw [hl] at c1
    rw [hq] at c2
    have kl := hok l (not_anc_child h hcl)
    have kq := hok q (not_anc_child h hcq)
    have sl := kl.sized (not_removed_child h hcl hri hPi)
    have sq := kq.sized (not_removed_child h hcq hri hPi)
    let row : PRow ℚ (t.m + 1) := { df i with
        size := (df l).size + (df q).size
        rSub := flComb (df l).rSub (df l).nObs (df q).rSub (df q).nObs (df i).nObs
        g1 := flG1 (df i).rOne (flComb (df l).rSub (df l).nObs (df q).rSub (df q).nObs (df i).nObs)
          ((df l).size + (df q).size) }
    have estep : flUpStep t.toTopo df i = .ok (Function.update df i row) := by
      unfold flUpStep
      rw [c1, c2]
      simp only [CId.ofChild]
      rw [if_neg (by rw [fx.2.2]; exact hn i)]
    have srow : FSized t r P i row :=
      fsized_node h hl hq hPi (hn i) sl sq kl.fixed.2.2 kq.fixed.2.2 rfl (by simp only [row, fx.2.2])
    have hrow : FRowOk t r P i row := by
      refine ⟨fx, fun e => absurd e hri, fun _ => srow, fun _ e => absurd e hPi, fun _ _ => ?_,
        fun _ _ _ => ?_, fun e => absurd e hli⟩
      · exact ⟨by rw [hl]; exact c1, by rw [hq]; exact c2⟩
      · have hc := curLeaves_node_card h hri hPi hli
        rw [← srow.1] at hc
        show flDivR _ _ = _
        unfold flDivR
        rw [if_neg (size_sub_ne (K := ℚ) hc), fx.1]
    have hpar : (Function.update df i row i).parent = t.calcParent i := by
      rw [Function.update_self]; exact fx.2.1
    unfold flUpLoop
    rw [estep]
    simp only [bind, Except.bind]
    cases hp : t.calcParent i with
    | none =>
      rw [hpar, hp]
      have hi0 := (calcParent_eq_none_iff h).1 hp
      subst hi0
      refine ⟨_, rfl, ?_, hPl, ?_⟩
      · intro x hx
        exact Function.update_of_ne (by rintro rfl; exact hx (.refl _)) _ _
      · intro x
        by_cases hx : x = 0
        · subst hx; rw [Function.update_self]; exact hrow
        · rw [Function.update_of_ne hx]
          exact hok x fun e => hx ((anc_zero_iff h).1 e)
    | some p =>
      rw [hpar, hp]
      have hpc := (calcParent_iff h).1 hp
      have hpi : p.val < i.val := h.lt _ _ hpc
      have hne : ∀ x, t.Anc x p → x ≠ i := by
        rintro x hx rfl
        exact not_anc_child h hpc hx
      obtain ⟨df', e, k, hI⟩ := ih (Function.update df i row) p (by omega)
        (fun x hx => by
          rw [Function.update_of_ne (hne x hx)]
          exact hanc x (hx.trans (Anc.step (.refl _) hpc)))
        (fun x hx => by
          by_cases hxi : x = i
          · subst hxi; rw [Function.update_self]; exact hrow
          · rw [Function.update_of_ne hxi]
            exact hok x fun e => ((anc_child_iff h hpc).1 e).elim hxi hx)
      refine ⟨df', e, ?_, hI⟩
      intro x hx
      rw [k x fun e => hx (e.trans (Anc.step (.refl _) hpc)), Function.update_of_ne]
      rintro rfl
      exact hx (.refl _)

/-! ### one prune -/

theorem flInnerPrune_ok (h : t.WF) (hn : ∀ i, t.nSamp i ≠ 0) {df : PDf ℚ t.toTopo} (hI : FInv t r P df)
    {p : t.Node} (hr : ¬ t.Removed P p) (hP : ¬ P p) (hl : ¬ t.IsLeaf p) :
    ∃ df', flInnerPrune t.toTopo df p.val = .ok df' ∧ FInv t r (addP P p) df' ∧
      (df' p).g1 = (df p).g1 := by
  obtain ⟨out, e, hg, hkeep, hok⟩ := flPruneDown_spec h hI hr hP hl
  have hPl : ∀ i, addP P p i → ¬ t.IsLeaf i := by
    rintro i (hi | rfl)
    · exact hI.1 i hi
    · exact hl
  obtain ⟨l, q, hl', hq⟩ := children_of_not_leaf h hl
  have c1 : (df p).cLeft = .node l := by rw [((hI.2 p).intact hr hP).1, hl']; rfl
  have e0 : flInnerPrune t.toTopo df p.val = flPruneUp t.toTopo out p := by
    unfold flInnerPrune
    rw [dif_pos p.2]
    simp only [Fin.eta, c1, bind, Except.bind]
    rw [e]
  rw [e0]
  have hpp := hok p fun e => e.2 rfl
  have hpar := hpp.fixed.2.1
  unfold flPruneUp
  cases hp : t.calcParent p with
  | none =>
    rw [hpar, hp]
    have hp0 := (calcParent_eq_none_iff h).1 hp
    refine ⟨out, rfl, ⟨hPl, fun x => hok x fun e => ?_⟩, hg⟩
    exact e.2 (by rw [hp0] at e ⊢; exact (anc_zero_iff h).1 e.1)
  | some d =>
    rw [hpar, hp]
    have hdc := (calcParent_iff h).1 hp
    have hstrict : ∀ x, t.Anc x d → t.Anc x p ∧ x ≠ p := fun x hx =>
      ⟨hx.trans (Anc.step (.refl _) hdc), by rintro rfl; exact not_anc_child h hdc hx⟩
    obtain ⟨df', e', k, hI'⟩ := flUpLoop_spec (r := r) h hn hPl (t.m + 1) out d (by have := d.2; omega)
      (fun x hx => by
        obtain ⟨h1, h2⟩ := hstrict x hx
        rw [hkeep x fun e => h2 (h1.antisymm h e)]
        have hrow := hI.2 x
        have hrx : ¬ t.Removed P x := fun e => hr (e.anc h h1)
        have hPx : ¬ P x := fun e => hr ⟨x, e, h1, h2⟩
        have hlx : ¬ t.IsLeaf x := fun e => h2 (leaf_anc_eq h e h1)
        refine ⟨hrow.fixed, ?_, ?_, hlx, (hrow.intact hrx hPx).1, (hrow.intact hrx hPx).2⟩
        · rw [removed_add]
          rintro (e | e)
          · exact hrx e
          · exact h2 (h1.antisymm h e.1)
        · rintro (e | e)
          · exact hPx e
          · exact h2 e)
      (fun x hx => hok x fun e => hx (by
        rcases (anc_child_iff h hdc).1 e.1 with h1 | h1
        · exact absurd h1 e.2
        · exact h1))
    refine ⟨df', e', hI', ?_⟩
    rw [k p (not_anc_child h hdc), hg]

theorem flInnerPrune_reject (h : t.WF) {df : PDf ℚ t.toTopo} (hI : FInv t r P df) {p : t.Node}
    (hc : t.Removed P p ∨ t.CurLeaf P p) : flInnerPrune t.toTopo df p.val = .error .valueError := by
  have hcl : (df p).cLeft = .leaf ∨ (df p).cLeft = .pruned := by
    by_cases hr : t.Removed P p
    · exact Or.inr ((hI.2 p).removed hr).2.2.1
    · have hc := hc.resolve_left hr
      by_cases hP : P p
      · exact Or.inl ((hI.2 p).cutHere hr hP).1
      · left
        rw [((hI.2 p).intact hr hP).1, left_none_of_leaf h (hc.2.resolve_right hP)]
        rfl
  unfold flInnerPrune
  rw [dif_pos p.2]
  rcases hcl with e | e <;> simp only [Fin.eta, e]

theorem flPruneMany_spec (h : t.WF) (hn : ∀ i, t.nSamp i ≠ 0) (ops : List ℕ) {df df' : PDf ℚ t.toTopo}
    (hI : FInv t r P df) (he : flPruneMany t.toTopo df ops = .ok df') :
    FInv t r (fun i => P i ∨ i.val ∈ ops) df' := by
  induction ops generalizing df P with
  | nil =>
    simp only [flPruneMany, List.foldlM_nil, pure, Except.pure, Except.ok.injEq] at he
    subst he
    simpa using hI
  | cons o ops ih =>
    unfold flPruneMany at he
    rw [List.foldlM_cons] at he
    obtain ⟨d1, e1, he⟩ := bind_ok he
    by_cases ho : o < t.m + 1
    · by_cases hc : t.Removed P ⟨o, ho⟩ ∨ t.CurLeaf P ⟨o, ho⟩
      · rw [flInnerPrune_reject h hI hc] at e1
        cases e1
      · rw [not_or] at hc
        have hP : ¬ P ⟨o, ho⟩ := fun e => hc.2 ⟨hc.1, Or.inr e⟩
        have hl : ¬ t.IsLeaf ⟨o, ho⟩ := fun e => hc.2 ⟨hc.1, Or.inl e⟩
        obtain ⟨d2, e2, hI2, -⟩ := flInnerPrune_ok h hn hI hc.1 hP hl
        rw [e2] at e1
        cases e1
        have := ih hI2 he
        have e : (fun i : t.Node => addP P ⟨o, ho⟩ i ∨ i.val ∈ ops) =
            fun i : t.Node => P i ∨ i.val ∈ o :: ops := by
          funext i
          simp only [addP, List.mem_cons, or_assoc, Fin.ext_iff]
        rwa [e] at this
    · unfold flInnerPrune at e1
      rw [dif_neg ho] at e1
      cases e1

end


end SmoothRF
