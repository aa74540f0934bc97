import Verif.Props.FitProps

/-!
# C161: assertions of the pruning tests (tests/test_tune_prune.py)

Each theorem says for all trees, and all tables reached by earlier prunes, what one of the tests checks on the
tree with seven nodes drawn in the test file.
-/

set_option linter.unusedSectionVars false

namespace SmoothRF
open SkTree Topo

variable {K : Type} [Field K] [LinearOrder K] [IsStrictOrderedRing K] {C : ℕ}

/-- Pruning at `p` replaces the current leaves below `p` by `p`. -/
theorem curLeaves_prune {t : Topo} (h : t.WF) {P : t.Node → Prop} {p x : t.Node} (hr : ¬ t.Removed P p) (hP : ¬ P p)
    (hl : ¬ t.IsLeaf p) (hx : t.Anc x p) :
    t.curLeaves P p ⊆ t.curLeaves P x ∧ p ∉ t.curLeaves P x \ t.curLeaves P p ∧
    t.curLeaves (fun y => P y ∨ y = p) x = insert p (t.curLeaves P x \ t.curLeaves P p) := by
  have hrem : ∀ i, t.Removed (fun y => P y ∨ y = p) i ↔ t.Removed P i ∨ (t.Anc p i ∧ p ≠ i) := by
    intro i
    constructor
    · rintro ⟨q, hq | rfl, h1, h2⟩
      · exact Or.inl ⟨q, hq, h1, h2⟩
      · exact Or.inr ⟨h1, h2⟩
    · rintro (⟨q, hq, h1, h2⟩ | ⟨h1, h2⟩)
      · exact ⟨q, Or.inl hq, h1, h2⟩
      · exact ⟨p, Or.inr rfl, h1, h2⟩
  refine ⟨fun l hl' => ?_, fun hp => ?_, ?_⟩
  · rw [mem_curLeaves] at hl' ⊢
    exact ⟨hx.trans hl'.1, hl'.2⟩
  · rw [Finset.mem_sdiff, mem_curLeaves] at hp
    exact hp.1.2.2.elim hl hP
  · ext l
    rw [mem_curLeaves, Finset.mem_insert, Finset.mem_sdiff, mem_curLeaves, mem_curLeaves]
    unfold CurLeaf
    rw [hrem]
    constructor
    · rintro ⟨h1, h2, h3⟩
      by_cases hlp : l = p
      · exact Or.inl hlp
      · rw [not_or] at h2
        refine Or.inr ⟨⟨h1, h2.1, ?_⟩, fun e => h2.2 ⟨e.1, Ne.symm hlp⟩⟩
        rcases h3 with h3 | h3 | h3
        · exact Or.inl h3
        · exact Or.inr h3
        · exact absurd h3 hlp
    · rintro (rfl | ⟨⟨h1, h2, h3⟩, h4⟩)
      · exact ⟨hx, fun e => e.elim hr fun e => e.2 rfl, Or.inr (Or.inr rfl)⟩
      · refine ⟨h1, fun e => e.elim h2 fun e => h4 ⟨e.1, h2, h3⟩, ?_⟩
        exact h3.elim Or.inl fun e => Or.inr (Or.inl e)

/-- The upward pass only writes `|T_t|`, `R(T_t)` and `g1`. -/
theorem upLoop_columns (t : Topo) (fuel : ℕ) : ∀ {df df' : PDf K t} {i : t.Node}, upLoop t fuel df i = .ok df' →
    ∀ x, (df' x).rOne = (df x).rOne ∧ (df' x).cLeft = (df x).cLeft ∧ (df' x).cRight = (df x).cRight ∧
      (df' x).parent = (df x).parent ∧ (df' x).nObs = (df x).nObs := by
  induction fuel with
  | zero => intro df df' i h; cases h
  | succ fuel ih =>
    intro df df' i h x
    unfold upLoop at h
    obtain ⟨d1, h1, h2⟩ := bind_ok h
    have hs : (d1 x).rOne = (df x).rOne ∧ (d1 x).cLeft = (df x).cLeft ∧ (d1 x).cRight = (df x).cRight ∧
        (d1 x).parent = (df x).parent ∧ (d1 x).nObs = (df x).nObs := by
      unfold upStep at h1
      split at h1
      · simp only at h1
        split_ifs at h1
        cases h1
        by_cases hx : x = i
        · subst hx
          simp
        · simp [Function.update_of_ne hx]
      · cases h1
    split at h2
    · cases h2
      exact hs
    · obtain ⟨a1, a2, a3, a4, a5⟩ := ih h2 x
      obtain ⟨b1, b2, b3, b4, b5⟩ := hs
      exact ⟨a1.trans b1, a2.trans b2, a3.trans b3, a4.trans b4, a5.trans b5⟩

/-- C161 (`test_inner_prune`, `test_inner_prune_down`, `test_inner_prune_update_upward`): pruning at `p`, on any
table reached by earlier prunes. The downward pass turns `p` into a leaf with `R(T_t) = R({t})`, marks
everything below `p` as removed, and leaves all other rows alone. The upward pass changes only proper
ancestors of `p`, and there only `|T_t|` (less by `|T_p| - 1`), `R(T_t)` (more by
`n_p (R({p}) - R(T_p)) / n_x`) and `g1`. -/
theorem C161_prune {kind : Kind} {t : SkTree K C} (h : t.WF) (hn : ∀ i, 0 < t.nSamp i)
    {df df' df'' : PDf K t.toTopo} (h0 : initDf kind t = .ok df) {ops : List ℕ}
    (he : pruneMany t.toTopo df ops = .ok df') {p : t.Node} (hp : innerPrune t.toTopo df' p.val = .ok df'') :
    ∃ out, pruneDown t.toTopo df' p = .ok out ∧ pruneUp t.toTopo out p = .ok df'' ∧
    ((out p).size = 1 ∧ (out p).rSub = (df' p).rOne ∧ (out p).cLeft = .leaf ∧ (out p).cRight = .leaf) ∧
    (∀ x, t.Anc p x → p ≠ x → (out x).size = 0 ∧ (out x).rSub = (out x).rOne ∧ (out x).cLeft = .pruned ∧
      (out x).cRight = .pruned ∧ (out x).g1 = .nan) ∧
    (∀ x, ¬ t.Anc p x → out x = df' x) ∧
    (∀ x, ¬ (t.Anc x p ∧ x ≠ p) → df'' x = out x) ∧
    (∀ x, t.Anc x p → x ≠ p → (df'' x).rOne = (df' x).rOne ∧ (df'' x).cLeft = (df' x).cLeft ∧
      (df'' x).cRight = (df' x).cRight ∧ (df'' x).parent = (df' x).parent ∧ (df'' x).nObs = (df' x).nObs ∧
      (df'' x).size + (df' p).size = (df' x).size + 1 ∧ 2 ≤ (df' p).size ∧
      (df'' x).rSub = (df' x).rSub + t.nSamp p * ((df' p).rOne - (df' p).rSub) / t.nSamp x) := by
  have hI := reachable_inv h hn h0 he
  have hn' : ∀ i, t.nSamp i ≠ 0 := fun i => (hn i).ne'
  by_cases hc : t.Removed (pruneSet t.toTopo ops) p ∨ t.CurLeaf (pruneSet t.toTopo ops) p
  · rw [innerPrune_reject h hI hc] at hp; cases hp
  rw [not_or] at hc
  have hr := hc.1
  have hP : ¬ pruneSet t.toTopo ops p := fun e => hc.2 ⟨hc.1, Or.inr e⟩
  have hl : ¬ t.IsLeaf p := fun e => hc.2 ⟨hc.1, Or.inl e⟩
  obtain ⟨out, e1, -, hkeep, hok⟩ := pruneDown_spec h hI hr hP hl
  have hup : pruneUp t.toTopo out p = .ok df'' := by
    obtain ⟨l, q, hl', hq⟩ := children_of_not_leaf h hl
    have c1 : (df' p).cLeft = .node l := by rw [((hI.2 p).intact hr hP).1, hl']; rfl
    unfold innerPrune at hp
    rw [dif_pos p.2] at hp
    simp only [Fin.eta, c1, bind, Except.bind] at hp
    rw [e1] at hp
    exact hp
  obtain ⟨d, e2, hI2, -⟩ := innerPrune_ok h hn' hI hr hP hl
  rw [hp] at e2
  cases e2
  have hpp := hok p fun e => e.2 rfl
  have hrp : ¬ t.Removed (addP (pruneSet t.toTopo ops) p) p := by
    rw [removed_add]
    rintro (e | ⟨-, e⟩)
    · exact hr e
    · exact e rfl
  have hcur : t.CurLeaf (addP (pruneSet t.toTopo ops) p) p := ⟨hrp, Or.inr (Or.inr rfl)⟩
  have hpar : ∀ x, (out x).parent = t.calcParent x := by
    intro x
    by_cases hx : t.Anc p x
    · refine (hok x fun e => e.2 (e.1.antisymm h hx)).fixed.2.1
    · rw [hkeep x hx]
      exact (hI.2 x).fixed.2.1
  have hother : ∀ x, ¬ (t.Anc x p ∧ x ≠ p) → df'' x = out x := by
    unfold pruneUp at hup
    rw [hpar] at hup
    cases hcp : t.calcParent p with
    | none =>
      rw [hcp] at hup
      cases hup
      exact fun x _ => rfl
    | some q =>
      rw [hcp] at hup
      have hqc := (calcParent_iff h).1 hcp
      have hstrict : ∀ x, t.Anc x q → t.Anc x p ∧ x ≠ p := fun x hx =>
        ⟨hx.trans (Anc.step (.refl _) hqc), by rintro rfl; exact not_anc_child h hqc hx⟩
      obtain ⟨d, e', k, -⟩ := upLoop_spec (r := riskOf kind t) (P := addP (pruneSet t.toTopo ops) p) h hn' hI2.1
        (t.m + 1) out q (by have := q.2; omega)
        (fun x hx => by
          obtain ⟨h1, h2⟩ := hstrict x hx
          rw [hkeep x fun e => h2 (h1.antisymm h e)]
          have hrow := hI.2 x
          have hrx : ¬ t.Removed (pruneSet t.toTopo ops) x := fun e => hr (e.anc h h1)
          have hPx : ¬ pruneSet t.toTopo ops x := fun e => hr ⟨x, e, h1, h2⟩
          have hlx : ¬ t.IsLeaf x := fun e => h2 (leaf_anc_eq h e h1)
          refine ⟨hrow.fixed, ?_, ?_, hlx, (hrow.intact hrx hPx).1, (hrow.intact hrx hPx).2⟩
          · rw [removed_add]
            rintro (e | e)
            · exact hrx e
            · exact h2 (h1.antisymm h e.1)
          · rintro (e | e)
            · exact hPx e
            · exact h2 e)
        (fun x hx => hok x fun e => hx (by
          rcases (anc_child_iff h hqc).1 e.1 with h1 | h1
          · exact absurd h1 e.2
          · exact h1))
      have : (Except.ok d : Except PyErr _) = .ok df'' := e'.symm.trans hup
      cases this
      exact fun x hx => k x fun e => hx (hstrict x e)
  refine ⟨out, e1, hup, ?_, ?_, hkeep, hother, ?_⟩
  · obtain ⟨s1, s2⟩ := hpp.sized hrp
    obtain ⟨a, b, -⟩ := hpp.cutHere hrp (Or.inr rfl)
    unfold leafRisk at s2
    rw [curLeaves_leaf h hcur] at s1 s2
    refine ⟨by simpa using s1, ?_, a, b⟩
    rw [Finset.sum_singleton] at s2
    rw [mul_left_cancel₀ (hn' p) s2, (hI.2 p).fixed.1]
  · intro x hx hne
    have hrow := hok x fun e => e.2 (e.1.antisymm h hx)
    obtain ⟨a1, a2, a3, a4, a5⟩ := hrow.removed (removed_add.2 (Or.inr ⟨hx, hne⟩))
    exact ⟨a1, by rw [a2, hrow.fixed.1], a3, a4, a5⟩
  · intro x hx hne
    have ekeep := hkeep x fun e => hne (hx.antisymm h e)
    have hcols : (df'' x).rOne = (out x).rOne ∧ (df'' x).cLeft = (out x).cLeft ∧
        (df'' x).cRight = (out x).cRight ∧ (df'' x).parent = (out x).parent ∧ (df'' x).nObs = (out x).nObs := by
      unfold pruneUp at hup
      split at hup
      · cases hup
        exact ⟨rfl, rfl, rfl, rfl, rfl⟩
      · exact upLoop_columns _ _ hup x
    rw [ekeep] at hcols
    have hrx : ¬ t.Removed (pruneSet t.toTopo ops) x := fun e => hr (e.anc h hx)
    have hrx' : ¬ t.Removed (addP (pruneSet t.toTopo ops) p) x := by
      rw [removed_add]
      rintro (e | e)
      · exact hrx e
      · exact hne (hx.antisymm h e.1)
    obtain ⟨s1, s2⟩ := (hI.2 x).sized hrx
    obtain ⟨p1, p2⟩ := (hI.2 p).sized hr
    obtain ⟨n1, n2⟩ := (hI2.2 x).sized hrx'
    obtain ⟨g1, g2, g3⟩ := curLeaves_prune h hr hP hl hx
    have g3' : t.curLeaves (addP (pruneSet t.toTopo ops) p) x =
      insert p (t.curLeaves (pruneSet t.toTopo ops) x \ t.curLeaves (pruneSet t.toTopo ops) p) := g3
    unfold leafRisk at s2 p2 n2
    rw [g3', Finset.card_insert_of_notMem g2, Finset.card_sdiff_of_subset g1] at n1
    rw [g3', Finset.sum_insert g2] at n2
    have hle := Finset.card_le_card g1
    have hsum := Finset.sum_sdiff g1 (f := fun l => t.nSamp l * riskOf kind t l)
    obtain ⟨c1, c2, c3, c4, c5⟩ := hcols
    refine ⟨c1, c2, c3, c4, c5, by omega, ?_, ?_⟩
    · rw [p1]
      exact curLeaves_node_card h hr hP hl
    · rw [(hI.2 p).fixed.1, ← mul_left_cancel_iff_of_pos (hn x), n2, mul_add, s2, mul_div_cancel₀ _ (hn' x), mul_sub, p2]
      linarith

/-- The example: pruning node 4 of the tests' tree. -/
example : (match (do let df ← initDf .cls exPrune
                     innerPrune exPrune.toTopo df 4 : Except PyErr _) with
    | .ok df => some (colsOf df) | .error _ => none) =
    some [(13 / 34, 6 / 17, 3, .fin (1 / 68)), (1 / 2, 1 / 2, 1, .nan), (1 / 3, 7 / 24, 2, .fin (1 / 24)), (0, 0, 1, .nan),
      (7 / 15, 7 / 15, 1, .fin (2 / 5)), (1 / 8, 1 / 8, 0, .nan), (0, 0, 0, .nan)] := by decide +kernel

/-- C161: for a risk that splitting does not increase, pruning lowers `|T_t|` of every proper ancestor and does
not lower its `R(T_t)`. -/
theorem C161_ancestors {kind : Kind} {t : SkTree K C} (h : t.WF) (hn : ∀ i, 0 < t.nSamp i)
    {df df' df'' : PDf K t.toTopo} (h0 : initDf kind t = .ok df)
    (hsup : ∀ i l q, t.left i = some l → t.right i = some q →
      t.nSamp l * (df l).rOne + t.nSamp q * (df q).rOne ≤ t.nSamp i * (df i).rOne) {ops : List ℕ}
    (he : pruneMany t.toTopo df ops = .ok df') {p : t.Node} (hp : innerPrune t.toTopo df' p.val = .ok df'')
    {x : t.Node} (hx : t.Anc x p) (hne : x ≠ p) :
    (df' x).rSub ≤ (df'' x).rSub ∧ (df'' x).size < (df' x).size := by
  obtain ⟨out, -, -, -, -, -, -, hanc⟩ := C161_prune h hn h0 he hp
  obtain ⟨-, -, -, -, -, h1, h2, h3⟩ := hanc x hx hne
  have h4 := (C57_superadditive h hn h0 hsup he p).1
  refine ⟨?_, by omega⟩
  rw [h3]
  have : 0 ≤ t.nSamp p * ((df' p).rOne - (df' p).rSub) / t.nSamp x :=
    div_nonneg (mul_nonneg (hn p).le (sub_nonneg.2 h4)) (hn x).le
  linarith

/-- C161 (`test_inner_prune`): pruned at the root, every node is a leaf or removed and has `R({t}) = R(T_t)`, the
upward pass changes nothing, and every further prune, anywhere, raises ValueError. -/
theorem C161_root {kind : Kind} {t : SkTree K C} (h : t.WF) (hn : ∀ i, 0 < t.nSamp i)
    {df df' df'' : PDf K t.toTopo} (h0 : initDf kind t = .ok df) {ops : List ℕ}
    (he : pruneMany t.toTopo df ops = .ok df') (hp : innerPrune t.toTopo df' 0 = .ok df'') :
    pruneDown t.toTopo df' 0 = .ok df'' ∧
    (∀ x, ((df'' x).cLeft = .leaf ∨ (df'' x).cLeft = .pruned) ∧ (df'' x).rOne = (df'' x).rSub ∧
      ((df'' x).cLeft = .leaf ↔ x = 0)) ∧
    ∀ q : t.Node, innerPrune t.toTopo df'' q.val = .error .valueError := by
  have hp' : innerPrune t.toTopo df' (0 : t.Node).val = .ok df'' := hp
  obtain ⟨out, e1, e2, a, b, -, hother, -⟩ := C161_prune h hn h0 he hp'
  have hall : ∀ x, df'' x = out x := fun x => hother x fun e => e.2 ((anc_zero_iff h).1 e.1)
  have ho : df'' = out := funext hall
  subst ho
  have hrow : ∀ x, ((df'' x).cLeft = .leaf ∨ (df'' x).cLeft = .pruned) ∧ (df'' x).rOne = (df'' x).rSub ∧
      ((df'' x).cLeft = .leaf ↔ x = 0) := by
    intro x
    by_cases hx : x = 0
    · subst hx
      refine ⟨Or.inl a.2.2.1, ?_, by simp [a.2.2.1]⟩
      rw [a.2.1]
      have hm : pruneMany t.toTopo df (ops ++ [0]) = .ok df'' := by
        unfold pruneMany at he ⊢
        rw [List.foldlM_append, he]
        simp only [bind, Except.bind, List.foldlM_cons, List.foldlM_nil, pure, Except.pure]
        rw [hp]
      exact ((reachable_inv h hn h0 hm).2 0).fixed.1.trans ((reachable_inv h hn h0 he).2 0).fixed.1.symm
    · obtain ⟨-, b2, b3, -, -⟩ := b x (anc_root h x) (Ne.symm hx)
      exact ⟨Or.inr b3, b2.symm, by simp [b3, hx]⟩
  refine ⟨e1, hrow, fun q => ?_⟩
  unfold innerPrune
  rw [dif_pos q.2]
  rcases (hrow q).1 with e | e <;> simp only [Fin.eta, e]

/-- `==` of floats in a data frame: NaN is not equal to itself. -/
def Fl.npEq : Fl K → Fl K → Prop
  | .fin x, .fin y => x = y
  | .inf, .inf => True
  | _, _ => False

/-- `row == row'` in all columns. -/
def PRow.npEq {n : ℕ} (a b : PRow K n) : Prop :=
  a.rOne = b.rOne ∧ a.rSub = b.rSub ∧ a.cLeft = b.cLeft ∧ a.cRight = b.cRight ∧ a.size = b.size ∧
    a.parent = b.parent ∧ a.nObs = b.nObs ∧ a.g1.npEq b.g1

/-- C161 (`test_inner_prune_update_upward`, as written): the test compares whole frames with `np.all(out_df ==
out_df2)`. Removed nodes have `g1` NaN, and NaN is not equal to itself, so both comparisons fail for every
tree and every pruned node, although the upward pass writes none of the compared rows. -/
theorem C161_upward_refuted {kind : Kind} {t : SkTree K C} (h : t.WF) (hn : ∀ i, 0 < t.nSamp i)
    {df df' df'' : PDf K t.toTopo} (h0 : initDf kind t = .ok df) {ops : List ℕ}
    (he : pruneMany t.toTopo df ops = .ok df') {p : t.Node} (hp : innerPrune t.toTopo df' p.val = .ok df'') :
    ∃ out, pruneDown t.toTopo df' p = .ok out ∧ pruneUp t.toTopo out p = .ok df'' ∧
      (∀ x, ¬ (t.Anc x p ∧ x ≠ p) → df'' x = out x) ∧
      ¬ ∀ x, ¬ (t.Anc x p ∧ x ≠ p) → (out x).npEq (df'' x) := by
  obtain ⟨out, e1, e2, -, b, -, hother, -⟩ := C161_prune h hn h0 he hp
  refine ⟨out, e1, e2, hother, fun hall => ?_⟩
  have hl : ¬ t.IsLeaf p := by
    intro hl
    have hI := reachable_inv h hn h0 he
    by_cases hr : t.Removed (pruneSet t.toTopo ops) p
    · rw [innerPrune_reject h hI (Or.inl hr)] at hp; cases hp
    · rw [innerPrune_reject h hI (Or.inr ⟨hr, Or.inl hl⟩)] at hp; cases hp
  obtain ⟨l, q, hl', -⟩ := children_of_not_leaf h hl
  have hc : t.IsChild p l := Or.inl hl'
  have hnl : ¬ t.Anc l p := not_anc_child h hc
  have hg := (b l (Anc.step (.refl _) hc) (by rintro rfl; exact hnl (.refl _))).2.2.2.2
  have := (hall l fun e => hnl e.1).2.2.2.2.2.2.2
  rw [hg] at this
  exact this

/-! ### r_single_t -/

/-- `r[children]` with numpy's reading of the index -1: the last node. -/
def riskAt {t : Topo} (r : t.Node → K) : Option t.Node → K
  | some j => r j
  | none => r (Fin.last t.m)

/-- The assertion of `test_r_single_t_regression` and `test_r_single_t_classification`, lines 564-566 and 656-658: at
every node, leaves included, the risk is at least that of one "child". -/
def singleAssert (t : Topo) (r : t.Node → K) : Prop :=
  ∀ i, riskAt r (t.left i) ≤ r i ∨ riskAt r (t.right i) ≤ r i

theorem singleAssert_iff {t : Topo} (h : t.WF) {r : t.Node → K}
    (hc : ∀ i l q, t.left i = some l → t.right i = some q → r l ≤ r i ∨ r q ≤ r i) :
    singleAssert t r ↔ ∀ i, t.IsLeaf i → r (Fin.last t.m) ≤ r i := by
  constructor
  · intro ha i hi
    have e1 : t.left i = none := left_none_of_leaf h hi
    have e2 : t.right i = none := (isLeaf_iff h).1 hi
    have := ha i
    rw [e1, e2] at this
    exact this.elim id id
  · intro ha i
    by_cases hi : t.IsLeaf i
    · rw [left_none_of_leaf h hi]
      exact Or.inl (ha i hi)
    · obtain ⟨l, q, e1, e2⟩ := children_of_not_leaf h hi
      rw [e1, e2]
      exact hc i l q e1 e2

/-- C161: for a fitted regression tree the assertion about `r_single_t` holds exactly if no leaf has a smaller
risk than the last node (because -1 in the child arrays is read as the last node); in particular for trees
grown until every leaf has impurity 0. -/
theorem C161_single_reg {t : SkTree K 1} (h : t.WF) {rows : List (OobRow t.toTopo K)} (hf : FitReg t rows) :
    (singleAssert t.toTopo (riskOf .reg t) ↔ ∀ i, t.IsLeaf i → t.impurity (Fin.last t.m) ≤ t.impurity i) ∧
    ((∀ i, t.IsLeaf i → t.impurity i = 0) → singleAssert t.toTopo (riskOf .reg t)) := by
  obtain ⟨df, h0, -⟩ := C53_initial_table .reg h hf.pos
  have hI := reachable_inv h hf.pos h0 (ops := []) (df' := df) rfl
  have key := singleAssert_iff (t := t.toTopo) (r := riskOf .reg t) h fun i l q hl hq => by
    have := C145_some_child_reg h hf h0 hl hq
    rwa [(hI.2 i).fixed.1, (hI.2 l).fixed.1, (hI.2 q).fixed.1] at this
  refine ⟨key, fun hz => key.2 fun i hi => ?_⟩
  have hlast : t.IsLeaf (Fin.last t.m) := fun c hc => by
    have h1 : (Fin.last t.m).val < c.val := h.lt _ _ hc
    have h2 := c.2
    simp only [Fin.val_last] at h1
    omega
  show t.impurity (Fin.last t.m) ≤ t.impurity i
  rw [hz _ hlast, hz i hi]

/-- C161: the same for a fitted classification tree, whose risk is the misclassified share. -/
theorem C161_single_cls {t : SkTree K C} (h : t.WF) {rows : List (OobRow t.toTopo (Fin C))} (hf : FitCls t rows) :
    (singleAssert t.toTopo (riskOf .cls t) ↔
      ∀ i, t.IsLeaf i → riskOf .cls t (Fin.last t.m) ≤ riskOf .cls t i) ∧
    ((∀ i, t.IsLeaf i → riskOf .cls t i = 0) → singleAssert t.toTopo (riskOf .cls t)) := by
  obtain ⟨df, h0, -⟩ := C53_initial_table .cls h hf.pos
  have hI := reachable_inv h hf.pos h0 (ops := []) (df' := df) rfl
  have key := singleAssert_iff (t := t.toTopo) (r := riskOf .cls t) h fun i l q hl hq => by
    have := C145_some_child_cls h hf h0 hl hq
    rwa [(hI.2 i).fixed.1, (hI.2 l).fixed.1, (hI.2 q).fixed.1] at this
  refine ⟨key, fun hz => key.2 fun i hi => ?_⟩
  have hlast : t.IsLeaf (Fin.last t.m) := fun c hc => by
    have h1 : (Fin.last t.m).val < c.val := h.lt _ _ hc
    have h2 := c.2
    simp only [Fin.val_last] at h1
    omega
  rw [hz _ hlast, hz i hi]

/-- The assertion is false for fitted trees in general: leaf 2 of this tree has impurity 0, the last node
`2/3`. -/
theorem C161_single_refuted : ∃ (t : SkTree ℚ 1) (rows : List (OobRow t.toTopo ℚ)), t.WF ∧ FitReg t rows ∧
    ¬ singleAssert t.toTopo (riskOf .reg t) := by
  refine ⟨exFit, exFitRows, by decide, exFit_fit, fun ha => ?_⟩
  have h2 : exFit.IsLeaf (2 : Fin 5) := (isLeaf_iff (t := exTopo) (by decide)).2 rfl
  have := ((C161_single_reg (by decide) exFit_fit).1.1 ha) (2 : Fin 5) h2
  revert this
  decide +kernel

/-- A tree meeting the hypotheses of `C161_single_cls` with pure leaves. -/
example : FitCls exFitCls exFitClsRows ∧ (∀ i : Fin 5, i ∈ [2, 3, 4] → riskOf .cls exFitCls i = 0) :=
  ⟨exFitCls_fit.1, by decide +kernel⟩

end SmoothRF
