import Verif.Proofs.Prune

/-!
# tune_prune.py: the pruning table (C53-C57, C77, C78)
-/

set_option linter.unusedSectionVars false

namespace SmoothRF
open SkTree Topo

variable {K : Type} [Field K] [LinearOrder K] [IsStrictOrderedRing K] {C : ℕ}

/-- The classification tree of the repository's tests (tests/test_tune_prune.py). -/
abbrev exPrune : SkTree ℚ 2 :=
  { toTopo := ⟨6, ![some 2, none, some 4, none, some 6, none, none],
      ![some 1, none, some 3, none, some 5, none, none]⟩
    value := fun i c => ![![21, 13], ![5, 5], ![16, 8], ![9, 0], ![7, 8], ![7, 1], ![0, 7]] i c
    nSamp := ![34, 10, 24, 9, 15, 8, 7]
    impurity := ![1, 1, 1, 1, 1, 1, 1] }

/-- Columns of a table, for display: R({t}), R(T_t), |T_t|, g1. -/
def colsOf {t : Topo} (df : PDf K t) : List (K × K × ℕ × Fl K) :=
  List.ofFn fun i => ((df i).rOne, (df i).rSub, (df i).size, (df i).g1)

open Classical in
/-- C53: the initial table of a well-formed tree with positive node counts is built without error; every
node has `|T_t|` = number of leaves below it, `n_t R(T_t)` = sum of `n_l R({l})` over those leaves, its
children and parent, and `g1` by the formula (NaN = 0/0 at the leaves). -/
theorem C53_initial_table (kind : Kind) {t : SkTree K C} (h : t.WF) (hn : ∀ i, 0 < t.nSamp i) :
    ∃ df, initDf kind t = .ok df ∧ ∀ i : t.Node,
      (df i).size = (Finset.univ.filter fun l : t.Node => t.Anc i l ∧ t.IsLeaf l).card ∧
      t.nSamp i * (df i).rSub =
        ∑ l ∈ Finset.univ.filter (fun l : t.Node => t.Anc i l ∧ t.IsLeaf l), t.nSamp l * (df l).rOne ∧
      (kind = .reg → (df i).rOne = t.impurity i) ∧
      (df i).nObs = t.nSamp i ∧
      (∀ p, (df i).parent = some p ↔ t.IsChild p i) ∧
      (∀ c, (df i).cLeft = .node c ↔ t.left i = some c) ∧
      (∀ c, (df i).cRight = .node c ↔ t.right i = some c) ∧
      (t.IsLeaf i → (df i).cLeft = .leaf ∧ (df i).cRight = .leaf ∧ (df i).g1 = .nan) ∧
      (¬ t.IsLeaf i → 2 ≤ (df i).size ∧
        (df i).g1 = .fin (((df i).rOne - (df i).rSub) / ((df i).size - 1))) := by
  have hn' : ∀ i, t.nSamp i ≠ 0 := fun i => (hn i).ne'
  obtain ⟨df, e, hI⟩ := initDfOf_spec (r := riskOf kind t) h hn'
  refine ⟨df, (initDf_eq kind hn').trans e, fun i => ?_⟩
  have hrem : ∀ x, ¬ t.Removed (fun _ => False) x := fun x ⟨_, hp, _⟩ => hp
  have hrow := hI.2 i
  have hcur : t.curLeaves (fun _ => False) i =
      Finset.univ.filter fun l : t.Node => t.Anc i l ∧ t.IsLeaf l := by
    ext l
    rw [mem_curLeaves, Finset.mem_filter]
    simp [CurLeaf, hrem]
  obtain ⟨s1, s2⟩ := hrow.sized (hrem i)
  unfold leafRisk at s2
  rw [hcur] at s1 s2
  obtain ⟨c1, c2⟩ := hrow.intact (hrem i) (fun e => e)
  refine ⟨s1, ?_, ?_, hrow.fixed.2.2, ?_, ?_, ?_, ?_, ?_⟩
  · rw [s2]
    exact Finset.sum_congr rfl fun l _ => by rw [(hI.2 l).fixed.1]
  · rintro rfl
    exact hrow.fixed.1
  · intro p
    rw [hrow.fixed.2.1]
    exact calcParent_iff h
  · intro c
    rw [c1]
    cases t.left i <;> simp [CId.ofChild]
  · intro c
    rw [c2]
    cases t.right i <;> simp [CId.ofChild]
  · intro hl
    rw [c1, c2, left_none_of_leaf h hl, (isLeaf_iff h).1 hl]
    exact ⟨rfl, rfl, hrow.leaf hl⟩
  · intro hl
    have := curLeaves_node_card (P := fun _ => False) h (hrem i) (fun e => e) hl
    rw [hcur, ← s1] at this
    refine ⟨this, ?_⟩
    rw [hrow.inner (hrem i) (fun e => e) hl, hrow.fixed.1]

example : exPrune.WF ∧ (∀ i, 0 < exPrune.nSamp i) ∧
    (match initDf .cls exPrune with | .ok df => some (colsOf df) | .error _ => none) =
      some [(13 / 34, 3 / 17, 4, .fin (7 / 102)), (1 / 2, 1 / 2, 1, .nan),
        (1 / 3, 1 / 24, 3, .fin (7 / 48)), (0, 0, 1, .nan), (7 / 15, 1 / 15, 2, .fin (2 / 5)),
        (1 / 8, 1 / 8, 1, .nan), (0, 0, 1, .nan)] :=
  ⟨by decide +kernel, by decide +kernel, by decide +kernel⟩

/-- Reachable tables satisfy the invariant. -/
theorem reachable_inv {kind : Kind} {t : SkTree K C} (h : t.WF) (hn : ∀ i, 0 < t.nSamp i)
    {df df' : PDf K t.toTopo} (h0 : initDf kind t = .ok df) {ops : List ℕ}
    (he : pruneMany t.toTopo df ops = .ok df') :
    PInv t (riskOf kind t) (pruneSet t.toTopo ops) df' := by
  have hn' : ∀ i, t.nSamp i ≠ 0 := fun i => (hn i).ne'
  obtain ⟨d, e, hI⟩ := initDfOf_spec (r := riskOf kind t) h hn'
  rw [initDf_eq kind hn', e] at h0
  cases h0
  have := pruneMany_spec h hn' ops hI he
  simp only [false_or] at this
  exact this

/-- C54: after any successful sequence of `_inner_prune` calls the nodes marked as removed (size 0,
children -2) are exactly the proper descendants of pruned nodes; every remaining node carries the number
of leaves and the risk of the pruned tree below it, the current leaves (original leaves and pruned nodes)
are exactly the remaining nodes with children -1, and the columns `R({t})`, parent and `n_obs` are those
of the initial table. -/
theorem C54_prune_exact {kind : Kind} {t : SkTree K C} (h : t.WF) (hn : ∀ i, 0 < t.nSamp i)
    {df df' : PDf K t.toTopo} (h0 : initDf kind t = .ok df) {ops : List ℕ}
    (he : pruneMany t.toTopo df ops = .ok df') (i : t.Node) :
    ((df' i).size = 0 ↔ t.Removed (pruneSet t.toTopo ops) i) ∧
    ((df' i).cLeft = .pruned ↔ t.Removed (pruneSet t.toTopo ops) i) ∧
    ((df' i).cRight = .pruned ↔ t.Removed (pruneSet t.toTopo ops) i) ∧
    ((df' i).cLeft = .leaf ↔ t.CurLeaf (pruneSet t.toTopo ops) i) ∧
    ((df' i).cRight = .leaf ↔ t.CurLeaf (pruneSet t.toTopo ops) i) ∧
    (∀ c, (df' i).cLeft = .node c → t.left i = some c) ∧
    (∀ c, (df' i).cRight = .node c → t.right i = some c) ∧
    (¬ t.Removed (pruneSet t.toTopo ops) i →
      (df' i).size = (t.curLeaves (pruneSet t.toTopo ops) i).card ∧
      t.nSamp i * (df' i).rSub =
        ∑ l ∈ t.curLeaves (pruneSet t.toTopo ops) i, t.nSamp l * (df l).rOne) ∧
    (df' i).rOne = (df i).rOne ∧ (df' i).parent = (df i).parent ∧ (df' i).nObs = (df i).nObs := by
  have hI0 := reachable_inv h hn h0 (ops := []) (df' := df) rfl
  have hI := reachable_inv h hn h0 he
  have hrow := hI.2 i
  have h0i := hI0.2 i
  have hcur : ∀ (hr : ¬ t.Removed (pruneSet t.toTopo ops) i),
      ((df' i).cLeft = .leaf ↔ t.CurLeaf (pruneSet t.toTopo ops) i) ∧
      ((df' i).cRight = .leaf ↔ t.CurLeaf (pruneSet t.toTopo ops) i) ∧
      (df' i).cLeft ≠ .pruned ∧ (df' i).cRight ≠ .pruned ∧
      (∀ c, (df' i).cLeft = .node c → t.left i = some c) ∧
      (∀ c, (df' i).cRight = .node c → t.right i = some c) := by
    intro hr
    by_cases hP : pruneSet t.toTopo ops i
    · obtain ⟨a, b, -⟩ := hrow.cutHere hr hP
      rw [a, b]
      exact ⟨⟨fun _ => ⟨hr, Or.inr hP⟩, fun _ => rfl⟩, ⟨fun _ => ⟨hr, Or.inr hP⟩, fun _ => rfl⟩,
        nofun, nofun, nofun, nofun⟩
    · obtain ⟨a, b⟩ := hrow.intact hr hP
      rw [a, b]
      by_cases hl : t.IsLeaf i
      · rw [left_none_of_leaf h hl, (isLeaf_iff h).1 hl]
        exact ⟨⟨fun _ => ⟨hr, Or.inl hl⟩, fun _ => rfl⟩, ⟨fun _ => ⟨hr, Or.inl hl⟩, fun _ => rfl⟩,
          nofun, nofun, nofun, nofun⟩
      · obtain ⟨l, q, e1, e2⟩ := children_of_not_leaf h hl
        rw [e1, e2]
        have : ¬ t.CurLeaf (pruneSet t.toTopo ops) i := fun e => e.2.elim hl hP
        refine ⟨⟨nofun, fun e => absurd e this⟩, ⟨nofun, fun e => absurd e this⟩, nofun, nofun, ?_, ?_⟩
        · intro c e; cases e; rfl
        · intro c e; cases e; rfl
  refine ⟨⟨fun e => ?_, fun e => (hrow.removed e).1⟩, ⟨fun e => ?_, fun e => (hrow.removed e).2.2.1⟩,
    ⟨fun e => ?_, fun e => (hrow.removed e).2.2.2.1⟩, ?_, ?_, ?_, ?_, ?_, ?_⟩
  · by_contra hr
    have := curLeaves_card_pos h hr
    rw [← (hrow.sized hr).1, e] at this
    omega
  · by_contra hr
    exact (hcur hr).2.2.1 e
  · by_contra hr
    exact (hcur hr).2.2.2.1 e
  · by_cases hr : t.Removed (pruneSet t.toTopo ops) i
    · rw [(hrow.removed hr).2.2.1]
      exact ⟨nofun, fun e => absurd hr e.1⟩
    · exact (hcur hr).1
  · by_cases hr : t.Removed (pruneSet t.toTopo ops) i
    · rw [(hrow.removed hr).2.2.2.1]
      exact ⟨nofun, fun e => absurd hr e.1⟩
    · exact (hcur hr).2.1
  · by_cases hr : t.Removed (pruneSet t.toTopo ops) i
    · rw [(hrow.removed hr).2.2.1]; nofun
    · exact (hcur hr).2.2.2.2.1
  · by_cases hr : t.Removed (pruneSet t.toTopo ops) i
    · rw [(hrow.removed hr).2.2.2.1]; nofun
    · exact (hcur hr).2.2.2.2.2
  · intro hr
    refine ⟨(hrow.sized hr).1, (hrow.sized hr).2.trans ?_⟩
    unfold leafRisk
    exact Finset.sum_congr rfl fun l _ => by rw [(hI0.2 l).fixed.1]
  · rw [hrow.fixed.1, hrow.fixed.2.1, hrow.fixed.2.2, h0i.fixed.1, h0i.fixed.2.1, h0i.fixed.2.2]
    exact ⟨rfl, rfl, rfl⟩

example : (match initDf .cls exPrune with
    | .ok df => match pruneMany exPrune.toTopo df [4, 2] with
      | .ok df' => some (colsOf df')
      | .error _ => none
    | .error _ => none) =
      some [(13 / 34, 13 / 34, 2, .fin 0), (1 / 2, 1 / 2, 1, .nan), (1 / 3, 1 / 3, 1, .fin (1 / 24)),
        (0, 0, 0, .nan), (7 / 15, 7 / 15, 0, .nan), (1 / 8, 1 / 8, 0, .nan), (0, 0, 0, .nan)] := by
  decide +kernel

/-- C55, the part that holds: after any successful sequence of prunes `g1` of every remaining internal
node is `(R({t}) - R(T_t)) / (|T_t| - 1)`, and `g1` of every original leaf and every removed node is NaN.
Missing: nodes that became leaves by pruning (`C55_pruned_leaf_g1_stale`). -/
theorem C55_g1_exact_partial {kind : Kind} {t : SkTree K C} (h : t.WF) (hn : ∀ i, 0 < t.nSamp i)
    {df df' : PDf K t.toTopo} (h0 : initDf kind t = .ok df) {ops : List ℕ}
    (he : pruneMany t.toTopo df ops = .ok df') (i : t.Node) :
    (¬ t.Removed (pruneSet t.toTopo ops) i → ¬ t.CurLeaf (pruneSet t.toTopo ops) i →
      2 ≤ (df' i).size ∧ (df' i).g1 = .fin (((df' i).rOne - (df' i).rSub) / ((df' i).size - 1))) ∧
    (t.IsLeaf i → (df' i).g1 = .nan) ∧
    (t.Removed (pruneSet t.toTopo ops) i → (df' i).g1 = .nan) := by
  have hI := reachable_inv h hn h0 he
  have hrow := hI.2 i
  refine ⟨fun hr hc => ?_, hrow.leaf, fun e => (hrow.removed e).2.2.2.2⟩
  have hl : ¬ t.IsLeaf i := fun e => hc ⟨hr, Or.inl e⟩
  have hP : ¬ pruneSet t.toTopo ops i := fun e => hc ⟨hr, Or.inr e⟩
  have := curLeaves_node_card h hr hP hl
  rw [← (hrow.sized hr).1] at this
  refine ⟨this, ?_⟩
  rw [hrow.inner hr hP hl, hrow.fixed.1]

/-- C55 fails at every pruned node: as long as it is not removed, its `g1` stays the number it had before
the prune, and is never NaN although the node is now a leaf. -/
theorem C55_pruned_leaf_g1_stale {kind : Kind} {t : SkTree K C} (h : t.WF) (hn : ∀ i, 0 < t.nSamp i)
    {df df' df'' : PDf K t.toTopo} (h0 : initDf kind t = .ok df) {ops : List ℕ}
    (he : pruneMany t.toTopo df ops = .ok df') {p : t.Node}
    (hp : innerPrune t.toTopo df' p.val = .ok df'') :
    (df'' p).g1 = (df' p).g1 ∧ (df'' p).cLeft = .leaf ∧
      ∃ x, (df'' p).g1 = .fin x ∧ x = ((df' p).rOne - (df' p).rSub) / ((df' p).size - 1) := by
  have hI := reachable_inv h hn h0 he
  by_cases hc : t.Removed (pruneSet t.toTopo ops) p ∨ t.CurLeaf (pruneSet t.toTopo ops) p
  · rw [innerPrune_reject h hI hc] at hp; cases hp
  · rw [not_or] at hc
    have hP : ¬ pruneSet t.toTopo ops p := fun e => hc.2 ⟨hc.1, Or.inr e⟩
    have hl : ¬ t.IsLeaf p := fun e => hc.2 ⟨hc.1, Or.inl e⟩
    obtain ⟨d, e, hI', hg⟩ := innerPrune_ok h (fun i => (hn i).ne') hI hc.1 hP hl
    rw [e] at hp
    cases hp
    have hrp : ¬ t.Removed (addP (pruneSet t.toTopo ops) p) p := by
      rw [removed_add]
      exact fun e => e.elim hc.1 fun e => e.2 rfl
    refine ⟨hg, ((hI'.2 p).cutHere hrp (Or.inr rfl)).1, _, ?_, rfl⟩
    rw [hg, (hI.2 p).inner hc.1 hP hl, (hI.2 p).fixed.1]

/-- C55 is false as stated: in the tests' tree node 4, pruned to a leaf, keeps `g1 = 2/5`. -/
theorem C55_refuted : ∃ (t : SkTree ℚ 2) (df df' : PDf ℚ t.toTopo) (i : t.Node),
    t.WF ∧ (∀ i, 0 < t.nSamp i) ∧ initDf .cls t = .ok df ∧ pruneMany t.toTopo df [4] = .ok df' ∧
    t.CurLeaf (pruneSet t.toTopo [4]) i ∧ (df' i).g1 ≠ .nan := by
  have hw : exPrune.WF := by decide +kernel
  have hn : ∀ i, 0 < exPrune.nSamp i := by decide +kernel
  obtain ⟨df, h0, -⟩ := C53_initial_table .cls hw hn
  have hI := reachable_inv hw hn h0 (ops := []) (df' := df) rfl
  have hrem : ∀ x, ¬ exPrune.Removed (pruneSet exPrune.toTopo []) x := by
    rintro x ⟨p, hp, -⟩
    simp [pruneSet] at hp
  have hl : ¬ exPrune.IsLeaf (4 : Fin 7) := fun e => e 6 (Or.inl rfl)
  obtain ⟨df', e, -, -⟩ := innerPrune_ok (p := (4 : Fin 7)) hw (fun i => (hn i).ne') hI (hrem _)
    (by simp [pruneSet]) hl
  have hm : pruneMany exPrune.toTopo df [4] = .ok df' := by
    unfold pruneMany
    rw [List.foldlM_cons]
    erw [e]
    rfl
  obtain ⟨-, -, x, hx, -⟩ := C55_pruned_leaf_g1_stale hw hn h0 (ops := []) (df' := df) rfl e
  refine ⟨exPrune, df, df', (4 : Fin 7), hw, hn, h0, hm, ⟨?_, Or.inr (by simp [pruneSet])⟩, ?_⟩
  · rintro ⟨p, hp, h1, h2⟩
    simp only [pruneSet, List.mem_singleton] at hp
    exact h2 (Fin.ext hp)
  · rw [hx]; nofun

/-- C56: on every reachable table `_inner_prune` raises ValueError exactly at the nodes that are
currently a leaf or have been cut away; every other node of the table is pruned without error. -/
theorem C56_rejects {kind : Kind} {t : SkTree K C} (h : t.WF) (hn : ∀ i, 0 < t.nSamp i)
    {df df' : PDf K t.toTopo} (h0 : initDf kind t = .ok df) {ops : List ℕ}
    (he : pruneMany t.toTopo df ops = .ok df') (p : t.Node) :
    (innerPrune t.toTopo df' p.val = .error .valueError ↔
      t.Removed (pruneSet t.toTopo ops) p ∨ t.CurLeaf (pruneSet t.toTopo ops) p) ∧
    (innerPrune t.toTopo df' p.val = .error .valueError ∨
      ∃ df'', innerPrune t.toTopo df' p.val = .ok df'') := by
  have hI := reachable_inv h hn h0 he
  by_cases hc : t.Removed (pruneSet t.toTopo ops) p ∨ t.CurLeaf (pruneSet t.toTopo ops) p
  · have := innerPrune_reject h hI hc
    exact ⟨⟨fun _ => hc, fun _ => this⟩, Or.inl this⟩
  · have hc' := hc
    rw [not_or] at hc'
    obtain ⟨d, e, -, -⟩ := innerPrune_ok h (fun i => (hn i).ne') hI hc'.1
      (fun e => hc'.2 ⟨hc'.1, Or.inr e⟩) (fun e => hc'.2 ⟨hc'.1, Or.inl e⟩)
    refine ⟨⟨fun e' => ?_, fun e' => absurd e' hc⟩, Or.inr ⟨d, e⟩⟩
    rw [e] at e'
    cases e'

/-- Outcome of a prune sequence. -/
abbrev exOutcome (ops : List ℕ) : Option (Option PyErr) :=
  match initDf .cls exPrune with
  | .ok df => match pruneMany exPrune.toTopo df ops with
    | .ok _ => some none
    | .error e => some (some e)
  | .error _ => none

example : exOutcome [4, 2, 0] = some none ∧ exOutcome [4, 4] = some (some .valueError) ∧
    exOutcome [2, 4] = some (some .valueError) ∧ exOutcome [3] = some (some .valueError) := by
  decide +kernel

/-- C57, risk of one node: for a classification tree whose node counts are the totals of its
(non-negative) class counts, `R({t})` is one minus the largest class share, lies in `[0, 1]`, and is 0
exactly when a single class holds all the weight. -/
theorem C57_node_risk {t : SkTree K C} (h : t.WF) (hn : ∀ i, 0 < t.nSamp i)
    (hv : ∀ i c, 0 ≤ t.value i c) (hs : ∀ i, ∑ c, t.value i c = t.nSamp i)
    {df : PDf K t.toTopo} (h0 : initDf .cls t = .ok df) (i : t.Node) :
    (∃ c, (∀ d, t.value i d / t.nSamp i ≤ t.value i c / t.nSamp i) ∧
      (df i).rOne = 1 - t.value i c / t.nSamp i) ∧
    0 ≤ (df i).rOne ∧ (df i).rOne ≤ 1 ∧
    ((df i).rOne = 0 ↔ ∃ c, ∀ d, d ≠ c → t.value i d = 0) := by
  have hI := reachable_inv h hn h0 (ops := []) (df' := df) rfl
  have hr : (df i).rOne = misclassified (t.value i) / t.nSamp i := (hI.2 i).fixed.1
  have hC : 0 < C := by
    refine Nat.pos_of_ne_zero fun e => ?_
    subst e
    have := hs i
    simp at this
    exact (hn i).ne this
  obtain ⟨c, -, hc⟩ := npArgmax_ofFn (t.value i) hC
  have hm := misclassified_eq hc
  have hmc := misclassified_nonneg (hv i)
  rw [hs i] at hm
  have hni := hn i
  refine ⟨⟨c, fun d => ?_, ?_⟩, ?_, ?_, ?_⟩
  · exact div_le_div_of_nonneg_right (hc.1 d) hni.le
  · rw [hr, hm, sub_div, div_self hni.ne']
  · rw [hr]; exact div_nonneg hmc hni.le
  · rw [hr, div_le_one hni, hm]
    have := hv i c
    linarith
  · rw [hr, div_eq_zero_iff, or_iff_left hni.ne', hm, sub_eq_zero, ← hs i]
    constructor
    · intro e
      refine ⟨c, fun d hd => ?_⟩
      have h1 := Finset.add_sum_erase Finset.univ (t.value i) (Finset.mem_univ c)
      have h2 : ∑ x ∈ Finset.univ.erase c, t.value i x = 0 := by linarith
      exact (Finset.sum_eq_zero_iff_of_nonneg fun x _ => hv i x).1 h2 d (by simp [hd])
    · rintro ⟨c', hc'⟩
      have h1 : ∑ j, t.value i j = t.value i c' :=
        Finset.sum_eq_single c' (fun d _ hd => hc' d hd) (by simp)
      have h2 := hc.1 c'
      have h3 : t.value i c ≤ ∑ j, t.value i j :=
        Finset.single_le_sum (fun x _ => hv i x) (Finset.mem_univ c)
      linarith

/-- C57 for any risk that does not increase under splitting (covers mean squared error): after any
prunes `R(T_t) ≤ R({t})`, and `g1 ≥ 0` at the internal nodes. -/
theorem C57_superadditive {kind : Kind} {t : SkTree K C} (h : t.WF) (hn : ∀ i, 0 < t.nSamp i)
    {df df' : PDf K t.toTopo} (h0 : initDf kind t = .ok df)
    (hsup : ∀ i l q, t.left i = some l → t.right i = some q →
      t.nSamp l * (df l).rOne + t.nSamp q * (df q).rOne ≤ t.nSamp i * (df i).rOne)
    {ops : List ℕ} (he : pruneMany t.toTopo df ops = .ok df') (i : t.Node) :
    (df' i).rSub ≤ (df' i).rOne ∧
    (¬ t.Removed (pruneSet t.toTopo ops) i → ¬ t.CurLeaf (pruneSet t.toTopo ops) i →
      ∃ x, (df' i).g1 = .fin x ∧ 0 ≤ x) := by
  have hI0 := reachable_inv h hn h0 (ops := []) (df' := df) rfl
  have hI := reachable_inv h hn h0 he
  have hrow := hI.2 i
  have key : (df' i).rSub ≤ (df' i).rOne := by
    by_cases hr : t.Removed (pruneSet t.toTopo ops) i
    · rw [(hrow.removed hr).2.1, hrow.fixed.1]
    · have hle := leafRisk_le (r := riskOf kind t) h (fun a l q h1 h2 => by
        have := hsup a l q h1 h2
        rwa [(hI0.2 a).fixed.1, (hI0.2 l).fixed.1, (hI0.2 q).fixed.1] at this) hr
      rw [← (hrow.sized hr).2, ← hrow.fixed.1] at hle
      exact le_of_mul_le_mul_left hle (hn i)
  refine ⟨key, fun hr hc => ?_⟩
  obtain ⟨h2, hg⟩ := (C55_g1_exact_partial h hn h0 he i).1 hr hc
  refine ⟨_, hg, div_nonneg (sub_nonneg.2 key) ?_⟩
  have : (1 : K) ≤ ((df' i).size : K) := by exact_mod_cast (by omega : 1 ≤ (df' i).size)
  linarith

/-- C57 for classification trees whose class counts add up over the two children, after any prunes. -/
theorem C57_training_risk {t : SkTree K C} (h : t.WF) (hn : ∀ i, 0 < t.nSamp i)
    (hadd : ∀ i l q, t.left i = some l → t.right i = some q →
      ∀ c, t.value i c = t.value l c + t.value q c)
    {df df' : PDf K t.toTopo} (h0 : initDf .cls t = .ok df) {ops : List ℕ}
    (he : pruneMany t.toTopo df ops = .ok df') (i : t.Node) :
    (df' i).rSub ≤ (df' i).rOne ∧
    (¬ t.Removed (pruneSet t.toTopo ops) i → ¬ t.CurLeaf (pruneSet t.toTopo ops) i →
      ∃ x, (df' i).g1 = .fin x ∧ 0 ≤ x) := by
  have hI0 := reachable_inv h hn h0 (ops := []) (df' := df) rfl
  refine C57_superadditive h hn h0 (fun a l q h1 h2 => ?_) he i
  have hr : ∀ x, t.nSamp x * (df x).rOne = misclassified (t.value x) := by
    intro x
    have : (df x).rOne = misclassified (t.value x) / t.nSamp x := (hI0.2 x).fixed.1
    rw [this, mul_div_cancel₀ _ (hn x).ne']
  rw [hr, hr, hr]
  exact misclassified_superadd _ _ _ (hadd a l q h1 h2)

example : (∀ i, ∑ c, exPrune.value i c = exPrune.nSamp i) ∧ (∀ i c, 0 ≤ exPrune.value i c) ∧
    (∀ i l q : Fin 7, exPrune.left i = some l → exPrune.right i = some q →
      ∀ c, exPrune.value i c = exPrune.value l c + exPrune.value q c) :=
  ⟨by decide +kernel, by decide +kernel, by decide +kernel⟩

/-- C77: `prune_tree` never returns: for every well-formed tree with positive counts it raises NameError,
because the only statement that assigns the returned variable is commented out. -/
theorem C77_prune_tree_name_error (kind : Kind) {t : SkTree K C} (h : t.WF) (hn : ∀ i, 0 < t.nSamp i) :
    pruneTree kind t = .error .nameError := by
  obtain ⟨df, e, -⟩ := C53_initial_table kind h hn
  unfold pruneTree
  rw [e]
  rfl

example : (match pruneTree .cls exPrune with | .ok _ => none | .error e => some e) =
    some PyErr.nameError := by decide +kernel

/-- C78: the table depends only on the resulting pruned tree: if two successful prune histories (any
order, with or without prunes that are later swallowed by a prune higher up) leave the same removed nodes
and the same current leaves, the two tables agree in every column, except possibly `g1` at nodes that
became leaves by pruning. -/
theorem C78_order_independent {kind : Kind} {t : SkTree K C} (h : t.WF) (hn : ∀ i, 0 < t.nSamp i)
    {df d1 d2 : PDf K t.toTopo} (h0 : initDf kind t = .ok df) {ops1 ops2 : List ℕ}
    (h1 : pruneMany t.toTopo df ops1 = .ok d1) (h2 : pruneMany t.toTopo df ops2 = .ok d2)
    (hrem : ∀ i, t.Removed (pruneSet t.toTopo ops1) i ↔ t.Removed (pruneSet t.toTopo ops2) i)
    (hcur : ∀ i, t.CurLeaf (pruneSet t.toTopo ops1) i ↔ t.CurLeaf (pruneSet t.toTopo ops2) i)
    (i : t.Node) :
    (d1 i).rOne = (d2 i).rOne ∧ (d1 i).rSub = (d2 i).rSub ∧ (d1 i).cLeft = (d2 i).cLeft ∧
    (d1 i).cRight = (d2 i).cRight ∧ (d1 i).size = (d2 i).size ∧ (d1 i).parent = (d2 i).parent ∧
    (d1 i).nObs = (d2 i).nObs ∧
    ((t.IsLeaf i ∨ ¬ t.CurLeaf (pruneSet t.toTopo ops1) i) → (d1 i).g1 = (d2 i).g1) := by
  have I1 := (reachable_inv h hn h0 h1).2 i
  have I2 := (reachable_inv h hn h0 h2).2 i
  have hleaves : t.curLeaves (pruneSet t.toTopo ops1) i = t.curLeaves (pruneSet t.toTopo ops2) i := by
    ext l
    rw [mem_curLeaves, mem_curLeaves, hcur l]
  obtain ⟨a1, a2, a3⟩ := I1.fixed
  obtain ⟨b1, b2, b3⟩ := I2.fixed
  by_cases hr : t.Removed (pruneSet t.toTopo ops1) i
  · obtain ⟨c1, c2, c3, c4, c5⟩ := I1.removed hr
    obtain ⟨e1, e2, e3, e4, e5⟩ := I2.removed ((hrem i).1 hr)
    rw [a1, a2, a3, b1, b2, b3, c1, c2, c3, c4, c5, e1, e2, e3, e4, e5]
    simp
  · have hr2 := fun e => hr ((hrem i).2 e)
    obtain ⟨s1, s2⟩ := I1.sized hr
    obtain ⟨u1, u2⟩ := I2.sized hr2
    have hsub : (d1 i).rSub = (d2 i).rSub := by
      apply mul_left_cancel₀ (hn i).ne'
      rw [s2, u2]
      unfold leafRisk
      rw [hleaves]
    have hsize : (d1 i).size = (d2 i).size := by rw [s1, u1, hleaves]
    have C1 := C54_prune_exact h hn h0 h1 i
    have C2 := C54_prune_exact h hn h0 h2 i
    have hch : (d1 i).cLeft = (d2 i).cLeft ∧ (d1 i).cRight = (d2 i).cRight := by
      by_cases hc : t.CurLeaf (pruneSet t.toTopo ops1) i
      · rw [C1.2.2.2.1.2 hc, C1.2.2.2.2.1.2 hc, C2.2.2.2.1.2 ((hcur i).1 hc),
          C2.2.2.2.2.1.2 ((hcur i).1 hc)]
        exact ⟨rfl, rfl⟩
      · have hc2 := fun e => hc ((hcur i).2 e)
        obtain ⟨x1, x2⟩ := I1.intact hr fun e => hc ⟨hr, Or.inr e⟩
        obtain ⟨y1, y2⟩ := I2.intact hr2 fun e => hc2 ⟨hr2, Or.inr e⟩
        rw [x1, x2, y1, y2]
        exact ⟨rfl, rfl⟩
    refine ⟨a1.trans b1.symm, hsub, hch.1, hch.2, hsize, a2.trans b2.symm, a3.trans b3.symm, ?_⟩
    intro hg
    by_cases hl : t.IsLeaf i
    · rw [I1.leaf hl, I2.leaf hl]
    · have hc := hg.resolve_left hl
      have hc2 := fun e => hc ((hcur i).2 e)
      rw [I1.inner hr (fun e => hc ⟨hr, Or.inr e⟩) hl, I2.inner hr2 (fun e => hc2 ⟨hr2, Or.inr e⟩) hl,
        hsub, hsize]

example : (match initDf .cls exPrune with
    | .ok df => match pruneMany exPrune.toTopo df [2], pruneMany exPrune.toTopo df [4, 2] with
      | .ok a, .ok b => some ((colsOf a).map fun r => (r.2.1, r.2.2.1), (colsOf b).map fun r => (r.2.1, r.2.2.1),
          (a 2).g1, (b 2).g1)
      | _, _ => none
    | .error _ => none) =
      some ([(13 / 34, 2), (1 / 2, 1), (1 / 3, 1), (0, 0), (7 / 15, 0), (1 / 8, 0), (0, 0)],
        [(13 / 34, 2), (1 / 2, 1), (1 / 3, 1), (0, 0), (7 / 15, 0), (1 / 8, 0), (0, 0)],
        .fin (7 / 48), .fin (1 / 24)) := by
  decide +kernel

end SmoothRF
