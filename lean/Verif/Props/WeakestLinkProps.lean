import Verif.Props.TestPruneProps

/-!
# C192: weakest-link pruning

`_inner_prune` cuts at whatever node it is handed; the `g1` column is there to choose the node
("select minimum g_1", tune_prune.py 60-107; "CART chapter 2", 263 and 378). Here the node is the one with the smallest `g1`.
-/

set_option linter.unusedSectionVars false

namespace SmoothRF

/-- A node of the pruned tree that still has children. -/
def Topo.Inner (t : Topo) (P : t.Node → Prop) (i : t.Node) : Prop := ¬ t.Removed P i ∧ ¬ t.CurLeaf P i

variable {K : Type} [Field K] [LinearOrder K] [IsStrictOrderedRing K] {C : ℕ}

/-- `p` has the smallest `g1`, namely `m`, of the nodes that still have children. -/
def WeakestAt {t : SkTree K C} (df : PDf K t.toTopo) (ops : List ℕ) (p : t.Node) (m : K) : Prop :=
  t.Inner (pruneSet t.toTopo ops) p ∧ (df p).g1 = .fin m ∧
    ∀ x y, t.Inner (pruneSet t.toTopo ops) x → (df x).g1 = .fin y → m ≤ y

/-- Pruning a node with the smallest `g1` again and again: the nodes, the table and the values of `g1`. -/
inductive WeakestRun (t : SkTree K C) (df : PDf K t.toTopo) : List ℕ → PDf K t.toTopo → List K → Prop
  | start : WeakestRun t df [] df []
  | prune {ops : List ℕ} {df' df'' : PDf K t.toTopo} {ms : List K} {p : t.Node} {m : K} :
      WeakestRun t df ops df' ms → WeakestAt df' ops p m → innerPrune t.toTopo df' p.val = .ok df'' →
      WeakestRun t df (ops ++ [p.val]) df'' (ms ++ [m])

theorem pruneMany_snoc {t : Topo} {df df' df'' : PDf K t} {ops : List ℕ} {p : ℕ}
    (he : pruneMany t df ops = .ok df') (hp : innerPrune t df' p = .ok df'') :
    pruneMany t df (ops ++ [p]) = .ok df'' := by
  unfold pruneMany at *
  rw [List.foldlM_append, he]
  show (List.foldlM (innerPrune t) df' [p]) = _
  rw [List.foldlM_cons, hp]; rfl

theorem removed_snoc {t : Topo} {ops : List ℕ} {p x : t.Node} (hx : t.Removed (pruneSet t ops) x) :
    t.Removed (pruneSet t (ops ++ [p.val])) x := by
  obtain ⟨q, h1, h2, h3⟩ := hx
  exact ⟨q, List.mem_append_left _ h1, h2, h3⟩

theorem inner_snoc {t : Topo} {ops : List ℕ} {p x : t.Node} (hx : t.Inner (pruneSet t (ops ++ [p.val])) x) :
    t.Inner (pruneSet t ops) x ∧ ¬ t.Anc p x := by
  have h1 : ¬ t.Removed (pruneSet t ops) x := fun e => hx.1 (removed_snoc e)
  refine ⟨⟨h1, fun e => hx.2 ⟨hx.1, e.2.imp id fun e => List.mem_append_left _ e⟩⟩, fun e => ?_⟩
  by_cases hpx : p = x
  · subst hpx
    exact hx.2 ⟨hx.1, Or.inr (by simp [pruneSet])⟩
  · exact hx.1 ⟨p, by simp [pruneSet], e, hpx⟩

theorem count_anc {t : SkTree K C} (hc : ∀ i c, t.IsChild i c → t.nSamp c ≤ t.nSamp i) {a x : t.Node}
    (ha : t.Anc a x) : t.nSamp x ≤ t.nSamp a := by
  induction ha with
  | refl => exact le_rfl
  | step _ h2 ih => exact (hc _ _ h2).trans ih

/-- C192: pruning a node `p` takes `|T_p| - 1` leaves off the tree and adds
`n_p (|T_p| - 1) g1(p)` to the observations' total training loss. -/
theorem C192_change {kind : Kind} {t : SkTree K C} (h : t.WF) (hn : ∀ i, 0 < t.nSamp i)
    {df df' df'' : PDf K t.toTopo} (h0 : initDf kind t = .ok df) {ops : List ℕ}
    (he : pruneMany t.toTopo df ops = .ok df') {p : t.Node} {m : K} (hm : (df' p).g1 = .fin m)
    (hp : innerPrune t.toTopo df' p.val = .ok df'') :
    ((df'' 0).size : K) = (df' 0).size - ((df' p).size - 1) ∧
    t.nSamp 0 * (df'' 0).rSub = t.nSamp 0 * (df' 0).rSub + t.nSamp p * (((df' p).size - 1) * m) := by
  have hI := reachable_inv h hn h0 he
  by_cases hc : t.Removed (pruneSet t.toTopo ops) p ∨ t.CurLeaf (pruneSet t.toTopo ops) p
  · rw [innerPrune_reject h hI hc] at hp; cases hp
  rw [not_or] at hc
  obtain ⟨h2, hg⟩ := (C55_g1_exact_partial h hn h0 he p).1 hc.1 hc.2
  rw [hm] at hg
  injection hg with hg
  have h2' : (2 : K) ≤ (df' p).size := by exact_mod_cast h2
  have hd : ((df' p).size : K) - 1 ≠ 0 := by linarith
  have hmul : ((df' p).size - 1) * m = (df' p).rOne - (df' p).rSub := by
    rw [hg]; field_simp
  obtain ⟨out, -, -, ⟨o1, o2, -, -⟩, -, -, hk, hu⟩ := C161_prune h hn h0 he hp
  rw [hmul]
  by_cases h00 : (0 : t.Node) = p
  · subst h00
    rw [hk 0 (fun e => e.2 rfl), o1, o2]
    constructor
    · push_cast; ring
    · ring
  · obtain ⟨-, -, -, -, -, e1, -, e2⟩ := hu 0 (Topo.anc_root h p) h00
    constructor
    · have : (((df'' 0).size + (df' p).size : ℕ) : K) = (((df' 0).size + 1 : ℕ) : K) := by rw [e1]
      push_cast at this
      linarith
    · rw [e2, mul_add, mul_div_cancel₀ _ (hn 0).ne']

/-- C192: if the cut is at a node whose `g1` is smallest, no node that still has children afterwards has a
smaller `g1`. -/
theorem C192_monotone {kind : Kind} {t : SkTree K C} (h : t.WF) (hn : ∀ i, 0 < t.nSamp i)
    (hc : ∀ i c, t.IsChild i c → t.nSamp c ≤ t.nSamp i)
    {df df' df'' : PDf K t.toTopo} (h0 : initDf kind t = .ok df)
    (hsup : ∀ i l q, t.left i = some l → t.right i = some q →
      t.nSamp l * (df l).rOne + t.nSamp q * (df q).rOne ≤ t.nSamp i * (df i).rOne) {ops : List ℕ}
    (he : pruneMany t.toTopo df ops = .ok df') {p : t.Node} {m : K} (hw : WeakestAt df' ops p m)
    (hp : innerPrune t.toTopo df' p.val = .ok df'') :
    ∀ x y, t.Inner (pruneSet t.toTopo (ops ++ [p.val])) x → (df'' x).g1 = .fin y → m ≤ y := by
  intro x y hx hy
  obtain ⟨hx1, hx2⟩ := inner_snoc hx
  obtain ⟨out, -, -, -, -, hs, hk, hu⟩ := C161_prune h hn h0 he hp
  by_cases ha : t.Anc x p ∧ x ≠ p
  · have he2 := pruneMany_snoc he hp
    obtain ⟨s2, g2⟩ := (C55_g1_exact_partial h hn h0 he2 x).1 hx.1 hx.2
    obtain ⟨s1, g1⟩ := (C55_g1_exact_partial h hn h0 he x).1 hx1.1 hx1.2
    obtain ⟨sp, gp⟩ := (C55_g1_exact_partial h hn h0 he p).1 hw.1.1 hw.1.2
    obtain ⟨u1, -, -, -, -, u2, -, u3⟩ := hu x ha.1 ha.2
    have hmx := hw.2.2 x _ hx1 g1
    rw [g2] at hy
    injection hy with hy
    rw [hw.2.1] at gp
    injection gp with gp
    have s2' : (2 : K) ≤ (df'' x).size := by exact_mod_cast s2
    have s1' : (2 : K) ≤ (df' x).size := by exact_mod_cast s1
    have sp' : (2 : K) ≤ (df' p).size := by exact_mod_cast sp
    have u2' : ((df'' x).size : K) + (df' p).size = (df' x).size + 1 := by exact_mod_cast u2
    have hG : 0 ≤ (df' p).rOne - (df' p).rSub :=
      sub_nonneg.2 (C57_superadditive h hn h0 hsup he p).1
    rw [← hy, le_div_iff₀ (by linarith), u1, u3]
    rw [le_div_iff₀ (by linarith)] at hmx
    rw [eq_div_iff (by linarith)] at gp
    have hfrac : t.nSamp p * ((df' p).rOne - (df' p).rSub) / t.nSamp x ≤ (df' p).rOne - (df' p).rSub := by
      rw [div_le_iff₀ (hn x), mul_comm]
      exact mul_le_mul_of_nonneg_left (count_anc hc ha.1) hG
    have e : m * (((df'' x).size : K) - 1) = m * ((df' x).size - 1) - m * ((df' p).size - 1) := by
      have : ((df'' x).size : K) = (df' x).size + 1 - (df' p).size := by linarith
      rw [this]; ring
    linarith
  · rw [hk x ha, hs x hx2] at hy
    exact hw.2.2 x y hx1 hy

theorem weakestRun_reach {t : SkTree K C} {df df' : PDf K t.toTopo} {ops : List ℕ} {ms : List K}
    (hr : WeakestRun t df ops df' ms) : pruneMany t.toTopo df ops = .ok df' := by
  induction hr with
  | start => rfl
  | prune _ _ h3 ih => exact pruneMany_snoc ih h3

/-- C192: along a run that always cuts at a smallest `g1`, the values of `g1` never decrease. -/
theorem C192_sequence {kind : Kind} {t : SkTree K C} (h : t.WF) (hn : ∀ i, 0 < t.nSamp i)
    (hc : ∀ i c, t.IsChild i c → t.nSamp c ≤ t.nSamp i)
    {df df' : PDf K t.toTopo} (h0 : initDf kind t = .ok df)
    (hsup : ∀ i l q, t.left i = some l → t.right i = some q →
      t.nSamp l * (df l).rOne + t.nSamp q * (df q).rOne ≤ t.nSamp i * (df i).rOne) {ops : List ℕ} {ms : List K}
    (hr : WeakestRun t df ops df' ms) : ms.Pairwise (· ≤ ·) := by
  have key : ms.Pairwise (· ≤ ·) ∧ ∀ a ∈ ms, ∀ x y, t.Inner (pruneSet t.toTopo ops) x → (df' x).g1 = .fin y →
      a ≤ y := by
    induction hr with
    | start => exact ⟨List.Pairwise.nil, fun a ha => absurd ha List.not_mem_nil⟩
    | @prune ops df' df'' ms p m h1 h2 h3 ih =>
      have hmon := C192_monotone h hn hc h0 hsup (weakestRun_reach h1) h2 h3
      have hlow : ∀ a ∈ ms, a ≤ m := fun a ha => ih.2 a ha p m h2.1 h2.2.1
      refine ⟨?_, ?_⟩
      · rw [List.pairwise_append]
        refine ⟨ih.1, List.pairwise_singleton _ _, fun a ha b hb => ?_⟩
        rw [List.mem_singleton.1 hb]
        exact hlow a ha
      · intro a ha x y hx hy
        have hy' := hmon x y hx hy
        rcases List.mem_append.1 ha with ha | ha
        · exact (hlow a ha).trans hy'
        · rw [List.mem_singleton.1 ha]; exact hy'
  exact key.1

/-- C192: reading the smallest number off the `g1` column does not work twice. After the first cut the smallest
number of the whole column is still the one at the node just cut, where `_inner_prune` raises ValueError. -/
theorem C192_column_stuck {kind : Kind} {t : SkTree K C} (h : t.WF) (hn : ∀ i, 0 < t.nSamp i)
    (hc : ∀ i c, t.IsChild i c → t.nSamp c ≤ t.nSamp i)
    {df df'' : PDf K t.toTopo} (h0 : initDf kind t = .ok df)
    (hsup : ∀ i l q, t.left i = some l → t.right i = some q →
      t.nSamp l * (df l).rOne + t.nSamp q * (df q).rOne ≤ t.nSamp i * (df i).rOne)
    {p : t.Node} {m : K} (hw : WeakestAt df [] p m) (hp : innerPrune t.toTopo df p.val = .ok df'') :
    (df'' p).g1 = .fin m ∧ (∀ x y, (df'' x).g1 = .fin y → m ≤ y) ∧
    innerPrune t.toTopo df'' p.val = .error .valueError := by
  have hst := (C55_pruned_leaf_g1_stale h hn h0 (ops := []) rfl hp).1
  have he2 := pruneMany_snoc (ops := []) rfl hp
  have hpc : t.CurLeaf (pruneSet t.toTopo ([] ++ [p.val])) p := by
    refine ⟨?_, Or.inr (by simp [pruneSet])⟩
    rintro ⟨q, h1, h2, h3⟩
    simp only [pruneSet, List.nil_append, List.mem_singleton] at h1
    exact h3 (Fin.ext h1)
  refine ⟨by rw [hst]; exact hw.2.1, fun x y hy => ?_, ?_⟩
  · obtain ⟨-, hl, hrm⟩ := C55_g1_exact_partial h hn h0 he2 x
    by_cases hr : t.Removed (pruneSet t.toTopo ([] ++ [p.val])) x
    · rw [hrm hr] at hy; cases hy
    by_cases hcx : t.CurLeaf (pruneSet t.toTopo ([] ++ [p.val])) x
    · rcases hcx.2 with e | e
      · rw [hl e] at hy; cases hy
      · simp only [pruneSet, List.nil_append, List.mem_singleton] at e
        have : x = p := Fin.ext e
        subst this
        rw [hst, hw.2.1] at hy
        injection hy with hy
        exact hy.le
    · exact C192_monotone h hn hc h0 hsup (ops := []) rfl hw hp x y ⟨hr, hcx⟩ hy
  · exact (C56_rejects h hn h0 he2 p).1.2 (Or.inr hpc)

/-- Cost-complexity of the pruned tree in CART's scaling: total training loss of the leaves plus `a` for every
leaf. -/
noncomputable def costComplexity (t : SkTree K C) (r : t.Node → K) (P : t.Node → Prop) (a : K) : K :=
  ∑ l ∈ t.curLeaves P 0, (t.nSamp l * r l + a)

theorem cost_le {t : SkTree K C} (h : t.WF) {r : t.Node → K} {P Q : t.Node → Prop} (hPQ : ∀ i, P i → Q i) {a : K}
    (hin : ∀ i, t.Inner P i → ∑ l ∈ t.curLeaves P i, (t.nSamp l * r l + a) ≤ t.nSamp i * r i + a) {i : t.Node}
    (hr : ¬ t.Removed Q i) :
    ∑ l ∈ t.curLeaves P i, (t.nSamp l * r l + a) ≤ ∑ l ∈ t.curLeaves Q i, (t.nSamp l * r l + a) := by
  have hrem : ∀ i, ¬ t.Removed Q i → ¬ t.Removed P i := by
    rintro i hi ⟨p, h1, h2⟩
    exact hi ⟨p, hPQ p h1, h2⟩
  induction hn : t.m - i.val using Nat.strong_induction_on generalizing i with
  | _ n ih =>
    by_cases hc : t.CurLeaf Q i
    · rw [Topo.curLeaves_leaf h hc, Finset.sum_singleton]
      by_cases hcP : t.CurLeaf P i
      · rw [Topo.curLeaves_leaf h hcP, Finset.sum_singleton]
      · exact hin i ⟨hrem i hr, hcP⟩
    · have hl : ¬ t.IsLeaf i := fun e => hc ⟨hr, Or.inl e⟩
      have hQ : ¬ Q i := fun e => hc ⟨hr, Or.inr e⟩
      obtain ⟨l, q, h1, h2⟩ := Topo.children_of_not_leaf h hl
      have hlt : i.val < l.val := h.lt i l (Or.inl h1)
      have hqt : i.val < q.val := h.lt i q (Or.inr h2)
      have hm := l.2
      have hm' := q.2
      have e1 := ih (t.m - l.val) (by omega) (Topo.not_removed_child h (Or.inl h1) hr hQ) rfl
      have e2 := ih (t.m - q.val) (by omega) (Topo.not_removed_child h (Or.inr h2) hr hQ) rfl
      rw [(Topo.curLeaves_node h h1 h2 hQ).2, (Topo.curLeaves_node h h1 h2 fun e => hQ (hPQ i e)).2,
        Finset.sum_disjUnion, Finset.sum_disjUnion]
      linarith

/-- The root's row holds the two parts of the cost. -/
theorem cost_row {kind : Kind} {t : SkTree K C} (h : t.WF) (hn : ∀ i, 0 < t.nSamp i)
    {df df' : PDf K t.toTopo} (h0 : initDf kind t = .ok df) {ops : List ℕ}
    (he : pruneMany t.toTopo df ops = .ok df') (a : K) {i : t.Node} (hi : ¬ t.Removed (pruneSet t.toTopo ops) i) :
    ∑ l ∈ t.curLeaves (pruneSet t.toTopo ops) i, (t.nSamp l * (df l).rOne + a) =
      t.nSamp i * (df' i).rSub + (df' i).size * a := by
  obtain ⟨-, -, -, -, -, -, -, hs, -⟩ := C54_prune_exact h hn h0 he i
  obtain ⟨e1, e2⟩ := hs hi
  rw [Finset.sum_add_distrib, ← e2, Finset.sum_const, ← e1, nsmul_eq_mul]

/-- C192: with CART's weighting the rule is right. If `n_p g1(p)` is smallest among the nodes that still have
children, then at `a = n_p g1(p)` the tree cut at `p` costs exactly as much as before, and no way of cutting
further costs less. -/
theorem C192_cart_partial {kind : Kind} {t : SkTree K C} (h : t.WF) (hn : ∀ i, 0 < t.nSamp i)
    {df df' df'' : PDf K t.toTopo} (h0 : initDf kind t = .ok df) {ops more : List ℕ}
    (he : pruneMany t.toTopo df ops = .ok df') {p : t.Node} {m : K} (hm : (df' p).g1 = .fin m)
    (hmin : ∀ x y, t.Inner (pruneSet t.toTopo ops) x → (df' x).g1 = .fin y → t.nSamp p * m ≤ t.nSamp x * y)
    (hp : innerPrune t.toTopo df' p.val = .ok df'') :
    costComplexity t (fun i => (df i).rOne) (pruneSet t.toTopo (ops ++ [p.val])) (t.nSamp p * m) =
      costComplexity t (fun i => (df i).rOne) (pruneSet t.toTopo ops) (t.nSamp p * m) ∧
    costComplexity t (fun i => (df i).rOne) (pruneSet t.toTopo (ops ++ [p.val])) (t.nSamp p * m) ≤
      costComplexity t (fun i => (df i).rOne) (pruneSet t.toTopo (ops ++ more)) (t.nSamp p * m) := by
  have hroot : ∀ P : t.Node → Prop, ¬ t.Removed P 0 := by
    rintro P ⟨q, -, h1, h2⟩
    exact h2 ((Topo.anc_zero_iff h).1 h1)
  have e : costComplexity t (fun i => (df i).rOne) (pruneSet t.toTopo (ops ++ [p.val])) (t.nSamp p * m) =
      costComplexity t (fun i => (df i).rOne) (pruneSet t.toTopo ops) (t.nSamp p * m) := by
    unfold costComplexity
    rw [cost_row h hn h0 he _ (hroot _), cost_row h hn h0 (pruneMany_snoc he hp) _ (hroot _)]
    obtain ⟨e1, e2⟩ := C192_change h hn h0 he hm hp
    rw [e1, e2]; ring
  refine ⟨e, ?_⟩
  rw [e]
  refine cost_le (P := pruneSet t.toTopo ops) h (fun i hi => List.mem_append_left _ hi) (fun i hi => ?_) (hroot _)
  rw [cost_row h hn h0 he _ hi.1]
  obtain ⟨s1, g1⟩ := (C55_g1_exact_partial h hn h0 he i).1 hi.1 hi.2
  have s1' : (2 : K) ≤ (df' i).size := by exact_mod_cast s1
  have := hmin i _ hi g1
  obtain ⟨-, -, -, -, -, -, -, -, er, -⟩ := C54_prune_exact h hn h0 he i
  rw [← mul_div_assoc, le_div_iff₀ (by linarith), er] at this
  linarith

/-- Two stumps under one root: 2 of 20 and 1 of 8 observations against the majority. -/
abbrev exWeak : SkTree ℚ 2 :=
  { toTopo := ⟨6, ![some 1, some 2, none, none, some 5, none, none],
      ![some 4, some 3, none, none, some 6, none, none]⟩
    value := fun i c => ![![19, 9], ![18, 2], ![18, 0], ![0, 2], ![1, 7], ![1, 0], ![0, 7]] i c
    nSamp := ![28, 20, 18, 2, 8, 1, 7]
    impurity := ![1, 1, 1, 1, 1, 1, 1] }

/-- The columns `R({t})`, `R(T_t)`, `|T_t|`, `g1` after some cuts. -/
def colsAfter (t : SkTree ℚ 2) (ops : List ℕ) : List (ℚ × ℚ × ℕ × Fl ℚ) :=
  match initDf .cls t with
  | .ok d => match pruneMany t.toTopo d ops with
    | .ok d' => colsOf d'
    | .error _ => []
  | .error _ => []

theorem exWeak_cols : colsAfter exWeak [] =
      [(9 / 28, 0, 4, .fin (3 / 28)), (1 / 10, 0, 2, .fin (1 / 10)), (0, 0, 1, .nan), (0, 0, 1, .nan),
        (1 / 8, 0, 2, .fin (1 / 8)), (0, 0, 1, .nan), (0, 0, 1, .nan)] ∧
    colsAfter exWeak [1] =
      [(9 / 28, 1 / 14, 3, .fin (1 / 8)), (1 / 10, 1 / 10, 1, .fin (1 / 10)), (0, 0, 0, .nan), (0, 0, 0, .nan),
        (1 / 8, 0, 2, .fin (1 / 8)), (0, 0, 1, .nan), (0, 0, 1, .nan)] ∧
    colsAfter exWeak [4] =
      [(9 / 28, 1 / 28, 3, .fin (1 / 7)), (1 / 10, 0, 2, .fin (1 / 10)), (0, 0, 1, .nan), (0, 0, 1, .nan),
        (1 / 8, 1 / 8, 1, .fin (1 / 8)), (0, 0, 0, .nan), (0, 0, 0, .nan)] := by
  decide +kernel

theorem colsAfter_row {t : SkTree ℚ 2} {df d : PDf ℚ t.toTopo} {ops : List ℕ} (h0 : initDf .cls t = .ok df)
    (he : pruneMany t.toTopo df ops = .ok d) : colsAfter t ops = colsOf d := by
  unfold colsAfter
  rw [h0]
  dsimp only
  rw [he]

/-- The `g1` column of this tree. -/
abbrev exWeakG : Fin 7 → Fl ℚ := ![.fin (3 / 28), .fin (1 / 10), .nan, .nan, .fin (1 / 8), .nan, .nan]

theorem exWeak_least {x : Fin 7} {y : ℚ} (hy : exWeakG x = .fin y) : 1 / 10 ≤ y ∧ (x ≠ 1 → 1 / 10 < y) := by
  have key : ∀ x : Fin 7, (match exWeakG x with
      | .fin y => decide (1 / 10 ≤ y ∧ (x ≠ 1 → 1 / 10 < y))
      | _ => true) = true := by
    decide +kernel
  have := key x
  rw [hy] at this
  exact of_decide_eq_true this

/-- C192 with the code's `g1` is false: in this tree the smallest `g1` is at node 1, but cutting at node 4
instead leaves as many leaves and a smaller loss, so the tree cut at node 1 is not the cheapest for any price
of a leaf. -/
theorem C192_refuted : ∃ (t : SkTree ℚ 2) (df d1 d4 : PDf ℚ t.toTopo) (p q : t.Node) (m : ℚ),
    t.WF ∧ (∀ i, 0 < t.nSamp i) ∧
    (∀ i l r, t.left i = some l → t.right i = some r →
      t.nSamp i = t.nSamp l + t.nSamp r ∧ ∀ c, t.value i c = t.value l c + t.value r c) ∧
    (∀ i, ∑ c, t.value i c = t.nSamp i) ∧
    initDf .cls t = .ok df ∧ WeakestAt df [] p m ∧
    (∀ x y, x ≠ p → (df x).g1 = .fin y → m < y) ∧
    pruneMany t.toTopo df [p.val] = .ok d1 ∧ pruneMany t.toTopo df [q.val] = .ok d4 ∧
    ∀ a, costComplexity t (fun i => (df i).rOne) (pruneSet t.toTopo [q.val]) a <
      costComplexity t (fun i => (df i).rOne) (pruneSet t.toTopo [p.val]) a := by
  have hw : exWeak.WF := by decide +kernel
  have hn : ∀ i, 0 < exWeak.nSamp i := by decide +kernel
  obtain ⟨df, h0, -⟩ := C53_initial_table .cls hw hn
  have hrem : ∀ x, ¬ exWeak.Removed (pruneSet exWeak.toTopo []) x := by
    rintro x ⟨p, hp, -⟩
    simp [pruneSet] at hp
  have hroot : ∀ P : exWeak.Node → Prop, ¬ exWeak.Removed P 0 := by
    rintro P ⟨q, -, h1, h2⟩
    exact h2 ((Topo.anc_zero_iff hw).1 h1)
  have hl1 : ¬ exWeak.IsLeaf (1 : Fin 7) := fun e => e 2 (Or.inl rfl)
  have hl4 : ¬ exWeak.IsLeaf (4 : Fin 7) := fun e => e 5 (Or.inl rfl)
  have hI := reachable_inv hw hn h0 (ops := []) (df' := df) rfl
  obtain ⟨d1, e1, -, -⟩ := innerPrune_ok (p := (1 : Fin 7)) hw (fun i => (hn i).ne') hI (hrem _)
    (by simp [pruneSet]) hl1
  obtain ⟨d4, e4, -, -⟩ := innerPrune_ok (p := (4 : Fin 7)) hw (fun i => (hn i).ne') hI (hrem _)
    (by simp [pruneSet]) hl4
  have p1 : pruneMany exWeak.toTopo df [1] = .ok d1 := pruneMany_snoc (ops := []) rfl e1
  have p4 : pruneMany exWeak.toTopo df [4] = .ok d4 := pruneMany_snoc (ops := []) rfl e4
  have c0 := (colsAfter_row (ops := []) h0 rfl).symm.trans exWeak_cols.1
  have c1 := (colsAfter_row h0 p1).symm.trans exWeak_cols.2.1
  have c4 := (colsAfter_row h0 p4).symm.trans exWeak_cols.2.2
  simp only [colsOf, List.ofFn_succ, List.ofFn_zero, List.cons.injEq, Prod.mk.injEq] at c0 c1 c4
  have hg : ∀ x : Fin 7, (df x).g1 = exWeakG x := by
    intro x
    have e : x = 0 ∨ x = 1 ∨ x = 2 ∨ x = 3 ∨ x = 4 ∨ x = 5 ∨ x = 6 := by omega
    rcases e with rfl | rfl | rfl | rfl | rfl | rfl | rfl
    · exact c0.1.2.2.2
    · exact c0.2.1.2.2.2
    · exact c0.2.2.1.2.2.2
    · exact c0.2.2.2.1.2.2.2
    · exact c0.2.2.2.2.1.2.2.2
    · exact c0.2.2.2.2.2.1.2.2.2
    · exact c0.2.2.2.2.2.2.1.2.2.2
  refine ⟨exWeak, df, d1, d4, (1 : Fin 7), (4 : Fin 7), 1 / 10, hw, hn, by decide +kernel, by decide +kernel, h0,
    ?_, ?_, p1, p4, fun a => ?_⟩
  · refine ⟨⟨hrem _, fun e => ?_⟩, c0.2.1.2.2.2, fun x y _ hy => ?_⟩
    · rcases e.2 with e | e
      · exact hl1 e
      · simp [pruneSet] at e
    · exact (exWeak_least ((hg x).symm.trans hy)).1
  · intro x y hx hy
    exact (exWeak_least ((hg x).symm.trans hy)).2 hx
  · unfold costComplexity
    erw [cost_row hw hn h0 p1 a (hroot _), cost_row hw hn h0 p4 a (hroot _)]
    rw [c1.1.2.1, c1.1.2.2.1, c4.1.2.1, c4.1.2.2.1]
    show (28 : ℚ) * (1 / 28) + _ < (28 : ℚ) * (1 / 14) + _
    linarith

/-- The hypotheses of the theorems above are met: one cut of this tree at its smallest `g1`. -/
example : ∃ (t : SkTree ℚ 2) (df d1 : PDf ℚ t.toTopo) (p : t.Node) (m : ℚ),
    t.WF ∧ initDf .cls t = .ok df ∧ WeakestRun t df [p.val] d1 [m] := by
  obtain ⟨t, df, d1, _, p, _, m, hw, _, _, _, h0, hwk, _, p1, _, _⟩ := C192_refuted
  refine ⟨t, df, d1, p, m, hw, h0, .prune .start hwk ?_⟩
  unfold pruneMany at p1
  rw [List.foldlM_cons] at p1
  obtain ⟨d, e1, e2⟩ := bind_ok p1
  rw [List.foldlM_nil] at e2
  cases e2
  exact e1

example : (∀ i c : Fin 7, exWeak.IsChild i c → exWeak.nSamp c ≤ exWeak.nSamp i) ∧
    ∀ i l q : Fin 7, exWeak.left i = some l → exWeak.right i = some q →
      exWeak.nSamp l * riskOf .cls exWeak l + exWeak.nSamp q * riskOf .cls exWeak q ≤
        exWeak.nSamp i * riskOf .cls exWeak i := by
  constructor
  · unfold Topo.IsChild; decide +kernel
  · decide +kernel

end SmoothRF
