import Verif.Proofs.FloatPrune
import Verif.Props.PruneProps
import Verif.Props.FloatGradProps
import Verif.Props.FloatDepthProps

/-!
# The pruning table in double precision (C204)
-/

set_option linter.unusedSectionVars false

namespace SmoothRF
open Topo SkTree

variable {C : ℕ}

local notation "U" => ((1 : ℚ) + 1 / 2 ^ 53)

/-- The array `r_single_t(tree)` in doubles. -/
def flRiskOf (sum : List ℚ → ℚ) (kind : Kind) (t : SkTree ℚ C) (i : t.Node) : ℚ :=
  match kind with
  | .reg => t.impurity i
  | .cls => fl (sum (List.ofFn fun c : Fin C => if c.val = npArgmax (List.ofFn (t.value i)) then 0 else t.value i c) /
      t.nSamp i)

theorem flInitDf_eq (sum : List ℚ → ℚ) (kind : Kind) {t : SkTree ℚ C} (hn : ∀ i, t.nSamp i ≠ 0) :
    flInitDf sum kind t = flInitDfOf t (flRiskOf sum kind t) := by
  have h1 : ∀ i ∈ List.finRange (t.m + 1), flRSingle sum kind t i = .ok (flRiskOf sum kind t i) := by
    intro i _
    unfold flRSingle flRiskOf
    cases kind
    · rfl
    · simp only [if_neg (hn i)]
  unfold flInitDf
  rw [mapM_ok _ _ _ h1]
  simp only [bind, Except.bind]
  congr 1
  funext i
  have := finRange_getElem? i
  simp [List.getD, this]

/-- Initial table, then a sequence of `_inner_prune` calls: exact. -/
def pruneRun (kind : Kind) (t : SkTree ℚ C) (ops : List ℕ) : Except PyErr (PDf ℚ t.toTopo) := do
  let df ← initDf kind t
  pruneMany t.toTopo df ops

/-- Initial table, then a sequence of `_inner_prune` calls: in doubles. -/
def flPruneRun (sum : List ℚ → ℚ) (kind : Kind) (t : SkTree ℚ C) (ops : List ℕ) :
    Except PyErr (PDf ℚ t.toTopo) := do
  let df ← flInitDf sum kind t
  flPruneMany t.toTopo df ops

section
variable {t : SkTree ℚ C} {r r' : t.Node → ℚ} {P : t.Node → Prop}

theorem prune_together (h : t.WF) (hn : ∀ i, t.nSamp i ≠ 0) (ops : List ℕ) {df df' : PDf ℚ t.toTopo}
    (hI : PInv t r P df) (hI' : FInv t r' P df') :
    (∃ d d', pruneMany t.toTopo df ops = .ok d ∧ flPruneMany t.toTopo df' ops = .ok d') ∨
    ∃ e, pruneMany t.toTopo df ops = .error e ∧ flPruneMany t.toTopo df' ops = .error e := by
  induction ops generalizing df df' P with
  | nil => exact Or.inl ⟨df, df', rfl, rfl⟩
  | cons o ops ih =>
    unfold pruneMany flPruneMany
    rw [List.foldlM_cons, List.foldlM_cons]
    by_cases ho : o < t.m + 1
    · by_cases hc : t.Removed P ⟨o, ho⟩ ∨ t.CurLeaf P ⟨o, ho⟩
      · right
        refine ⟨.valueError, ?_, ?_⟩
        · rw [innerPrune_reject h hI (p := ⟨o, ho⟩) hc]; rfl
        · rw [flInnerPrune_reject h hI' (p := ⟨o, ho⟩) hc]; rfl
      · rw [not_or] at hc
        have hP : ¬ P ⟨o, ho⟩ := fun e => hc.2 ⟨hc.1, Or.inr e⟩
        have hl : ¬ t.IsLeaf ⟨o, ho⟩ := fun e => hc.2 ⟨hc.1, Or.inl e⟩
        obtain ⟨d2, e2, hI2, -⟩ := innerPrune_ok h hn hI hc.1 hP hl
        obtain ⟨d3, e3, hI3, -⟩ := flInnerPrune_ok h hn hI' hc.1 hP hl
        rw [e2, e3]
        exact ih hI2 hI3
    · right
      refine ⟨.indexError, ?_, ?_⟩
      · unfold innerPrune; rw [dif_neg ho]; rfl
      · unfold flInnerPrune; rw [dif_neg ho]; rfl

theorem pruneRun_together (sum : List ℚ → ℚ) (kind : Kind) (h : t.WF) (hn : ∀ i, 0 < t.nSamp i) (ops : List ℕ) :
    (∃ d d', pruneRun kind t ops = .ok d ∧ flPruneRun sum kind t ops = .ok d') ∨
    ∃ e, pruneRun kind t ops = .error e ∧ flPruneRun sum kind t ops = .error e := by
  have hn' : ∀ i, t.nSamp i ≠ 0 := fun i => (hn i).ne'
  obtain ⟨df, e, hI⟩ := initDfOf_spec (r := riskOf kind t) h hn'
  obtain ⟨df', e', hI'⟩ := flInitDfOf_spec (r := flRiskOf sum kind t) h hn'
  unfold pruneRun flPruneRun
  rw [initDf_eq kind hn', e, flInitDf_eq sum kind hn', e']
  exact prune_together h hn' ops hI hI'

theorem pruneRun_inv {kind : Kind} (h : t.WF) (hn : ∀ i, 0 < t.nSamp i) {ops : List ℕ} {d : PDf ℚ t.toTopo}
    (hd : pruneRun kind t ops = .ok d) : PInv t (riskOf kind t) (pruneSet t.toTopo ops) d := by
  unfold pruneRun at hd
  obtain ⟨df, e, hd⟩ := bind_ok hd
  exact reachable_inv h hn e hd

theorem flPruneRun_inv {sum : List ℚ → ℚ} {kind : Kind} (h : t.WF) (hn : ∀ i, 0 < t.nSamp i) {ops : List ℕ}
    {d : PDf ℚ t.toTopo} (hd : flPruneRun sum kind t ops = .ok d) :
    FInv t (flRiskOf sum kind t) (pruneSet t.toTopo ops) d := by
  have hn' : ∀ i, t.nSamp i ≠ 0 := fun i => (hn i).ne'
  unfold flPruneRun at hd
  obtain ⟨df, e, hd⟩ := bind_ok hd
  obtain ⟨d0, e', hI'⟩ := flInitDfOf_spec (r := flRiskOf sum kind t) h hn'
  rw [flInitDf_eq sum kind hn', e'] at e
  cases e
  have := flPruneMany_spec h hn' ops hI' hd
  simp only [false_or] at this
  exact this

end

/-- C204: rounding never changes what a sequence of prunings does. It succeeds in doubles exactly when it does in exact
arithmetic, with the same error otherwise; the columns that are not computed (`|T_t|`, children, parent, counts) are
the same, and `g1` is NaN at the same nodes. -/
theorem C204_same_structure (sum : List ℚ → ℚ) (kind : Kind) {t : SkTree ℚ C} (h : t.WF) (hn : ∀ i, 0 < t.nSamp i)
    (ops : List ℕ) :
    (∃ e, pruneRun kind t ops = .error e ∧ flPruneRun sum kind t ops = .error e) ∨
    ∃ d d', pruneRun kind t ops = .ok d ∧ flPruneRun sum kind t ops = .ok d' ∧
      ∀ i, (d' i).size = (d i).size ∧ (d' i).cLeft = (d i).cLeft ∧ (d' i).cRight = (d i).cRight ∧
        (d' i).parent = (d i).parent ∧ (d' i).nObs = (d i).nObs ∧ ((d' i).g1 = .nan ↔ (d i).g1 = .nan) ∧
        (d' i).g1 ≠ .inf := by
  rcases pruneRun_together sum kind h hn ops with ⟨d, d', hd, hd'⟩ | he
  · right
    refine ⟨d, d', hd, hd', fun i => ?_⟩
    have I1 := (pruneRun_inv h hn hd).2 i
    have I2 := (flPruneRun_inv h hn hd').2 i
    obtain ⟨a1, a2, a3⟩ := I1.fixed
    obtain ⟨b1, b2, b3⟩ := I2.fixed
    rw [a2, a3, b2, b3]
    by_cases hr : t.Removed (pruneSet t.toTopo ops) i
    · obtain ⟨c1, c2, c3, c4, c5⟩ := I1.removed hr
      obtain ⟨e1, e2, e3, e4, e5⟩ := I2.removed hr
      rw [c1, c3, c4, c5, e1, e3, e4, e5]
      simp
    · refine ⟨by rw [(I1.sized hr).1, (I2.sized hr).1], ?_⟩
      by_cases hP : pruneSet t.toTopo ops i
      · obtain ⟨c1, c2, x, c3⟩ := I1.cutHere hr hP
        obtain ⟨e1, e2, y, e3⟩ := I2.cutHere hr hP
        rw [c1, c2, c3, e1, e2, e3]
        simp
      · obtain ⟨c1, c2⟩ := I1.intact hr hP
        obtain ⟨e1, e2⟩ := I2.intact hr hP
        rw [c1, c2, e1, e2]
        refine ⟨rfl, rfl, rfl, rfl, ?_⟩
        by_cases hl : t.IsLeaf i
        · rw [I1.leaf hl, I2.leaf hl]; simp
        · rw [I1.inner hr hP hl, I2.inner hr hP hl]; simp
  · exact Or.inl he

/-- C204: the entries of a table in doubles, bit for bit. `R({t})` is as computed once for the tree; `R(T_t)` of a
remaining node is the rounded bottom-up recursion over the pruned tree; `g1` of a remaining inner node is the rounded
quotient. -/
theorem C204_entries {sum : List ℚ → ℚ} {kind : Kind} {t : SkTree ℚ C} (h : t.WF) (hn : ∀ i, 0 < t.nSamp i)
    {ops : List ℕ} {d : PDf ℚ t.toTopo} (hd : flPruneRun sum kind t ops = .ok d) (i : t.Node) :
    (d i).rOne = flRiskOf sum kind t i ∧
    (t.Removed (pruneSet t.toTopo ops) i → (d i).rSub = (d i).rOne) ∧
    (¬ t.Removed (pruneSet t.toTopo ops) i →
      FlRisk t (fun j => (d j).rOne) (pruneSet t.toTopo ops) i (d i).rSub) ∧
    (¬ t.Removed (pruneSet t.toTopo ops) i → ¬ t.CurLeaf (pruneSet t.toTopo ops) i →
      (d i).g1 = .fin (fl (fl ((d i).rOne - (d i).rSub) / ((d i).size - 1)))) := by
  have I := (flPruneRun_inv h hn hd).2
  have hr : (fun j => (d j).rOne) = flRiskOf sum kind t := funext fun j => (I j).fixed.1
  rw [hr]
  refine ⟨(I i).fixed.1, fun e => ?_, fun e => ((I i).sized e).2, fun e hc => ?_⟩
  · rw [((I i).removed e).2.1, (I i).fixed.1]
  · rw [(I i).inner e (fun e' => hc ⟨e, Or.inr e'⟩) (fun e' => hc ⟨e, Or.inl e'⟩), (I i).fixed.1]

/-- C204: also in doubles the table depends only on the pruned tree, not on the order in which it was pruned: all
columns are bit for bit the same, except `g1` at a node that was cut. -/
theorem C204_order {sum : List ℚ → ℚ} {kind : Kind} {t : SkTree ℚ C} (h : t.WF) (hn : ∀ i, 0 < t.nSamp i)
    {ops1 ops2 : List ℕ} {d1 d2 : PDf ℚ t.toTopo}
    (h1 : flPruneRun sum kind t ops1 = .ok d1) (h2 : flPruneRun sum kind t ops2 = .ok d2)
    (hrem : ∀ i, t.Removed (pruneSet t.toTopo ops1) i ↔ t.Removed (pruneSet t.toTopo ops2) i)
    (hcur : ∀ i, t.CurLeaf (pruneSet t.toTopo ops1) i ↔ t.CurLeaf (pruneSet t.toTopo ops2) i)
    (i : t.Node) :
    (d1 i).rOne = (d2 i).rOne ∧ (d1 i).rSub = (d2 i).rSub ∧ (d1 i).cLeft = (d2 i).cLeft ∧
    (d1 i).cRight = (d2 i).cRight ∧ (d1 i).size = (d2 i).size ∧ (d1 i).parent = (d2 i).parent ∧
    (d1 i).nObs = (d2 i).nObs ∧
    ((t.IsLeaf i ∨ ¬ t.CurLeaf (pruneSet t.toTopo ops1) i) → (d1 i).g1 = (d2 i).g1) := by
  have I1 := (flPruneRun_inv h hn h1).2 i
  have I2 := (flPruneRun_inv h hn h2).2 i
  have hleaves : t.curLeaves (pruneSet t.toTopo ops1) i = t.curLeaves (pruneSet t.toTopo ops2) i := by
    ext l
    rw [mem_curLeaves, mem_curLeaves, hcur l]
  obtain ⟨a1, a2, a3⟩ := I1.fixed
  obtain ⟨b1, b2, b3⟩ := I2.fixed
  by_cases hr : t.Removed (pruneSet t.toTopo ops1) i
  · obtain ⟨c1, c2, c3, c4, c5⟩ := I1.removed hr
    obtain ⟨e1, e2, e3, e4, e5⟩ := I2.removed ((hrem i).1 hr)
    rw [a1, a2, a3, b1, b2, b3, c1, c2, c3, c4, c5, e1, e2, e3, e4, e5]
    simp
  · have hr2 := fun e => hr ((hrem i).2 e)
    obtain ⟨s1, s2⟩ := I1.sized hr
    obtain ⟨u1, u2⟩ := I2.sized hr2
    have hsub : (d1 i).rSub = (d2 i).rSub := by
      refine (s2.congr_cut h hr fun j hj => ?_).unique u2
      have hj2 := fun e => hj ((hrem j).2 e)
      exact ⟨fun e => ((hcur j).1 ⟨hj, e⟩).2, fun e => ((hcur j).2 ⟨hj2, e⟩).2⟩
    have hsize : (d1 i).size = (d2 i).size := by rw [s1, u1, hleaves]
    have hPP : ∀ (hc : ¬ t.IsLeaf i), pruneSet t.toTopo ops1 i ↔ pruneSet t.toTopo ops2 i := fun hl =>
      ⟨fun e => ((hcur i).1 ⟨hr, Or.inr e⟩).2.resolve_left hl, fun e => ((hcur i).2 ⟨hr2, Or.inr e⟩).2.resolve_left hl⟩
    refine ⟨a1.trans b1.symm, hsub, ?_⟩
    by_cases hl : t.IsLeaf i
    · have hP1 := fun e => (flPruneRun_inv h hn h1).1 i e hl
      have hP2 := fun e => (flPruneRun_inv h hn h2).1 i e hl
      obtain ⟨x1, x2⟩ := I1.intact hr hP1
      obtain ⟨y1, y2⟩ := I2.intact hr2 hP2
      rw [x1, x2, y1, y2, hsize, a2, a3, b2, b3, I1.leaf hl, I2.leaf hl]
      simp
    · by_cases hP : pruneSet t.toTopo ops1 i
      · obtain ⟨x1, x2, -⟩ := I1.cutHere hr hP
        obtain ⟨y1, y2, -⟩ := I2.cutHere hr2 ((hPP hl).1 hP)
        rw [x1, x2, y1, y2, hsize, a2, a3, b2, b3]
        exact ⟨rfl, rfl, rfl, rfl, rfl, fun e => absurd ⟨hr, Or.inr hP⟩ (e.resolve_left hl)⟩
      · have hP2 := fun e => hP ((hPP hl).2 e)
        obtain ⟨x1, x2⟩ := I1.intact hr hP
        obtain ⟨y1, y2⟩ := I2.intact hr2 hP2
        rw [x1, x2, y1, y2, a2, a3, b2, b3, I1.inner hr hP hl, I2.inner hr2 hP2 hl, hsub, hsize]
        simp

/-! ### Accuracy -/

section
variable {t : SkTree ℚ C} {r r' : t.Node → ℚ} {P : t.Node → Prop}

theorem FlRisk.approx (h : t.WF) (hn : ∀ i, 0 < t.nSamp i) {e : ℕ}
    (hr : ∀ i, Approx (U ^ e) (r i) (r i) (r' i)) (ht : t.Node → ℕ)
    (hh : ∀ i c, t.IsChild i c → ht c + 1 ≤ ht i) {i : t.Node} {x : ℚ} (hx : FlRisk t r' P i x)
    (hri : ¬ t.Removed P i) :
    Approx (U ^ (3 * ht i + e)) (leafRisk t r P i / t.nSamp i) (leafRisk t r P i / t.nSamp i) x := by
  induction hx with
  | @stop i hs =>
    unfold leafRisk
    rw [curLeaves_leaf h ⟨hri, hs⟩, Finset.sum_singleton, mul_div_cancel_left₀ _ (hn i).ne']
    exact (hr i).mono (U_mono (by omega))
  | @node i l q a b hl hq hP _ _ iha ihb =>
    have h1 := iha (not_removed_child h (Or.inl hl) hri hP)
    have h2 := ihb (not_removed_child h (Or.inr hq) hri hP)
    have k1 := hh i l (Or.inl hl)
    have k2 := hh i q (Or.inr hq)
    have e1 := (h1.mul (hn l).le).fl
    have e2 := (h2.mul (hn q).le).fl
    rw [← pow_succ', div_mul_cancel₀ _ (hn l).ne'] at e1
    rw [← pow_succ', div_mul_cancel₀ _ (hn q).ne'] at e2
    have e1' := e1.mono (U_mono (b := 3 * ht i + e - 2) (by omega))
    have e2' := e2.mono (U_mono (b := 3 * ht i + e - 2) (by omega))
    have e3 := ((e1'.add' e2').fl.mul (inv_nonneg.2 (hn i).le)).fl
    rw [← pow_succ', ← pow_succ', show 3 * ht i + e - 2 + 1 + 1 = 3 * ht i + e by omega] at e3
    have e4 : leafRisk t r P i = leafRisk t r P l + leafRisk t r P q := by
      unfold leafRisk
      rw [(curLeaves_node h hl hq hP).2, Finset.sum_disjUnion]
    rw [e4]
    simpa only [div_eq_mul_inv] using e3

end

/-- C204: how close the rounded table is. If the risks of single nodes are not negative and are within `e` roundings of
the exact ones, and `ht` grows by at least one from child to parent (the height, for instance), then `R(T_t)` is
relatively within `3 ht + e` roundings of the exact one, and `g1` within `3 ht + e + 2` roundings, relative to
`(R({t}) + R(T_t)) / (|T_t| - 1)`. -/
theorem C204_error {sum : List ℚ → ℚ} {kind : Kind} {t : SkTree ℚ C} (h : t.WF) (hn : ∀ i, 0 < t.nSamp i)
    {ops : List ℕ} {d d' : PDf ℚ t.toTopo} (hd : pruneRun kind t ops = .ok d)
    (hd' : flPruneRun sum kind t ops = .ok d') {e : ℕ}
    (hr : ∀ i, 0 ≤ (d i).rOne ∧ |(d' i).rOne - (d i).rOne| ≤ (U ^ e - 1) * (d i).rOne)
    (ht : t.Node → ℕ) (hh : ∀ i c, t.IsChild i c → ht c + 1 ≤ ht i) (i : t.Node) :
    0 ≤ (d i).rSub ∧ |(d' i).rSub - (d i).rSub| ≤ (U ^ (3 * ht i + e) - 1) * (d i).rSub ∧
    (¬ t.Removed (pruneSet t.toTopo ops) i → ¬ t.CurLeaf (pruneSet t.toTopo ops) i →
      ∃ g g', (d i).g1 = .fin g ∧ (d' i).g1 = .fin g' ∧
        |g' - g| ≤ (U ^ (3 * ht i + e + 2) - 1) * (((d i).rOne + (d i).rSub) / ((d i).size - 1))) := by
  have I1 := (pruneRun_inv h hn hd).2
  have I2 := (flPruneRun_inv h hn hd').2
  have hap : ∀ j, Approx (U ^ e) (riskOf kind t j) (riskOf kind t j) (flRiskOf sum kind t j) := by
    intro j
    have := hr j
    rw [(I1 j).fixed.1, (I2 j).fixed.1] at this
    exact ⟨this.2, (abs_of_nonneg this.1).le⟩
  by_cases hri : t.Removed (pruneSet t.toTopo ops) i
  · refine ⟨?_, ?_, fun e' => absurd hri e'⟩
    · rw [((I1 i).removed hri).2.1, ← (I1 i).fixed.1]; exact (hr i).1
    · have := ((hap i).mono (U_mono (b := 3 * ht i + e) (by omega))).1
      rwa [((I1 i).removed hri).2.1, ((I2 i).removed hri).2.1]
  · obtain ⟨s1, s2⟩ := (I1 i).sized hri
    obtain ⟨u1, u2⟩ := (I2 i).sized hri
    have hA := u2.approx h hn hap ht hh hri
    have hsub : leafRisk t (riskOf kind t) (pruneSet t.toTopo ops) i / t.nSamp i = (d i).rSub := by
      rw [← s2, mul_div_cancel_left₀ _ (hn i).ne']
    rw [hsub] at hA
    refine ⟨(abs_nonneg _).trans hA.2, hA.1, fun _ hc => ?_⟩
    have hP : ¬ pruneSet t.toTopo ops i := fun e' => hc ⟨hri, Or.inr e'⟩
    have hl : ¬ t.IsLeaf i := fun e' => hc ⟨hri, Or.inl e'⟩
    refine ⟨_, _, (I1 i).inner hri hP hl, (I2 i).inner hri hP hl, ?_⟩
    have hc2 := curLeaves_node_card h hri hP hl
    have hB := ((hap i).mono (U_mono (b := 3 * ht i + e) (by omega))).sub' hA
    have hs : (0 : ℚ) ≤ ((d i).size - 1 : ℚ)⁻¹ := by
      rw [inv_nonneg, sub_nonneg, s1]
      exact_mod_cast (by omega : 1 ≤ (t.curLeaves (pruneSet t.toTopo ops) i).card)
    have hD := (hB.fl.mul hs).fl.1
    rw [← pow_succ', ← pow_succ'] at hD
    rw [(I1 i).fixed.1, u1, ← s1]
    simpa only [div_eq_mul_inv] using hD

/-- C204: the column `R({t})` in doubles. A regression tree's is the stored impurity, unchanged. A classification tree's is
within `C + 1` roundings; if the class counts are whole numbers of total at most `2^53` it is the double nearest to the exact
one. -/
theorem C204_node_risk {sum : List ℚ → ℚ} (hsum : IsFlSum sum) {kind : Kind} {t : SkTree ℚ C} (h : t.WF)
    (hn : ∀ i, 0 < t.nSamp i) {ops : List ℕ} {d d' : PDf ℚ t.toTopo} (hd : pruneRun kind t ops = .ok d)
    (hd' : flPruneRun sum kind t ops = .ok d') (i : t.Node) :
    (kind = .reg → (d' i).rOne = (d i).rOne) ∧
    (kind = .cls → (∀ c, 0 ≤ t.value i c) →
      |(d' i).rOne - (d i).rOne| ≤ (U ^ (C + 1) - 1) * (d i).rOne) ∧
    (kind = .cls → (∀ c, ∃ k : ℕ, t.value i c = k) → ∑ c, t.value i c ≤ 2 ^ 53 →
      (d' i).rOne = fl (d i).rOne) := by
  rw [((pruneRun_inv h hn hd).2 i).fixed.1, ((flPruneRun_inv h hn hd').2 i).fixed.1]
  set l : List ℚ := List.ofFn fun c : Fin C => if c.val = npArgmax (List.ofFn (t.value i)) then 0 else t.value i c
    with hl
  have hls : l.sum = misclassified (t.value i) := by rw [hl, List.sum_ofFn]; rfl
  have hR := hsum l
  have hlen : l.length = C := by rw [hl, List.length_ofFn]
  refine ⟨?_, ?_, ?_⟩
  · rintro rfl; rfl
  · rintro rfl hv
    have h0 : ∀ x ∈ l, 0 ≤ x := by
      intro x hx
      rw [hl, List.mem_ofFn] at hx
      obtain ⟨c, rfl⟩ := hx
      split_ifs
      · exact le_rfl
      · exact hv c
    have hA : Approx (U ^ l.length * 1) (l.map id).sum (l.map id).sum (sum l) :=
      Approx.sum (w := id) (f := id) (f' := id)
        (fun x hx => Approx.exact (abs_of_nonneg (h0 x hx)).le) (by simpa using hR)
    rw [List.map_id, hls, hlen, mul_one] at hA
    have hB := (hA.mul (inv_nonneg.2 (hn i).le)).fl.1
    rw [← pow_succ'] at hB
    show |fl (sum l / t.nSamp i) - misclassified (t.value i) / t.nSamp i| ≤ _ * (misclassified (t.value i) / t.nSamp i)
    simpa only [div_eq_mul_inv] using hB
  · rintro rfl hw hs
    have hk : ∀ x ∈ l, ∃ k : ℕ, x = k * 2 ^ (0 : ℤ) := by
      intro x hx
      rw [hl, List.mem_ofFn] at hx
      obtain ⟨c, rfl⟩ := hx
      split_ifs
      · exact ⟨0, by simp⟩
      · obtain ⟨k, hk⟩ := hw c
        exact ⟨k, by simp [hk]⟩
    have hle : l.sum ≤ 2 ^ 53 * 2 ^ (0 : ℤ) := by
      rw [hls, zpow_zero, mul_one]
      refine le_trans (Finset.sum_le_sum fun c _ => ?_) hs
      split_ifs
      · obtain ⟨k, hk⟩ := hw c
        rw [hk]; positivity
      · exact le_rfl
    show fl (sum l / t.nSamp i) = fl (misclassified (t.value i) / t.nSamp i)
    rw [(hR.exact 0 hk hle).1, hls]

/-- C204: what is left of `g1 ≥ 0` (C57) in doubles: with whole class counts that add up over the children, `g1` of a remaining
inner node is not below zero by more than `3 ht + 3` roundings of `2 R({t}) / (|T_t| - 1)`, and it is not negative where
the remaining leaves are pure. -/
theorem C204_g1_sign_partial {sum : List ℚ → ℚ} (hsum : IsFlSum sum) {t : SkTree ℚ C} (h : t.WF)
    (hn : ∀ i, 0 < t.nSamp i) (hw : ∀ i c, ∃ k : ℕ, t.value i c = k) (hs : ∀ i, ∑ c, t.value i c ≤ 2 ^ 53)
    (hadd : ∀ i l q, t.left i = some l → t.right i = some q → ∀ c, t.value i c = t.value l c + t.value q c)
    {ops : List ℕ} {d' : PDf ℚ t.toTopo} (hd' : flPruneRun sum .cls t ops = .ok d')
    (ht : t.Node → ℕ) (hh : ∀ i c, t.IsChild i c → ht c + 1 ≤ ht i) (i : t.Node)
    (hri : ¬ t.Removed (pruneSet t.toTopo ops) i) (hci : ¬ t.CurLeaf (pruneSet t.toTopo ops) i) :
    ∃ g, (d' i).g1 = .fin g ∧
      -((U ^ (3 * ht i + 3) - 1) * (2 * (misclassified (t.value i) / t.nSamp i) / ((d' i).size - 1))) ≤ g ∧
      ((∀ l, t.Anc i l → t.CurLeaf (pruneSet t.toTopo ops) l → misclassified (t.value l) = 0) → 0 ≤ g) := by
  rcases pruneRun_together sum .cls h hn ops with ⟨d, d1, hd, hd1⟩ | ⟨e, -, he⟩
  swap
  · rw [he] at hd'; cases hd'
  rw [hd1] at hd'
  cases hd'
  have hv : ∀ i c, 0 ≤ t.value i c := fun i c => by obtain ⟨k, hk⟩ := hw i c; rw [hk]; positivity
  have I1 := (pruneRun_inv h hn hd).2
  have I2 := (flPruneRun_inv h hn hd1).2
  have hr0 : ∀ j, 0 ≤ (d j).rOne := fun j => by
    rw [(I1 j).fixed.1]; exact div_nonneg (misclassified_nonneg (hv j)) (hn j).le
  obtain ⟨hs0, hE1, hE⟩ := C204_error h hn hd hd1 (e := 1) (fun j => ⟨hr0 j, by
    rw [(C204_node_risk hsum h hn hd hd1 j).2.2 rfl (hw j) (hs j), pow_one]
    refine (fl_err _).trans (le_of_eq ?_)
    rw [abs_of_nonneg (hr0 j)]; ring⟩) ht hh i
  obtain ⟨g, g', hg, hg', hgg⟩ := hE hri hci
  refine ⟨g', hg', ?_, fun hpure => ?_⟩
  · have hd2 := hd
    unfold pruneRun at hd2
    obtain ⟨df, e, hd2⟩ := bind_ok hd2
    obtain ⟨hle, hge⟩ := C57_training_risk h hn hadd e hd2 i
    obtain ⟨x, hx, hx0⟩ := hge hri hci
    rw [hg] at hx
    cases hx
    have hsz : (d' i).size = (d i).size := by rw [((I1 i).sized hri).1, ((I2 i).sized hri).1]
    have hrO : misclassified (t.value i) / t.nSamp i = (d i).rOne := ((I1 i).fixed.1).symm
    rw [hsz, hrO]
    have h2 : 2 ≤ (d i).size := by
      rw [((I1 i).sized hri).1]
      exact curLeaves_node_card h hri (fun e' => hci ⟨hri, Or.inr e'⟩) (fun e' => hci ⟨hri, Or.inl e'⟩)
    have h3 : (0 : ℚ) < (d i).size - 1 := by
      have : (2 : ℚ) ≤ (d i).size := by exact_mod_cast h2
      linarith
    have h4 : ((d i).rOne + (d i).rSub) / ((d i).size - 1) ≤ 2 * (d i).rOne / ((d i).size - 1) :=
      (div_le_div_iff_of_pos_right h3).2 (by linarith)
    have h5 : (0 : ℚ) ≤ U ^ (3 * ht i + 3) - 1 := sub_nonneg.2 (one_le_pow₀ (by norm_num))
    have h6 := mul_le_mul_of_nonneg_left h4 h5
    have h7 := neg_abs_le (g' - g)
    linarith
  · have hz : (d i).rSub = 0 := by
      apply mul_left_cancel₀ (hn i).ne'
      rw [((I1 i).sized hri).2, mul_zero]
      unfold leafRisk
      refine Finset.sum_eq_zero fun l hl => ?_
      rw [mem_curLeaves] at hl
      show t.nSamp l * (misclassified (t.value l) / t.nSamp l) = 0
      rw [hpure l hl.1 hl.2]
      simp
    rw [hz, mul_zero, sub_zero] at hE1
    have hz' : (d' i).rSub = 0 := abs_eq_zero.1 (le_antisymm hE1 (abs_nonneg _))
    have hin := (I2 i).inner hri (fun e' => hci ⟨hri, Or.inr e'⟩) (fun e' => hci ⟨hri, Or.inl e'⟩)
    rw [hg', hz'] at hin
    cases hin
    have h2 : 2 ≤ (d' i).size := by
      rw [((I2 i).sized hri).1]
      exact curLeaves_node_card h hri (fun e' => hci ⟨hri, Or.inr e'⟩) (fun e' => hci ⟨hri, Or.inl e'⟩)
    have h3 : (0 : ℚ) ≤ (d' i).size - 1 := by
      have : (2 : ℚ) ≤ (d' i).size := by exact_mod_cast h2
      linarith
    refine fl_nonneg (div_nonneg (fl_nonneg ?_) h3)
    rw [sub_zero, ← (I2 i).fixed.1, (C204_node_risk hsum h hn hd hd1 i).2.2 rfl (hw i) (hs i)]
    exact fl_nonneg (hr0 i)

/-- 26 observations, 19 and 7 of the two classes, split into 1 + 0 and 18 + 7. -/
abbrev exFlPrune : SkTree ℚ 2 :=
  { toTopo := ⟨2, ![some 1, none, none], ![some 2, none, none]⟩
    value := fun i c => ![![19, 7], ![1, 0], ![18, 7]] i c
    nSamp := ![26, 1, 25]
    impurity := ![1, 1, 1] }

/-- C204: `g1 ≥ 0` (C57) is false in doubles: a split that changes no prediction gets a negative `g1`. -/
theorem C204_refuted : ∃ (t : SkTree ℚ 2) (d d' : PDf ℚ t.toTopo) (i : t.Node) (g : ℚ),
    t.WF ∧ (∀ i, 0 < t.nSamp i) ∧ (∀ i c, ∃ k : ℕ, t.value i c = k) ∧
    (∀ i l q, t.left i = some l → t.right i = some q → ∀ c, t.value i c = t.value l c + t.value q c) ∧
    pruneRun .cls t [] = .ok d ∧ flPruneRun npSum .cls t [] = .ok d' ∧
    (d i).g1 = .fin 0 ∧ (d i).rSub = (d i).rOne ∧ (d' i).rOne < (d' i).rSub ∧ (d' i).g1 = .fin g ∧ g < 0 := by
  have hw : exFlPrune.WF := by decide +kernel
  have hn : ∀ i, 0 < exFlPrune.nSamp i := by decide +kernel
  rcases pruneRun_together npSum .cls hw hn [] with ⟨d, d', hd, hd'⟩ | ⟨e, -, he⟩
  · have k1 : (match pruneRun .cls exFlPrune [] with
        | .ok d => some ((d 0).g1, (d 0).rSub - (d 0).rOne) | .error _ => none) = some (.fin 0, 0) := by
      decide +kernel
    have k2 : (match flPruneRun npSum .cls exFlPrune [] with
        | .ok d => some ((d 0).g1, (d 0).rSub - (d 0).rOne) | .error _ => none) =
          some (.fin (-1 / 2 ^ 54), 1 / 2 ^ 54) := by
      decide +kernel
    rw [hd] at k1
    rw [hd'] at k2
    simp only [Option.some.injEq, Prod.mk.injEq] at k1 k2
    refine ⟨exFlPrune, d, d', 0, -1 / 2 ^ 54, hw, hn, ?_, ?_, hd, hd', k1.1, by linarith [k1.2], ?_, k2.1, by norm_num⟩
    · intro i c
      refine ⟨(![![19, 7], ![1, 0], ![18, 7]] : Fin 3 → Fin 2 → ℕ) i c, ?_⟩
      revert i c
      decide +kernel
    · decide +kernel
    · have := k2.2
      have : (0 : ℚ) < 1 / 2 ^ 54 := by norm_num
      linarith
  · have : (match flPruneRun npSum .cls exFlPrune [] with | .ok _ => true | .error _ => false) = true := by
      decide +kernel
    rw [he] at this
    cases this

/-- The tables of the repository's test tree cut at node 4, exact and in doubles; the hypotheses hold with the height. -/
example : (match flPruneRun npSum .cls exPrune [4] with
    | .ok d => some ((d 0).rSub, (d 2).rSub, (d 2).size, (d 6).g1, (d 2).g1)
    | .error _ => none) = some (6358023003346583 / 2 ^ 54, 5254199565265579 / 2 ^ 54, 2, .nan,
      .fin (375299968947541 / 2 ^ 53)) ∧
    (match pruneRun .cls exPrune [4] with
    | .ok d => some ((d 0).rSub, (d 2).rSub, (d 2).size, (d 6).g1, (d 2).g1)
    | .error _ => none) = some (6 / 17, 7 / 24, 2, .nan, .fin (1 / 24)) ∧
    exPrune.WF ∧ (∀ i, 0 < exPrune.nSamp i) ∧
    (∀ i l q, exPrune.left i = some l → exPrune.right i = some q → ∀ c,
      exPrune.value i c = exPrune.value l c + exPrune.value q c) ∧
    ∀ i c, exPrune.IsChild i c → (![3, 0, 2, 0, 1, 0, 0] : Fin 7 → ℕ) c + 1 ≤ (![3, 0, 2, 0, 1, 0, 0] : Fin 7 → ℕ) i := by
  refine ⟨by decide +kernel, by decide +kernel, by decide +kernel, by decide +kernel, by decide +kernel, ?_⟩
  unfold Topo.IsChild
  decide +kernel

end SmoothRF
