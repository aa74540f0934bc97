import Verif.Props.SmoothAllProps
import Verif.Props.LinalgProps
import Verif.Props.TreeOrderProps
import Verif.Spec.TuneLoss

/-!
# C116: smooth_all with exact library routines
-/

set_option linter.unusedSectionVars false

namespace SmoothRF
open SkTree Topo

variable {K : Type} [Field K] [LinearOrder K] [IsStrictOrderedRing K]

/-- The library routines are exact and solve every positive definite problem. -/
structure ExactLib (o : AllOracles K) : Prop where
  qp : QpExact o
  qpSolves : ∀ {n m : ℕ} (g : SqMat K n) (a : Fin n → K) (c : Fin n → Fin m → K) (b : Fin m → K) (meq : ℕ),
    (∀ i j, g i j = g j i) → PosDefForm g → (∃ x, qpFeasible c b meq x) →
    (∃ B, ∀ x, qpFeasible c b meq x → ∀ i, |x i| ≤ B) → o.qp g a c b meq ≠ none
  inv : InvExact o
  invSolves : ∀ {n : ℕ} (g : SqMat K n) (a : Fin n → K), (∀ i j, g i j = g j i) → PosDefForm g →
    o.invMul g a ≠ none
  pd : ∀ {n : ℕ} (g : SqMat K n), (∀ i j, g i j = g j i) → (o.pd g = true ↔ PosDefForm g)
  unit : 0 < o.unit

theorem form_shift {n : ℕ} (g : SqMat K n) (w : K) (x : Fin n → K) :
    ∑ i, ∑ j, x i * shiftMat g w i j * x j = (∑ i, ∑ j, x i * g i j * x j) + w * ∑ i, x i ^ 2 := by
  have := qpObj_shift g w (fun _ => 0) x
  unfold qpObj at this
  simp only [zero_mul, Finset.sum_const_zero, sub_zero] at this
  linarith

theorem psd_shift_posDef {n : ℕ} {g : SqMat K n} (hg : ∀ x : Fin n → K, 0 ≤ ∑ i, ∑ j, x i * g i j * x j) {w : K}
    (hw : 0 < w) : PosDefForm (shiftMat g w) := by
  intro x hx
  rw [form_shift]
  have : 0 < ∑ i, x i ^ 2 := by
    obtain ⟨i, hi⟩ := Function.ne_iff.1 hx
    refine Finset.sum_pos' (fun i _ => sq_nonneg _) ⟨i, Finset.mem_univ i, ?_⟩
    have : x i ≠ 0 := hi
    positivity
  have := hg x
  positivity

theorem shiftMat_symm {n : ℕ} {g : SqMat K n} (hg : ∀ i j, g i j = g j i) (w : K) (i j : Fin n) :
    shiftMat g w i j = shiftMat g w j i := by
  unfold shiftMat
  rw [hg i j]
  simp only [eq_comm]

/-- Solving with exact routines: the ridge is 0 if `G` is positive definite and one unit otherwise. -/
theorem solve_exact {o : AllOracles K} (ho : ExactLib o) {n : ℕ} (nc : Bool) (rows : List (QRow K (n + 1)))
    (hpsd : ∀ x : Fin (n + 1) → K, 0 ≤ ∑ i, ∑ j, x i * quadG rows i j * x j) :
    ∃ w l, (w = 0 ∧ PosDefForm (quadG rows) ∨ w = o.unit ∧ ¬ PosDefForm (quadG rows)) ∧
      trySolve o nc (shiftMat (quadG rows) w) (quadA rows) = some l ∧
      ∀ fuel, 2 ≤ fuel → allSolve o fuel nc rows = .ok (some (shiftMat (quadG rows) w, l)) := by
  have hs := quadG_symm rows
  have htry : ∀ w, PosDefForm (shiftMat (quadG rows) w) →
      ∃ l, trySolve o nc (shiftMat (quadG rows) w) (quadA rows) = some l := by
    intro w hw
    rw [← Option.ne_none_iff_exists']
    unfold trySolve
    split_ifs
    · exact ho.invSolves _ _ (shiftMat_symm hs w) hw
    · exact ho.qpSolves _ _ _ _ _ (shiftMat_symm hs w) hw simplex_feasible simplex_bounded
  by_cases hpos : PosDefForm (quadG rows)
  · have h0 : shiftMat (quadG rows) 0 = quadG rows := shiftMat_zero _
    obtain ⟨l, hl⟩ := htry 0 (by rw [h0]; exact hpos)
    refine ⟨0, l, .inl ⟨rfl, hpos⟩, hl, fun fuel hf => ?_⟩
    obtain ⟨f, rfl⟩ : ∃ f, fuel = f + 1 := ⟨fuel - 1, by omega⟩
    rw [h0] at hl ⊢
    unfold allSolve updateTilPsd
    rw [symm_quadG, if_pos hs]
    simp only [bind, Except.bind, psdLoop, (ho.pd _ hs).2 hpos, if_true, solveLoop, hl]
    rfl
  · have hsh := psd_shift_posDef hpsd ho.unit
    obtain ⟨l, hl⟩ := htry o.unit hsh
    refine ⟨o.unit, l, .inr ⟨rfl, hpos⟩, hl, fun fuel hf => ?_⟩
    obtain ⟨f, rfl⟩ : ∃ f, fuel = f + 2 := ⟨fuel - 2, by omega⟩
    have h1 : o.pd (quadG rows) = false := by
      rw [← Bool.not_eq_true]
      exact fun h => hpos ((ho.pd _ hs).1 h)
    have h2 : o.pd (fun i j => quadG rows i j + if i = j then o.unit else 0) = true :=
      (ho.pd _ (shiftMat_symm hs o.unit)).2 hsh
    have hl' : trySolve o nc (fun i j => quadG rows i j + if i = j then o.unit else 0) (quadA rows) = some l := hl
    unfold allSolve updateTilPsd
    rw [symm_quadG, if_pos hs]
    simp only [bind, Except.bind, psdLoop, h1, Bool.false_eq_true, if_false, if_true, h2, solveLoop, hl']
    rfl

variable {o : AllOracles K} {forest : List (SkTree K 1)} {c : AllCfg}
  {sources : TuneSrc → ℕ → List (TuneRow K 1)} {rf : List (SkTree K 1)}
  {lamb : Fin (forestDepth forest + 1) → K}

theorem specRows_psd (pa : Bool) (tune : ℕ → List (TuneRow K 1)) (hne : ∀ tt ∈ forest.zipIdx, tune tt.2 ≠ [])
    (hr : ∀ tt ∈ forest.zipIdx, ∀ q ∈ tune tt.2, q.leaf < tt.1.nLeaves) {n : ℕ} (x : Fin n → K) :
    0 ≤ ∑ i, ∑ j, x i * quadG (specRows forest pa n tune) i j * x j := by
  have := form_eq pa tune hne hr x
  have h0 : 0 ≤ tuneLoss forest pa (zeroY tune) x := by
    unfold tuneLoss
    refine mul_nonneg (by norm_num) (List.sum_nonneg fun z hz => ?_)
    obtain ⟨tt', -, rfl⟩ := List.mem_map.1 hz
    refine div_nonneg (List.sum_nonneg fun y hy => ?_) (Nat.cast_nonneg _)
    obtain ⟨_, -, rfl⟩ := List.mem_map.1 hy
    exact sq_nonneg _
  rw [← this] at h0
  linarith

theorem specRows_posDef_iff (pa : Bool) (tune : ℕ → List (TuneRow K 1))
    (hne : ∀ tt ∈ forest.zipIdx, tune tt.2 ≠ [])
    (hr : ∀ tt ∈ forest.zipIdx, ∀ q ∈ tune tt.2, q.leaf < tt.1.nLeaves) {n : ℕ} :
    PosDefForm (quadG (specRows forest pa n tune)) ↔
      ∀ x : Fin n → K, x ≠ 0 → ∃ tt ∈ forest.zipIdx, ∃ q ∈ tune tt.2, leafPred tt.1 pa x q.leaf ≠ 0 := by
  refine ⟨fun h x hx => ?_, loss_posDef pa tune hne hr⟩
  by_contra hc
  push Not at hc
  have h1 := h x hx
  have h2 := form_eq pa tune hne hr x
  have h3 : tuneLoss forest pa (zeroY tune) x = 0 := by
    unfold tuneLoss
    rw [List.sum_eq_zero, mul_zero]
    intro z hz
    obtain ⟨tt, ht, rfl⟩ := List.mem_map.1 hz
    rw [List.sum_eq_zero, zero_div]
    intro y hy
    obtain ⟨q, hq, rfl⟩ := List.mem_map.1 hy
    obtain ⟨q', hq', rfl⟩ := List.mem_map.1 hq
    simp [hc tt ht q' hq']
  rw [h3] at h2
  linarith

theorem qp_min_base (ho : ExactLib o) {n : ℕ} (nc : Bool) {g : SqMat K (n + 1)} (hs : ∀ i j, g i j = g j i)
    (hg : ∀ x : Fin (n + 1) → K, 0 ≤ ∑ i, ∑ j, x i * g i j * x j) {a l : Fin (n + 1) → K}
    (h : trySolve o nc g a = some l) :
    (nc = false → InSimplex l) ∧ ∀ z, (nc = false → InSimplex z) → qpObj g a l ≤ qpObj g a z := by
  unfold trySolve at h
  split_ifs at h with hc
  · exact ⟨fun e => absurd (hc.symm.trans e) (by decide),
      fun z _ => stationary_min g hs hg a l z (ho.inv _ _ _ h)⟩
  · have hc' : nc = false := by simpa using hc
    obtain ⟨f1, f2⟩ := ho.qp _ _ _ _ _ _ h
    exact ⟨fun _ => (consC_feasible l).1 f1, fun z hz => f2 z ((consC_feasible z).2 (hz hc'))⟩

theorem psd_shift {n : ℕ} {g : SqMat K n} (hg : ∀ x : Fin n → K, 0 ≤ ∑ i, ∑ j, x i * g i j * x j) {w : K}
    (hw : 0 ≤ w) (x : Fin n → K) : 0 ≤ ∑ i, ∑ j, x i * shiftMat g w i j * x j := by
  rw [form_shift]
  have h7 : 0 ≤ w * ∑ i, x i ^ 2 := mul_nonneg hw (Finset.sum_nonneg fun i _ => sq_nonneg _)
  linarith [hg x]

/-- C116: with exact library routines both loops of `smooth_all` stop after at most one diagonal
update, and for valid arguments it returns; two rounds of each loop suffice. -/
theorem C116_returns (ho : ExactLib o) (hwf : ∀ t ∈ forest, t.WF)
    (hn : ∀ t ∈ forest, ∀ r, 0 < t.nSamp (t.leafNode r)) (h1 : c.nTrained ≠ 0) (h2 : c.yLen = c.nTrained)
    {flag : Bool} {tp : Option ℤ} (h3 : readSanity c.sanity = .ok (flag, tp)) (htp : ∀ p, tp = some p → 0 ≤ p)
    (h4 : ∀ tt ∈ forest.zipIdx, sources (allSource c) tt.2 ≠ [])
    (hr : ∀ tt ∈ forest.zipIdx, ∀ q ∈ sources (allSource c) tt.2, q.leaf < tt.1.nLeaves) :
    ∃ rf lamb, ∀ fuel, 2 ≤ fuel → smoothAll o fuel forest c sources = .ok (some (rf, lamb)) := by
  have hpsd := specRows_psd (n := forestDepth forest + 1) c.parentsAll _ h4 hr
  obtain ⟨w, l, hw, hl, hsol⟩ := solve_exact ho c.noConstraint _ hpsd
  have h6 : 0 ≤ w := by
    rcases hw with ⟨e, -⟩ | ⟨e, -⟩ <;> rw [e]
    exact ho.unit.le
  have hmin := (qp_min_base ho _ (shiftMat_symm (quadG_symm _) w) (psd_shift hpsd h6) hl).2 lambBase
    fun _ => lambBase_simplex
  have has : allAssess o c.innerAssess tp (shiftMat (quadG (specRows forest c.parentsAll (forestDepth forest + 1)
        (sources (allSource c)))) w) (quadA (specRows forest c.parentsAll _ (sources (allSource c)))) l = .ok () := by
    unfold allAssess
    split_ifs with h
    · have : ∀ v, ∃ b, checkInNull o (shiftMat (quadG (specRows forest c.parentsAll (forestDepth forest + 1)
          (sources (allSource c)))) w) v tp = .ok b := by
        intro v
        unfold checkInNull
        cases tp with
        | none => exact ⟨_, rfl⟩
        | some p =>
          simp only
          rw [if_neg (not_lt.2 (htp p rfl))]
          exact ⟨_, rfl⟩
      obtain ⟨b, hb⟩ := this fun i => lambBase i - l i
      simp only [hb, bind, Except.bind]
      rw [if_neg]
      · rfl
      · rintro ⟨-, -, h3⟩
        apply h3
        rw [quadCost_eq, quadCost_eq]
        exact hmin
    · rfl
  obtain ⟨rf, hrf⟩ := smoothAll_returns (fuel := 2) hwf hn h1 h2 h3 h4 (hsol 2 le_rfl) has
  refine ⟨rf, if flag then lambBase else l, fun fuel hf => ?_⟩
  obtain ⟨rf', hrf'⟩ := smoothAll_returns (fuel := fuel) hwf hn h1 h2 h3 h4 (hsol fuel hf) has
  rw [hrf', forall2_leafUpdate (C64_values hwf hrf'), ← forall2_leafUpdate (C64_values hwf hrf)]

/-- C116: with exact routines the weights minimise half the sum of the mean squared errors plus
`w/2` times their squared length, where `w` is zero if no non-zero weights predict 0 at every tuning row
and otherwise the one diagonal update the code makes. With `no_constraint` the minimum is over all
weights, otherwise over probability vectors. -/
theorem C116_ridge (ho : ExactLib o) (hwf : ∀ t ∈ forest, t.WF)
    {tp : Option ℤ} (hs : readSanity c.sanity = .ok (false, tp))
    (hr : ∀ tt ∈ forest.zipIdx, ∀ q ∈ sources (allSource c) tt.2, q.leaf < tt.1.nLeaves)
    {fuel : ℕ} (hf : 2 ≤ fuel) (h : smoothAll o fuel forest c sources = .ok (some (rf, lamb))) :
    (c.noConstraint = false → InSimplex lamb) ∧ ∃ w : K,
      (w = 0 ∧ (∀ x : Fin (forestDepth forest + 1) → K, x ≠ 0 → ∃ tt ∈ forest.zipIdx,
          ∃ q ∈ sources (allSource c) tt.2, leafPred tt.1 c.parentsAll x q.leaf ≠ 0) ∨
        w = o.unit ∧ ∃ x : Fin (forestDepth forest + 1) → K, x ≠ 0 ∧ ∀ tt ∈ forest.zipIdx,
          ∀ q ∈ sources (allSource c) tt.2, leafPred tt.1 c.parentsAll x q.leaf = 0) ∧
      ∀ l : Fin (forestDepth forest + 1) → K, (c.noConstraint = false → InSimplex l) →
        tuneLoss forest c.parentsAll (sources (allSource c)) lamb + w / 2 * ∑ i, lamb i ^ 2 ≤
        tuneLoss forest c.parentsAll (sources (allSource c)) l + w / 2 * ∑ i, l i ^ 2 := by
  obtain ⟨flag, _, g, l, h1, h4, h3, -, h5, -⟩ := smoothAll_ok hwf h
  rw [hs] at h1
  cases h1
  simp only [Bool.false_eq_true, if_false] at h5
  subst h5
  have hpsd := specRows_psd (n := forestDepth forest + 1) c.parentsAll _ h4 hr
  obtain ⟨w, l', hw, hl, hsol⟩ := solve_exact ho c.noConstraint _ hpsd
  rw [hsol fuel hf] at h3
  cases h3
  have h6 : 0 ≤ w := by
    rcases hw with ⟨e, -⟩ | ⟨e, -⟩ <;> rw [e]
    exact ho.unit.le
  obtain ⟨m1, m2⟩ := qp_min_base ho _ (shiftMat_symm (quadG_symm _) w) (psd_shift hpsd h6) hl
  refine ⟨m1, w, ?_, fun z hz => ?_⟩
  · rcases hw with ⟨e, hp⟩ | ⟨e, hp⟩
    · exact .inl ⟨e, (specRows_posDef_iff c.parentsAll _ h4 hr).1 hp⟩
    · rw [specRows_posDef_iff c.parentsAll _ h4 hr] at hp
      push Not at hp
      exact .inr ⟨e, hp⟩
  · obtain ⟨const, hc⟩ := tuneLoss_eq forest c.parentsAll (sources (allSource c)) h4 hr (forestDepth forest + 1)
    have := m2 z hz
    rw [qpObj_shift, qpObj_shift] at this
    rw [hc, hc]
    linarith

/-- The squared error of the returned forest is the loss of the weights. -/
theorem mse_eq (pa : Bool) {n : ℕ} (l : Fin n → K) {rf : List (SkTree K 1)}
    (h : List.Forall₂ (fun t t' => LeafUpdate t t' fun r _ => ∑ k, l k * levelRatio t pa r k) forest rf)
    (tune : ℕ → List (TuneRow K 1))
    (hr : ∀ tt ∈ forest.zipIdx, ∀ q ∈ tune tt.2, q.leaf < tt.1.nLeaves) :
    forestMSE rf tune = 2 * tuneLoss forest pa tune l := by
  have key : ∀ (k : ℕ), (∀ tt ∈ forest.zipIdx k, ∀ q ∈ tune tt.2, q.leaf < tt.1.nLeaves) →
      ((rf.zipIdx k).map fun tt => treeSSE tt.1 (tune tt.2) / ((tune tt.2).length : K)) =
      (forest.zipIdx k).map fun tt =>
        ((tune tt.2).map fun q => (leafPred tt.1 pa l q.leaf - q.y 0) ^ 2).sum / ((tune tt.2).length : K) := by
    clear hr
    induction h with
    | nil => simp
    | @cons t t' _ _ h1 _ ih =>
      intro k hr
      rw [List.zipIdx_cons, List.zipIdx_cons, List.map_cons, List.map_cons,
        ih (k + 1) fun tt ht => hr tt (by rw [List.zipIdx_cons]; exact List.mem_cons_of_mem _ ht)]
      congr 2
      obtain ⟨v, rfl, hv, -⟩ := h1
      unfold treeSSE
      refine congrArg List.sum (List.map_congr_left fun q hq => ?_)
      have hq' : q.leaf < t.nLeaves := hr (t, k) (by rw [List.zipIdx_cons]; exact List.mem_cons_self) q hq
      unfold leafPred
      rw [dif_pos hq', dif_pos hq', Fin.sum_univ_one]
      have := hv ⟨q.leaf, hq'⟩ 0
      change (q.y 0 - v (t.leafNode ⟨q.leaf, hq'⟩) 0) ^ 2 = _
      rw [this]
      ring
  unfold forestMSE tuneLoss
  rw [key 0 hr]
  ring

theorem mse_base (hwf : ∀ t ∈ forest, t.WF) (hn : ∀ t ∈ forest, ∀ r, t.nSamp (t.leafNode r) ≠ 0) (pa : Bool)
    {n : ℕ} (tune : ℕ → List (TuneRow K 1))
    (hr : ∀ tt ∈ forest.zipIdx, ∀ q ∈ tune tt.2, q.leaf < tt.1.nLeaves) :
    forestMSE forest tune = 2 * tuneLoss forest pa tune (lambBase : Fin (n + 1) → K) := by
  refine mse_eq pa lambBase ?_ tune hr
  rw [List.forall₂_same]
  intro t ht
  refine ⟨t.value, rfl, fun r c => ?_, fun _ _ _ => rfl⟩
  show t.value (t.leafNode r) c = ∑ k, lambBase k * levelRatio t pa r k
  rw [Fin.sum_univ_succ]
  have : c = 0 := Subsingleton.elim _ _
  subst this
  have e : ∀ i : Fin n, (lambBase : Fin (n + 1) → K) i.succ = 0 := fun i => by
    unfold lambBase; simp
  simp only [e, zero_mul, Finset.sum_const_zero, add_zero]
  have e0 : (lambBase : Fin (n + 1) → K) 0 = 1 := by unfold lambBase; simp
  rw [e0, one_mul]
  exact (levelRatio_zero (hwf t ht) pa r (hn t ht r)).symm

/-- C116: the summed mean squared error of the returned forest on the tuning rows exceeds that of the
original forest by at most `unit * (1 - |lamb|²)`, and by nothing if no non-zero weights predict 0
at every tuning row. -/
theorem C116_error_bound (ho : ExactLib o) (hwf : ∀ t ∈ forest, t.WF)
    (hn : ∀ t ∈ forest, ∀ r, t.nSamp (t.leafNode r) ≠ 0)
    {tp : Option ℤ} (hs : readSanity c.sanity = .ok (false, tp))
    (hr : ∀ tt ∈ forest.zipIdx, ∀ q ∈ sources (allSource c) tt.2, q.leaf < tt.1.nLeaves)
    {fuel : ℕ} (hf : 2 ≤ fuel) (h : smoothAll o fuel forest c sources = .ok (some (rf, lamb))) :
    forestMSE rf (sources (allSource c)) ≤
      forestMSE forest (sources (allSource c)) + max 0 (o.unit * (1 - ∑ i, lamb i ^ 2)) := by
  obtain ⟨m1, w, hw, hmin⟩ := C116_ridge ho hwf hs hr hf h
  have := hmin lambBase fun _ => lambBase_simplex
  rw [mse_eq c.parentsAll lamb (C64_values hwf h) _ hr,
    mse_base (n := forestDepth forest) hwf hn c.parentsAll _ hr]
  have e : ∑ i : Fin (forestDepth forest + 1), (lambBase : _ → K) i ^ 2 = 1 := by
    rw [Fin.sum_univ_succ]
    simp [lambBase]
  rw [e] at this
  rcases hw with ⟨e, -⟩ | ⟨e, -⟩
  · rw [e] at this
    have := le_max_left 0 (o.unit * (1 - ∑ i, lamb i ^ 2))
    linarith
  · rw [e] at this
    have := le_max_right 0 (o.unit * (1 - ∑ i, lamb i ^ 2))
    linarith

/-- C116, the claim "with exact routines smooth_all does not increase the tuning error" where it holds:
no non-zero weights predict 0 at every tuning row. In the other case it fails (`C116_worse`). -/
theorem C116_never_worse (ho : ExactLib o) (hwf : ∀ t ∈ forest, t.WF)
    (hn : ∀ t ∈ forest, ∀ r, t.nSamp (t.leafNode r) ≠ 0)
    (hr : ∀ tt ∈ forest.zipIdx, ∀ q ∈ sources (allSource c) tt.2, q.leaf < tt.1.nLeaves)
    (hind : ∀ x : Fin (forestDepth forest + 1) → K, x ≠ 0 → ∃ tt ∈ forest.zipIdx,
      ∃ q ∈ sources (allSource c) tt.2, leafPred tt.1 c.parentsAll x q.leaf ≠ 0)
    {tp : Option ℤ} (hs : readSanity c.sanity = .ok (false, tp))
    {fuel : ℕ} (hf : 2 ≤ fuel) (h : smoothAll o fuel forest c sources = .ok (some (rf, lamb))) :
    forestMSE rf (sources (allSource c)) ≤ forestMSE forest (sources (allSource c)) := by
  obtain ⟨m1, w, hw, hmin⟩ := C116_ridge ho hwf hs hr hf h
  have := hmin lambBase fun _ => lambBase_simplex
  rw [mse_eq c.parentsAll lamb (C64_values hwf h) _ hr,
    mse_base (n := forestDepth forest) hwf hn c.parentsAll _ hr]
  rcases hw with ⟨e, -⟩ | ⟨-, x, hx, hz⟩
  · rw [e] at this
    linarith
  · obtain ⟨tt, ht, q, hq, hne⟩ := hind x hx
    exact absurd (hz tt ht q hq) hne

/-! ### a run which makes the error larger -/

theorem exact_lib : ExactLib exactOracles where
  qp := exact_qp
  qpSolves := fun g a c b meq _ _ => exact_qp_complete g a c b meq
  inv := exact_inv
  invSolves := fun g a _ hp => exact_inv_complete g a hp
  pd := fun g hs => ⟨fun h => exact_pd g h, exact_pd_complete g hs⟩
  unit := by show (0 : ℝ) < 1 / 1000; norm_num

/-- One tuning row, which the original stump predicts exactly. -/
noncomputable abbrev exRowOne : TuneSrc → ℕ → List (TuneRow ℝ 1) := fun _ _ => [⟨0, fun _ => 1⟩]

theorem exRowOne_loss (x : Fin 2 → ℝ) :
    tuneLoss [exStumpR] false (exRowOne .given) x = 1 / 2 * (x 0 + 4 * x 1 - 1) ^ 2 := by
  unfold tuneLoss
  simp [(exStumpR_pred x).1]

theorem exRowOne_pos (l : Fin 2 → ℝ) (hs : InSimplex l)
    (hmin : ∀ z : Fin 2 → ℝ, InSimplex z →
      tuneLoss [exStumpR] false (exRowOne .given) l + 1 / 1000 / 2 * ∑ i, l i ^ 2 ≤
        tuneLoss [exStumpR] false (exRowOne .given) z + 1 / 1000 / 2 * ∑ i, z i ^ 2) :
    0 < 2 * tuneLoss [exStumpR] false (exRowOne .given) l := by
  rw [exRowOne_loss]
  by_contra hc
  have h1 : l 0 + 4 * l 1 - 1 = 0 := by
    have : (l 0 + 4 * l 1 - 1) ^ 2 = 0 := le_antisymm (by linarith) (sq_nonneg _)
    exact pow_eq_zero_iff two_ne_zero |>.1 this
  have h2 := hs.2
  have hm := hmin ![1 - 1 / 100000, 1 / 100000] ⟨fun i => by fin_cases i <;> norm_num, by
    rw [Fin.sum_univ_two]; norm_num⟩
  rw [exRowOne_loss, exRowOne_loss, h1] at hm
  rw [Fin.sum_univ_two] at h2
  have e1 : l 1 = 0 := by linarith
  have e0 : l 0 = 1 := by linarith
  rw [Fin.sum_univ_two, Fin.sum_univ_two, e0, e1] at hm
  norm_num at hm

/-- C116, refuted in general: exact routines, one tree of depth one, one tuning row predicted exactly by
the original forest; the returned forest has a positive error on that row. -/
theorem C116_worse : ∃ rf lamb, (∀ fuel, 2 ≤ fuel →
      smoothAll exactOracles fuel [exStumpR] (exAllCfg false (.bool false)) exRowOne = .ok (some (rf, lamb))) ∧
    forestMSE [exStumpR] (exRowOne .given) = 0 ∧ 0 < forestMSE rf (exRowOne .given) := by
  have hwf : ∀ t ∈ [exStumpR], t.WF := by simp; decide
  have hn : ∀ t ∈ [exStumpR], ∀ r, 0 < t.nSamp (t.leafNode r) := by
    intro t ht r
    rw [List.mem_singleton] at ht
    subst ht
    generalize exStumpR.leafNode r = i
    revert i
    show ∀ i : Fin 3, (0 : ℝ) < ![2, 1, 1] i
    intro i
    fin_cases i <;> norm_num
  have hr : ∀ tt ∈ [exStumpR].zipIdx, ∀ q ∈ exRowOne .given tt.2, q.leaf < tt.1.nLeaves := by
    simp; decide
  obtain ⟨rf, lamb, hrun⟩ := C116_returns (c := exAllCfg false (.bool false)) (sources := exRowOne) exact_lib hwf hn
    (by decide) rfl (flag := false) (tp := none) rfl (by simp) (by simp) hr
  refine ⟨rf, lamb, hrun, ?_, ?_⟩
  · rw [mse_base (n := 1) hwf (fun t ht r => (hn t ht r).ne') false _ hr, exRowOne_loss]
    simp [lambBase]
  · rw [mse_eq false lamb (C64_values hwf (hrun 2 le_rfl)) _ hr]
    obtain ⟨hsx, w, hw, hmin⟩ := C116_ridge exact_lib hwf (tp := none) rfl hr le_rfl (hrun 2 le_rfl)
    have hwu : w = 1 / 1000 := by
      rcases hw with ⟨-, h⟩ | ⟨e, -⟩
      · have hx : (![4, -1] : Fin 2 → ℝ) ≠ 0 := fun e => by
          have := congrFun e 0
          simp at this
        obtain ⟨tt, ht, q, hq, hne⟩ := h (![4, -1] : Fin 2 → ℝ) hx
        exfalso
        apply hne
        simp only [List.zipIdx_singleton, List.mem_singleton] at ht hq
        subst ht
        subst hq
        refine (exStumpR_pred ![4, -1]).1.trans ?_
        simp
      · exact e
    subst hwu
    exact exRowOne_pos lamb (hsx rfl) fun z hz => hmin z fun _ => hz

/-- The hypotheses of `C116_never_worse` hold for the stump with one tuning row in each leaf. -/
example : ∃ rf lamb, (∀ fuel, 2 ≤ fuel →
      smoothAll exactOracles fuel [exStumpR] (exAllCfg false (.bool false)) exRowsR = .ok (some (rf, lamb))) ∧
    forestMSE rf (exRowsR .given) ≤ forestMSE [exStumpR] (exRowsR .given) := by
  have hwf : ∀ t ∈ [exStumpR], t.WF := by simp; decide
  have hn : ∀ t ∈ [exStumpR], ∀ r, 0 < t.nSamp (t.leafNode r) := by
    intro t ht r
    rw [List.mem_singleton] at ht
    subst ht
    generalize exStumpR.leafNode r = i
    revert i
    show ∀ i : Fin 3, (0 : ℝ) < ![2, 1, 1] i
    intro i
    fin_cases i <;> norm_num
  have hr : ∀ tt ∈ [exStumpR].zipIdx, ∀ q ∈ exRowsR .given tt.2, q.leaf < tt.1.nLeaves := by
    simp; decide
  obtain ⟨rf, lamb, hrun⟩ := C116_returns (c := exAllCfg false (.bool false)) (sources := exRowsR) exact_lib hwf hn
    (by decide) rfl (flag := false) (tp := none) rfl (by simp) (by simp) hr
  refine ⟨rf, lamb, hrun, C116_never_worse (c := exAllCfg false (.bool false)) (sources := exRowsR)
    exact_lib hwf (fun t ht r => (hn t ht r).ne') hr ?_ (tp := none) rfl le_rfl (hrun 2 le_rfl)⟩
  show ∀ x : Fin 2 → ℝ, x ≠ 0 → _
  intro x hx
  by_contra hcon
  push Not at hcon
  have h := hcon (exStumpR, 0) (by simp)
  have h0 := h ⟨0, fun _ => 2⟩ (by simp [exRowsR, allSource])
  have h1 := h ⟨1, fun _ => 3⟩ (by simp [exRowsR, allSource])
  have h0' := (exStumpR_pred x).1.symm.trans h0
  have h1' := (exStumpR_pred x).2.symm.trans h1
  apply hx
  funext i
  fin_cases i
  · show x 0 = 0
    linarith
  · show x 1 = 0
    linarith

end SmoothRF
