import Verif.Proofs.Linalg
import Verif.Proofs.SmoothAll
import Verif.Props.SmoothProps
import Mathlib.Topology.MetricSpace.ProperSpace.Lemmas
import Mathlib.Analysis.Normed.Group.Constructions
import Mathlib.Topology.Order.Compact

/-!
# smooth_all (C64, C37, C83-C85)
-/

set_option linter.unusedSectionVars false

namespace SmoothRF
open Topo SkTree

variable {K : Type} [Field K] [LinearOrder K] [IsStrictOrderedRing K] {o : AllOracles K} {fuel : ℕ}
  {forest : List (SkTree K 1)} {c : AllCfg} {sources : TuneSrc → ℕ → List (TuneRow K 1)}
  {rf : List (SkTree K 1)} {lamb : Fin (forestDepth forest + 1) → K}

/-- C64: in the forest returned by `smooth_all` the `r`-th leaf of every tree holds the weighted sum of
the level means around it, computed from that tree alone with the returned weights. -/
theorem C64_values (hwf : ∀ t ∈ forest, t.WF)
    (h : smoothAll o fuel forest c sources = .ok (some (rf, lamb))) :
    List.Forall₂ (fun t t' => LeafUpdate t t'
      fun r _ => ∑ k, lamb k * levelRatio t c.parentsAll r k) forest rf := by
  obtain ⟨_, _, _, _, -, -, -, -, -, h6⟩ := smoothAll_ok hwf h
  exact h6

/-- C37 for `smooth_all`: only leaf values differ from the input forest. -/
theorem C37_all_only_leaf_values (hwf : ∀ t ∈ forest, t.WF)
    (h : smoothAll o fuel forest c sources = .ok (some (rf, lamb))) :
    List.Forall₂ (fun t t' => ∃ v, t' = { t with value := v } ∧
      ∀ i c, ¬ t.IsLeaf i → v i c = t.value i c) forest rf :=
  forall2_imp_mem (C64_values hwf h) fun t _ t' ⟨v, e, _, hw⟩ => ⟨v, e, hw⟩

theorem levelRatio_zero {t : SkTree K 1} (h : t.WF) (pa : Bool) (r : Fin t.nLeaves)
    (hn : t.nSamp (t.leafNode r) ≠ 0) : levelRatio t pa r 0 = t.value (t.leafNode r) 0 := by
  unfold levelRatio
  rw [levelSum_zero h, levelSum_zero h, if_neg hn]
  exact mul_div_cancel_left₀ _ hn

/-- What the `sanity_check` argument `s` asks for: a bool is the flag itself, with no `tol_pow`; a
dictionary gives both. -/
def SanityAsks (s : SanityArg) (flag : Bool) (tp : Option ℤ) : Prop :=
  (s = .bool flag ∧ tp = none) ∨ s = .dict (some tp) (some (some flag))

/-- C64: `smooth_all` reads `sanity_check` as documented, and every other argument is refused. -/
theorem C64_sanity_reading (s : SanityArg) :
    (∀ flag tp, readSanity s = .ok (flag, tp) ↔ SanityAsks s flag tp) ∧
    ((¬ ∃ flag tp, SanityAsks s flag tp) → readSanity s = .error .valueError) := by
  unfold SanityAsks
  rcases s with b | ⟨tp, f⟩ | _
  · refine ⟨fun flag tp => ?_, fun h => (h ⟨b, none, .inl ⟨rfl, rfl⟩⟩).elim⟩
    simp [readSanity, eq_comm]
  · rcases tp with _ | tp <;> rcases f with _ | _ | f <;> simp [readSanity] <;> tauto
  · simp [readSanity]

/-- Both forms of the argument, and a dictionary without `tol_pow`. -/
example : SanityAsks (.bool true) true none ∧ SanityAsks (.dict (some (some 3)) (some (some true))) true (some 3) ∧
    (¬ ∃ flag tp, SanityAsks (.dict none (some (some true))) flag tp) := by
  simp [SanityAsks]

/-- C64: with `sanity_check` set the forest comes back unchanged, with weights `(1, 0, …, 0)`. -/
theorem C64_sanity_identity (hwf : ∀ t ∈ forest, t.WF)
    (hn : ∀ t ∈ forest, ∀ r, t.nSamp (t.leafNode r) ≠ 0) {tp : Option ℤ}
    (hs : SanityAsks c.sanity true tp)
    (h : smoothAll o fuel forest c sources = .ok (some (rf, lamb))) :
    rf = forest ∧ ∀ i, lamb i = if i = 0 then 1 else 0 := by
  obtain ⟨flag, _, _, _, h1, -, -, -, h5, h6⟩ := smoothAll_ok hwf h
  rw [((C64_sanity_reading _).1 _ _).2 hs] at h1
  cases h1
  have hl : ∀ i, lamb i = if i = 0 then 1 else 0 := by
    intro i
    rw [h5]
    simp only [if_true, lambBase]
    by_cases hi : i = 0
    · simp [hi]
    · rw [if_neg hi, if_neg fun e : i.val = 0 => hi (Fin.ext e)]
  refine ⟨?_, hl⟩
  refine forall2_eq (forall2_imp_mem h6 fun t ht t' hu => ?_)
  refine leafUpdate_same (hwf t ht) hu fun r c' => ?_
  have hc : c' = 0 := Subsingleton.elim _ _
  subst hc
  simp only [hl, ite_mul, one_mul, zero_mul, Finset.sum_ite_eq', Finset.mem_univ, if_true]
  exact levelRatio_zero (hwf t ht) _ r (hn t ht r)

/-- C64: with `parents_all` and a probability vector of weights every smoothed leaf value lies between
two leaf values of its tree. -/
theorem C64_range (hwf : ∀ t ∈ forest, t.WF) (hn : ∀ t ∈ forest, ∀ r, 0 < t.nSamp (t.leafNode r))
    (hp : c.parentsAll = true) (h : smoothAll o fuel forest c sources = .ok (some (rf, lamb)))
    (hl : ∀ k, 0 ≤ lamb k) (hs : ∑ k, lamb k = 1) :
    List.Forall₂ (fun t t' => ∃ v, t' = { t with value := v } ∧ ∀ r : Fin t.nLeaves,
      ∃ j k : Fin t.nLeaves, t.value (t.leafNode j) 0 ≤ v (t.leafNode r) 0 ∧
        v (t.leafNode r) 0 ≤ t.value (t.leafNode k) 0) forest rf := by
  refine forall2_imp_mem (C64_values hwf h) fun t ht t' ⟨v, e, hv, _⟩ => ⟨v, e, fun r => ?_⟩
  have : Nonempty (Fin t.nLeaves) := ⟨r⟩
  obtain ⟨j, -, hj⟩ := Finset.exists_min_image Finset.univ (fun j => t.value (t.leafNode j) 0)
    Finset.univ_nonempty
  obtain ⟨k, -, hk⟩ := Finset.exists_max_image Finset.univ (fun j => t.value (t.leafNode j) 0)
    Finset.univ_nonempty
  have hb : ∀ q, t.value (t.leafNode j) 0 ≤ levelRatio t true r q ∧
      levelRatio t true r q ≤ t.value (t.leafNode k) 0 := by
    intro q
    have hpos : 0 < levelSum true (t.distDepth .standard) (fun j => t.nSamp (t.leafNode j)) r q := by
      unfold levelSum
      rw [if_pos rfl]
      refine Finset.sum_pos (fun j _ => hn t ht j) ⟨r, ?_⟩
      simp only [Finset.mem_filter, Finset.mem_univ, true_and]
      rw [(distDepth_eq_zero (hwf t ht) .standard r r).2 rfl]
      exact Int.natCast_nonneg q
    unfold levelRatio
    rw [if_neg hpos.ne']
    constructor
    · rw [le_div_iff₀ hpos, mul_comm, ← levelSum_smul]
      exact levelSum_mono _ _ _ _ (fun l => mul_le_mul_of_nonneg_left (hj l (Finset.mem_univ l))
        (hn t ht l).le) _ _
    · rw [div_le_iff₀ hpos, mul_comm (t.value _ _), ← levelSum_smul]
      exact levelSum_mono _ _ _ _ (fun l => mul_le_mul_of_nonneg_left (hk l (Finset.mem_univ l))
        (hn t ht l).le) _ _
  refine ⟨j, k, ?_, ?_⟩ <;> rw [hv, hp]
  · calc t.value (t.leafNode j) 0 = ∑ q, lamb q * t.value (t.leafNode j) 0 := by
          rw [← Finset.sum_mul, hs, one_mul]
      _ ≤ _ := Finset.sum_le_sum fun q _ => mul_le_mul_of_nonneg_left (hb q).1 (hl q)
  · calc _ ≤ ∑ q, lamb q * t.value (t.leafNode k) 0 :=
          Finset.sum_le_sum fun q _ => mul_le_mul_of_nonneg_left (hb q).2 (hl q)
      _ = _ := by rw [← Finset.sum_mul, hs, one_mul]

/-- C64, argument checks in order: no training rows, mismatched lengths, and a `sanity_check` that is
neither a bool nor a dictionary with both keys and a bool flag; then a tree without tuning rows. -/
theorem C64_argument_checks :
    (c.nTrained = 0 → smoothAll o fuel forest c sources = .error .zeroDivisionError) ∧
    (c.nTrained ≠ 0 → c.yLen ≠ c.nTrained → smoothAll o fuel forest c sources = .error .valueError) ∧
    (c.nTrained ≠ 0 → c.yLen = c.nTrained →
      (c.sanity = .other ∨ (∃ f, c.sanity = .dict none f) ∨ (∃ tp, c.sanity = .dict tp none) ∨
        ∃ tp, c.sanity = .dict tp (some none)) →
      smoothAll o fuel forest c sources = .error .valueError) ∧
    (c.nTrained ≠ 0 → c.yLen = c.nTrained → (∃ i < forest.length, sources (allSource c) i = []) →
      smoothAll o fuel forest c sources = .error .valueError) := by
  refine ⟨fun h => ?_, fun h1 h2 => ?_, fun h1 h2 h3 => ?_, fun h1 h2 ⟨i, hi, h3⟩ => ?_⟩ <;>
    unfold smoothAll allPrepare
  · rw [if_pos h]; rfl
  · rw [if_neg h1, if_pos h2]; rfl
  · have : readSanity c.sanity = .error .valueError := by
      rcases h3 with h | ⟨f, h⟩ | ⟨tp, h⟩ | ⟨tp, h⟩ <;> rw [h]
      · rfl
      · rfl
      · cases tp <;> rfl
      · cases tp <;> rfl
    rw [if_neg h1, if_neg (not_not.2 h2), this]
    rfl
  · rw [if_neg h1, if_neg (not_not.2 h2)]
    have e : allTune forest (sources (allSource c)) = .error .valueError := by
      rw [allTune_eq, if_pos]
      exact ⟨(forest[i], i), by simp [List.mem_iff_getElem?, List.getElem?_zipIdx, hi], h3⟩
    cases hs : readSanity c.sanity with
    | error e' =>
      have : e' = .valueError := by
        cases h : c.sanity with
        | bool b => rw [h] at hs; cases hs
        | other => rw [h] at hs; cases hs; rfl
        | dict a b =>
          rw [h] at hs
          rcases a with _ | a <;> rcases b with _ | _ | b <;> cases hs <;> rfl
      rw [this]
      rfl
    | ok p =>
      simp only [bind, Except.bind]
      rw [e]

/-- C83: with an exact quadratic-programming routine the weights returned by `smooth_all` are a
probability vector and minimise, over all probability vectors, half the sum over trees of the mean
squared tuning error plus `w/2` times the squared norm, for one `w ≥ 0`. -/
theorem C83_lambda_optimal (hq : QpExact o) (hu : 0 ≤ o.unit) (hwf : ∀ t ∈ forest, t.WF)
    (hc : c.noConstraint = false) {tp : Option ℤ} (hs : readSanity c.sanity = .ok (false, tp))
    (hr : ∀ tt ∈ forest.zipIdx, ∀ q ∈ sources (allSource c) tt.2, q.leaf < tt.1.nLeaves)
    (h : smoothAll o fuel forest c sources = .ok (some (rf, lamb))) :
    InSimplex lamb ∧ ∃ w : K, 0 ≤ w ∧ ∀ l : Fin (forestDepth forest + 1) → K, InSimplex l →
      tuneLoss forest c.parentsAll (sources (allSource c)) lamb + w / 2 * ∑ i, lamb i ^ 2 ≤
      tuneLoss forest c.parentsAll (sources (allSource c)) l + w / 2 * ∑ i, l i ^ 2 := by
  obtain ⟨flag, _, g, l, h1, h2, h3, -, h5, -⟩ := smoothAll_ok hwf h
  rw [hs] at h1
  cases h1
  simp only [Bool.false_eq_true, if_false] at h5
  subst h5
  obtain ⟨p, q, e1, -, -, e4, -⟩ := allSolve_ok h3
  unfold trySolve at e4
  rw [hc] at e4
  simp only [Bool.false_eq_true, if_false] at e4
  obtain ⟨f1, f2⟩ := hq _ _ _ _ _ _ e4
  refine ⟨(consC_feasible lamb).1 f1, psdShift o.unit p + psdShift o.unit q, ?_, fun z hz => ?_⟩
  · have : ∀ k, 0 ≤ psdShift o.unit k := by
      intro k
      unfold psdShift
      split_ifs
      · exact le_rfl
      · positivity
    exact add_nonneg (this p) (this q)
  · obtain ⟨const, hconst⟩ := tuneLoss_eq forest c.parentsAll (sources (allSource c)) h2 hr
      (forestDepth forest + 1)
    have := f2 z ((consC_feasible z).2 hz)
    rw [e1, qpObj_shift, qpObj_shift] at this
    rw [hconst, hconst]
    linarith

/-- The rows with their responses set to zero. -/
def zeroY (tune : ℕ → List (TuneRow K 1)) : ℕ → List (TuneRow K 1) := fun i =>
  (tune i).map fun q => ⟨q.leaf, fun _ => 0⟩

theorem zeroY_weight (tune : ℕ → List (TuneRow K 1)) (i j : ℕ) :
    leafWeight (zeroY tune i) j = leafWeight (tune i) j := by
  unfold leafWeight zeroY
  rw [List.filter_map, List.length_map]
  rfl

/-- Twice the form of `G` is the loss for zero responses. -/
theorem form_eq (pa : Bool) (tune : ℕ → List (TuneRow K 1)) (hne : ∀ tt ∈ forest.zipIdx, tune tt.2 ≠ [])
    (hr : ∀ tt ∈ forest.zipIdx, ∀ q ∈ tune tt.2, q.leaf < tt.1.nLeaves) {n : ℕ} (x : Fin n → K) :
    1 / 2 * ∑ i, ∑ j, x i * quadG (specRows forest pa n tune) i j * x j =
      tuneLoss forest pa (zeroY tune) x := by
  have hne' : ∀ tt ∈ forest.zipIdx, zeroY tune tt.2 ≠ [] := fun tt ht e =>
    hne tt ht (List.map_eq_nil_iff.1 e)
  have hr' : ∀ tt ∈ forest.zipIdx, ∀ q ∈ zeroY tune tt.2, q.leaf < tt.1.nLeaves := by
    intro tt ht q hq
    obtain ⟨q', hq', rfl⟩ := List.mem_map.1 hq
    exact hr tt ht q' hq'
  obtain ⟨const, hc⟩ := tuneLoss_eq forest pa (zeroY tune) hne' hr' n
  have h0 : const = 0 := by
    have := hc fun _ => 0
    have e1 : tuneLoss forest pa (zeroY tune) (fun _ : Fin n => (0 : K)) = 0 := by
      unfold tuneLoss
      have : ∀ tt ∈ forest.zipIdx, ((zeroY tune tt.2).map fun q =>
          (leafPred tt.1 pa (fun _ : Fin n => (0 : K)) q.leaf - q.y 0) ^ 2).sum /
          ((zeroY tune tt.2).length : K) = 0 := by
        intro tt _
        have : ∀ q ∈ zeroY tune tt.2,
            (leafPred tt.1 pa (fun _ : Fin n => (0 : K)) q.leaf - q.y 0) ^ 2 = 0 := by
          intro q hq
          obtain ⟨q', hq', rfl⟩ := List.mem_map.1 hq
          simp [leafPred]
        rw [List.map_congr_left this]
        simp
      rw [List.map_congr_left this]
      simp
    rw [e1] at this
    simpa [qpObj] using this.symm
  rw [hc x, h0, add_zero]
  have hw : ∀ (i j : ℕ), leafWeight (zeroY tune i) j = leafWeight (tune i) j := zeroY_weight tune
  have hA : quadA (specRows forest pa n (zeroY tune)) = fun _ => 0 := by
    funext i
    unfold quadA
    rw [specRows_eq]
    apply List.sum_eq_zero
    intro z hz
    obtain ⟨r, hr1, rfl⟩ := List.mem_map.1 hz
    obtain ⟨p, -, rfl⟩ := List.mem_map.1 (List.mem_filter.1 hr1).1
    have : leafMean (zeroY tune p.2) p.1.2.val 0 = 0 := by
      unfold leafMean
      rw [List.sum_eq_zero, zero_div]
      intro z hz
      obtain ⟨q, hq, rfl⟩ := List.mem_map.1 hz
      obtain ⟨q', _, rfl⟩ := List.mem_map.1 (List.mem_filter.1 hq).1
      rfl
    simp [this]
  have hG : quadG (specRows forest pa n (zeroY tune)) = quadG (specRows forest pa n tune) := by
    funext i j
    unfold quadG
    rw [specRows_eq, specRows_eq, List.filter_map, List.filter_map, List.map_map, List.map_map]
    have : ∀ i, leafWeight (zeroY tune i) = leafWeight (tune i) := fun i => funext (hw i)
    simp only [Function.comp_def, this]
  unfold qpObj
  rw [hA, hG]
  simp

/-- If no non-zero weights predict 0 at every tuning row, `G` is positive definite. -/
theorem loss_posDef (pa : Bool) (tune : ℕ → List (TuneRow K 1)) (hne : ∀ tt ∈ forest.zipIdx, tune tt.2 ≠ [])
    (hr : ∀ tt ∈ forest.zipIdx, ∀ q ∈ tune tt.2, q.leaf < tt.1.nLeaves) {n : ℕ}
    (hind : ∀ x : Fin n → K, x ≠ 0 → ∃ tt ∈ forest.zipIdx, ∃ q ∈ tune tt.2, leafPred tt.1 pa x q.leaf ≠ 0) :
    PosDefForm (quadG (specRows forest pa n tune)) := by
  intro x hx
  have hf := form_eq pa tune hne hr x
  have hpos : 0 < tuneLoss forest pa (zeroY tune) x := by
    obtain ⟨tt, ht, q', hq', hne'⟩ := hind x hx
    unfold tuneLoss
    refine mul_pos (by norm_num) ?_
    have hnn : ∀ z ∈ forest.zipIdx.map fun tt =>
        ((zeroY tune tt.2).map fun q =>
          (leafPred tt.1 pa x q.leaf - q.y 0) ^ 2).sum /
        ((zeroY tune tt.2).length : K), 0 ≤ z := by
      intro z hz
      obtain ⟨tt', -, rfl⟩ := List.mem_map.1 hz
      refine div_nonneg (List.sum_nonneg fun y hy => ?_) (Nat.cast_nonneg _)
      obtain ⟨_, -, rfl⟩ := List.mem_map.1 hy
      exact sq_nonneg _
    refine lt_of_lt_of_le ?_ (List.single_le_sum hnn _ (List.mem_map_of_mem ht))
    refine div_pos ?_ ?_
    · have hnn2 : ∀ z ∈ (zeroY tune tt.2).map fun q =>
          (leafPred tt.1 pa x q.leaf - q.y 0) ^ 2, 0 ≤ z := by
        intro y hy
        obtain ⟨_, -, rfl⟩ := List.mem_map.1 hy
        exact sq_nonneg _
      have hm : (⟨q'.leaf, fun _ => 0⟩ : TuneRow K 1) ∈ zeroY tune tt.2 :=
        List.mem_map.2 ⟨q', hq', rfl⟩
      refine lt_of_lt_of_le ?_ (List.single_le_sum hnn2 _ (List.mem_map_of_mem hm))
      simp only [sub_zero]
      positivity
    · exact Nat.cast_pos.2 (List.length_pos_iff.2 fun e => hne tt ht (List.map_eq_nil_iff.1 e))
  rw [← hf] at hpos
  linarith

theorem simplex_feasible {n : ℕ} : ∃ x : Fin (n + 1) → K, qpFeasible (consC (n + 1)) (consB (n + 1)) 1 x :=
  ⟨lambBase, (consC_feasible _).2 lambBase_simplex⟩

theorem simplex_le {n : ℕ} {x : Fin n → K} (h : InSimplex x) (i : Fin n) : |x i| ≤ 1 := by
  rw [abs_of_nonneg (h.1 i), ← h.2]
  exact Finset.single_le_sum (fun j _ => h.1 j) (Finset.mem_univ i)

theorem simplex_bounded {n : ℕ} : ∃ B : K, ∀ x : Fin n → K, qpFeasible (consC n) (consB n) 1 x →
    ∀ i, |x i| ≤ B :=
  ⟨1, fun x hx i => simplex_le ((consC_feasible x).1 hx) i⟩

/-- C83, exact minimum: if moreover the test accepts and the solver solves every symmetric positive
definite problem, and no non-zero weight vector predicts 0 at every tuning row, then the returned weights minimise
the tuning loss itself over the probability vectors. -/
theorem C83_exact_minimum (hq : QpExact o) (hwf : ∀ t ∈ forest, t.WF)
    (hpd : ∀ {n : ℕ} (g : SqMat K n), (∀ i j, g i j = g j i) → PosDefForm g → o.pd g = true)
    (hqp : ∀ {n m : ℕ} (g : SqMat K n) (a : Fin n → K) (c : Fin n → Fin m → K) (b : Fin m → K) (meq : ℕ),
      (∀ i j, g i j = g j i) → PosDefForm g → (∃ x, qpFeasible c b meq x) → (∃ B, ∀ x, qpFeasible c b meq x → ∀ i, |x i| ≤ B) →
      o.qp g a c b meq ≠ none)
    (hc : c.noConstraint = false) {tp : Option ℤ} (hs : readSanity c.sanity = .ok (false, tp))
    (hr : ∀ tt ∈ forest.zipIdx, ∀ q ∈ sources (allSource c) tt.2, q.leaf < tt.1.nLeaves)
    (hind : ∀ x : Fin (forestDepth forest + 1) → K, x ≠ 0 → ∃ tt ∈ forest.zipIdx,
      ∃ q ∈ sources (allSource c) tt.2, leafPred tt.1 c.parentsAll x q.leaf ≠ 0)
    (h : smoothAll o fuel forest c sources = .ok (some (rf, lamb))) :
    InSimplex lamb ∧ ∀ l : Fin (forestDepth forest + 1) → K, InSimplex l →
      tuneLoss forest c.parentsAll (sources (allSource c)) lamb ≤
      tuneLoss forest c.parentsAll (sources (allSource c)) l := by
  obtain ⟨flag, _, g, l, h1, h2, h3, -, h5, -⟩ := smoothAll_ok hwf h
  rw [hs] at h1
  cases h1
  simp only [Bool.false_eq_true, if_false] at h5
  subst h5
  obtain ⟨p, q, e1, e2, e3, e4, e5⟩ := allSolve_ok h3
  have hG := loss_posDef c.parentsAll (sources (allSource c)) h2 hr hind
  have z0 : psdShift o.unit 0 = 0 := by simp [psdShift]
  have hp : p = 0 := by
    by_contra hp
    have := e3 0 (Nat.pos_of_ne_zero hp)
    rw [z0, shiftMat_zero, hpd _ (quadG_symm _) hG] at this
    cases this
  subst hp
  have hq0 : q = 0 := by
    by_contra hq0
    have := e5 0 (Nat.pos_of_ne_zero hq0)
    unfold trySolve at this
    rw [hc, z0, add_zero, shiftMat_zero] at this
    simp only [Bool.false_eq_true, if_false] at this
    exact hqp _ _ _ _ _ (quadG_symm _) hG simplex_feasible simplex_bounded this
  subst hq0
  rw [z0, add_zero, shiftMat_zero] at e1
  unfold trySolve at e4
  rw [hc] at e4
  simp only [Bool.false_eq_true, if_false] at e4
  obtain ⟨f1, f2⟩ := hq _ _ _ _ _ _ e4
  refine ⟨(consC_feasible lamb).1 f1, fun z hz => ?_⟩
  obtain ⟨const, hconst⟩ := tuneLoss_eq forest c.parentsAll (sources (allSource c)) h2 hr
    (forestDepth forest + 1)
  have := f2 z ((consC_feasible z).2 hz)
  rw [e1] at this
  rw [hconst, hconst]
  linarith

/-- The only assertions of `smooth_all` are the ones on the ratios and on the cost. -/
theorem no_assert (hwf : ∀ t ∈ forest, t.WF) (hn : ∀ t ∈ forest, ∀ r, 0 < t.nSamp (t.leafNode r))
    (hcost : ∀ g l, allSolve o fuel c.noConstraint
        (specRows forest c.parentsAll (forestDepth forest + 1) (sources (allSource c))) = .ok (some (g, l)) →
      qpObj g (quadA (specRows forest c.parentsAll _ (sources (allSource c)))) l ≤
        qpObj g (quadA (specRows forest c.parentsAll _ (sources (allSource c)))) lambBase) :
    smoothAll o fuel forest c sources ≠ .error .assertionError := by
  obtain ⟨a1, a2, a3, a4⟩ := C64_argument_checks (o := o) (fuel := fuel) (forest := forest) (c := c)
    (sources := sources)
  by_cases h1 : c.nTrained = 0
  · rw [a1 h1]; intro e; cases e
  by_cases h2 : c.yLen = c.nTrained
  swap
  · rw [a2 h1 h2]; intro e; cases e
  by_cases h4 : ∃ i < forest.length, sources (allSource c) i = []
  · rw [a4 h1 h2 h4]; intro e; cases e
  have h4' : ∀ tt ∈ forest.zipIdx, sources (allSource c) tt.2 ≠ [] := by
    intro tt ht e
    refine h4 ⟨tt.2, ?_, e⟩
    have := List.snd_lt_of_mem_zipIdx ht
    omega
  cases h3 : readSanity c.sanity with
  | error e =>
    have h3' : c.sanity = .other ∨ (∃ f, c.sanity = .dict none f) ∨ (∃ tp, c.sanity = .dict tp none) ∨
        ∃ tp, c.sanity = .dict tp (some none) := by
      cases h : c.sanity with
      | bool b => rw [h] at h3; cases h3
      | other => exact .inl rfl
      | dict a b =>
        rw [h] at h3
        rcases a with _ | a
        · exact .inr (.inl ⟨b, rfl⟩)
        · rcases b with _ | _ | b
          · exact .inr (.inr (.inl ⟨_, rfl⟩))
          · exact .inr (.inr (.inr ⟨_, rfl⟩))
          · cases h3
    rw [a3 h1 h2 h3']; intro e; cases e
  | ok ft =>
    obtain ⟨flag, tp⟩ := ft
    cases hsol : allSolve o fuel c.noConstraint
        (specRows forest c.parentsAll (forestDepth forest + 1) (sources (allSource c))) with
    | error e =>
      intro h
      unfold allSolve updateTilPsd at hsol
      rw [symm_quadG, if_pos (quadG_symm _)] at hsol
      simp only [bind, Except.bind] at hsol
      split at hsol <;> cases hsol
    | ok r =>
      rcases r with _ | ⟨g, l⟩
      · unfold smoothAll
        rw [allPrepare_returns hwf hn h1 h2 h3 h4']
        simp only [bind, Except.bind]
        rw [hsol]
        intro h; cases h
      · cases has : allAssess o c.innerAssess tp g
            (quadA (specRows forest c.parentsAll _ (sources (allSource c)))) l with
        | ok u =>
          obtain ⟨rf, hrf⟩ := smoothAll_returns hwf hn h1 h2 h3 h4' hsol has
          rw [hrf]; intro h; cases h
        | error e =>
          have he : e ≠ .assertionError := by
            intro he
            subst he
            unfold allAssess at has
            split at has
            · cases hn' : checkInNull o g (fun i => lambBase i - l i) tp with
              | error e =>
                rw [hn'] at has
                cases has
                unfold checkInNull at hn'
                split at hn'
                · split at hn' <;> cases hn'
                · cases hn'
              | ok b =>
                rw [hn'] at has
                simp only [bind, Except.bind] at has
                split at has
                · rename_i hh
                  refine hh.2.2 ?_
                  rw [quadCost_eq, quadCost_eq]
                  exact hcost g l hsol
                · cases has
            · cases has
          unfold smoothAll
          rw [allPrepare_returns hwf hn h1 h2 h3 h4']
          simp only [bind, Except.bind]
          rw [hsol]
          simp only
          rw [has]
          intro h
          exact he (Except.error.inj h)

/-- C84: with an exact quadratic-programming routine and positive leaf weights the internal assertions
of `smooth_all` never fire. -/
theorem C84_no_assertion_constrained (hq : QpExact o) (hwf : ∀ t ∈ forest, t.WF)
    (hn : ∀ t ∈ forest, ∀ r, 0 < t.nSamp (t.leafNode r)) (hc : c.noConstraint = false) :
    smoothAll o fuel forest c sources ≠ .error .assertionError := by
  refine no_assert hwf hn fun g l h => ?_
  obtain ⟨p, q, -, -, -, e4, -⟩ := allSolve_ok h
  unfold trySolve at e4
  rw [hc] at e4
  simp only [Bool.false_eq_true, if_false] at e4
  exact (hq _ _ _ _ _ _ e4).2 _ ((consC_feasible _).2 lambBase_simplex)

/-- A stationary point of a convex quadratic is a minimum. -/
theorem stationary_min {n : ℕ} (g : SqMat K n) (hsym : ∀ i j, g i j = g j i)
    (hpos : ∀ x : Fin n → K, 0 ≤ ∑ i, ∑ j, x i * g i j * x j) (a x z : Fin n → K)
    (hx : ∀ i, ∑ j, g i j * x j = a i) : qpObj g a x ≤ qpObj g a z := by
  have h := hpos fun i => z i - x i
  have e1 : ∑ i, ∑ j, (z i - x i) * g i j * (z j - x j) =
      (∑ i, ∑ j, z i * g i j * z j) - 2 * (∑ i, ∑ j, z i * g i j * x j) +
      ∑ i, ∑ j, x i * g i j * x j := by
    have : ∑ i, ∑ j, x i * g i j * z j = ∑ i, ∑ j, z i * g i j * x j := by
      rw [Finset.sum_comm]
      refine Finset.sum_congr rfl fun i _ => Finset.sum_congr rfl fun j _ => ?_
      rw [hsym]; ring
    calc _ = ∑ i, ∑ j, (z i * g i j * z j - z i * g i j * x j - x i * g i j * z j +
          x i * g i j * x j) :=
        Finset.sum_congr rfl fun i _ => Finset.sum_congr rfl fun j _ => by ring
      _ = _ := by
        simp only [Finset.sum_add_distrib, Finset.sum_sub_distrib]
        rw [this]; ring
  have e2 : ∀ y : Fin n → K, ∑ i, ∑ j, y i * g i j * x j = ∑ i, a i * y i := by
    intro y
    refine Finset.sum_congr rfl fun i _ => ?_
    rw [← hx i, Finset.sum_mul]
    exact Finset.sum_congr rfl fun j _ => by ring
  rw [e1, e2, e2] at h
  unfold qpObj
  rw [e2]
  linarith

/-- C84, `no_constraint`: with an exact linear solver and a sound positive-definiteness test the
internal assertions never fire either. -/
theorem C84_no_assertion_unconstrained (hi : InvExact o) (hpd : PdSound o) (hu : 0 ≤ o.unit)
    (hwf : ∀ t ∈ forest, t.WF) (hn : ∀ t ∈ forest, ∀ r, 0 < t.nSamp (t.leafNode r))
    (hc : c.noConstraint = true) :
    smoothAll o fuel forest c sources ≠ .error .assertionError := by
  refine no_assert hwf hn fun g l h => ?_
  obtain ⟨p, q, e1, e2, -, e4, -⟩ := allSolve_ok h
  unfold trySolve at e4
  rw [hc] at e4
  simp only [if_true] at e4
  have hs : ∀ k, 0 ≤ psdShift o.unit k := by
    intro k
    unfold psdShift
    split_ifs
    · exact le_rfl
    · positivity
  refine stationary_min g ?_ ?_ _ l _ (hi _ _ _ e4)
  · intro i j
    rw [e1]
    unfold shiftMat
    rw [quadG_symm]
    simp only [eq_comm]
  · intro x
    rw [e1, ← shiftMat_shiftMat]
    have hf : ∑ i, ∑ j, x i * shiftMat (shiftMat (quadG (specRows forest c.parentsAll _
          (sources (allSource c)))) (psdShift o.unit p)) (psdShift o.unit q) i j * x j =
        (∑ i, ∑ j, x i * shiftMat (quadG (specRows forest c.parentsAll _
          (sources (allSource c)))) (psdShift o.unit p) i j * x j) + psdShift o.unit q * ∑ i, x i ^ 2 := by
      have := qpObj_shift (shiftMat (quadG (specRows forest c.parentsAll _
          (sources (allSource c)))) (psdShift o.unit p)) (psdShift o.unit q) (fun _ => 0) x
      unfold qpObj at this
      simp only [zero_mul, Finset.sum_const_zero, sub_zero] at this
      linarith
    rw [hf]
    have h1 : 0 ≤ psdShift o.unit q * ∑ i, x i ^ 2 :=
      mul_nonneg (hs q) (Finset.sum_nonneg fun i _ => sq_nonneg _)
    have h2 : 0 ≤ ∑ i, ∑ j, x i * shiftMat (quadG (specRows forest c.parentsAll _
          (sources (allSource c)))) (psdShift o.unit p) i j * x j := by
      by_cases hx : x = 0
      · simp [hx]
      · exact (hpd _ e2 x hx).le
    linarith

/-- C85: `process_tuning_leaf_attributes_tree` returns one weight and one response per leaf: the
fraction and the mean response of the tuning rows in the leaf, or `eps` and 0 for a leaf without rows;
the weights of the occupied leaves sum to one. -/
theorem C85_tuning_attributes (n : ℕ) (eps : K) (rows : List (TuneRow K 1)) (hne : rows ≠ [])
    (hr : ∀ q ∈ rows, q.leaf < n) :
    ∃ l, processTuning n eps rows = .ok l ∧ l.length = n ∧
      (∀ i < n, ∃ w y, l[i]? = some (w, y) ∧
        ((∀ q ∈ rows, q.leaf ≠ i) → w = eps ∧ y = 0) ∧
        ((∃ q ∈ rows, q.leaf = i) →
          w * (rows.length : K) = ((rows.filter fun q => q.leaf == i).length : K) ∧
          y * ((rows.filter fun q => q.leaf == i).length : K) =
            ((rows.filter fun q => q.leaf == i).map fun q => q.y 0).sum)) ∧
      ((l.zipIdx.filter fun p => rows.any fun q => q.leaf == p.2).map fun p => p.1.1).sum = 1 := by
  have hlen : (0 : K) < rows.length := Nat.cast_pos.2 (List.length_pos_iff.2 hne)
  have htot : ((List.range n).map (leafWeight rows)).sum = (rows.length : K) := by
    have := sum_by_leaf (K := K) rows n hr fun _ => 1
    simp only [List.map_const', List.sum_replicate, nsmul_eq_mul, mul_one] at this
    rw [this]
    rfl
  have hw : ∀ i, (leafWeight rows i : K) = 0 ↔ ∀ q ∈ rows, q.leaf ≠ i := by
    intro i
    unfold leafWeight
    rw [Nat.cast_eq_zero, List.length_eq_zero_iff, List.filter_eq_nil_iff]
    simp
  refine ⟨(List.range n).map fun i => (if leafWeight rows i / (rows.length : K) = 0 then eps else
      leafWeight rows i / (rows.length : K), leafMean rows i 0), ?_, by simp, fun i hi => ?_, ?_⟩
  · unfold processTuning
    rw [if_neg hne]
    simp only [htot]
  · refine ⟨if leafWeight rows i / (rows.length : K) = 0 then eps else
      leafWeight rows i / (rows.length : K), leafMean rows i 0, by simp [hi], fun h => ?_, fun h => ?_⟩
    · have h0 := (hw i).2 h
      rw [h0]
      refine ⟨by simp, ?_⟩
      unfold leafMean
      have : (rows.filter fun q => q.leaf == i) = [] := by
        rw [List.filter_eq_nil_iff]
        simpa using h
      rw [this]
      simp
    · have h0 : (leafWeight rows i : K) ≠ 0 := by
        intro e
        obtain ⟨q, hq, e'⟩ := h
        exact (hw i).1 e q hq e'
      rw [if_neg (div_ne_zero h0 hlen.ne')]
      refine ⟨div_mul_cancel₀ _ hlen.ne', ?_⟩
      unfold leafMean
      rw [if_neg h0]
      exact div_mul_cancel₀ _ h0
  · rw [List.zipIdx_map, List.filter_map, List.map_map]
    have e : (List.range n).zipIdx = (List.range n).map fun i => (i, i) := by
      apply List.ext_getElem <;> simp
    rw [e, List.filter_map, List.map_map]
    have hf : ∀ i ∈ (List.range n).filter (fun i => rows.any fun q => q.leaf == i),
        (if leafWeight rows i / (rows.length : K) = 0 then eps else
          leafWeight rows i / (rows.length : K)) = leafWeight rows i / (rows.length : K) := by
      intro i hi
      obtain ⟨q, hq, hqi⟩ := List.any_eq_true.1 (List.mem_filter.1 hi).2
      refine if_neg (div_ne_zero (fun e => ?_) hlen.ne')
      exact (hw i).1 e q hq (by simpa using hqi)
    have : (((List.range n).filter fun i => rows.any fun q => q.leaf == i).map fun i =>
        if leafWeight rows i / (rows.length : K) = 0 then eps else
          leafWeight rows i / (rows.length : K)).sum = 1 := by
      rw [List.map_congr_left hf, sum_filter_zero _ _ fun i => leafWeight rows i / (rows.length : K)]
      · simp only [div_eq_mul_inv]
        rw [List.sum_map_mul_right, htot, mul_inv_cancel₀ hlen.ne']
      · intro i _ hi
        rw [(hw i).2, zero_div]
        intro q hq e
        rw [← Bool.not_eq_true] at hi
        exact hi (List.any_eq_true.2 ⟨q, hq, by simpa using e⟩)
    exact this

/-! ### examples -/

/-- Arguments with training responses of the right length, tuning data given. -/
abbrev exAllCfg (pa : Bool) (s : SanityArg) : AllCfg := ⟨4, 4, true, true, false, false, s, pa, true⟩

/-- Library routines answering with fixed weights `(2/3, 1/3, 0, …)`. -/
abbrev exAllOracles : AllOracles ℚ :=
  { pd := fun _ => true
    qp := fun _ _ _ _ _ => some fun i => if i.val = 0 then 2 / 3 else if i.val = 1 then 1 / 3 else 0
    invMul := fun _ _ => none
    inNull := fun _ _ => false
    unit := 1 / 1000 }

/-- Tuning rows: leaf 0 with response 2, leaf 1 with response 3. -/
abbrev exAllRows : TuneSrc → ℕ → List (TuneRow ℚ 1) := fun _ _ => [⟨0, fun _ => 2⟩, ⟨1, fun _ => 3⟩]

/-- Values and weights of a run. -/
def allOf (forest : List (SkTree ℚ 1))
    (r : Except PyErr (Option (List (SkTree ℚ 1) × (Fin (forestDepth forest + 1) → ℚ)))) :
    Option (List (List ℚ) × List ℚ) :=
  match r with
  | .ok (some (rf, l)) => some (rf.map fun t => List.ofFn fun i => t.value i 0, List.ofFn l)
  | _ => none

example : allOf [exStump] (smoothAll exAllOracles 5 [exStump] (exAllCfg false (.bool false)) exAllRows) =
    some ([[5 / 2, 2, 3]], [2 / 3, 1 / 3]) := by decide +kernel

example : allOf [exStump] (smoothAll exAllOracles 5 [exStump] (exAllCfg true (.bool false)) exAllRows) =
    some ([[5 / 2, 3 / 2, 7 / 2]], [2 / 3, 1 / 3]) := by decide +kernel

example : allOf [exStump] (smoothAll exAllOracles 5 [exStump] (exAllCfg true (.bool true)) exAllRows) =
    some ([[5 / 2, 1, 4]], [1, 0]) := by decide +kernel

example : smoothAll exAllOracles 5 [exStump] (exAllCfg true (.dict (some none) (some none))) exAllRows =
    .error .valueError := C64_argument_checks.2.2.1 (by decide) rfl (.inr (.inr (.inr ⟨_, rfl⟩)))

example : (match processTuning 3 (-1) [⟨0, fun _ => 2⟩, ⟨2, fun _ => 3⟩, ⟨0, fun _ => (5 : ℚ)⟩] with
    | .ok l => some l | .error _ => none) = some [(2 / 3, 7 / 2), (-1, 0), (1 / 3, 3)] := by
  decide +kernel

/-- Tuning rows with response 0, one per tree (the best weights are `(0, 0, 1)`, with no error). -/
abbrev exZeroRows : TuneSrc → ℕ → List (TuneRow ℚ 1) := fun _ i =>
  if i = 0 then [⟨2, fun _ => 0⟩] else [⟨0, fun _ => 0⟩]

/-- C64: without `parents_all` the range claim fails: levels without leaves count as 0. -/
theorem C64_range_needs_parents_all : ¬ ∀ (o : AllOracles ℚ) (fuel : ℕ) (forest : List (SkTree ℚ 1))
    (c : AllCfg) (sources : TuneSrc → ℕ → List (TuneRow ℚ 1)) (rf : List (SkTree ℚ 1))
    (lamb : Fin (forestDepth forest + 1) → ℚ), (∀ t ∈ forest, t.WF) →
    (∀ t ∈ forest, ∀ r, 0 < t.nSamp (t.leafNode r)) →
    smoothAll o fuel forest c sources = .ok (some (rf, lamb)) → InSimplex lamb →
    List.Forall₂ (fun t t' => ∃ v, t' = { t with value := v } ∧ ∀ r : Fin t.nLeaves,
      ∃ j k : Fin t.nLeaves, t.value (t.leafNode j) 0 ≤ v (t.leafNode r) 0 ∧
        v (t.leafNode r) 0 ≤ t.value (t.leafNode k) 0) forest rf := by
  intro hall
  let o : AllOracles ℚ := { exAllOracles with qp := fun _ _ _ _ _ => some fun i => if i.val = 2 then 1 else 0 }
  have hrun : (match smoothAll o 5 [exTree, exStump] (exAllCfg false (.bool false)) exZeroRows with
      | .ok (some (rf, l)) => some ((rf.map fun t => List.ofFn fun i => t.value i 0), List.ofFn l)
      | _ => none) = some ([[13 / 2, 3, 10, 10, 0], [5 / 2, 0, 0]], [0, 0, 1]) := by decide +kernel
  cases h : smoothAll o 5 [exTree, exStump] (exAllCfg false (.bool false)) exZeroRows with
  | error e => rw [h] at hrun; cases hrun
  | ok r =>
    rcases r with _ | ⟨rf, lamb⟩
    · rw [h] at hrun; cases hrun
    · rw [h] at hrun
      simp only [Option.some.injEq, Prod.mk.injEq] at hrun
      obtain ⟨h1, h2⟩ := hrun
      have hl : lamb = fun i => if i.val = 2 then 1 else 0 := by
        obtain ⟨flag, _, g, l, e1, -, e3, -, e5, -⟩ := smoothAll_ok (by decide) h
        cases e1
        obtain ⟨p, q, -, -, -, e4, -⟩ := allSolve_ok e3
        simp only [Bool.false_eq_true, if_false] at e5
        cases e4
        exact e5
      have := hall o 5 [exTree, exStump] (exAllCfg false (.bool false)) exZeroRows rf lamb (by decide)
        (by decide +kernel) h (by rw [hl]; exact ⟨by decide +kernel, by decide +kernel⟩)
      cases this with
      | @cons _ t' _ l' ha hb =>
        cases hb with
        | @cons _ t'' _ l'' hc hd =>
          obtain ⟨v, rfl, hv⟩ := hc
          obtain ⟨j, -, hj, -⟩ := hv ⟨0, by decide⟩
          simp only [List.map_cons, List.cons.injEq] at h1
          have h0 := congrArg (fun l => l[1]?) h1.2.1
          simp only [List.getElem?_ofFn] at h0
          have h0' : v 1 0 = 0 := by simpa using h0
          have e : exStump.leafNode ⟨0, by decide⟩ = 1 := by decide
          rw [e, h0'] at hj
          revert j
          decide +kernel

/-! ### exact library routines -/

open Classical in
/-- Exact routines over the reals. -/
noncomputable def exactOracles : AllOracles ℝ :=
  { pd := isPosDef
    qp := fun g a c b meq =>
      if h : ∃ x, qpFeasible c b meq x ∧ ∀ z, qpFeasible c b meq z → qpObj g a x ≤ qpObj g a z then
        some h.choose else none
    invMul := fun g a => if h : ∃ x : Fin _ → ℝ, ∀ i, ∑ j, g i j * x j = a i then some h.choose else none
    inNull := fun _ _ => false
    unit := 1 / 1000 }

theorem exact_qp : QpExact exactOracles := by
  intro n m g a c b meq x h
  unfold exactOracles at h
  simp only at h
  split_ifs at h with hx
  cases h
  exact Exists.choose_spec hx

theorem exact_inv : InvExact exactOracles := by
  intro n g a x h
  unfold exactOracles at h
  simp only at h
  split_ifs at h with hx
  cases h
  exact Exists.choose_spec hx

theorem exact_pd : PdSound exactOracles := fun _ h => ((isPosDef_iff _).1 h).2

theorem exact_pd_complete {n : ℕ} (g : SqMat ℝ n) (hs : ∀ i j, g i j = g j i) (h : PosDefForm g) :
    exactOracles.pd g = true := (isPosDef_iff _).2 ⟨hs, h⟩

theorem exact_qp_complete {n m : ℕ} (g : SqMat ℝ n) (a : Fin n → ℝ) (c : Fin n → Fin m → ℝ)
    (b : Fin m → ℝ) (meq : ℕ) (hne : ∃ x, qpFeasible c b meq x)
    (hb : ∃ B, ∀ x, qpFeasible c b meq x → ∀ i, |x i| ≤ B) : exactOracles.qp g a c b meq ≠ none := by
  have hcl : IsClosed {x : Fin n → ℝ | qpFeasible c b meq x} := by
    unfold qpFeasible
    simp only [Set.ofPred_forall, Set.ofPred_and]
    refine isClosed_iInter fun j => IsClosed.inter ?_ (isClosed_iInter fun _ => ?_)
    · exact isClosed_le continuous_const (by fun_prop)
    · exact isClosed_eq (by fun_prop) continuous_const
  have hbd : Bornology.IsBounded {x : Fin n → ℝ | qpFeasible c b meq x} := by
    obtain ⟨B, hB⟩ := hb
    refine (Metric.isBounded_iff_subset_closedBall 0).2 ⟨|B|, fun x hx => ?_⟩
    rw [mem_closedBall_zero_iff, pi_norm_le_iff_of_nonneg (abs_nonneg B)]
    intro i
    exact (hB x hx i).trans (le_abs_self B)
  have hco := Metric.isCompact_of_isClosed_isBounded hcl hbd
  obtain ⟨x, hx, hmin⟩ := hco.exists_isMinOn hne
    (f := qpObj g a) (by unfold qpObj; fun_prop)
  unfold exactOracles
  simp only
  rw [dif_pos ⟨x, hx, fun z hz => hmin hz⟩]
  simp

/-- `exStump` over the reals. -/
noncomputable abbrev exStumpR : SkTree ℝ 1 :=
  { toTopo := ⟨2, ![some 1, none, none], ![some 2, none, none]⟩
    value := fun i _ => ![5 / 2, 1, 4] i
    nSamp := ![2, 1, 1]
    impurity := ![7, 0, 5] }

/-- Its tuning rows. -/
noncomputable abbrev exRowsR : TuneSrc → ℕ → List (TuneRow ℝ 1) :=
  fun _ _ => [⟨0, fun _ => 2⟩, ⟨1, fun _ => 3⟩]

theorem exStumpR_ratio (r : Fin exStumpR.nLeaves) (k : Fin 2) :
    levelRatio exStumpR false r k = if r.val = k.val then 1 else 4 := by
  have hD : ∀ (r : Fin exStumpR.nLeaves) (k : Fin 2),
      (Finset.univ.filter fun j => exStumpR.distDepth .standard r j = (k.val : ℤ)) =
        {if r.val = k.val then ⟨0, by decide⟩ else ⟨1, by decide⟩} := by decide
  have hl : exStumpR.leafNode ⟨0, by decide⟩ = 1 ∧ exStumpR.leafNode ⟨1, by decide⟩ = 2 := by decide
  unfold levelRatio levelSum
  simp only [Bool.false_eq_true, if_false]
  rw [hD, Finset.sum_singleton, Finset.sum_singleton]
  split_ifs with h1 h2 h2
  · rw [hl.1] at h2; simp at h2
  · rw [hl.1]
    show (1 : ℝ) * 1 / 1 = 1
    norm_num
  · rw [hl.2] at h2
    have : (![2, 1, 1] : Fin 3 → ℝ) 2 = 1 := rfl
    rw [this] at h2
    exact absurd h2 one_ne_zero
  · rw [hl.2]
    show (1 : ℝ) * 4 / 1 = 4
    norm_num

theorem exStumpR_pred (x : Fin 2 → ℝ) :
    leafPred exStumpR false x 0 = x 0 + 4 * x 1 ∧ leafPred exStumpR false x 1 = 4 * x 0 + x 1 := by
  have h0 : (0 : ℕ) < exStumpR.nLeaves := by decide
  have h1 : (1 : ℕ) < exStumpR.nLeaves := by decide
  unfold leafPred
  rw [dif_pos h0, dif_pos h1, Fin.sum_univ_two, Fin.sum_univ_two]
  simp only [exStumpR_ratio]
  norm_num
  constructor <;> ring

theorem exStumpR_depth : forestDepth [exStumpR] = 1 := by decide

theorem exStumpR_min (l : Fin 2 → ℝ) (hs : InSimplex l) (hmin : ∀ z : Fin 2 → ℝ, InSimplex z →
      tuneLoss [exStumpR] false (exRowsR .given) l ≤ tuneLoss [exStumpR] false (exRowsR .given) z)
    (i : Fin 2) : l i = if i.val = 0 then 2 / 3 else 1 / 3 := by
  have key : ∀ x : Fin 2 → ℝ, tuneLoss [exStumpR] false (exRowsR .given) x =
      1 / 2 * (((x 0 + 4 * x 1 - 2) ^ 2 + (4 * x 0 + x 1 - 3) ^ 2) / 2) := by
    intro x
    unfold tuneLoss
    simp [(exStumpR_pred x).1, (exStumpR_pred x).2]
  have hm := hmin (fun i => if i.val = 0 then 2 / 3 else 1 / 3) ⟨fun i => by fin_cases i <;> norm_num, by
    rw [Fin.sum_univ_two]; norm_num⟩
  rw [key, key] at hm
  norm_num at hm
  have h1 := hs.2
  rw [Fin.sum_univ_two] at h1
  have e1 : l 1 = 1 - l 0 := by linarith
  rw [e1] at hm
  have hz : (l 0 - 2 / 3) ^ 2 ≤ 0 := by nlinarith
  have hz0 : l 0 = 2 / 3 := by
    have := pow_eq_zero_iff (two_ne_zero) |>.1 (le_antisymm hz (sq_nonneg _))
    linarith
  fin_cases i
  · simpa using hz0
  · show l 1 = _
    norm_num
    linarith

/-- The hypotheses of C83 and C84 hold together for exact routines and a depth-one tree, and the run
returns. -/
theorem exact_run : ∃ rf lamb, smoothAll exactOracles 1 [exStumpR] (exAllCfg false (.bool false)) exRowsR =
    .ok (some (rf, lamb)) ∧ ∀ i, lamb i = if i.val = 0 then 2 / 3 else 1 / 3 := by
  have hwf : ∀ t ∈ [exStumpR], t.WF := by simp; decide
  have hn : ∀ t ∈ [exStumpR], ∀ r, 0 < t.nSamp (t.leafNode r) := by
    intro t ht r
    rw [List.mem_singleton] at ht
    subst ht
    generalize exStumpR.leafNode r = i
    revert i
    show ∀ i : Fin 3, (0 : ℝ) < ![2, 1, 1] i
    intro i
    fin_cases i <;> norm_num
  have hind : ∀ x : Fin (forestDepth [exStumpR] + 1) → ℝ, x ≠ 0 → ∃ tt ∈ [exStumpR].zipIdx,
      ∃ q ∈ exRowsR .given tt.2, leafPred tt.1 false x q.leaf ≠ 0 := by
    show ∀ x : Fin 2 → ℝ, x ≠ 0 → _
    intro x hx
    by_contra hcon
    push Not at hcon
    have h := hcon (exStumpR, 0) (by simp)
    have h0 := h ⟨0, fun _ => 2⟩ (by simp)
    have h1 := h ⟨1, fun _ => 3⟩ (by simp)
    have h0' := (exStumpR_pred x).1.symm.trans h0
    have h1' := (exStumpR_pred x).2.symm.trans h1
    apply hx
    funext i
    fin_cases i
    · show x 0 = 0
      linarith
    · show x 1 = 0
      linarith
  have hr : ∀ tt ∈ [exStumpR].zipIdx, ∀ q ∈ exRowsR .given tt.2, q.leaf < tt.1.nLeaves := by
    intro tt ht q hq
    have : tt = (exStumpR, 0) := by simpa using ht
    subst this
    have hL : exStumpR.nLeaves = 2 := by decide
    simp only [List.mem_cons, List.not_mem_nil, or_false] at hq
    show q.leaf < exStumpR.nLeaves
    rw [hL]
    rcases hq with rfl | rfl <;> norm_num
  have hne : ∀ tt ∈ [exStumpR].zipIdx, exRowsR .given tt.2 ≠ [] := by simp
  have hG := loss_posDef false (exRowsR .given) hne hr hind
  have hqp : ∀ {n m : ℕ} (g : SqMat ℝ n) (a : Fin n → ℝ) (c : Fin n → Fin m → ℝ) (b : Fin m → ℝ)
      (meq : ℕ), (∀ i j, g i j = g j i) → PosDefForm g → (∃ x, qpFeasible c b meq x) →
      (∃ B, ∀ x, qpFeasible c b meq x → ∀ i, |x i| ≤ B) → exactOracles.qp g a c b meq ≠ none :=
    fun g a c b meq _ _ => exact_qp_complete g a c b meq
  cases hl : exactOracles.qp (quadG (specRows [exStumpR] false (forestDepth [exStumpR] + 1) (exRowsR .given)))
      (quadA (specRows [exStumpR] false (forestDepth [exStumpR] + 1) (exRowsR .given))) (consC _)
      (consB _) 1 with
  | none => exact absurd hl (hqp _ _ _ _ _ (quadG_symm _) hG simplex_feasible simplex_bounded)
  | some l =>
    have hsol : allSolve exactOracles 1 false (specRows [exStumpR] false
        (forestDepth [exStumpR] + 1) (exRowsR .given)) = .ok (some (quadG (specRows [exStumpR] false
        (forestDepth [exStumpR] + 1) (exRowsR .given)), l)) := by
      unfold allSolve updateTilPsd
      rw [symm_quadG, if_pos (quadG_symm _)]
      simp only [bind, Except.bind, psdLoop, exact_pd_complete _ (quadG_symm _) hG, if_true, solveLoop, trySolve,
        Bool.false_eq_true, if_false, hl]
      rfl
    have has : allAssess exactOracles true none (quadG (specRows [exStumpR] false
        (forestDepth [exStumpR] + 1) (exRowsR .given))) (quadA (specRows [exStumpR] false
        (forestDepth [exStumpR] + 1) (exRowsR .given))) l = .ok () := by
      unfold allAssess checkInNull
      split_ifs with h
      · simp only [bind, Except.bind]
        rw [if_neg]
        · rfl
        · rintro ⟨-, -, h3⟩
          apply h3
          rw [quadCost_eq, quadCost_eq]
          exact (exact_qp _ _ _ _ _ _ hl).2 _ ((consC_feasible _).2 lambBase_simplex)
      · rfl
    obtain ⟨rf, hrf⟩ := smoothAll_returns (c := exAllCfg false (.bool false)) (sources := exRowsR) hwf hn
      (by decide) rfl (flag := false) (tp := none) rfl hne hsol has
    simp only [Bool.false_eq_true, if_false] at hrf
    refine ⟨rf, l, hrf, ?_⟩
    obtain ⟨hs, hmin⟩ := C83_exact_minimum exact_qp hwf exact_pd_complete hqp rfl (tp := none) rfl hr hind hrf
    exact exStumpR_min l hs hmin

end SmoothRF
