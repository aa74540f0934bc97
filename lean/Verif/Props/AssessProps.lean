import Verif.Props.AllExactProps

/-!
# C143: what the internal check of smooth_all guarantees

The solvers are arbitrary here: the check at smooth_level.py 692-710 is what is left of the guarantee when
quadprog or the inverse is wrong.
-/

set_option linter.unusedSectionVars false

namespace SmoothRF
open SkTree Topo

variable {K : Type} [Field K] [LinearOrder K] [IsStrictOrderedRing K] {o : AllOracles K} {fuel : ℕ}
  {forest : List (SkTree K 1)} {c : AllCfg} {sources : TuneSrc → ℕ → List (TuneRow K 1)}
  {rf : List (SkTree K 1)} {lamb : Fin (forestDepth forest + 1) → K}

/-- The weights differ visibly from "first entry one, all others zero". -/
def FarFromBase {n : ℕ} (l : Fin n → K) : Prop :=
  ∃ i, 1 / 10 ^ 7 < |l i - if i.val = 0 then 1 else 0|

/-- C143, the check itself: for usable arguments, once the loops have produced a matrix `g` and weights
`l`, `smooth_all` raises ValueError exactly if `l` is far from the base weights and `tol_pow` is negative;
AssertionError exactly if `l` is far, `tol_pow` is fine, `inner_assess` is on, the difference to the base
weights is not found in the null space of `g`, and the base weights cost less; in all other cases it
returns `l` (the base weights under `sanity_check`). -/
theorem C143_check (hwf : ∀ t ∈ forest, t.WF) (hn : ∀ t ∈ forest, ∀ r, 0 < t.nSamp (t.leafNode r))
    (h1 : c.nTrained ≠ 0) (h2 : c.yLen = c.nTrained)
    {flag : Bool} {tp : Option ℤ} (h3 : SanityAsks c.sanity flag tp)
    (h4 : ∀ tt ∈ forest.zipIdx, sources (allSource c) tt.2 ≠ [])
    {g : SqMat K (forestDepth forest + 1)} {l : Fin (forestDepth forest + 1) → K}
    (h5 : allSolve o fuel c.noConstraint (specRows forest c.parentsAll _ (sources (allSource c))) =
      .ok (some (g, l))) :
    let base : Fin (forestDepth forest + 1) → K := fun i => if i.val = 0 then 1 else 0
    let cost := qpObj g (quadA (specRows forest c.parentsAll _ (sources (allSource c))))
    let badTol := ∃ p, tp = some p ∧ p < 0
    let fails := c.innerAssess = true ∧ o.inNull g (fun i => base i - l i) = false ∧ cost base < cost l
    (smoothAll o fuel forest c sources = .error .valueError ↔ FarFromBase l ∧ badTol) ∧
    (smoothAll o fuel forest c sources = .error .assertionError ↔ FarFromBase l ∧ ¬ badTol ∧ fails) ∧
    ((∃ rf, smoothAll o fuel forest c sources = .ok (some (rf, if flag then base else l))) ↔
      ¬ FarFromBase l ∨ (¬ badTol ∧ ¬ fails)) := by
  intro base cost badTol fails
  replace h3 := ((C64_sanity_reading _).1 _ _).2 h3
  have hbase : (lambBase : Fin (forestDepth forest + 1) → K) = base := rfl
  have hfar : (∃ i, |l i - lambBase i| > 1 / 10 ^ 7) ↔ FarFromBase l := Iff.rfl
  have herr : ∀ e, allAssess o c.innerAssess tp g
      (quadA (specRows forest c.parentsAll _ (sources (allSource c)))) l = .error e →
      smoothAll o fuel forest c sources = .error e := by
    intro e he
    unfold smoothAll
    rw [allPrepare_returns hwf hn h1 h2 h3 h4]
    simp only [bind, Except.bind]
    rw [h5]
    simp only
    rw [he]
  have hok := fun he => smoothAll_returns (o := o) (fuel := fuel) hwf hn h1 h2 h3 h4 h5 he
  rw [hbase] at hok
  by_cases f : FarFromBase l
  swap
  · obtain ⟨rf, e⟩ := hok (by unfold allAssess; rw [if_neg (by rwa [hfar])])
    rw [e]
    simp [f]
  by_cases b : badTol
  · have : allAssess o c.innerAssess tp g
        (quadA (specRows forest c.parentsAll _ (sources (allSource c)))) l = .error .valueError := by
      obtain ⟨p, rfl, hp⟩ := b
      unfold allAssess checkInNull
      rw [if_pos (hfar.2 f)]
      simp only [if_pos hp]
      rfl
    rw [herr _ this]
    simp [f, b]
  have hc : checkInNull o g (fun i => lambBase i - l i) tp = .ok (o.inNull g fun i => base i - l i) := by
    unfold checkInNull
    split
    · rename_i p
      rw [if_neg fun hp => b ⟨p, rfl, hp⟩]
      rfl
    · rfl
  by_cases x : fails
  · have : allAssess o c.innerAssess tp g
        (quadA (specRows forest c.parentsAll _ (sources (allSource c)))) l = .error .assertionError := by
      unfold allAssess
      rw [if_pos (hfar.2 f), hc]
      simp only [bind, Except.bind, quadCost_eq]
      exact if_pos ⟨x.2.1, x.1, not_le.2 x.2.2⟩
    rw [herr _ this]
    simp [f, b, x]
  · obtain ⟨rf, e⟩ := hok (by
      unfold allAssess
      rw [if_pos (hfar.2 f), hc]
      simp only [bind, Except.bind, quadCost_eq]
      exact if_neg fun hh => x ⟨hh.2.1, hh.1, not_le.1 hh.2.2⟩)
    rw [e]
    simp [f, b, x]

theorem tuneLoss_nonneg (pa : Bool) (tune : ℕ → List (TuneRow K 1)) {n : ℕ} (l : Fin n → K) :
    0 ≤ tuneLoss forest pa tune l := by
  unfold tuneLoss
  refine mul_nonneg (by norm_num) (List.sum_nonneg fun x hx => ?_)
  obtain ⟨tt, -, rfl⟩ := List.mem_map.1 hx
  refine div_nonneg (List.sum_nonneg fun y hy => ?_) (Nat.cast_nonneg _)
  obtain ⟨q, -, rfl⟩ := List.mem_map.1 hy
  exact sq_nonneg _

/-- Moving in the null space changes the objective linearly. -/
theorem qpObj_null {n : ℕ} {g : SqMat K n} (hs : ∀ i j, g i j = g j i) (a x v : Fin n → K)
    (hv : ∀ i, ∑ j, g i j * v j = 0) (s : K) :
    qpObj g a (fun i => x i + s * v i) = qpObj g a x - s * ∑ i, a i * v i := by
  have e1 : ∀ i, ∑ j, (x i + s * v i) * g i j * (x j + s * v j) =
      (∑ j, x i * g i j * x j) + s * v i * ∑ j, g i j * x j := by
    intro i
    have : ∀ j, (x i + s * v i) * g i j * (x j + s * v j) =
        x i * g i j * x j + s * v i * (g i j * x j) + (x i + s * v i) * s * (g i j * v j) := fun j => by ring
    simp only [this, Finset.sum_add_distrib, ← Finset.mul_sum, hv i, mul_zero, add_zero]
  have e2 : ∑ i, s * v i * ∑ j, g i j * x j = 0 := by
    have : ∀ i, s * v i * ∑ j, g i j * x j = ∑ j, s * (x j * (g j i * v i)) := fun i => by
      rw [Finset.mul_sum]
      exact Finset.sum_congr rfl fun j _ => by rw [hs i j]; ring
    rw [Finset.sum_congr rfl fun i _ => this i, Finset.sum_comm]
    refine Finset.sum_eq_zero fun j _ => ?_
    rw [← Finset.mul_sum, ← Finset.mul_sum, hv j, mul_zero, mul_zero]
  unfold qpObj
  rw [Finset.sum_congr rfl fun i _ => e1 i, Finset.sum_add_distrib, e2]
  have e3 : ∑ i, a i * (x i + s * v i) = (∑ i, a i * x i) + s * ∑ i, a i * v i := by
    rw [Finset.mul_sum, ← Finset.sum_add_distrib]
    exact Finset.sum_congr rfl fun i _ => by ring
  rw [e3]
  ring

/-- C143, what the check buys: whatever the solvers answer, if `smooth_all` with `inner_assess` returns
(null-space test sound, no sanity check), then either the weights are the base weights up to `1e-7`, or for
some ridge `w ≥ 0` the returned forest's summed mean squared tuning error plus `w` times the squared norm of
the weights is at most the original forest's error plus `w`. -/
theorem C143_guarantee (hnull : ∀ {n : ℕ} (g : SqMat K n) (v : Fin n → K), o.inNull g v = true →
      ∀ i, ∑ j, g i j * v j = 0)
    (hu : 0 ≤ o.unit) (hwf : ∀ t ∈ forest, t.WF) (hn : ∀ t ∈ forest, ∀ r, t.nSamp (t.leafNode r) ≠ 0)
    (hi : c.innerAssess = true) {tp : Option ℤ} (hs : SanityAsks c.sanity false tp)
    (hr : ∀ tt ∈ forest.zipIdx, ∀ q ∈ sources (allSource c) tt.2, q.leaf < tt.1.nLeaves)
    (h : smoothAll o fuel forest c sources = .ok (some (rf, lamb))) :
    ¬ FarFromBase lamb ∨ ∃ w : K, 0 ≤ w ∧
      forestMSE rf (sources (allSource c)) + w * ∑ i, lamb i ^ 2 ≤ forestMSE forest (sources (allSource c)) + w := by
  obtain ⟨flag, _, g, l, b1, b2, b3, b4, b5, b6⟩ := smoothAll_ok hwf h
  rw [((C64_sanity_reading _).1 _ _).2 hs] at b1
  cases b1
  simp only [Bool.false_eq_true, if_false] at b5
  subst b5
  by_cases f : FarFromBase lamb
  swap
  · exact .inl f
  right
  obtain ⟨p, q, e1, -⟩ := allSolve_ok b3
  have hw : ∀ k, 0 ≤ psdShift o.unit k := fun k => by
    unfold psdShift
    split_ifs
    · exact le_rfl
    · positivity
  set w := psdShift o.unit p + psdShift o.unit q with hwdef
  have hw0 : 0 ≤ w := add_nonneg (hw p) (hw q)
  refine ⟨w, hw0, ?_⟩
  obtain ⟨const, hconst⟩ := tuneLoss_eq forest c.parentsAll (sources (allSource c)) b2 hr
    (forestDepth forest + 1)
  rw [mse_eq c.parentsAll lamb b6 _ hr, mse_base (n := forestDepth forest) hwf hn c.parentsAll _ hr]
  have hone : ∑ i : Fin (forestDepth forest + 1), (lambBase : _ → K) i ^ 2 = 1 := by
    rw [Fin.sum_univ_succ]
    simp [lambBase]
  have hobj : ∀ z : Fin (forestDepth forest + 1) → K,
      qpObj g (quadA (specRows forest c.parentsAll _ (sources (allSource c)))) z + const =
      tuneLoss forest c.parentsAll (sources (allSource c)) z + w / 2 * ∑ i, z i ^ 2 := fun z => by
    rw [e1, qpObj_shift, hconst]
    ring
  suffices H : qpObj g (quadA (specRows forest c.parentsAll _ (sources (allSource c)))) lamb ≤
      qpObj g (quadA (specRows forest c.parentsAll _ (sources (allSource c)))) lambBase by
    have := hobj lamb
    have h2 := hobj lambBase
    rw [hone] at h2
    linarith
  unfold allAssess at b4
  rw [if_pos (show ∃ i, |lamb i - lambBase i| > 1 / 10 ^ 7 from f)] at b4
  obtain ⟨inN, k1, k2⟩ := bind_ok b4
  rw [hi] at k2
  cases hN : inN with
  | false =>
    by_contra hc
    rw [if_pos ⟨hN, rfl, by rw [quadCost_eq, quadCost_eq]; exact hc⟩] at k2
    cases k2
  | true =>
    subst hN
    have hin : o.inNull g (fun i => lambBase i - lamb i) = true := by
      unfold checkInNull at k1
      split at k1
      · split_ifs at k1
        exact Except.ok.inj k1
      · exact Except.ok.inj k1
    have hgv := hnull g _ hin
    have hsym : ∀ i j, g i j = g j i := by rw [e1]; exact shiftMat_symm (quadG_symm _) _
    set a := quadA (specRows forest c.parentsAll (forestDepth forest + 1) (sources (allSource c))) with ha
    have hlin := qpObj_null hsym a lamb _ hgv
    have hA : ∑ i, a i * (lambBase i - lamb i) = 0 := by
      by_contra hA
      have h1 := hlin ((qpObj g a lamb + const + 1) / ∑ i, a i * (lambBase i - lamb i))
      rw [div_mul_cancel₀ _ hA] at h1
      have h2 := hobj fun i => lamb i + (qpObj g a lamb + const + 1) / (∑ i, a i * (lambBase i - lamb i)) *
        (lambBase i - lamb i)
      have h3 := tuneLoss_nonneg (forest := forest) c.parentsAll (sources (allSource c))
        fun i => lamb i + (qpObj g a lamb + const + 1) / (∑ i, a i * (lambBase i - lamb i)) *
          (lambBase i - lamb i)
      have h4 : 0 ≤ w / 2 * ∑ i, (lamb i + (qpObj g a lamb + const + 1) /
          (∑ i, a i * (lambBase i - lamb i)) * (lambBase i - lamb i)) ^ 2 :=
        mul_nonneg (by linarith) (Finset.sum_nonneg fun i _ => sq_nonneg _)
      linarith
    have h1 := hlin 1
    rw [hA, mul_zero, sub_zero] at h1
    have h2 : (fun i => lamb i + 1 * (lambBase i - lamb i)) = (lambBase : Fin _ → K) := by
      funext i; ring
    rw [h2] at h1
    exact h1.ge

/-! ### a wrong solver -/

/-- A solver that always answers "all weight on the second entry". -/
abbrev wrongOracles : AllOracles ℚ :=
  { exAllOracles with qp := fun _ _ _ _ _ => some fun i => if i.val = 1 then 1 else 0 }

/-- Tuning rows on which the stump is already exact. -/
abbrev exExactRows : TuneSrc → ℕ → List (TuneRow ℚ 1) := fun _ _ => [⟨0, fun _ => 1⟩, ⟨1, fun _ => 4⟩]

/-- The check notices the wrong answer. -/
example : (match smoothAll wrongOracles 5 [exStump] (exAllCfg false (.bool false)) exExactRows with
    | .ok _ => none
    | .error e => some e) = some .assertionError := by decide +kernel

/-- Without `inner_assess` it is returned: the two leaves exchange their values. -/
example : allOf [exStump] (smoothAll wrongOracles 5 [exStump]
    { exAllCfg false (.bool false) with innerAssess := false } exExactRows) =
    some ([[5 / 2, 4, 1]], [0, 1]) := by decide +kernel

/-- A negative `tol_pow` raises ValueError, unless the weights are the base weights. -/
example : (match smoothAll wrongOracles 5 [exStump] (exAllCfg false (.dict (some (some (-1))) (some (some false))))
      exExactRows with
    | .ok _ => none
    | .error e => some e) = some .valueError ∧
    allOf [exStump] (smoothAll { exAllOracles with qp := fun _ _ _ _ _ => some lambBase } 5 [exStump]
      (exAllCfg false (.dict (some (some (-1))) (some (some false)))) exExactRows) =
      some ([[5 / 2, 1, 4]], [1, 0]) := by decide +kernel

/-- The hypotheses of `C143_check` in this case. -/
example : (match allSolve wrongOracles 5 false (specRows [exStump] false 2 (exExactRows .given)) with
    | .ok (some (_, l)) => some (List.ofFn l)
    | _ => none) = some [0, 1] ∧
    (∀ t ∈ [exStump], t.WF) ∧ SanityAsks (exAllCfg false (.bool false)).sanity false none := by
  refine ⟨by decide +kernel, by decide, .inl ⟨rfl, rfl⟩⟩

/-- The hypotheses of `C143_guarantee` with weights far from the base weights. -/
example : (∀ {n : ℕ} (g : SqMat ℚ n) (v : Fin n → ℚ), exAllOracles.inNull g v = true →
      ∀ i, ∑ j, g i j * v j = 0) ∧ 0 ≤ exAllOracles.unit ∧
    (exAllCfg false (.bool false)).innerAssess = true ∧
    FarFromBase (![2 / 3, 1 / 3] : Fin 2 → ℚ) ∧
    allOf [exStump] (smoothAll exAllOracles 5 [exStump] (exAllCfg false (.bool false)) exAllRows) =
      some ([[5 / 2, 2, 3]], [2 / 3, 1 / 3]) := by
  refine ⟨fun g v h => ?_, by norm_num, rfl, ⟨0, ?_⟩, by decide +kernel⟩
  · cases h
  · norm_num [abs_of_neg]

end SmoothRF
