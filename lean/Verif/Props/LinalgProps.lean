import Verif.Props.SmoothAllProps
import Verif.Props.LevelProps

/-!
# smooth_level.py: `is_pos_def`, `check_in_null`, `smooth_all` returns (C99-C101)
-/

set_option linter.unusedSectionVars false

namespace SmoothRF
open Topo SkTree

variable {K : Type} [Field K] [LinearOrder K] [IsStrictOrderedRing K]

/-- C99: in exact arithmetic `is_pos_def` accepts exactly the symmetric matrices whose quadratic form is
positive at every non-zero vector. -/
theorem C99_is_pos_def {n : ℕ} (A : Fin n → Fin n → K) :
    isPosDef A = true ↔ (∀ i j, A i j = A j i) ∧ ∀ x : Fin n → K, x ≠ 0 → 0 < ∑ i, ∑ j, x i * A i j * x j :=
  isPosDef_iff A

/-- C99: over the reals these are exactly the matrices `L Lᵀ` with `L` lower triangular and positive
diagonal, that is, those which have a Cholesky factor. -/
theorem C99_cholesky {n : ℕ} (A : Fin n → Fin n → ℝ) : isPosDef A = true ↔ ∃ L, IsCholesky A L := by
  constructor
  · intro h
    have hs := ((isPosDef_iff A).1 h).1
    unfold isPosDef at h
    rw [if_pos hs] at h
    exact cholOk_factor A hs h
  · rintro ⟨L, hL⟩
    exact (isPosDef_iff A).2 hL.posDef

/-- C99, `update_til_psd` with this test: for every symmetric matrix it returns a symmetric positive
definite matrix, namely `G` itself if that is positive definite and otherwise `G + unit * 2^k I` with the
least `k` for which the result is positive definite. -/
theorem C99_update_til_psd [Archimedean K] {n : ℕ} (unit : K) (hu : 0 < unit) (g : Fin n → Fin n → K)
    (hs : ∀ i j, g i j = g j i) :
    ∃ N r, (∀ fuel, N < fuel → updateTilPsd isPosDef unit fuel g = .ok (some r)) ∧
      (∀ i j, r i j = r j i) ∧ PosDefForm r ∧
      (r = g ∨ ¬ PosDefForm g ∧ ∃ k : ℕ, (r = fun i j => g i j + if i = j then unit * 2 ^ k else 0) ∧
        ∀ j < k, ¬ PosDefForm fun a b => g a b + if a = b then unit * 2 ^ j else 0) := by
  classical
  have e : (isPosDef : (Fin n → Fin n → K) → Bool) =
      fun m => decide ((∀ i j, m i j = m j i) ∧ PosDefForm m) := by
    funext m
    rw [Bool.eq_iff_iff, isPosDef_iff, decide_eq_true_eq]
  obtain ⟨N, r, -, hN⟩ := C63_terminates unit hu g hs
  have hN' : ∀ fuel, N < fuel → updateTilPsd isPosDef unit fuel g = .ok (some r) := by
    intro fuel hf
    rw [e, ← hN fuel hf]
  obtain ⟨-, -, h3⟩ := C63_least_shift isPosDef unit g hs
  obtain ⟨hr, hc⟩ := h3 _ _ (hN' (N + 1) (Nat.lt_succ_self N))
  have hr' := (isPosDef_iff r).1 hr
  refine ⟨N, r, hN', hr'.1, hr'.2, ?_⟩
  have hsym : ∀ w i j, shiftMat g w i j = shiftMat g w j i := by
    intro w i j
    unfold shiftMat
    rw [hs i j]
    by_cases hij : i = j
    · simp [hij]
    · simp [hij, Ne.symm hij]
  rcases hc with rfl | ⟨k, hk, hg, hj⟩
  · exact Or.inl rfl
  · refine Or.inr ⟨fun hp => ?_, k, hk, fun j hlt hp => ?_⟩
    · rw [(isPosDef_iff g).2 ⟨hs, hp⟩] at hg
      cases hg
    · have := hj j hlt
      rw [(isPosDef_iff _).2 ⟨hsym _, hp⟩] at this
      cases this

/-- The 2x2 matrix with rows (1, 2), (2, 1): not positive definite; unit 1 shifts it by 1, then by 2. -/
example : isPosDef (![![1, 2], ![2, 1]] : Fin 2 → Fin 2 → ℚ) = false ∧
    isPosDef (![![2, 2], ![1, 2]] : Fin 2 → Fin 2 → ℚ) = false ∧
    isPosDef (![![3, 2], ![2, 3]] : Fin 2 → Fin 2 → ℚ) = true ∧
    (match updateTilPsd isPosDef (1 : ℚ) 10 (![![1, 2], ![2, 1]] : Fin 2 → Fin 2 → ℚ) with
      | .ok (some r) => some (r 0 0, r 0 1, r 1 0, r 1 1) | _ => none) = some (3, 2, 2, 3) := by
  refine ⟨by decide +kernel, by decide +kernel, by decide +kernel, by decide +kernel⟩

/-- C100, what holds: with an exact null space basis and exact ranks `check_in_null(G, v)` is true exactly
when `G v = 0` and `G` has a null space other than {0}. -/
theorem C100_in_null_partial {F : Type} [Field F] {m n : ℕ} {G : Fin m → Fin n → F}
    {nspace : List (Fin n → F)} (h : NullBasis G nspace) (v : Fin n → F) :
    inNullRank nspace v = true ↔ (∀ i, ∑ j, G i j * v j = 0) ∧ ∃ u : Fin n → F, u ≠ 0 ∧ ∀ i, ∑ j, G i j * u j = 0 :=
  inNullRank_iff h v

/-- C100: for a non-zero `v` the answer is therefore right. -/
theorem C100_nonzero {F : Type} [Field F] {m n : ℕ} {G : Fin m → Fin n → F}
    {nspace : List (Fin n → F)} (h : NullBasis G nspace) (v : Fin n → F) (hv : v ≠ 0) :
    inNullRank nspace v = true ↔ ∀ i, ∑ j, G i j * v j = 0 := by
  rw [C100_in_null_partial h]
  exact ⟨fun h => h.1, fun h => ⟨h, v, hv, h⟩⟩

/-- C100 is false as stated: the zero vector is in every null space, but for the 1x1 matrix (1), whose null
space has the empty basis, the answer is False. -/
theorem C100_refuted : NullBasis (fun _ _ => 1 : Fin 1 → Fin 1 → ℚ) [] ∧
    Annihilates (fun _ _ => 1 : Fin 1 → Fin 1 → ℚ) (fun _ => 0) ∧
    inNullRank ([] : List (Fin 1 → ℚ)) (fun _ => 0) = false := by
  refine ⟨⟨fun c _ l => l.elim0, fun v => ?_⟩, ?_, by simp [inNullRank]⟩
  · simp only [Annihilates, Finset.univ_unique, Finset.sum_singleton, one_mul]
    constructor
    · intro h
      exact ⟨fun l => l.elim0, fun j => by rw [Subsingleton.elim j default, h 0]; simp⟩
    · rintro ⟨c, hc⟩ i
      rw [hc]; simp
  · intro i; simp

/-- A rank one matrix and the basis (1, -1) of its null space. -/
example : NullBasis (fun _ _ => 1 : Fin 2 → Fin 2 → ℚ) [![1, -1]] ∧
    inNullRank [(![1, -1] : Fin 2 → ℚ)] ![3, -3] = true ∧
    inNullRank [(![1, -1] : Fin 2 → ℚ)] ![3, 3] = false := by
  have hb : NullBasis (fun _ _ => 1 : Fin 2 → Fin 2 → ℚ) [![1, -1]] := by
    refine ⟨fun c h l => ?_, fun v => ?_⟩
    · have : ∑ l : Fin 1, c l * (![![1, -1]] : Fin 1 → Fin 2 → ℚ) l 0 = 0 := h 0
      rw [Fin.sum_univ_one] at this
      rw [Subsingleton.elim (α := Fin 1) l 0]
      simpa using this
    · simp only [Annihilates, Fin.sum_univ_two, one_mul]
      constructor
      · intro h
        refine ⟨fun _ => v 0, fun j => ?_⟩
        have h0 := h 0
        show v j = ∑ l : Fin 1, v 0 * (![![1, -1]] : Fin 1 → Fin 2 → ℚ) l j
        rw [Fin.sum_univ_one]
        fin_cases j
        · simp
        · simp; linarith
      · rintro ⟨c, hc⟩ i
        have h0 : v 0 = ∑ l : Fin 1, c l * (![![1, -1]] : Fin 1 → Fin 2 → ℚ) l 0 := hc 0
        have h1 : v 1 = ∑ l : Fin 1, c l * (![![1, -1]] : Fin 1 → Fin 2 → ℚ) l 1 := hc 1
        rw [Fin.sum_univ_one] at h0 h1
        rw [h0, h1]; simp
  refine ⟨hb, ?_, ?_⟩
  · rw [C100_in_null_partial hb]
    exact ⟨fun i => by simp [Fin.sum_univ_two], ![1, -1], by
      intro h; simpa using congrFun h 0, fun i => by simp [Fin.sum_univ_two]⟩
  · rw [← Bool.not_eq_true, C100_in_null_partial hb]
    rintro ⟨h, -⟩
    have := h 0
    norm_num [Fin.sum_univ_two] at this

section Returns
variable {o : AllOracles K} {forest : List (SkTree K 1)} {c : AllCfg}
  {sources : TuneSrc → ℕ → List (TuneRow K 1)}

/-- The two loops stop, at a symmetric positive definite matrix that the solver accepts at once. -/
theorem allSolve_returns [Archimedean K] (hpd : ∀ {n : ℕ} (g : SqMat K n), o.pd g = isPosDef g)
    (hu : 0 < o.unit) {n : ℕ} {nc : Bool} (rows : List (QRow K n))
    (hsol : ∀ g : SqMat K n, (∀ i j, g i j = g j i) → PosDefForm g → trySolve o nc g (quadA rows) ≠ none) :
    ∃ N g l, (∀ i j, g i j = g j i) ∧ PosDefForm g ∧ trySolve o nc g (quadA rows) = some l ∧
      ∀ fuel, N < fuel → allSolve o fuel nc rows = .ok (some (g, l)) := by
  have e : (o.pd : SqMat K n → Bool) = isPosDef := funext fun g => hpd g
  obtain ⟨N, r, h1, h2, h3, -⟩ := C99_update_til_psd o.unit hu (symm (quadG rows))
    (by rw [symm_quadG]; exact quadG_symm rows)
  cases hl : trySolve o nc r (quadA rows) with
  | none => exact absurd hl (hsol r h2 h3)
  | some l =>
    refine ⟨N, r, l, h2, h3, hl, fun fuel hf => ?_⟩
    unfold allSolve
    rw [e, h1 fuel hf]
    simp only [bind, Except.bind]
    obtain ⟨f, rfl⟩ : ∃ f, fuel = f + 1 := ⟨fuel - 1, by omega⟩
    simp only [solveLoop, hl]
    rfl

theorem allAssess_ok {n : ℕ} {ia : Bool} {tp : Option ℤ} (htp : ∀ p, tp = some p → 0 ≤ p) {g : SqMat K n}
    {a l : Fin n → K} (h : qpObj g a l ≤ qpObj g a lambBase) : allAssess o ia tp g a l = .ok () := by
  have hc : ∃ b : (Fin n → K) → Bool, ∀ v, checkInNull o g v tp = .ok (b v) := by
    refine ⟨o.inNull g, fun v => ?_⟩
    unfold checkInNull
    cases tp with
    | none => rfl
    | some p => simp only; rw [if_neg (not_lt.2 (htp p rfl))]
  obtain ⟨b, hb⟩ := hc
  unfold allAssess
  split_ifs with h1
  · rw [hb]
    simp only [bind, Except.bind]
    rw [if_neg]
    · rfl
    · rintro ⟨-, -, h3⟩
      apply h3
      rw [quadCost_eq, quadCost_eq]
      exact h
  · rfl

theorem smoothAll_fuel (hwf : ∀ t ∈ forest, t.WF) (hn : ∀ t ∈ forest, ∀ r, 0 < t.nSamp (t.leafNode r))
    (h1 : c.nTrained ≠ 0) (h2 : c.yLen = c.nTrained) {flag : Bool} {tp : Option ℤ}
    (h3 : readSanity c.sanity = .ok (flag, tp)) (h4 : ∀ tt ∈ forest.zipIdx, sources (allSource c) tt.2 ≠ [])
    {f f' : ℕ} (h : allSolve o f c.noConstraint (specRows forest c.parentsAll (forestDepth forest + 1)
      (sources (allSource c))) = allSolve o f' c.noConstraint (specRows forest c.parentsAll
      (forestDepth forest + 1) (sources (allSource c)))) :
    smoothAll o f forest c sources = smoothAll o f' forest c sources := by
  unfold smoothAll
  rw [allPrepare_returns hwf hn h1 h2 h3 h4]
  simp only [bind, Except.bind]
  rw [h]

/-- C101: `smooth_all` with the constraints returns. For well-formed trees with positive leaf weights,
usable arguments and tuning data for every tree, both loops stop and no exception is raised, if the
quadratic programming routine is exact and solves every feasible bounded problem with a symmetric positive
definite matrix. -/
theorem C101_returns_constrained [Archimedean K]
    (hpd : ∀ {n : ℕ} (g : SqMat K n), o.pd g = isPosDef g) (hu : 0 < o.unit) (hq : QpExact o)
    (hqp : ∀ {n m : ℕ} (g : SqMat K n) (a : Fin n → K) (c : Fin n → Fin m → K) (b : Fin m → K) (meq : ℕ),
      (∀ i j, g i j = g j i) → PosDefForm g → (∃ x, qpFeasible c b meq x) →
      (∃ B, ∀ x, qpFeasible c b meq x → ∀ i, |x i| ≤ B) → o.qp g a c b meq ≠ none)
    (hwf : ∀ t ∈ forest, t.WF) (hn : ∀ t ∈ forest, ∀ r, 0 < t.nSamp (t.leafNode r))
    (hc : c.noConstraint = false) (h1 : c.nTrained ≠ 0) (h2 : c.yLen = c.nTrained)
    {flag : Bool} {tp : Option ℤ} (h3 : readSanity c.sanity = .ok (flag, tp)) (htp : ∀ p, tp = some p → 0 ≤ p)
    (h4 : ∀ tt ∈ forest.zipIdx, sources (allSource c) tt.2 ≠ []) :
    ∃ N rf lamb, ∀ fuel, N < fuel → smoothAll o fuel forest c sources = .ok (some (rf, lamb)) := by
  have hsol : ∀ g : SqMat K (forestDepth forest + 1), (∀ i j, g i j = g j i) → PosDefForm g →
      trySolve o c.noConstraint g (quadA (specRows forest c.parentsAll _ (sources (allSource c)))) ≠ none := by
    intro g hs hp
    unfold trySolve
    rw [hc]
    simp only [Bool.false_eq_true, if_false]
    exact hqp _ _ _ _ _ hs hp simplex_feasible simplex_bounded
  obtain ⟨N, g, l, -, -, hl, hN⟩ := allSolve_returns hpd hu _ hsol
  have hcost : qpObj g (quadA (specRows forest c.parentsAll _ (sources (allSource c)))) l ≤
      qpObj g (quadA (specRows forest c.parentsAll _ (sources (allSource c)))) lambBase := by
    unfold trySolve at hl
    rw [hc] at hl
    simp only [Bool.false_eq_true, if_false] at hl
    exact (hq _ _ _ _ _ _ hl).2 _ ((consC_feasible _).2 lambBase_simplex)
  have ha := allAssess_ok (o := o) (ia := c.innerAssess) htp hcost
  obtain ⟨rf, hrf⟩ := smoothAll_returns hwf hn h1 h2 h3 h4 (hN (N + 1) (Nat.lt_succ_self N)) ha
  refine ⟨N, rf, if flag then lambBase else l, fun fuel hf => ?_⟩
  rw [smoothAll_fuel hwf hn h1 h2 h3 h4 ((hN fuel hf).trans (hN (N + 1) (Nat.lt_succ_self N)).symm)]
  exact hrf

/-- C101, `no_constraint`: the same if the linear solver is exact and solves every system with a symmetric
positive definite matrix. -/
theorem C101_returns_unconstrained [Archimedean K]
    (hpd : ∀ {n : ℕ} (g : SqMat K n), o.pd g = isPosDef g) (hu : 0 < o.unit) (hi : InvExact o)
    (hinv : ∀ {n : ℕ} (g : SqMat K n) (a : Fin n → K), (∀ i j, g i j = g j i) → PosDefForm g →
      o.invMul g a ≠ none)
    (hwf : ∀ t ∈ forest, t.WF) (hn : ∀ t ∈ forest, ∀ r, 0 < t.nSamp (t.leafNode r))
    (hc : c.noConstraint = true) (h1 : c.nTrained ≠ 0) (h2 : c.yLen = c.nTrained)
    {flag : Bool} {tp : Option ℤ} (h3 : readSanity c.sanity = .ok (flag, tp)) (htp : ∀ p, tp = some p → 0 ≤ p)
    (h4 : ∀ tt ∈ forest.zipIdx, sources (allSource c) tt.2 ≠ []) :
    ∃ N rf lamb, ∀ fuel, N < fuel → smoothAll o fuel forest c sources = .ok (some (rf, lamb)) := by
  have hsol : ∀ g : SqMat K (forestDepth forest + 1), (∀ i j, g i j = g j i) → PosDefForm g →
      trySolve o c.noConstraint g (quadA (specRows forest c.parentsAll _ (sources (allSource c)))) ≠ none := by
    intro g hs hp
    unfold trySolve
    rw [hc]
    exact hinv _ _ hs hp
  obtain ⟨N, g, l, hs, hp, hl, hN⟩ := allSolve_returns hpd hu _ hsol
  have hcost : qpObj g (quadA (specRows forest c.parentsAll _ (sources (allSource c)))) l ≤
      qpObj g (quadA (specRows forest c.parentsAll _ (sources (allSource c)))) lambBase := by
    unfold trySolve at hl
    rw [hc] at hl
    simp only [if_true] at hl
    refine stationary_min g hs (fun x => ?_) _ _ _ (hi _ _ _ hl)
    by_cases hx : x = 0
    · simp [hx]
    · exact (hp x hx).le
  have ha := allAssess_ok (o := o) (ia := c.innerAssess) htp hcost
  obtain ⟨rf, hrf⟩ := smoothAll_returns hwf hn h1 h2 h3 h4 (hN (N + 1) (Nat.lt_succ_self N)) ha
  refine ⟨N, rf, if flag then lambBase else l, fun fuel hf => ?_⟩
  rw [smoothAll_fuel hwf hn h1 h2 h3 h4 ((hN fuel hf).trans (hN (N + 1) (Nat.lt_succ_self N)).symm)]
  exact hrf

end Returns

/-- A positive definite system over the reals has a solution. -/
theorem exact_inv_complete {n : ℕ} (g : SqMat ℝ n) (a : Fin n → ℝ) (hp : PosDefForm g) :
    exactOracles.invMul g a ≠ none := by
  let f : (Fin n → ℝ) →ₗ[ℝ] (Fin n → ℝ) :=
    { toFun := fun x i => ∑ j, g i j * x j
      map_add' := fun x y => by
        funext i
        simp only [Pi.add_apply, mul_add, Finset.sum_add_distrib]
      map_smul' := fun r x => by
        funext i
        simp only [Pi.smul_apply, smul_eq_mul, RingHom.id_apply, Finset.mul_sum]
        exact Finset.sum_congr rfl fun j _ => by ring }
  have hinj : Function.Injective f := by
    rw [injective_iff_map_eq_zero]
    intro x hx
    by_contra hne
    have := hp x hne
    have e : ∑ i, ∑ j, x i * g i j * x j = ∑ i, x i * f x i := by
      refine Finset.sum_congr rfl fun i _ => ?_
      show _ = x i * ∑ j, g i j * x j
      rw [Finset.mul_sum]
      exact Finset.sum_congr rfl fun j _ => by ring
    rw [e, hx] at this
    simp at this
  obtain ⟨x, hx⟩ := (LinearMap.injective_iff_surjective.1 hinj) a
  unfold exactOracles
  simp only
  rw [dif_pos ⟨x, fun i => congrFun hx i⟩]
  simp

/-- Both hypotheses sets hold for exact routines, here with a depth-one tree. -/
example (nc : Bool) : ∃ N rf lamb, ∀ fuel, N < fuel →
    smoothAll exactOracles fuel [exStumpR] { exAllCfg true (.bool false) with noConstraint := nc } exRowsR =
      .ok (some (rf, lamb)) := by
  have hwf : ∀ t ∈ [exStumpR], t.WF := by simp; decide
  have hn : ∀ t ∈ [exStumpR], ∀ r, 0 < t.nSamp (t.leafNode r) := by
    intro t ht r
    rw [List.mem_singleton] at ht
    subst ht
    generalize exStumpR.leafNode r = i
    revert i
    show ∀ i : Fin 3, (0 : ℝ) < ![2, 1, 1] i
    intro i
    fin_cases i <;> norm_num
  have hu : 0 < exactOracles.unit := by show (0 : ℝ) < 1 / 1000; norm_num
  cases nc with
  | false =>
    exact C101_returns_constrained (fun _ => rfl) hu exact_qp
      (fun g a c b meq _ _ => exact_qp_complete g a c b meq) hwf hn rfl (by decide) rfl
      (flag := false) (tp := none) rfl (by simp) (by simp)
  | true =>
    exact C101_returns_unconstrained (fun _ => rfl) hu exact_inv
      (fun g a _ hp => exact_inv_complete g a hp) hwf hn rfl (by decide) rfl
      (flag := false) (tp := none) rfl (by simp) (by simp)
end SmoothRF
