import Verif.Model.PosTol
import Verif.Props.LinalgProps

/-! `is_pos_def` and `update_til_psd` with numpy's tolerance for symmetry (C176). -/

set_option linter.unusedSectionVars false

namespace SmoothRF

variable {K : Type} [Field K] [LinearOrder K] [IsStrictOrderedRing K]

/-- The symmetric matrix with the lower triangle of `A`. -/
def lowerSym {n : ℕ} (A : Fin n → Fin n → K) : Fin n → Fin n → K := fun i j => A (max i j) (min i j)

/-- `A` differs from its transpose within numpy's default tolerances. -/
def NearlySymmetric {n : ℕ} (A : Fin n → Fin n → K) : Prop :=
  ∀ i j, |A i j - A j i| ≤ 1 / 10 ^ 8 + 1 / 10 ^ 5 * |A j i|

theorem lowerSym_symm {n : ℕ} (A : Fin n → Fin n → K) (i j : Fin n) : lowerSym A i j = lowerSym A j i := by
  unfold lowerSym; rw [max_comm, min_comm]

theorem lowerSym_of_symm {n : ℕ} {A : Fin n → Fin n → K} (h : ∀ i j, A i j = A j i) : lowerSym A = A := by
  funext i j
  unfold lowerSym
  rcases le_total i j with hij | hij
  · rw [max_eq_right hij, min_eq_left hij, h]
  · rw [max_eq_left hij, min_eq_right hij]

theorem cholOk_congr_lower : ∀ {n : ℕ} (A B : Fin n → Fin n → K), (∀ i j, j ≤ i → A i j = B i j) →
    cholOk n A = cholOk n B
  | 0, _, _, _ => rfl
  | n + 1, A, B, h => by
    unfold cholOk
    rw [h 0 0 le_rfl, cholOk_congr_lower (schurRest A) (schurRest B)]
    intro i j hij
    unfold schurRest
    rw [h _ _ (Fin.succ_le_succ_iff.2 hij), h i.succ 0 (Fin.zero_le _), h j.succ 0 (Fin.zero_le _),
      h 0 0 le_rfl]

theorem nearly_of_symm {n : ℕ} {A : Fin n → Fin n → K} (h : ∀ i j, A i j = A j i) : NearlySymmetric A := by
  intro i j
  rw [h i j, sub_self, abs_zero]
  positivity

theorem nearly_shift {n : ℕ} {A : Fin n → Fin n → K} (h : NearlySymmetric A) (w : K) :
    NearlySymmetric (shiftMat A w) := by
  intro i j
  unfold shiftMat
  by_cases hij : i = j
  · subst hij
    rw [sub_self, abs_zero]
    positivity
  · rw [if_neg hij, if_neg (Ne.symm hij), add_zero, add_zero]
    exact h i j

theorem lowerSym_shift {n : ℕ} (A : Fin n → Fin n → K) (w : K) :
    lowerSym (shiftMat A w) = shiftMat (lowerSym A) w := by
  funext i j
  unfold lowerSym shiftMat
  congr 1
  rcases le_total i j with hij | hij
  · rw [max_eq_right hij, min_eq_left hij]; simp [eq_comm]
  · rw [max_eq_left hij, min_eq_right hij]

/-- C176: `is_pos_def` accepts exactly the nearly symmetric matrices whose lower triangle is that of a
positive definite matrix. -/
theorem C176_is_pos_def {n : ℕ} (A : Fin n → Fin n → K) :
    isPosDefTol A = true ↔ NearlySymmetric A ∧ PosDefForm (lowerSym A) := by
  unfold isPosDefTol
  have e : cholOk n A = cholOk n (lowerSym A) := cholOk_congr_lower _ _ fun i j hij => by
    unfold lowerSym; rw [max_eq_left hij, min_eq_right hij]
  rw [e]
  split_ifs with h
  · rw [cholOk_iff _ (lowerSym_symm A)]
    exact ⟨fun hp => ⟨h, hp⟩, fun hp => hp.2⟩
  · exact ⟨fun hf => by simp at hf, fun hp => absurd hp.1 h⟩

/-- C176: on exactly symmetric matrices, such as `(G + G.T)/2` in `smooth_all`, the tolerance makes no
difference. -/
theorem C176_exact_partial {n : ℕ} (A : Fin n → Fin n → K) (h : ∀ i j, A i j = A j i) (unit : K) (fuel : ℕ) :
    isPosDefTol A = isPosDef A ∧ updateTilPsdTol unit fuel A = updateTilPsd isPosDef unit fuel A := by
  have h1 : ∀ B : Fin n → Fin n → K, (∀ i j, B i j = B j i) → isPosDefTol B = isPosDef B := by
    intro B hB
    rw [Bool.eq_iff_iff, C176_is_pos_def, isPosDef_iff, lowerSym_of_symm hB]
    exact ⟨fun hp => ⟨hB, hp.2⟩, fun hp => ⟨nearly_of_symm hB, hp.2⟩⟩
  have h2 : ∀ fuel k (B : Fin n → Fin n → K), (∀ i j, B i j = B j i) →
      psdLoop isPosDefTol unit fuel k B = psdLoop isPosDef unit fuel k B := by
    intro fuel
    induction fuel with
    | zero => intro k B _; rfl
    | succ f ih =>
      intro k B hB
      unfold psdLoop
      rw [h1 B hB]
      split_ifs
      · rfl
      all_goals
        refine ih _ _ fun i j => ?_
        rw [hB i j]
        by_cases hij : i = j
        · rw [if_pos hij, if_pos hij.symm]
        · rw [if_neg hij, if_neg (Ne.symm hij)]
  refine ⟨h1 A h, ?_⟩
  unfold updateTilPsdTol updateTilPsd
  rw [if_pos (show npAllclose A _ from nearly_of_symm h), if_pos h, h2 _ _ _ h]

/-- C176: `update_til_psd` raises ValueError exactly on the matrices that are not nearly symmetric. On the
others it stops, and returns the matrix itself or the matrix with `unit * 2^k` added on the diagonal, with
the least `k` that makes the lower triangle one of a positive definite matrix. -/
theorem C176_update [Archimedean K] {n : ℕ} (unit : K) (hu : 0 < unit) (g : Fin n → Fin n → K) :
    (¬ NearlySymmetric g → ∀ fuel, updateTilPsdTol unit fuel g = .error .valueError) ∧
    (NearlySymmetric g → ∃ N r, (∀ fuel, N < fuel → updateTilPsdTol unit fuel g = .ok (some r)) ∧
      NearlySymmetric r ∧ PosDefForm (lowerSym r) ∧
      (r = g ∨ ¬ PosDefForm (lowerSym g) ∧
        ∃ k : ℕ, (r = fun i j => g i j + if i = j then unit * 2 ^ k else 0) ∧
          ∀ j < k, ¬ PosDefForm (lowerSym fun a b => g a b + if a = b then unit * 2 ^ j else 0))) := by
  constructor
  · intro h fuel
    unfold updateTilPsdTol
    rw [if_neg (show ¬ npAllclose g _ from h)]
  · intro h
    have run : ∀ fuel, updateTilPsdTol unit fuel g = .ok (psdLoop isPosDefTol unit fuel 0 g) := fun fuel => by
      unfold updateTilPsdTol
      rw [if_pos (show npAllclose g _ from h)]
    have hs := lowerSym_symm g
    obtain ⟨N, r, hN, -, hp, hc⟩ := C99_update_til_psd unit hu (lowerSym g) hs
    -- the two loops make the same decisions
    have key : ∀ fuel k w, psdLoop isPosDefTol unit fuel k (shiftMat g w) = none ∧
          psdLoop isPosDef unit fuel k (shiftMat (lowerSym g) w) = none ∨
        ∃ v, psdLoop isPosDefTol unit fuel k (shiftMat g w) = some (shiftMat g v) ∧
          psdLoop isPosDef unit fuel k (shiftMat (lowerSym g) w) = some (shiftMat (lowerSym g) v) := by
      intro fuel
      induction fuel with
      | zero => intro k w; exact Or.inl ⟨rfl, rfl⟩
      | succ f ih =>
        intro k w
        have e : isPosDefTol (shiftMat g w) = isPosDef (shiftMat (lowerSym g) w) := by
          rw [Bool.eq_iff_iff, C176_is_pos_def, isPosDef_iff, lowerSym_shift]
          refine ⟨fun hp => ⟨fun i j => ?_, hp.2⟩, fun hp => ⟨nearly_shift h w, hp.2⟩⟩
          rw [← lowerSym_shift]; exact lowerSym_symm _ i j
        have add : ∀ (m : Fin n → Fin n → K) (u : K),
            (fun i j => shiftMat m w i j + if i = j then u else 0) = shiftMat m (w + u) := by
          intro m u
          funext i j
          unfold shiftMat
          by_cases hij : i = j <;> simp [hij, add_assoc]
        unfold psdLoop
        rw [e]
        by_cases hp : isPosDef (shiftMat (lowerSym g) w) = true
        · rw [if_pos hp, if_pos hp]
          exact Or.inr ⟨w, rfl, rfl⟩
        · rw [if_neg hp, if_neg hp]
          simp only
          rw [add, add]
          exact ih _ _
    have e0 : ∀ m : Fin n → Fin n → K, shiftMat m 0 = m := fun m => by
      funext i j; simp [shiftMat]
    have hrun : ∀ fuel, N < fuel → ∃ v, updateTilPsdTol unit fuel g = .ok (some (shiftMat g v)) ∧
        r = shiftMat (lowerSym g) v := by
      intro fuel hf
      have hr := hN fuel hf
      unfold updateTilPsd at hr
      rw [if_pos hs] at hr
      have hr := Except.ok.inj hr
      rcases key fuel 0 0 with ⟨-, h2⟩ | ⟨v, h1, h2⟩
      · rw [e0, hr] at h2; cases h2
      · rw [e0] at h1
        rw [e0, hr] at h2
        exact ⟨v, by rw [run, h1], Option.some.inj h2⟩
    obtain ⟨v, -, hv⟩ := hrun (N + 1) (Nat.lt_succ_self N)
    have inj : ∀ v w, shiftMat (lowerSym g) v = shiftMat (lowerSym g) w → shiftMat g v = shiftMat g w := by
      intro v w hvw
      funext i j
      by_cases hij : i = j
      · have := congrFun (congrFun hvw i) j
        simp only [shiftMat, if_pos hij] at this ⊢
        rw [add_left_cancel this]
      · simp only [shiftMat, if_neg hij]
    refine ⟨N, shiftMat g v, fun fuel hf => ?_, nearly_shift h v, ?_, ?_⟩
    · obtain ⟨v', h1, h2⟩ := hrun fuel hf
      rw [h1, inj v' v (h2.symm.trans hv)]
    · rw [lowerSym_shift, ← hv]; exact hp
    · rcases hc with hc | ⟨hg, k, hk, hj⟩
      · left
        rw [← e0 (lowerSym g), hv] at hc
        rw [inj v 0 hc, e0]
      · refine Or.inr ⟨hg, k, ?_, fun j hlt => ?_⟩
        · rw [hv] at hk
          exact inj v (unit * 2 ^ k) hk
        · have := hj j hlt
          rw [show (fun a b => g a b + if a = b then unit * 2 ^ j else 0) = shiftMat g (unit * 2 ^ j) from rfl,
            lowerSym_shift]
          exact this

/-- A matrix that is nearly symmetric, not positive definite, and shifted four times: by 1e-3 times 1, 1,
2 and 4; an error of 2e-5 of the larger entry is refused. -/
example : (match updateTilPsdTol (1 / 1000 : ℚ) 10 ![![1, 1 + 1 / 10 ^ 6], ![1 + 1 / 200, 1]] with
    | .ok (some r) => some (r 0 0) | _ => none) = none ∧
    (match updateTilPsdTol (1 / 1000 : ℚ) 10 ![![1, 1 + 1 / 200 + 1 / 10 ^ 6], ![1 + 1 / 200, 1]] with
    | .ok (some r) => some (r 0 0, r 0 1, r 1 0) | _ => none) =
      some (1 + 8 / 1000, 1 + 1 / 200 + 1 / 10 ^ 6, 1 + 1 / 200) := by
  decide +kernel

/-- The claim of C176 that fails: an accepted matrix has a positive quadratic form, and is symmetric. -/
def C176Claim : Prop :=
  ∀ (n : ℕ) (A : Fin n → Fin n → ℚ), isPosDefTol A = true → (∀ i j, A i j = A j i) ∧ PosDefForm A

/-- C176, what fails: with `A = [[1, 1 + 1e-5], [1, 1 + 1e-6]]` the answer is True, although the matrix is
not symmetric and its quadratic form is negative at (1, -1); `update_til_psd` returns it unchanged. -/
theorem C176_refuted : ¬ C176Claim ∧ ∃ A : Fin 2 → Fin 2 → ℚ, isPosDefTol A = true ∧
    updateTilPsdTol (1 / 10 ^ 13) 1 A = .ok (some A) ∧
    (∃ i j, A i j ≠ A j i) ∧ ∃ x : Fin 2 → ℚ, ∑ i, ∑ j, x i * A i j * x j < 0 := by
  have h1 : isPosDefTol (![![1, 1 + 1 / 10 ^ 5], ![1, 1 + 1 / 10 ^ 6]] : Fin 2 → Fin 2 → ℚ) = true := by
    decide +kernel
  have h2 : ∃ i j, (![![1, 1 + 1 / 10 ^ 5], ![1, 1 + 1 / 10 ^ 6]] : Fin 2 → Fin 2 → ℚ) i j ≠
      (![![1, 1 + 1 / 10 ^ 5], ![1, 1 + 1 / 10 ^ 6]] : Fin 2 → Fin 2 → ℚ) j i := ⟨0, 1, by decide +kernel⟩
  refine ⟨fun h => ?_, _, h1, ?_, h2, ![1, -1], by decide +kernel⟩
  · obtain ⟨i, j, hij⟩ := h2
    exact hij ((h 2 _ h1).1 i j)
  · unfold updateTilPsdTol psdLoop
    rw [h1, if_pos (by decide +kernel)]
    rfl

/-- The second difference matrix with `a` in the upper left corner. -/
def diffMat (a : K) (n : ℕ) : Fin n → Fin n → K := fun i j =>
  if i = j then (if i.val = 0 then a else 2) else if i.val + 1 = j.val ∨ j.val + 1 = i.val then -1 else 0

theorem schurRest_diffMat {a : K} (n : ℕ) :
    schurRest (diffMat a (n + 1)) = diffMat (2 - 1 / a) n := by
  funext i j
  unfold schurRest diffMat
  simp only [Fin.succ_inj, Fin.val_succ, Fin.val_zero, Nat.add_eq_zero_iff, one_ne_zero, and_false, if_false,
    Fin.succ_ne_zero, Nat.add_right_cancel_iff, if_true]
  by_cases hi : i.val = 0 <;> by_cases hj : j.val = 0
  · have : i = j := Fin.ext (by omega)
    simp [this, hj]
  · have h1 : i ≠ j := fun h => hj (h ▸ hi)
    have h2 : ¬ (0 = j.val) := fun h => hj h.symm
    simp [h1, hi, hj, h2]
  · have h1 : i ≠ j := fun h => hi (h ▸ hj)
    have h2 : ¬ (0 = i.val) := fun h => hi h.symm
    simp [h1, hi, hj, h2]
  · have h1 : ¬ (0 = j.val) := fun h => hj h.symm
    have h2 : ¬ (0 = i.val) := fun h => hi h.symm
    simp [hi, hj, h1, h2]

theorem cholOk_diffMat : ∀ (n : ℕ) {a : K}, 1 < a → cholOk n (diffMat a n) = true
  | 0, _, _ => rfl
  | n + 1, a, ha => by
    unfold cholOk
    rw [schurRest_diffMat, cholOk_diffMat n (a := 2 - 1 / a)]
    · have : (0 : K) < a := by linarith
      simpa [diffMat] using this
    · have : 1 / a < 1 := (div_lt_one (by linarith)).2 ha
      linarith

theorem schurRest_one (n : ℕ) : schurRest (fun i j : Fin (n + 1) => if i = j then (1 : K) else 0) =
    fun i j : Fin n => if i = j then (1 : K) else 0 := by
  funext i j
  simp [schurRest, Fin.succ_ne_zero]

theorem cholOk_one : ∀ n : ℕ, cholOk n (fun i j : Fin n => if i = j then (1 : K) else 0) = true
  | 0 => rfl
  | n + 1 => by
    unfold cholOk
    rw [schurRest_one, cholOk_one n]
    simp

theorem isPosDefTol_of_symm {n : ℕ} {A : Fin n → Fin n → K} (h : ∀ i j, A i j = A j i)
    (hc : cholOk n A = true) : isPosDefTol A = true := by
  unfold isPosDefTol
  rw [if_pos (show npAllclose A _ from nearly_of_symm h), hc]

/-- C176: the matrices of the tests, in every size. The identity and the second difference matrix
(2 on the diagonal, -1 beside it) are accepted, `np.arange(n*n).reshape(n, n)` is not for `n` from 2 on, and
`[[a, b], [c, d]]` is accepted exactly if `b` is within the tolerance of `c`, `0 < a` and `c ^ 2 < a d`. -/
theorem C176_tests :
    (∀ n : ℕ, isPosDefTol (fun i j : Fin n => if i = j then (1 : K) else 0) = true) ∧
    (∀ n : ℕ, isPosDefTol (fun i j : Fin n =>
      if i = j then (2 : K) else if i.val + 1 = j.val ∨ j.val + 1 = i.val then -1 else 0) = true) ∧
    (∀ n : ℕ, 2 ≤ n → isPosDefTol (fun i j : Fin n => ((n * i.val + j.val : ℕ) : K)) = false) ∧
    (∀ a b c d : K, isPosDefTol ![![a, b], ![c, d]] = true ↔
      |b - c| ≤ 1 / 10 ^ 8 + 1 / 10 ^ 5 * min |b| |c| ∧ 0 < a ∧ c ^ 2 < a * d) := by
  refine ⟨fun n => isPosDefTol_of_symm (fun i j => by simp [eq_comm]) (cholOk_one n), fun n => ?_,
    fun n hn => ?_, fun a b c d => ?_⟩
  · have e : (fun i j : Fin n =>
        if i = j then (2 : K) else if i.val + 1 = j.val ∨ j.val + 1 = i.val then -1 else 0) = diffMat 2 n := by
      funext i j
      unfold diffMat
      rw [ite_self]
    rw [e]
    refine isPosDefTol_of_symm (fun i j => ?_) (cholOk_diffMat n one_lt_two)
    rw [← e]
    simp only
    by_cases hij : i = j
    · simp [hij]
    · rw [if_neg hij, if_neg (Ne.symm hij)]
      by_cases h : i.val + 1 = j.val ∨ j.val + 1 = i.val
      · rw [if_pos h, if_pos h.symm]
      · rw [if_neg h, if_neg fun h' => h h'.symm]
  · unfold isPosDefTol
    rw [if_neg]
    intro h
    have := h ⟨1, by omega⟩ ⟨0, by omega⟩
    simp only [Nat.mul_one, Nat.add_zero, Nat.mul_zero, Nat.zero_add, Nat.cast_one, abs_one] at this
    have h2 : (2 : K) ≤ (n : K) := by exact_mod_cast hn
    rw [abs_of_nonneg (by linarith)] at this
    norm_num at this
    linarith
  · unfold isPosDefTol
    have e : npAllclose ![![a, b], ![c, d]] (fun i j => (![![a, b], ![c, d]] : Fin 2 → Fin 2 → K) j i) ↔
        |b - c| ≤ 1 / 10 ^ 8 + 1 / 10 ^ 5 * min |b| |c| := by
      unfold npAllclose
      constructor
      · intro h
        have h1 : |b - c| ≤ 1 / 10 ^ 8 + 1 / 10 ^ 5 * |c| := by simpa using h 0 1
        have h2 : |c - b| ≤ 1 / 10 ^ 8 + 1 / 10 ^ 5 * |b| := by simpa using h 1 0
        rcases min_choice |b| |c| with hm | hm <;> rw [hm]
        · rwa [abs_sub_comm]
        · exact h1
      · intro h i j
        have p1 : (0 : K) ≤ 1 / 10 ^ 5 := by positivity
        have h1 := mul_le_mul_of_nonneg_left (min_le_left |b| |c|) p1
        have h2 := mul_le_mul_of_nonneg_left (min_le_right |b| |c|) p1
        have h3 : (0 : K) ≤ 1 / 10 ^ 8 := by positivity
        have h4 := mul_nonneg p1 (abs_nonneg a)
        have h5 := mul_nonneg p1 (abs_nonneg d)
        have hc := abs_sub_comm b c
        fin_cases i <;> fin_cases j
        · show |a - a| ≤ 1 / 10 ^ 8 + 1 / 10 ^ 5 * |a|
          rw [sub_self, abs_zero]; linarith
        · show |b - c| ≤ 1 / 10 ^ 8 + 1 / 10 ^ 5 * |c|
          linarith
        · show |c - b| ≤ 1 / 10 ^ 8 + 1 / 10 ^ 5 * |b|
          linarith
        · show |d - d| ≤ 1 / 10 ^ 8 + 1 / 10 ^ 5 * |d|
          rw [sub_self, abs_zero]; linarith
    have e2 : cholOk 2 (![![a, b], ![c, d]] : Fin 2 → Fin 2 → K) = true ↔ 0 < a ∧ c ^ 2 < a * d := by
      have e3 : cholOk 2 (![![a, b], ![c, d]] : Fin 2 → Fin 2 → K) =
          (decide (0 < a) && (decide (0 < d - c * c / a) && true)) := rfl
      rw [e3]
      simp only [Bool.and_true, Bool.and_eq_true, decide_eq_true_eq]
      refine and_congr_right fun ha => ?_
      rw [sub_pos, div_lt_iff₀ ha, pow_two, mul_comm a d]
    by_cases h : npAllclose ![![a, b], ![c, d]] (fun i j => (![![a, b], ![c, d]] : Fin 2 → Fin 2 → K) j i)
    · rw [if_pos h, e2]
      exact ⟨fun hp => ⟨e.1 h, hp⟩, fun hp => hp.2⟩
    · rw [if_neg h]
      exact ⟨fun hp => by simp at hp, fun hp => absurd (e.2 hp.1) h⟩

end SmoothRF
