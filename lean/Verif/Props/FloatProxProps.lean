import Verif.Model.FloatProx
import Verif.Proofs.FloatSum
import Verif.Proofs.Prox

/-!
# C163: prox_project in double precision
-/

set_option linter.unusedSectionVars false

namespace SmoothRF

theorem fl_le_float {x y : ℚ} (hy : IsFloat y) (h : x ≤ y) : fl x ≤ y := by
  have := fl_nearest x y hy
  rw [abs_of_nonneg (sub_nonneg.2 h), abs_le] at this
  linarith

theorem float_le_fl {x y : ℚ} (hy : IsFloat y) (h : y ≤ x) : y ≤ fl x := by
  have := fl_nearest x y hy
  rw [abs_of_nonpos (sub_nonpos.2 h), abs_le] at this
  linarith

theorem fl_neg_of_neg {x : ℚ} (h : x < 0) : fl x < 0 := by
  have h1 := (fl_bounds (show 0 ≤ -x by linarith)).1
  rw [fl_neg] at h1
  have : (0 : ℚ) < (1 - 1 / 2 ^ 53) * -x := mul_pos (by norm_num) (by linarith)
  linarith

theorem fl_nonpos {x : ℚ} (h : x ≤ 0) : fl x ≤ 0 := fl_le_float isFloat_zero h

theorem flCumsum_getElem? (l : List ℚ) : ∀ (acc : ℚ) (j : ℕ), j < l.length →
    (flCumsum acc l)[j]? = some ((l.take (j + 1)).foldl (fun r x => fl (r + x)) acc) := by
  induction l with
  | nil => intro acc j hj; simp at hj
  | cons a l ih =>
    intro acc j hj
    cases j with
    | zero => simp [flCumsum]
    | succ j =>
      simp only [flCumsum, List.getElem?_cons_succ, List.take_succ_cons, List.foldl_cons]
      exact ih _ _ (by simpa using hj)

theorem flProxThr_eq {n : ℕ} (y : Fin n → ℚ) (j : Fin n) : flProxThr y j =
    fl (fl (flSum ((sortDesc y).take (j.val + 1)) - 1) / ((j.val + 1 : ℕ) : ℚ)) := by
  unfold flProxThr
  rw [flCumsum_getElem? _ _ _ (by rw [sortDesc_length]; exact j.isLt)]
  rfl

/-- A threshold belonging to a partial sum of at most one does not exceed zero, and is negative below one. -/
theorem thr_nonpos {n : ℕ} (y : Fin n → ℚ) (j : Fin n) (h : flSum ((sortDesc y).take (j.val + 1)) ≤ 1) :
    flProxThr y j ≤ 0 ∧ (flSum ((sortDesc y).take (j.val + 1)) < 1 → flProxThr y j < 0) := by
  rw [flProxThr_eq]
  have hk : (0 : ℚ) < ((j.val + 1 : ℕ) : ℚ) := by positivity
  constructor
  · exact fl_nonpos (div_nonpos_of_nonpos_of_nonneg (fl_nonpos (by linarith)) hk.le)
  · intro h
    exact fl_neg_of_neg (div_neg_of_neg_of_pos (fl_neg_of_neg (by linarith)) hk)

theorem mem_sortDesc {n : ℕ} (y : Fin n → ℚ) (x : ℚ) : x ∈ sortDesc y ↔ ∃ i, y i = x := by
  rw [(sortDesc_perm y).mem_iff, List.mem_ofFn]

theorem exists_max {n : ℕ} (y : Fin (n + 1) → ℚ) : ∃ i, ∀ j, y j ≤ y i := by
  obtain ⟨i, -, hi⟩ := Finset.exists_max_image Finset.univ y ⟨0, Finset.mem_univ _⟩
  exact ⟨i, fun j => hi j (Finset.mem_univ _)⟩

theorem pow_small (m : ℕ) (hm : m ≤ 2 ^ 52) : (1 + 1 / 2 ^ 53 : ℚ) ^ m ≤ 1 + 2 * m * (1 / 2 ^ 53) := by
  induction m with
  | zero => simp
  | succ m ih =>
    have hmq : (m : ℚ) ≤ 2 ^ 52 := by exact_mod_cast (by omega : m ≤ 2 ^ 52)
    rw [pow_succ (1 + 1 / 2 ^ 53 : ℚ) m]
    have hmu : 2 * (m : ℚ) * (1 / 2 ^ 53) ≤ 1 := by
      have := mul_le_mul_of_nonneg_right hmq (show (0 : ℚ) ≤ 2 * (1 / 2 ^ 53) by positivity)
      have e : (2 : ℚ) ^ 52 * (2 * (1 / 2 ^ 53)) = 1 := by norm_num
      linarith
    have := mul_le_mul_of_nonneg_right (ih (by omega)) (show (0 : ℚ) ≤ 1 + 1 / 2 ^ 53 by positivity)
    refine this.trans ?_
    have h3 := mul_le_mul_of_nonneg_right hmu (show (0 : ℚ) ≤ 1 / 2 ^ 53 by positivity)
    push_cast
    linarith

/-- The largest entry exceeds the threshold of its position. -/
theorem thr_lt_max {n : ℕ} (y : Fin (n + 1) → ℚ) (h0 : ∀ i, 0 ≤ y i) (i : Fin (n + 1)) (hi : ∀ j, y j ≤ y i)
    (hn : ((n : ℚ) + 1) * (n + 3) * y i < 2 ^ 52) (hn' : n ≤ 2 ^ 50) : flProxThr y i < y i := by
  set l := (sortDesc y).take (i.val + 1) with hl
  have hk : l.length = i.val + 1 := by
    rw [hl, List.length_take, sortDesc_length]
    have := i.isLt
    omega
  have hnn : ∀ x ∈ l, 0 ≤ x := fun x hx => by
    obtain ⟨j, rfl⟩ := (mem_sortDesc y x).1 (List.mem_of_mem_take hx)
    exact h0 j
  have hsum : l.sum ≤ ((i.val + 1 : ℕ) : ℚ) * y i := by
    refine take_sum_le _ _ (fun a ha => ?_) _ (by rw [sortDesc_length]; exact i.isLt)
    obtain ⟨j, rfl⟩ := (mem_sortDesc y a).1 ha
    exact hi j
  have hb := ((rsum_flSum l).bounds hnn).2
  rw [hk] at hb
  rcases lt_or_ge (flSum l) 1 with h1 | h1
  · exact lt_of_lt_of_le ((thr_nonpos y i h1.le).2 h1) (h0 i)
  rw [flProxThr_eq, ← hl]
  set k : ℚ := ((i.val + 1 : ℕ) : ℚ) with hkq
  have hk0 : 0 < k := by rw [hkq]; positivity
  have hkn : k ≤ n + 1 := by
    rw [hkq]
    exact_mod_cast i.isLt
  have a1 := (fl_bounds (show 0 ≤ flSum l - 1 by linarith)).2
  have a0 : 0 ≤ fl (flSum l - 1) := float_le_fl isFloat_zero (by linarith)
  have a2 := (fl_bounds (div_nonneg a0 hk0.le)).2
  refine lt_of_le_of_lt a2 ?_
  rw [← mul_div_assoc, div_lt_iff₀ hk0]
  have b1 : (1 + 1 / 2 ^ 53) * fl (flSum l - 1) ≤ (1 + 1 / 2 ^ 53) * ((1 + 1 / 2 ^ 53) * (flSum l - 1)) :=
    mul_le_mul_of_nonneg_left a1 (by positivity)
  have b2 : (1 + 1 / 2 ^ 53 : ℚ) * ((1 + 1 / 2 ^ 53) * (flSum l - 1)) ≤
      (1 + 1 / 2 ^ 53) ^ 2 * flSum l - 1 := by
    have : (1 : ℚ) ≤ (1 + 1 / 2 ^ 53) ^ 2 := one_le_pow₀ (by norm_num)
    linarith
  have b3 : (1 + 1 / 2 ^ 53 : ℚ) ^ 2 * flSum l ≤ (1 + 1 / 2 ^ 53) ^ (i.val + 3) * (k * y i) := by
    have e : (1 + 1 / 2 ^ 53 : ℚ) ^ (i.val + 3) * (k * y i) =
        (1 + 1 / 2 ^ 53) ^ 2 * ((1 + 1 / 2 ^ 53) ^ (i.val + 1) * (k * y i)) := by ring
    rw [e]
    refine mul_le_mul_of_nonneg_left (hb.trans ?_) (by positivity)
    exact mul_le_mul_of_nonneg_left hsum (by positivity)
  have hyi := h0 i
  have hky : 0 ≤ k * y i := mul_nonneg hk0.le hyi
  have b4 := mul_le_mul_of_nonneg_right (pow_small (i.val + 3) (by have := i.isLt; omega)) hky
  have b5 : ((i.val + 3 : ℕ) : ℚ) * (k * y i) < 2 ^ 52 := by
    have e1 : ((i.val + 3 : ℕ) : ℚ) ≤ n + 3 := by
      have : i.val + 3 ≤ n + 3 := by have := i.isLt; omega
      exact_mod_cast this
    calc ((i.val + 3 : ℕ) : ℚ) * (k * y i) ≤ (n + 3) * ((n + 1) * y i) :=
          mul_le_mul e1 (mul_le_mul_of_nonneg_right hkn hyi) hky (by positivity)
      _ = ((n : ℚ) + 1) * (n + 3) * y i := by ring
      _ < _ := hn
  have b6 : 2 * ((i.val + 3 : ℕ) : ℚ) * (1 / 2 ^ 53) * (k * y i) < 1 := by
    have := mul_lt_mul_of_pos_right b5 (show (0 : ℚ) < 2 * (1 / 2 ^ 53) by positivity)
    have e : (2 : ℚ) ^ 52 * (2 * (1 / 2 ^ 53)) = 1 := by norm_num
    linarith
  linarith

theorem flRho_ne {n : ℕ} (y : Fin n → ℚ) (i : Fin n) (h : flProxThr y i < y i) : flProxRho y ≠ [] := by
  intro e
  have : i ∈ flProxRho y := by simp [flProxRho, h]
  rw [e] at this
  simp at this

/-- C163: for `n` doubles below `2^52 / (n (n + 2))` `prox_project` returns; the result is non-negative and at most
the positive part. -/
theorem C163_returns {n : ℕ} (y : Fin (n + 1) → ℚ) (hf : ∀ i, IsFloat (y i)) (hn' : n ≤ 2 ^ 50)
    (hn : ∀ i, ((n : ℚ) + 1) * (n + 3) * y i < 2 ^ 52) :
    ∃ x, flProxProject y = .ok x ∧ ∀ i, IsFloat (x i) ∧ 0 ≤ x i ∧ x i ≤ max (y i) 0 := by
  obtain ⟨i, hi⟩ := exists_max (clip0 y)
  have hb : ((n : ℚ) + 1) * (n + 3) * clip0 y i < 2 ^ 52 := by
    rw [clip0_eq_max]
    rcases max_choice (y i) 0 with e | e <;> rw [e]
    · exact hn i
    · norm_num
  have hne := flRho_ne _ _ (thr_lt_max _ (clip0_nonneg y) i hi hb hn')
  obtain ⟨m, hm⟩ := npMaxE_isOk ((flProxRho (clip0 y)).map (flProxThr (clip0 y))) (by simpa using hne)
  refine ⟨_, by unfold flProxProject; dsimp only; rw [hm]; rfl, fun j => ?_⟩
  have hcf : IsFloat (clip0 y j) := by
    unfold clip0; split
    · exact isFloat_zero
    · exact hf j
  refine ⟨?_, clip0_nonneg _ _, ?_⟩
  · conv => arg 1; unfold clip0
    split
    · exact isFloat_zero
    · exact fl_isFloat _
  · rw [clip0_eq_max (fun i => fl (clip0 y i - max m 0)), ← clip0_eq_max y]
    refine max_le (fl_le_float hcf ?_) (clip0_nonneg _ _)
    linarith [le_max_right m 0]

/-- Two entries of about `2^45`, within the bound: the result is `[53/64, 21/128]`. In exact arithmetic it would add
up to one (C20). -/
example : ((1 : ℚ) + 1) * (1 + 3) * (2 ^ 45 + 1) < 2 ^ 52 ∧
    (match flProxProject ![2 ^ 45 + 1, fl (2 ^ 45 + 1 / 3)] with
    | .ok x => some (decide (x 0 + x 1 = 1)) | .error _ => none) = some false := by decide +kernel

/-- Adding non-negative doubles never lowers the running total. -/
theorem le_foldl_fl (l : List ℚ) : ∀ (acc : ℚ), IsFloat acc → (∀ x ∈ l, 0 ≤ x) →
    acc ≤ l.foldl (fun r x => fl (r + x)) acc := by
  induction l with
  | nil => intro acc _ _; exact le_rfl
  | cons a l ih =>
    intro acc hacc hl
    have ha := hl a (by simp)
    exact (float_le_fl hacc (by linarith)).trans (ih _ (fl_isFloat _) fun x hx => hl x (by simp [hx]))

theorem flSum_isFloat (l : List ℚ) : IsFloat (flSum l) := by
  rcases l.eq_nil_or_concat with rfl | ⟨l, a, rfl⟩
  · exact isFloat_zero
  · unfold flSum
    rw [List.concat_eq_append, List.foldl_append]
    exact fl_isFloat _

theorem flSum_take_le (l : List ℚ) (hl : ∀ x ∈ l, 0 ≤ x) (j : ℕ) : flSum (l.take j) ≤ flSum l := by
  conv_rhs => rw [← List.take_append_drop j l]
  unfold flSum
  rw [List.foldl_append]
  exact le_foldl_fl _ _ (flSum_isFloat (l.take j)) fun x hx => hl x (List.mem_of_mem_drop hx)

theorem clip0_float {n : ℕ} (y : Fin n → ℚ) (hf : ∀ i, IsFloat (y i)) (j : Fin n) : IsFloat (clip0 y j) := by
  unfold clip0
  split
  · exact isFloat_zero
  · exact hf j

theorem sortDesc_clip_nonneg {n : ℕ} (y : Fin n → ℚ) : ∀ x ∈ sortDesc (clip0 y), 0 ≤ x := fun x hx => by
  obtain ⟨j, rfl⟩ := (mem_sortDesc _ x).1 hx
  exact clip0_nonneg y j

/-- C163: a vector whose positive part adds up (in doubles, in descending order) to at most one is returned bit
for bit. -/
theorem C163_feasible {n : ℕ} (y : Fin (n + 1) → ℚ) (hf : ∀ i, IsFloat (y i))
    (hs : flSum (sortDesc (clip0 y)) ≤ 1) : flProxProject y = .ok (clip0 y) := by
  have hle : ∀ j : Fin (n + 1), flSum ((sortDesc (clip0 y)).take (j.val + 1)) ≤ 1 := fun j =>
    (flSum_take_le _ (sortDesc_clip_nonneg y) _).trans hs
  obtain ⟨i, hi⟩ := exists_max (clip0 y)
  have hlt : flProxThr (clip0 y) i < clip0 y i := by
    obtain ⟨h1, h2⟩ := thr_nonpos (clip0 y) i (hle i)
    rcases lt_or_eq_of_le (clip0_nonneg y i) with h | h
    · exact lt_of_le_of_lt h1 h
    · rw [← h]
      refine h2 ?_
      have hz : ∀ x ∈ (sortDesc (clip0 y)).take (i.val + 1), x = 0 := fun x hx => by
        obtain ⟨j, rfl⟩ := (mem_sortDesc _ x).1 (List.mem_of_mem_take hx)
        exact le_antisymm (h ▸ hi j) (clip0_nonneg y j)
      have : ∀ l : List ℚ, (∀ x ∈ l, x = 0) → flSum l = 0 := by
        intro l hl
        unfold flSum
        induction l with
        | nil => rfl
        | cons a l ih =>
          rw [List.foldl_cons, hl a (by simp), zero_add, fl_zero]
          exact ih fun x hx => hl x (by simp [hx])
      rw [this _ hz]
      norm_num
  obtain ⟨m, hm⟩ := npMaxE_isOk ((flProxRho (clip0 y)).map (flProxThr (clip0 y)))
    (by simpa using flRho_ne _ _ hlt)
  have hm0 : m ≤ 0 := by
    obtain ⟨hmem, -⟩ := npMaxE_spec _ _ hm
    obtain ⟨j, -, rfl⟩ := List.mem_map.1 hmem
    exact (thr_nonpos (clip0 y) j (hle j)).1
  unfold flProxProject
  dsimp only
  rw [hm]
  change Except.ok _ = Except.ok _
  congr 1
  rw [max_eq_right hm0]
  funext j
  rw [clip0_eq_max (fun i => fl (clip0 y i - 0)), sub_zero, fl_of_float (clip0_float y hf j),
    max_eq_left (clip0_nonneg y j)]

/-- Three weights which in doubles do not add up to one exactly; and a negative one. -/
example : flSum (sortDesc (clip0 ![fl (1 / 10), fl (7 / 10), fl (2 / 10), -1])) < 1 ∧
    (match flProxProject ![fl (1 / 10), fl (7 / 10), fl (2 / 10), -1] with
    | .ok x => some (x 0, x 3) | .error _ => none) = some (fl (1 / 10), 0) := by decide +kernel

/-- Above `2^54` neighbouring doubles differ by four or more: subtracting one changes nothing. -/
theorem fl_sub_one {x : ℚ} (hf : IsFloat x) (hb : 2 ^ 54 ≤ x) : fl (x - 1) = x := by
  obtain ⟨-, e, -, h1, h2, -⟩ := fl_pos_spec (show 0 < x - 1 by norm_num at hb; linarith)
  have he : 1 ≤ e := by
    have h3 : (2 : ℚ) ^ (0 : ℤ) < 2 ^ e := by
      rw [zpow_zero]
      by_contra hn
      have := mul_le_mul_of_nonneg_left (not_lt.1 hn) (show (0 : ℚ) ≤ 2 ^ 53 by positivity)
      norm_num at hb this h2
      linarith
    exact (zpow_lt_zpow_iff_right₀ (by norm_num)).1 h3
  have hpos : (0 : ℚ) < 2 ^ e := by positivity
  rcases float_cases h1 hf with ⟨k, hk⟩ | h3
  · have hk0 : 0 ≤ k := by
      have : (0 : ℚ) ≤ k := by
        by_contra hn
        have := mul_neg_of_neg_of_pos (not_le.1 hn) hpos
        norm_num at hb
        linarith
      exact_mod_cast this
    obtain ⟨n, rfl⟩ := Int.eq_ofNat_of_zero_le hk0
    rw [Int.cast_natCast] at hk
    have hq : (x - 1) / 2 ^ e = n - 1 / 2 ^ e := by
      rw [sub_div, hk, mul_div_assoc, div_self hpos.ne', mul_one]
    have hd : ((n : ℤ) : ℚ) - (x - 1) / 2 ^ e = 1 / 2 ^ e := by rw [hq]; push_cast; ring
    have hnear : NearInt ((x - 1) / 2 ^ e) (n : ℕ) := by
      unfold NearInt
      rw [hd, abs_of_pos (by positivity)]
      rcases eq_or_lt_of_le he with h | h
      · right
        subst h
        refine ⟨by norm_num, ?_⟩
        have hn : n = 2 ^ 53 := by
          rw [zpow_one] at hk h2
          have a1 : ((2 * 2 ^ 53 : ℕ) : ℚ) ≤ ((n * 2 : ℕ) : ℚ) := by push_cast; rw [← hk]; norm_num at hb ⊢; linarith
          have a2 : ((n * 2 : ℕ) : ℚ) < ((2 * 2 ^ 53 + 1 : ℕ) : ℚ) := by
            push_cast; rw [← hk]; norm_num at h2 ⊢; linarith
          have b1 : 2 * 2 ^ 53 ≤ n * 2 := by exact_mod_cast a1
          have b2 : n * 2 < 2 * 2 ^ 53 + 1 := by exact_mod_cast a2
          omega
        rw [hn]
        decide
      · left
        have : (2 : ℚ) ^ (2 : ℤ) ≤ 2 ^ e := zpow_le_zpow_right₀ (by norm_num) (by omega)
        rw [div_lt_div_iff₀ hpos (by norm_num)]
        norm_num at this
        linarith
    rw [fl_eq_of h1 h2 hnear, hk]
  · linarith

/-- C163: in exact arithmetic `prox_project` returns for every vector (C19); in doubles it raises ValueError
whenever the first entry is `2^54` or more and the others are not positive: subtracting one changes nothing. -/
theorem C163_refuted {n : ℕ} (y : Fin (n + 1) → ℚ) (hf : IsFloat (y 0)) (hb : 2 ^ 54 ≤ y 0)
    (hy : ∀ i, i ≠ 0 → y i ≤ 0) : flProxProject y = .error .valueError := by
  have h0 : 0 ≤ y 0 := le_trans (by norm_num) hb
  have hc0 : clip0 y 0 = y 0 := by rw [clip0_eq_max, max_eq_left h0]
  have hc : ∀ i, i ≠ 0 → clip0 y i = 0 := fun i hi => by rw [clip0_eq_max, max_eq_right (hy i hi)]
  have hle : ∀ i, clip0 y i ≤ y 0 := fun i => by
    by_cases hi : i = 0
    · rw [hi, hc0]
    · rw [hc i hi]; exact h0
  obtain ⟨t, ht⟩ : ∃ t, sortDesc (clip0 y) = y 0 :: t := by
    have hlen := sortDesc_length (clip0 y)
    have hso := sortDesc_sorted (clip0 y)
    have hmem := (mem_sortDesc (clip0 y) (y 0)).2 ⟨0, hc0⟩
    rcases hl : sortDesc (clip0 y) with _ | ⟨a, t⟩
    · rw [hl] at hlen; simp at hlen
    · refine ⟨t, ?_⟩
      rw [hl] at hso hmem
      obtain ⟨j, hj⟩ := (mem_sortDesc (clip0 y) a).1 (by rw [hl]; simp)
      have h1 : a ≤ y 0 := hj ▸ hle j
      have h2 : y 0 ≤ a := by
        rcases List.mem_cons.1 hmem with e | e
        · exact e.le
        · exact (List.pairwise_cons.1 hso).1 _ e
      rw [le_antisymm h1 h2]
  have hnil : flProxRho (clip0 y) = [] := by
    unfold flProxRho
    rw [List.filter_eq_nil_iff]
    intro j _
    rw [decide_eq_true_eq, not_lt, flProxThr_eq, ht]
    by_cases hj : j = 0
    · subst hj
      simp [flSum, hc0, fl_of_float hf, fl_sub_one hf hb]
    · rw [hc j hj]
      refine float_le_fl isFloat_zero (div_nonneg (float_le_fl isFloat_zero ?_) (by positivity))
      rw [List.take_succ_cons]
      unfold flSum
      rw [List.foldl_cons, zero_add, fl_of_float hf]
      have hnn : ∀ x ∈ t.take j.val, 0 ≤ x := fun x hx =>
        sortDesc_clip_nonneg y x (by rw [ht]; exact List.mem_cons_of_mem _ (List.mem_of_mem_take hx))
      have := le_foldl_fl (t.take j.val) (y 0) hf hnn
      norm_num at hb
      linarith
  unfold flProxProject
  dsimp only
  rw [hnil]
  rfl

example : (match flProxProject ![2 ^ 54, -1, 0] with | .ok _ => none | .error e => some e) =
    some .valueError := by decide +kernel

end SmoothRF
