import Mathlib.Data.Int.Log
import Verif.Model.FloatForest
import Verif.Spec.Affine
import Verif.Proofs.Float
import Verif.Props.AffineProps
import Verif.Props.FloatForestProps

/-!
# Change of units in double precision (C206)

Multiplying the response by a power of two, or by minus a power of two, changes no digit of any intermediate result.
-/

set_option linter.unusedSectionVars false

namespace SmoothRF

open Topo SkTree

variable {n C : ℕ}

/-! ### Exact factors -/

/-- Factors that commute with rounding. -/
def ExactFactor (a : ℚ) : Prop := a ≠ 0 ∧ ∀ x, fl (a * x) = a * fl x

theorem nearInt_zpow {x : ℚ} {m : ℕ} {e z : ℤ} (h : NearInt (x / 2 ^ e) m) : NearInt (2 ^ z * x / 2 ^ (z + e)) m := by
  have : (2 : ℚ) ^ z * x / 2 ^ (z + e) = x / 2 ^ e := by
    rw [zpow_add₀ (by norm_num), mul_div_mul_left _ _ (by positivity)]
  rwa [this]

theorem fl_zpow_mul (z : ℤ) (x : ℚ) : fl (2 ^ z * x) = 2 ^ z * fl x := by
  have pos : ∀ x : ℚ, 0 < x → fl (2 ^ z * x) = 2 ^ z * fl x := by
    intro x hx
    obtain ⟨m, e, he, h1, h2, h3⟩ := fl_pos_spec hx
    have hz : (0 : ℚ) < 2 ^ z := by positivity
    have hadd : (2 : ℚ) ^ (z + e) = 2 ^ z * 2 ^ e := zpow_add₀ (by norm_num) _ _
    rw [he, fl_eq_of (m := m) (e := z + e) ?_ ?_ (nearInt_zpow h3), hadd]
    · ring
    · rw [hadd]
      calc 2 ^ 52 * ((2 : ℚ) ^ z * 2 ^ e) = 2 ^ z * (2 ^ 52 * 2 ^ e) := by ring
        _ ≤ _ := mul_le_mul_of_nonneg_left h1 hz.le
    · rw [hadd]
      calc (2 : ℚ) ^ z * x < 2 ^ z * (2 ^ 53 * 2 ^ e) := mul_lt_mul_of_pos_left h2 hz
        _ = _ := by ring
  rcases lt_trichotomy x 0 with h | h | h
  · have := pos (-x) (by linarith)
    rw [mul_neg, fl_neg, fl_neg, mul_neg] at this
    exact neg_inj.1 this
  · rw [h, mul_zero, fl_zero, mul_zero]
  · exact pos x h

theorem exactFactor_zpow (z : ℤ) : ExactFactor (2 ^ z) := ⟨by positivity, fl_zpow_mul z⟩

theorem ExactFactor.neg {a : ℚ} (h : ExactFactor a) : ExactFactor (-a) :=
  ⟨neg_ne_zero.2 h.1, fun x => by rw [neg_mul, fl_neg, h.2, neg_mul]⟩

theorem ExactFactor.mul {a b : ℚ} (ha : ExactFactor a) (hb : ExactFactor b) : ExactFactor (a * b) :=
  ⟨mul_ne_zero ha.1 hb.1, fun x => by rw [mul_assoc, ha.2, hb.2, mul_assoc]⟩

/-- Sums that commute with an exact factor: whatever the order of the additions, if that order depends on the number of terms
only. -/
def SumScales (sum : List ℚ → ℚ) (a : ℚ) : Prop := ∀ l, sum (l.map (a * ·)) = a * sum l

theorem SumScales.mul {sum : List ℚ → ℚ} {a b : ℚ} (ha : SumScales sum a) (hb : SumScales sum b) : SumScales sum (a * b) := by
  intro l
  rw [mul_assoc, ← hb, ← ha, List.map_map]
  congr 1
  exact List.map_congr_left fun x _ => by simp [mul_assoc]

section sums

variable {a : ℚ} (ha : ExactFactor a)
include ha

theorem foldl_scale (l : List ℚ) : ∀ r, (l.map (a * ·)).foldl (fun r x => fl (r + x)) (a * r) =
    a * l.foldl (fun r x => fl (r + x)) r := by
  induction l with
  | nil => intro r; rfl
  | cons x l ih =>
    intro r
    rw [List.map_cons, List.foldl_cons, List.foldl_cons, ← mul_add, ha.2, ih]

theorem flSum_scales : SumScales flSum a := by
  intro l
  have := foldl_scale ha l 0
  rwa [mul_zero] at this

theorem laneAdd_scale (r s : List ℚ) : laneAdd (r.map (a * ·)) (s.map (a * ·)) = (laneAdd r s).map (a * ·) := by
  unfold laneAdd
  rw [List.zipWith_map, List.map_zipWith]
  congr 1
  funext x y
  rw [← mul_add, ha.2]

theorem lanes_scale : ∀ (b : ℕ) (r s : List ℚ), lanes b (r.map (a * ·)) (s.map (a * ·)) =
    ((lanes b r s).1.map (a * ·), (lanes b r s).2.map (a * ·))
  | 0, _, _ => rfl
  | b + 1, r, s => by
    rw [lanes, ← List.map_take, ← List.map_drop, laneAdd_scale ha, lanes_scale b]
    rfl

theorem getD_scale (r : List ℚ) (i : ℕ) : (r.map (a * ·)).getD i 0 = a * r.getD i 0 := by
  rw [List.getD_eq_getElem?_getD, List.getD_eq_getElem?_getD, List.getElem?_map]
  cases r[i]? <;> simp

theorem laneTotal_scale (r : List ℚ) : laneTotal (r.map (a * ·)) = a * laneTotal r := by
  unfold laneTotal
  simp only [getD_scale ha, ← mul_add, ha.2]

theorem pairwise_scale : ∀ (f : ℕ) (l : List ℚ), pairwiseSum f (l.map (a * ·)) = a * pairwiseSum f l
  | 0, l => flSum_scales ha l
  | f + 1, l => by
    rw [pairwiseSum, pairwiseSum, List.length_map]
    split_ifs
    · exact flSum_scales ha l
    · simp only [← List.map_take, ← List.map_drop, lanes_scale ha, laneTotal_scale ha]
      exact foldl_scale ha _ _
    · simp only [← List.map_take, ← List.map_drop]
      rw [pairwise_scale f, pairwise_scale f, ← mul_add, ha.2]

theorem npSum_scales : SumScales npSum a := by
  intro l
  unfold npSum
  rw [List.length_map]
  exact pairwise_scale ha _ l

end sums

/-! ### Rows -/

/-- A row in the new units. -/
def unitRow (a : ℚ) (r : Row ℚ n) : Row ℚ n := { r with y := a * r.y, gam := fun j => a * r.gam j }

section rows

variable {sum : List ℚ → ℚ} {a : ℚ} (ha : ExactFactor a) (hs : SumScales sum a)
include ha hs

theorem flDot_unit (g l : Fin n → ℚ) : flDot sum (fun j => a * g j) l = a * flDot sum g l := by
  unfold flDot
  rw [← hs, List.map_map]
  congr 1
  exact List.map_congr_left fun j _ => by simp only [Function.comp, mul_assoc, ha.2]

theorem flFillAssert_unit (rows : List (Row ℚ n)) (l : Fin n → ℚ) :
    flFillAssert sum (rows.map (unitRow a)) l = flFillAssert sum rows l := by
  unfold flFillAssert
  rw [List.all_map]
  congr 1
  funext r
  simp only [Function.comp, unitRow, flDot_unit ha hs, mul_eq_zero, ha.1, false_or]
  rfl

theorem flSmoothValue_unit (r : Row ℚ n) (l : Fin n → ℚ) : flSmoothValue sum (unitRow a r) l = a * flSmoothValue sum r l := by
  show (if flDot sum r.eta l = 0 then 0 else fl (flDot sum (fun j => a * r.gam j) l / flDot sum r.eta l)) =
    a * (if flDot sum r.eta l = 0 then 0 else fl (flDot sum r.gam l / flDot sum r.eta l))
  split_ifs
  · rw [mul_zero]
  · rw [flDot_unit ha hs, mul_div_assoc, ha.2]

theorem flCostTerm_unit (r : Row ℚ n) (l : Fin n → ℚ) : flCostTerm sum (unitRow a r) l = a * a * flCostTerm sum r l := by
  unfold flCostTerm
  rw [flSmoothValue_unit ha hs]
  simp only [unitRow]
  rw [← mul_sub, ha.2]
  generalize fl (r.y - flSmoothValue sum r l) = d
  rw [show a * d * (a * d) = a * a * (d * d) by ring, (ha.mul ha).2, mul_assoc (a * a), (ha.mul ha).2]

theorem flCalcCost_unit (rows : List (Row ℚ n)) (l : Fin n → ℚ) :
    flCalcCost sum (rows.map (unitRow a)) l = (flCalcCost sum rows l).map (a * a * ·) := by
  unfold flCalcCost
  rw [flFillAssert_unit ha hs]
  split_ifs
  · rw [List.map_map]
    simp only [Except.map]
    rw [← (hs.mul hs), List.map_map]
    congr 2
    exact List.map_congr_left fun r _ => flCostTerm_unit ha hs r l
  · rfl

theorem flGradTerm_unit (r : Row ℚ n) (l : Fin n → ℚ) (j : Fin n) :
    fl (flGradLeft sum (unitRow a r) l * flGradYhat sum (unitRow a r) l j) =
      a * a * fl (flGradLeft sum r l * flGradYhat sum r l j) := by
  have e1 : flGradLeft sum (unitRow a r) l = a * flGradLeft sum r l := by
    unfold flGradLeft flEtaFill
    simp only [unitRow]
    rw [flDot_unit ha hs, mul_div_assoc, ha.2, ← mul_sub, ha.2, mul_left_comm, ha.2, mul_assoc, ha.2]
    rfl
  have e2 : flGradYhat sum (unitRow a r) l j = a * flGradYhat sum r l j := by
    unfold flGradYhat flEtaFill
    simp only [unitRow]
    rw [flDot_unit ha hs, mul_div_assoc, ha.2, mul_left_comm, ha.2, mul_assoc, ha.2, ← mul_sub, ha.2]
    rfl
  rw [e1, e2, mul_mul_mul_comm, (ha.mul ha).2]

theorem flTakeGradient_unit (rows : List (Row ℚ n)) (l : Fin n → ℚ) :
    flTakeGradient sum (rows.map (unitRow a)) l = (flTakeGradient sum rows l).map fun g j => a * a * g j := by
  unfold flTakeGradient
  rw [flFillAssert_unit ha hs]
  split_ifs
  · simp only [Except.map]
    congr 1
    funext j
    rw [← (hs.mul hs), List.map_map, List.map_map]
    congr 1
    exact List.map_congr_left fun r _ => flGradTerm_unit ha hs r l j
  · rfl

end rows

/-! ### Descent -/

/-- Stored moments in the new units of the gradient. -/
def unitIv (s : ℚ) (iv : Iv ℚ n) : Iv ℚ n := { iv with m1 := fun j => s * iv.m1 j, m2 := fun j => s * s * iv.m2 j }

/-- Options in the new units. -/
def unitOpts (s : ℚ) (o : SgdOpts ℚ) : SgdOpts ℚ := ⟨o.tFix / s, o.constrained, o.adam.map (affAdam s)⟩

/-- State of the descent in the new units. -/
def unitState (s : ℚ) (st : SgdState ℚ n) : SgdState ℚ n :=
  ⟨st.lamb, st.iv.map (unitIv s), st.lambBest, s * st.costBest, st.costAll.map (s * ·)⟩

/-- What the square root has to satisfy for Adam: true of a correctly rounded root and a power of two. -/
def SqrtScales (sqrt : ℚ → ℚ) (s : ℚ) : Prop := ∀ x, 0 ≤ x → sqrt (s * s * x) = s * sqrt x

section descent

variable {pow : ℚ → ℕ → ℚ} {sqrt : ℚ → ℚ} {s : ℚ} (hx : ExactFactor s) (hpos : 0 < s)
include hx hpos

theorem flAdamBody_unit (hq : SqrtScales sqrt s) {gf gf' : (Fin n → ℚ) → Except PyErr (Fin n → ℚ)}
    (hg : ∀ l, gf' l = (gf l).map fun g j => s * g j) (o : AdamOpts ℚ) (iv : Iv ℚ n) :
    flAdamBody pow sqrt gf' (affAdam s o) (unitIv s iv) =
      (flAdamBody pow sqrt gf o iv).map fun p => (p.1, unitIv s p.2) := by
  have hss := hx.mul hx
  unfold flAdamBody
  rw [show (unitIv s iv).lamb = iv.lamb from rfl, hg]
  cases gf iv.lamb with
  | error e => rfl
  | ok g =>
    simp only [Except.map, bind, Except.bind, affAdam, unitIv]
    have e1 : ∀ j, fl (fl (s * iv.m1 j * o.beta1) + fl (fl (1 - o.beta1) * (s * g j))) =
        s * fl (fl (iv.m1 j * o.beta1) + fl (fl (1 - o.beta1) * g j)) := fun j => by
      rw [mul_assoc, hx.2, mul_left_comm, hx.2, ← mul_add, hx.2]
    have e2 : ∀ j, fl (fl (s * s * iv.m2 j * o.beta2) + fl (fl (1 - o.beta1) * fl (s * g j * (s * g j)))) =
        s * s * fl (fl (iv.m2 j * o.beta2) + fl (fl (1 - o.beta1) * fl (g j * g j))) := fun j => by
      rw [mul_mul_mul_comm s (g j), hss.2, mul_assoc (s * s), hss.2, mul_left_comm, hss.2, ← mul_add, hss.2]
    simp only [e1, e2]
    split_ifs with h1 h2 h3 h3
    · rfl
    · rfl
    · exfalso
      apply h3
      obtain ⟨j, hj⟩ := h2
      refine ⟨j, ?_⟩
      rw [mul_div_assoc, hss.2] at hj
      rcases hj with hj | hj
      · exact Or.inl (by by_contra hc; exact absurd hj (not_lt.2 (mul_nonneg (mul_pos hpos hpos).le (not_lt.1 hc))))
      · by_cases hn : fl (fl (fl (iv.m2 j * o.beta2) + fl (fl (1 - o.beta1) * fl (g j * g j))) /
            fl (1 - pow o.beta2 (iv.t + 1))) < 0
        · exact Or.inl hn
        · rw [hq _ (not_lt.1 hn), ← mul_add, hx.2] at hj
          exact Or.inr ((mul_eq_zero.1 hj).resolve_left hx.1)
    · exfalso
      apply h2
      obtain ⟨j, hj⟩ := h3
      refine ⟨j, ?_⟩
      rw [mul_div_assoc, hss.2]
      rcases hj with hj | hj
      · exact Or.inl (mul_neg_of_pos_of_neg (mul_pos hpos hpos) hj)
      · by_cases hn : fl (fl (fl (iv.m2 j * o.beta2) + fl (fl (1 - o.beta1) * fl (g j * g j))) /
            fl (1 - pow o.beta2 (iv.t + 1))) < 0
        · exact Or.inl (mul_neg_of_pos_of_neg (mul_pos hpos hpos) hn)
        · rw [hq _ (not_lt.1 hn), ← mul_add, hx.2, hj, mul_zero]
          exact Or.inr rfl
    · have e3 : ∀ j, fl (iv.lamb j - fl (fl (o.alpha * fl (s * fl (fl (iv.m1 j * o.beta1) +
            fl (fl (1 - o.beta1) * g j)) / fl (1 - pow o.beta1 (iv.t + 1)))) /
          fl (sqrt (fl (s * s * fl (fl (iv.m2 j * o.beta2) + fl (fl (1 - o.beta1) * fl (g j * g j))) /
            fl (1 - pow o.beta2 (iv.t + 1)))) + s * o.eps))) =
          fl (iv.lamb j - fl (fl (o.alpha * fl (fl (fl (iv.m1 j * o.beta1) +
            fl (fl (1 - o.beta1) * g j)) / fl (1 - pow o.beta1 (iv.t + 1)))) /
          fl (sqrt (fl (fl (fl (iv.m2 j * o.beta2) + fl (fl (1 - o.beta1) * fl (g j * g j))) /
            fl (1 - pow o.beta2 (iv.t + 1)))) + o.eps))) := fun j => by
        have hn : 0 ≤ fl (fl (fl (iv.m2 j * o.beta2) + fl (fl (1 - o.beta1) * fl (g j * g j))) /
            fl (1 - pow o.beta2 (iv.t + 1))) := not_lt.1 fun h => h3 ⟨j, Or.inl h⟩
        rw [mul_div_assoc s, hx.2, mul_left_comm, hx.2, mul_div_assoc (s * s), hss.2, hq _ hn, ← mul_add, hx.2,
          mul_div_mul_left _ _ hx.1]
      simp only [pure, Except.pure, e3]

theorem flSgdPre_unit {sum : List ℚ → ℚ} {o : SgdOpts ℚ} (hq : o.adam ≠ none → SqrtScales sqrt s) {rows rows' : List (Row ℚ n)}
    (hg : ∀ c l, flTakeGradient sum (rows'.filter fun r => r.tree == c) l =
      (flTakeGradient sum (rows.filter fun r => r.tree == c) l).map fun g j => s * g j)
    (c : ℕ) (l : Fin n → ℚ) (iv : Option (Iv ℚ n)) :
    flSgdPre sum pow sqrt (unitOpts s o) rows' c l (iv.map (unitIv s)) =
      (flSgdPre sum pow sqrt o rows c l iv).map fun p => (p.1, p.2.map (unitIv s)) := by
  obtain ⟨tf, con, ad⟩ := o
  unfold flSgdPre unitOpts
  cases ad with
  | none =>
    simp only [Option.map_none]
    rw [hg]
    cases flTakeGradient sum (rows.filter fun r => r.tree == c) l with
    | error => rfl
    | ok g =>
      simp only [Except.map, bind, Except.bind, pure, Except.pure]
      congr 2
      funext j
      rw [← mul_assoc, div_mul_cancel₀ _ hx.1]
  | some a =>
    simp only [Option.map_some]
    have hq' := hq (by simp)
    have key : flAdamStep pow sqrt (flTakeGradient sum (rows'.filter fun r => r.tree == c)) l (affAdam s a)
        (iv.map (unitIv s)) = (flAdamStep pow sqrt (flTakeGradient sum (rows.filter fun r => r.tree == c)) l a iv).map
          fun p => (p.1, unitIv s p.2) := by
      cases iv with
      | none =>
        have := flAdamBody_unit (pow := pow) hx hpos hq' (hg c) a (⟨0, l, fun _ => 0, fun _ => 0⟩ : Iv ℚ n)
        simp only [unitIv, mul_zero] at this
        exact this
      | some iv => exact flAdamBody_unit (pow := pow) hx hpos hq' (hg c) a { iv with lamb := l }
    rw [key]
    cases flAdamStep pow sqrt (flTakeGradient sum (rows.filter fun r => r.tree == c)) l a iv <;> rfl

theorem flSgdStep_unit {sum : List ℚ → ℚ} {o : SgdOpts ℚ} (hq : o.adam ≠ none → SqrtScales sqrt s) {rows rows' : List (Row ℚ n)}
    (hg : ∀ c l, flTakeGradient sum (rows'.filter fun r => r.tree == c) l =
      (flTakeGradient sum (rows.filter fun r => r.tree == c) l).map fun g j => s * g j)
    (hcost : ∀ l, flCalcCost sum rows' l = (flCalcCost sum rows l).map (s * ·)) (c : ℕ) (st : SgdState ℚ n) :
    flSgdStep sum pow sqrt (unitOpts s o) rows' (unitState s st) c =
      (flSgdStep sum pow sqrt o rows st c).map (unitState s) := by
  unfold flSgdStep flSgdMove
  rw [show (unitState s st).lamb = st.lamb from rfl, show (unitState s st).iv = st.iv.map (unitIv s) from rfl,
    flSgdPre_unit hx hpos hq hg]
  cases flSgdPre sum pow sqrt o rows c st.lamb st.iv with
  | error => rfl
  | ok p =>
    have fin : ∀ (l : Fin n → ℚ) (iv : Option (Iv ℚ n)),
        (flCalcCost sum rows' l >>= fun c => if c < (unitState s st).costBest then
          (pure ⟨l, iv.map (unitIv s), l, c, (unitState s st).costAll ++ [c]⟩ : Except PyErr (SgdState ℚ n))
          else pure ⟨l, iv.map (unitIv s), (unitState s st).lambBest, (unitState s st).costBest,
            (unitState s st).costAll ++ [c]⟩) =
        (flCalcCost sum rows l >>= fun c => if c < st.costBest then
          (pure ⟨l, iv, l, c, st.costAll ++ [c]⟩ : Except PyErr (SgdState ℚ n))
          else pure ⟨l, iv, st.lambBest, st.costBest, st.costAll ++ [c]⟩).map (unitState s) := by
      intro l iv
      rw [hcost]
      cases flCalcCost sum rows l with
      | error => rfl
      | ok c =>
        simp only [Except.map, bind, Except.bind, unitState, mul_lt_mul_iff_right₀ hpos]
        split_ifs <;> simp [pure, Except.pure, unitState]
    simp only [Except.map, bind, Except.bind, pure, Except.pure] at fin ⊢
    rw [show (unitOpts s o).constrained = o.constrained from rfl]
    by_cases hc : o.constrained = true
    swap
    · simp only [if_neg hc]
      exact fin p.1 p.2
    · simp only [if_pos hc]
      cases flProxProject p.1 with
      | error => rfl
      | ok l2 => exact fin l2 p.2

theorem flSgdRun_unit {sum : List ℚ → ℚ} {o : SgdOpts ℚ} (hq : o.adam ≠ none → SqrtScales sqrt s) {rows rows' : List (Row ℚ n)}
    (hemp : rows'.isEmpty = rows.isEmpty)
    (hg : ∀ c l, flTakeGradient sum (rows'.filter fun r => r.tree == c) l =
      (flTakeGradient sum (rows.filter fun r => r.tree == c) l).map fun g j => s * g j)
    (hcost : ∀ l, flCalcCost sum rows' l = (flCalcCost sum rows l).map (s * ·)) (l : Fin n → ℚ) (choices : List ℕ) :
    flSgdRun sum pow sqrt (unitOpts s o) rows' l choices =
      (flSgdRun sum pow sqrt o rows l choices).map fun r => (r.1, r.2.1, r.2.2.map (s * ·)) := by
  unfold flSgdRun
  rw [hcost, hemp]
  cases flCalcCost sum rows l with
  | error => rfl
  | ok c0 =>
    simp only [Except.map, bind, Except.bind]
    split_ifs
    · rfl
    · have fold : ∀ (cs : List ℕ) (st : SgdState ℚ n), cs.foldlM (flSgdStep sum pow sqrt (unitOpts s o) rows') (unitState s st) =
          (cs.foldlM (flSgdStep sum pow sqrt o rows) st).map (unitState s) := by
        intro cs
        induction cs with
        | nil => intro st; rfl
        | cons c cs ih =>
          intro st
          rw [List.foldlM_cons, List.foldlM_cons, flSgdStep_unit hx hpos hq hg hcost]
          cases flSgdStep sum pow sqrt o rows st c with
          | error => rfl
          | ok st1 => exact ih st1
      have := fold choices ⟨l, none, l, c0, [c0]⟩
      simp only [unitState, Option.map_none, List.map_cons, List.map_nil] at this
      rw [this]
      cases choices.foldlM (flSgdStep sum pow sqrt o rows) ⟨l, none, l, c0, [c0]⟩ <;> rfl

end descent

theorem filter_unitRow (a : ℚ) (rows : List (Row ℚ n)) (c : ℕ) :
    (rows.map (unitRow a)).filter (fun r => r.tree == c) = (rows.filter fun r => r.tree == c).map (unitRow a) := by
  rw [List.filter_map]
  rfl

/-- C206, descent: on responses multiplied by an exact factor `a`, with step size `t / a²` (plain) or `eps * a²` (Adam), the descent
in doubles visits the same weights bit for bit, records `a²` times the costs, and fails in the same way if it fails. -/
theorem C206_descent {sum : List ℚ → ℚ} {pow : ℚ → ℕ → ℚ} {sqrt : ℚ → ℚ} {a : ℚ} (ha : ExactFactor a) (hs : SumScales sum a)
    {o : SgdOpts ℚ} (hq : o.adam ≠ none → SqrtScales sqrt (a * a)) (rows : List (Row ℚ n)) (l : Fin n → ℚ) (choices : List ℕ) :
    flSgdRun sum pow sqrt (unitOpts (a * a) o) (rows.map (unitRow a)) l choices =
      (flSgdRun sum pow sqrt o rows l choices).map fun r => (r.1, r.2.1, r.2.2.map (a * a * ·)) := by
  refine flSgdRun_unit (ha.mul ha) (mul_self_pos.2 ha.1) hq (by cases rows <;> rfl) (fun c l => ?_)
    (flCalcCost_unit ha hs rows) l choices
  rw [filter_unitRow]
  exact flTakeGradient_unit ha hs _ l

/-! ### Level sums and tuning means -/

/-- Arrays in the new units. -/
def unitGE (a : ℚ) (g : GE ℚ C) : GE ℚ C := { g with gamma := fun c => (g.gamma c).map (List.map (a * ·)) }

theorem padRow_unit (a : ℚ) (pa : Bool) (w : ℕ) (row : List ℚ) :
    padRow pa w (row.map (a * ·)) = (padRow pa w row).map (a * ·) := by
  unfold padRow
  rw [List.length_map]
  split_ifs
  · simp only [List.map_append, List.map_replicate, List.getLast?_map]
    cases row.getLast? <;> simp
  · simp
  · rfl

theorem toVec_unit (a : ℚ) (n : ℕ) (row : List ℚ) : toVec n (row.map (a * ·)) = fun j => a * toVec n row j := by
  funext j
  unfold toVec
  rw [List.getD_eq_getElem?_getD, List.getD_eq_getElem?_getD, List.getElem?_map]
  cases row[j.val]? <;> simp

theorem flLevelRow_unit {sum : List ℚ → ℚ} {a : ℚ} (ha : ExactFactor a) (hs : SumScales sum a) (t : SkTree ℚ C) (pa : Bool)
    (D : Fin t.nLeaves → Fin t.nLeaves → ℤ) (c : Fin C) (i : Fin t.nLeaves) :
    flLevelRow sum (affTree a 0 t) pa D (fun j => flNy .reg (affTree a 0 t) ((affTree a 0 t).leafNode j) c) i =
      (flLevelRow sum t pa D (fun j => flNy .reg t (t.leafNode j) c) i).map (a * ·) := by
  have e : (fun j : Fin t.nLeaves => flNy .reg (affTree a 0 t) ((affTree a 0 t).leafNode j) c) =
      fun j => a * flNy .reg t (t.leafNode j) c := by
    funext j
    show fl (t.nSamp (t.leafNode j) * (a * t.value (t.leafNode j) c + 0)) = a * fl (t.nSamp (t.leafNode j) * t.value (t.leafNode j) c)
    rw [add_zero, mul_left_comm, ha.2]
  have e' : flLevelRow sum (affTree a 0 t) pa D (fun j => flNy .reg (affTree a 0 t) ((affTree a 0 t).leafNode j) c) i =
      (List.range (t.maxDist D + 1)).map fun k => sum ((levelSel pa D i k).map fun j => a * flNy .reg t (t.leafNode j) c) := by
    rw [← e]
    rfl
  rw [e', flLevelRow, List.map_map]
  refine List.map_congr_left fun k _ => ?_
  simp only [Function.comp]
  rw [← hs, List.map_map]
  rfl

theorem flGammaEtaForest_unit {sum : List ℚ → ℚ} {a : ℚ} (ha : ExactFactor a) (hs : SumScales sum a)
    (forest : List (SkTree ℚ C)) (st : Style) (pa : Bool) :
    flGammaEtaForest sum .reg (forest.map (affTree a 0)) st pa = unitGE a (flGammaEtaForest sum .reg forest st pa) := by
  unfold flGammaEtaForest
  rw [forestDepth_aff, List.zipIdx_map]
  generalize forestDepth forest + 1 = w
  have key : ∀ (l : List (SkTree ℚ C × ℕ)) (acc : GE ℚ C),
      (l.map (Prod.map (affTree a 0) id)).foldl (fun (acc : GE ℚ C) (tt : SkTree ℚ C × ℕ) =>
        let t := tt.1
        let D := t.distDepth st
        { gamma := fun c => acc.gamma c ++ ((List.finRange t.nLeaves).map fun i =>
            flLevelRow sum t pa D (fun j => flNy .reg t (t.leafNode j) c) i).map (padRow pa w)
          eta := acc.eta ++ ((List.finRange t.nLeaves).map fun i =>
            flLevelRow sum t pa D (fun j => t.nSamp (t.leafNode j)) i).map (padRow pa w)
          tIdx := acc.tIdx ++ List.replicate t.nLeaves tt.2 }) (unitGE a acc) =
      unitGE a (l.foldl (fun (acc : GE ℚ C) (tt : SkTree ℚ C × ℕ) =>
        let t := tt.1
        let D := t.distDepth st
        { gamma := fun c => acc.gamma c ++ ((List.finRange t.nLeaves).map fun i =>
            flLevelRow sum t pa D (fun j => flNy .reg t (t.leafNode j) c) i).map (padRow pa w)
          eta := acc.eta ++ ((List.finRange t.nLeaves).map fun i =>
            flLevelRow sum t pa D (fun j => t.nSamp (t.leafNode j)) i).map (padRow pa w)
          tIdx := acc.tIdx ++ List.replicate t.nLeaves tt.2 }) acc) := by
    intro l
    induction l with
    | nil => intro acc; rfl
    | cons tt l ih =>
      intro acc
      rw [List.map_cons, List.foldl_cons, List.foldl_cons, ← ih]
      congr 1
      obtain ⟨t, k⟩ := tt
      simp only [Prod.map, id, unitGE, GE.mk.injEq]
      refine ⟨?_, rfl, rfl⟩
      funext c
      rw [List.map_append, List.map_map, List.map_map, List.map_map]
      congr 1
      refine List.map_congr_left fun i _ => ?_
      simp only [Function.comp]
      rw [← padRow_unit]
      exact congrArg _ (flLevelRow_unit ha hs t pa (t.distDepth st) c i)
  exact key forest.zipIdx { gamma := fun _ => [], eta := [], tIdx := [] }

theorem flLeafMean_unit {sum : List ℚ → ℚ} {a : ℚ} (ha : ExactFactor a) (hs : SumScales sum a) (rows : List (TuneRow ℚ C)) (i : ℕ)
    (c : Fin C) : flLeafMean sum (rows.map (affRow a 0)) i c = a * flLeafMean sum rows i c := by
  unfold flLeafMean
  rw [leafWeight_aff, List.filter_map, List.map_map, ← ha.2, ← mul_div_assoc, ← hs, List.map_map]
  congr 3
  refine List.map_congr_left fun r _ => ?_
  simp [affRow]

theorem flTuneSummaries_unit {sum : List ℚ → ℚ} {a : ℚ} (ha : ExactFactor a) (hs : SumScales sum a)
    (forest : List (SkTree ℚ C)) (tune : ℕ → List (TuneRow ℚ C)) :
    flTuneSummaries sum false (forest.map (affTree a 0)) (fun i => (tune i).map (affRow a 0)) =
      (flTuneSummaries sum false forest tune).map (List.map fun p => ((fun c => a * p.1 c), p.2)) := by
  unfold flTuneSummaries
  rw [List.zipIdx_map]
  have key : ∀ (l : List (SkTree ℚ C × ℕ)) (acc : List ((Fin C → ℚ) × ℚ)),
      (l.map (Prod.map (affTree a 0) id)).foldlM (fun acc tt =>
        let rows := (tune tt.2).map (affRow a 0)
        if rows.isEmpty || (false && decide (∃ c, ∀ r ∈ rows, r.y c = 0)) then (.error .valueError : Except PyErr _)
        else pure (acc ++ (List.range tt.1.nLeaves).map fun i =>
          ((fun c => flLeafMean sum rows i c), leafWeight rows i))) (acc.map fun p => ((fun c => a * p.1 c), p.2)) =
      (l.foldlM (fun acc tt =>
        let rows := tune tt.2
        if rows.isEmpty || (false && decide (∃ c, ∀ r ∈ rows, r.y c = 0)) then (.error .valueError : Except PyErr _)
        else pure (acc ++ (List.range tt.1.nLeaves).map fun i =>
          ((fun c => flLeafMean sum rows i c), leafWeight rows i))) acc).map (List.map fun p => ((fun c => a * p.1 c), p.2)) := by
    intro l
    induction l with
    | nil => intro acc; rfl
    | cons tt l ih =>
      intro acc
      rw [List.map_cons, List.foldlM_cons, List.foldlM_cons]
      simp only [Prod.map, id, List.isEmpty_map, Bool.false_and, Bool.or_false]
      by_cases h : (tune tt.2).isEmpty = true
      · simp only [if_pos h]
        rfl
      · simp only [if_neg h]
        simp only [pure, Except.pure, bind, Except.bind]
        have e : (acc.map fun p => ((fun c => a * p.1 c), p.2)) ++ (List.range (affTree a 0 tt.1).nLeaves).map (fun i =>
            ((fun c => flLeafMean sum ((tune tt.2).map (affRow a 0)) i c), (leafWeight ((tune tt.2).map (affRow a 0)) i : ℚ))) =
            (acc ++ (List.range tt.1.nLeaves).map fun i =>
              ((fun c => flLeafMean sum (tune tt.2) i c), leafWeight (tune tt.2) i)).map
              fun p => ((fun c => a * p.1 c), p.2) := by
          rw [List.map_append, List.map_map]
          congr 1
          refine List.map_congr_left fun i _ => ?_
          simp only [Function.comp, leafWeight_aff, flLeafMean_unit ha hs]
        rw [e]
        have := ih (acc ++ (List.range tt.1.nLeaves).map fun i =>
              ((fun c => flLeafMean sum (tune tt.2) i c), leafWeight (tune tt.2) i))
        simp only [List.isEmpty_map, Bool.false_and, Bool.or_false, pure, Except.pure] at this
        exact this
  exact key forest.zipIdx []

theorem flatRows_unit (a : ℚ) (n : ℕ) (al : Bool) (ge : GE ℚ C) (yw : List ((Fin C → ℚ) × ℚ)) :
    flatRows n al (unitGE a ge) (yw.map fun p => ((fun c => a * p.1 c), p.2)) = (flatRows n al ge yw).map (unitRow a) := by
  unfold flatRows
  rw [List.map_flatMap]
  refine List.flatMap_congr fun c _ => ?_
  rw [List.map_map]
  refine List.map_congr_left fun i _ => ?_
  simp only [Function.comp, unitRow, unitGE, Row.mk.injEq, List.getElem?_map, and_true]
  refine ⟨?_, ?_, ?_⟩
  · cases yw[i]? <;> simp
  · cases yw[i]? <;> simp
  · rw [← toVec_unit, List.getD_eq_getElem?_getD, List.getD_eq_getElem?_getD, List.getElem?_map]
    cases (ge.gamma c)[i]? <;> simp

/-! ### Writing back -/

theorem reshapeF_unit (a : ℚ) (l : List ℚ) : reshapeF C (l.map (a * ·)) = (reshapeF C l).map fun v c => a * v c := by
  unfold reshapeF
  rw [List.length_map, List.map_map]
  refine List.map_congr_left fun i _ => ?_
  funext c
  simp only [Function.comp]
  rw [List.getD_eq_getElem?_getD, List.getD_eq_getElem?_getD, List.getElem?_map]
  cases l[c.val * (l.length / C) + i]? <;> simp

theorem writeLeaves_unit (a : ℚ) (t : SkTree ℚ C) (vals : List (Fin C → ℚ)) :
    writeLeaves (affTree a 0 t) (vals.map fun v c => a * v c) = (writeLeaves t vals).map (affTree a 0) := by
  unfold writeLeaves
  rw [List.length_map, show (affTree a 0 t).nLeaves = t.nLeaves from rfl]
  split_ifs
  · simp only [Except.map, affTree]
    congr 2
    funext i c
    unfold newValue
    rw [List.length_map, List.getElem?_map]
    show (if t.right i = none then _ else a * t.value i c + 0) = a * (if t.right i = none then _ else t.value i c) + 0
    split_ifs
    · cases vals[0]? <;> simp
    · rw [show (SkTree.mk t.toTopo (fun i c => a * t.value i c + 0) t.nSamp t.impurity).leafIdx i = t.leafIdx i from rfl]
      cases vals[(t.leafIdx i).toNat]? <;> simp
    · rfl
  · rfl

theorem writeBack1_unit (a : ℚ) (all : List (Fin C → ℚ)) : ∀ (forest : List (SkTree ℚ C)) (k : ℕ),
    writeBack1 (all.map fun v c => a * v c) k (forest.map (affTree a 0)) =
      (writeBack1 all k forest).map (List.map (affTree a 0))
  | [], _ => rfl
  | t :: ts, k => by
    rw [List.map_cons, writeBack1, writeBack1, ← List.map_drop, ← List.map_take,
      show (affTree a 0 t).nLeaves = t.nLeaves from rfl, writeLeaves_unit, writeBack1_unit a all ts]
    cases writeLeaves t ((all.drop k).take t.nLeaves) with
    | error => rfl
    | ok t' => cases writeBack1 all (k + t.nLeaves) ts <;> rfl

theorem writeBack2_unit (a : ℚ) (all : List (Fin C → ℚ)) : ∀ (forest : List (SkTree ℚ C)) (k : ℕ),
    writeBack2 (all.map fun v c => a * v c) k (forest.map (affTree a 0)) =
      (writeBack2 all k forest).map (List.map (affTree a 0))
  | [], _ => rfl
  | t :: ts, k => by
    rw [List.map_cons, writeBack2, writeBack2, ← List.map_drop, ← List.map_take,
      show (affTree a 0 t).nLeaves = t.nLeaves from rfl, writeLeaves_unit, writeBack2_unit a all ts]
    cases writeLeaves t ((all.drop k).take t.nLeaves) with
    | error => rfl
    | ok t' => cases writeBack2 all k ts <;> rfl

/-! ### smooth -/

/-- `flSmooth` with the width of the arrays as an argument. -/
def flSmoothAt (sum : List ℚ → ℚ) (pow : ℚ → ℕ → ℚ) (sqrt : ℚ → ℚ)
    (ce : (n : ℕ) → SgdOpts ℚ → ℚ → List (Row ℚ n) → List ℚ → List ℕ →
      Except PyErr ((Fin n → ℚ) × (Fin n → ℚ) × List ℚ))
    (rf : Option Kind) (forest : List (SkTree ℚ C)) (cfg : SmoothCfg ℚ)
    (sources : TuneSrc → ℕ → List (TuneRow ℚ C)) (w : ℕ) : Except PyErr (SmoothOut ℚ C w) := do
  let (kind, src) ← smoothCheck rf cfg.data cfg.noConstraint
  let ge := flGammaEtaForest sum kind forest cfg.style cfg.parentsAll
  let yw ← flTuneSummaries sum (decide (kind = .cls) && decide (src ≠ .given)) forest (sources src)
  let lamb ← flInitLamb kind w cfg.seed cfg.classEps
  let rows := flatRows w cfg.allTrees ge yw
  let (lamb1, lamb2, costs) ← flSmoothOptimise sum pow sqrt (ce _) kind cfg rows lamb
  let new1 := reshapeF C (rows.map fun r => flSmoothValue sum r lamb1)
  let new2 := reshapeF C (rows.map fun r => flSmoothValue sum r lamb2)
  let rf1 ← writeBack1 new1 0 forest
  let rf2 ← writeBack2 new2 0 forest
  pure ⟨rf1, lamb1, rf2, lamb2, costs⟩

/-- The result in the new units. -/
def unitOut {w : ℕ} (a : ℚ) (o : SmoothOut ℚ C w) : SmoothOut ℚ C w :=
  ⟨o.rf1.map (affTree a 0), o.lamb1, o.rf2.map (affTree a 0), o.lamb2, o.costs.map (a * a * ·)⟩

/-- The arguments in the new units: step size and Adam's `eps`. -/
def unitCfg (a : ℚ) (cfg : SmoothCfg ℚ) : SmoothCfg ℚ :=
  { cfg with tFix := cfg.tFix / (a * a), adam := cfg.adam.map (affAdam (a * a)) }

section forest

variable {sum : List ℚ → ℚ} {pow : ℚ → ℕ → ℚ} {sqrt : ℚ → ℚ}
  {ce : (n : ℕ) → SgdOpts ℚ → ℚ → List (Row ℚ n) → List ℚ → List ℕ → Except PyErr ((Fin n → ℚ) × (Fin n → ℚ) × List ℚ)}
  {a : ℚ} {forest : List (SkTree ℚ C)} {cfg : SmoothCfg ℚ} {sources : TuneSrc → ℕ → List (TuneRow ℚ C)}

theorem flSmoothOptimise_unit (ha : ExactFactor a) (hs : SumScales sum a) (hq : cfg.adam ≠ none → SqrtScales sqrt (a * a))
    {w : ℕ} (rows : List (Row ℚ w)) (lamb : List ℚ) :
    flSmoothOptimise sum pow sqrt (ce w) .reg (unitCfg a cfg) (rows.map (unitRow a)) lamb =
      (flSmoothOptimise sum pow sqrt (ce w) .reg cfg rows lamb).map fun r => (r.1, r.2.1, r.2.2.map (a * a * ·)) := by
  unfold flSmoothOptimise
  simp only [true_or, if_true]
  rw [show (unitCfg a cfg).sanityCheck = cfg.sanityCheck from rfl]
  split_ifs
  · rfl
  · have := C206_descent (pow := pow) ha hs (o := ⟨cfg.tFix, !cfg.noConstraint, cfg.adam⟩) hq rows (toVec w lamb) cfg.steps
    have hrun : flSgdRun sum pow sqrt ⟨(unitCfg a cfg).tFix, !(unitCfg a cfg).noConstraint, (unitCfg a cfg).adam⟩
        (rows.map (unitRow a)) (toVec w lamb) (unitCfg a cfg).steps = _ := this
    rw [hrun]
    show (flStartCheck (!cfg.noConstraint) lamb >>= fun _ => _) = _
    cases flStartCheck (!cfg.noConstraint) lamb <;> rfl

theorem flSmoothAt_unit (ha : ExactFactor a) (hs : SumScales sum a) (hq : cfg.adam ≠ none → SqrtScales sqrt (a * a)) (w : ℕ) :
    flSmoothAt sum pow sqrt ce (some .reg) (forest.map (affTree a 0)) (unitCfg a cfg)
        (fun src i => (sources src i).map (affRow a 0)) w =
      (flSmoothAt sum pow sqrt ce (some .reg) forest cfg sources w).map (unitOut a) := by
  unfold flSmoothAt
  rw [show (unitCfg a cfg).data = cfg.data from rfl, show (unitCfg a cfg).noConstraint = cfg.noConstraint from rfl,
    show (unitCfg a cfg).style = cfg.style from rfl, show (unitCfg a cfg).parentsAll = cfg.parentsAll from rfl,
    show (unitCfg a cfg).seed = cfg.seed from rfl, show (unitCfg a cfg).classEps = cfg.classEps from rfl,
    show (unitCfg a cfg).allTrees = cfg.allTrees from rfl]
  have hk : ∀ p, smoothCheck (some .reg) cfg.data cfg.noConstraint = .ok p → p.1 = .reg := by
    intro p hp
    unfold smoothCheck at hp
    cases hsrc : tuneSource cfg.data with
    | error => rw [hsrc] at hp; cases hp
    | ok src =>
      rw [hsrc] at hp
      simp only [bind, Except.bind, reduceCtorEq, false_and, if_false, pure, Except.pure, Except.ok.injEq] at hp
      rw [← hp]
  cases hck : smoothCheck (some .reg) cfg.data cfg.noConstraint with
  | error => rfl
  | ok p =>
    obtain ⟨kind, src⟩ := p
    have : kind = .reg := hk _ hck
    subst this
    simp only [bind, Except.bind]
    rw [show (decide (Kind.reg = Kind.cls) && decide (src ≠ TuneSrc.given)) = false from rfl, flTuneSummaries_unit ha hs,
      flGammaEtaForest_unit ha hs]
    cases flTuneSummaries sum false forest (sources src) with
    | error => rfl
    | ok yw =>
      simp only [Except.map]
      cases flInitLamb .reg w cfg.seed cfg.classEps with
      | error => rfl
      | ok lamb =>
        simp only
        rw [flatRows_unit, flSmoothOptimise_unit ha hs hq]
        cases flSmoothOptimise sum pow sqrt (ce w) .reg cfg (flatRows w cfg.allTrees
            (flGammaEtaForest sum .reg forest cfg.style cfg.parentsAll) yw) lamb with
        | error => rfl
        | ok r =>
          obtain ⟨l1, l2, cs⟩ := r
          simp only [Except.map]
          have hv : ∀ l : Fin w → ℚ, reshapeF C (((flatRows w cfg.allTrees (flGammaEtaForest sum .reg forest cfg.style
              cfg.parentsAll) yw).map (unitRow a)).map fun r => flSmoothValue sum r l) =
              (reshapeF C ((flatRows w cfg.allTrees (flGammaEtaForest sum .reg forest cfg.style cfg.parentsAll) yw).map
                fun r => flSmoothValue sum r l)).map fun v c => a * v c := by
            intro l
            rw [← reshapeF_unit, List.map_map, List.map_map]
            congr 1
            exact List.map_congr_left fun r _ => flSmoothValue_unit ha hs r l
          rw [hv, hv, writeBack1_unit, writeBack2_unit]
          cases writeBack1 (reshapeF C ((flatRows w cfg.allTrees (flGammaEtaForest sum .reg forest cfg.style cfg.parentsAll)
              yw).map fun r => flSmoothValue sum r l1)) 0 forest with
          | error => rfl
          | ok f1 =>
            cases writeBack2 (reshapeF C ((flatRows w cfg.allTrees (flGammaEtaForest sum .reg forest cfg.style
              cfg.parentsAll) yw).map fun r => flSmoothValue sum r l2)) 0 forest <;> rfl

/-- C206: a regression forest whose values, and whose tuning responses, are multiplied by an exact factor `a` (a power of two or
minus one): `smooth` in doubles with step size `t / a²` (and Adam's `eps` times `a²`) returns bit for bit the same weights,
`a²` times the costs, and the same two forests with every value multiplied by `a`; and it fails with the same error if it
fails. -/
theorem C206_smooth (ha : ExactFactor a) (hs : SumScales sum a) (hq : cfg.adam ≠ none → SqrtScales sqrt (a * a)) :
    (∀ e, flSmooth sum pow sqrt ce (some .reg) forest cfg sources = .error e →
      flSmooth sum pow sqrt ce (some .reg) (forest.map (affTree a 0)) (unitCfg a cfg)
        (fun src i => (sources src i).map (affRow a 0)) = .error e) ∧
    ∀ out, flSmooth sum pow sqrt ce (some .reg) forest cfg sources = .ok out →
      ∃ out', flSmooth sum pow sqrt ce (some .reg) (forest.map (affTree a 0)) (unitCfg a cfg)
          (fun src i => (sources src i).map (affRow a 0)) = .ok out' ∧
        out'.rf1 = out.rf1.map (affTree a 0) ∧ out'.rf2 = out.rf2.map (affTree a 0) ∧
        List.ofFn out'.lamb1 = List.ofFn out.lamb1 ∧ List.ofFn out'.lamb2 = List.ofFn out.lamb2 ∧
        out'.costs = out.costs.map (a ^ 2 * ·) := by
  have e : forestDepth (forest.map (affTree a 0)) + 1 = forestDepth forest + 1 := by rw [forestDepth_aff]
  have key : ∀ w, w = forestDepth forest + 1 →
      (∀ e, flSmooth sum pow sqrt ce (some .reg) forest cfg sources = .error e →
        flSmoothAt sum pow sqrt ce (some .reg) (forest.map (affTree a 0)) (unitCfg a cfg)
          (fun src i => (sources src i).map (affRow a 0)) w = .error e) ∧
      ∀ out, flSmooth sum pow sqrt ce (some .reg) forest cfg sources = .ok out →
        ∃ out' : SmoothOut ℚ C w, flSmoothAt sum pow sqrt ce (some .reg) (forest.map (affTree a 0)) (unitCfg a cfg)
            (fun src i => (sources src i).map (affRow a 0)) w = .ok out' ∧
          out'.rf1 = out.rf1.map (affTree a 0) ∧ out'.rf2 = out.rf2.map (affTree a 0) ∧
          List.ofFn out'.lamb1 = List.ofFn out.lamb1 ∧ List.ofFn out'.lamb2 = List.ofFn out.lamb2 ∧
          out'.costs = out.costs.map (a ^ 2 * ·) := by
    rintro _ rfl
    rw [flSmoothAt_unit ha hs hq]
    constructor
    · intro e h
      rw [show flSmoothAt sum pow sqrt ce (some .reg) forest cfg sources (forestDepth forest + 1) = .error e from h]
      rfl
    · intro out h
      rw [show flSmoothAt sum pow sqrt ce (some .reg) forest cfg sources (forestDepth forest + 1) = .ok out from h]
      exact ⟨unitOut a out, rfl, rfl, rfl, rfl, rfl, by rw [sq]; rfl⟩
  exact key _ e

end forest

/-! ### Which factors are exact, and a square root -/

theorem odd_float_le {m : ℕ} (hm : m % 2 = 1) {e : ℤ} (h : IsFloat ((m : ℚ) * 2 ^ e)) : m ≤ 2 ^ 53 := by
  obtain ⟨k, f, hk, he⟩ := h
  have h2 : (2 : ℚ) ≠ 0 := by norm_num
  have hm' : (m : ℚ) = k * 2 ^ (f - e) := by
    rw [zpow_sub₀ h2, ← mul_div_assoc, ← he, mul_div_assoc, div_self (zpow_ne_zero _ h2), mul_one]
  have hkm : (m : ℤ) ≤ |k| := by
    rcases le_or_gt (f - e) 0 with hfe | hfe
    · have h1 : (2 : ℚ) ^ (f - e) ≤ 1 := zpow_le_one_of_nonpos₀ (by norm_num) hfe
      have h3 : (m : ℚ) ≤ |(k : ℚ)| := by
        rw [hm']
        calc (k : ℚ) * 2 ^ (f - e) ≤ |(k : ℚ)| * 2 ^ (f - e) := mul_le_mul_of_nonneg_right (le_abs_self _) (by positivity)
          _ ≤ |(k : ℚ)| * 1 := mul_le_mul_of_nonneg_left h1 (abs_nonneg _)
          _ = _ := mul_one _
      exact_mod_cast h3
    · exfalso
      obtain ⟨d, hd⟩ : ∃ d : ℕ, f - e = (d + 1 : ℕ) := ⟨(f - e).toNat - 1, by omega⟩
      rw [hd, zpow_natCast, pow_succ] at hm'
      have : (m : ℤ) = k * 2 ^ d * 2 := by
        have h4 : (m : ℚ) = ((k * 2 ^ d * 2 : ℤ) : ℚ) := by rw [hm']; push_cast; ring
        exact_mod_cast h4
      omega
  have := hkm.trans hk
  exact_mod_cast this

/-- C206: the exact factors are the powers of two and their opposites, and no other number. -/
theorem C206_factors (a : ℚ) : ExactFactor a ↔ ∃ k : ℤ, a = 2 ^ k ∨ a = -2 ^ k := by
  constructor
  · have pos : ∀ a : ℚ, 0 < a → ExactFactor a → ∃ k : ℤ, a = 2 ^ k := by
      intro a ha h
      have hf : IsFloat a := by
        have := h.2 1
        rw [mul_one, fl_of_float (⟨1, 0, by norm_num, by norm_num⟩ : IsFloat 1), mul_one] at this
        exact this ▸ fl_isFloat a
      obtain ⟨k, e, -, he⟩ := hf
      have hk : 0 < k := by
        have h2 : (0 : ℚ) < 2 ^ e := by positivity
        rw [he] at ha
        exact_mod_cast (mul_pos_iff_of_pos_right h2).1 ha
      obtain ⟨j, m, hmo, hj⟩ := Nat.exists_eq_two_pow_mul_odd (n := k.toNat) (by omega)
      have hkq : (k : ℚ) = 2 ^ j * m := by
        have h1 : (k : ℚ) = (k.toNat : ℚ) := by
          have : (k.toNat : ℤ) = k := Int.toNat_of_nonneg hk.le
          rw [← Int.cast_natCast (R := ℚ), this]
        rw [h1, hj]
        push_cast
        rfl
      have hae : a = (m : ℚ) * 2 ^ (e + j) := by
        rw [he, hkq, zpow_add₀ (by norm_num), zpow_natCast]
        ring
      by_cases hm1 : m = 1
      · exact ⟨e + j, by rw [hae, hm1]; simp⟩
      · exfalso
        have hbig : IsFloat (2 ^ 53 - 1 : ℚ) := ⟨2 ^ 53 - 1, 0, by norm_num, by norm_num⟩
        have hx := h.2 (2 ^ 53 - 1)
        rw [fl_of_float hbig] at hx
        have hfl : IsFloat (a * (2 ^ 53 - 1)) := hx ▸ fl_isFloat _
        have hodd : m % 2 = 1 := Nat.odd_iff.1 hmo
        have hcast : a * (2 ^ 53 - 1) = ((m * (2 ^ 53 - 1) : ℕ) : ℚ) * 2 ^ (e + j) := by
          rw [hae]
          push_cast
          ring
        rw [hcast] at hfl
        have := odd_float_le (by omega) hfl
        omega
    intro h
    rcases lt_or_gt_of_ne h.1 with hn | hp
    · obtain ⟨k, hk⟩ := pos (-a) (by linarith) h.neg
      exact ⟨k, Or.inr (by rw [← hk, neg_neg])⟩
    · obtain ⟨k, hk⟩ := pos a hp h
      exact ⟨k, Or.inl hk⟩
  · rintro ⟨k, rfl | rfl⟩
    · exact exactFactor_zpow k
    · exact (exactFactor_zpow k).neg

/-- The correctly rounded square root. -/
def flSqrt (x : ℚ) : ℚ :=
  if x ≤ 0 then 0
  else ((Nat.sqrt ⌊4 * x / 2 ^ (2 * (Int.log 2 x / 2 - 52))⌋₊ + 1) / 2 : ℕ) * 2 ^ (Int.log 2 x / 2 - 52)

theorem log_zpow_mul (z : ℤ) {x : ℚ} (hx : 0 < x) : Int.log 2 (2 ^ z * x) = z + Int.log 2 x := by
  have hz : (0 : ℚ) < 2 ^ z := by positivity
  have h2 : (2 : ℚ) ≠ 0 := by norm_num
  refine le_antisymm ?_ ?_
  · refine Int.lt_add_one_iff.1 ((Int.lt_zpow_iff_log_lt (by norm_num) (by positivity)).1 ?_)
    have := Int.lt_zpow_succ_log_self (b := 2) (by norm_num) x
    rw [add_assoc, Nat.cast_ofNat, zpow_add₀ h2]
    exact mul_lt_mul_of_pos_left (by exact_mod_cast this) hz
  · refine (Int.zpow_le_iff_le_log (by norm_num) (by positivity)).1 ?_
    have := Int.zpow_log_le_self (b := 2) (by norm_num) hx
    rw [Nat.cast_ofNat, zpow_add₀ h2]
    exact mul_le_mul_of_nonneg_left (by exact_mod_cast this) hz.le

/-- `flSqrt` is the root rounded to the nearest number with its exponent. -/
theorem flSqrt_spec {x : ℚ} (hx : 0 < x) : ∃ (m : ℕ) (e : ℤ), flSqrt x = m * 2 ^ e ∧ 2 ^ 52 ≤ m ∧ m ≤ 2 ^ 53 ∧
    ((m - 1 / 2 : ℚ) * 2 ^ e) ^ 2 ≤ x ∧ x < ((m + 1 / 2 : ℚ) * 2 ^ e) ^ 2 := by
  set e := Int.log 2 x / 2 - 52 with he
  set X := 4 * x / 2 ^ (2 * e) with hX
  have h2 : (2 : ℚ) ≠ 0 := by norm_num
  have hpe : (0 : ℚ) < 2 ^ e := by positivity
  have hp2 : (2 : ℚ) ^ (2 * e) = (2 ^ e) ^ 2 := by rw [two_mul, zpow_add₀ h2, sq]
  have hXpos : 0 ≤ X := by positivity
  have hxX : x = X / 4 * (2 ^ e) ^ 2 := by
    rw [hX, hp2]
    field_simp
  have hlog1 := Int.zpow_log_le_self (b := 2) (by norm_num) hx
  have hlog2 := Int.lt_zpow_succ_log_self (b := 2) (by norm_num) x
  rw [Nat.cast_ofNat] at hlog1 hlog2
  have hl1 : (2 : ℚ) ^ (2 * e + 104) ≤ x := (zpow_le_zpow_right₀ (by norm_num) (by omega)).trans hlog1
  have hl2 : x < (2 : ℚ) ^ (2 * e + 106) := hlog2.trans_le (zpow_le_zpow_right₀ (by norm_num) (by omega))
  rw [zpow_add₀ h2, hp2] at hl1 hl2
  have hX1 : (2 : ℚ) ^ 106 ≤ X := by
    rw [hxX] at hl1
    have := le_of_mul_le_mul_right (by linarith [mul_comm ((2 : ℚ) ^ (104 : ℤ)) ((2 ^ e) ^ 2)] :
      (2 : ℚ) ^ (104 : ℤ) * (2 ^ e) ^ 2 ≤ X / 4 * (2 ^ e) ^ 2) (by positivity)
    norm_num at this ⊢
    linarith
  have hX2 : X < 2 ^ 108 := by
    rw [hxX] at hl2
    have := lt_of_mul_lt_mul_right (by linarith [mul_comm ((2 : ℚ) ^ (106 : ℤ)) ((2 ^ e) ^ 2)] :
      X / 4 * (2 ^ e) ^ 2 < (2 : ℚ) ^ (106 : ℤ) * (2 ^ e) ^ 2) (by positivity)
    norm_num at this ⊢
    linarith
  set k := Nat.sqrt ⌊X⌋₊ with hk
  have hk1 : ((k : ℚ)) ^ 2 ≤ X := by
    have : k ^ 2 ≤ ⌊X⌋₊ := Nat.sqrt_le' _
    exact le_trans (by exact_mod_cast this) (Nat.floor_le hXpos)
  have hk2 : X < ((k : ℚ) + 1) ^ 2 := by
    have : ⌊X⌋₊ + 1 ≤ (k + 1) ^ 2 := Nat.lt_succ_sqrt' _
    have h3 : ((⌊X⌋₊ + 1 : ℕ) : ℚ) ≤ (((k + 1) ^ 2 : ℕ) : ℚ) := by exact_mod_cast this
    push_cast at h3
    exact (Nat.lt_floor_add_one X).trans_le h3
  have hk3 : 2 ^ 53 ≤ k := by
    rw [hk, Nat.le_sqrt', Nat.le_floor_iff hXpos]
    push_cast
    norm_num at hX1 ⊢
    exact hX1
  have hk4 : k < 2 ^ 54 := by
    rw [hk, Nat.sqrt_lt', Nat.floor_lt hXpos]
    push_cast
    norm_num at hX2 ⊢
    exact hX2
  refine ⟨(k + 1) / 2, e, ?_, by omega, by omega, ?_, ?_⟩
  · rw [flSqrt, if_neg (not_le.2 hx)]
  · have hm : 2 * (((k + 1) / 2 : ℕ) : ℚ) ≤ k + 1 := by
      have : 2 * ((k + 1) / 2) ≤ k + 1 := by omega
      exact_mod_cast this
    have hm0 : (1 : ℚ) ≤ (((k + 1) / 2 : ℕ) : ℚ) := by
      have : 1 ≤ (k + 1) / 2 := by omega
      exact_mod_cast this
    conv_rhs => rw [hxX]
    rw [mul_pow]
    refine mul_le_mul_of_nonneg_right ?_ (by positivity)
    nlinarith
  · have hm : (k : ℚ) ≤ 2 * (((k + 1) / 2 : ℕ) : ℚ) := by
      have : k ≤ 2 * ((k + 1) / 2) := by omega
      exact_mod_cast this
    have hk0 : (0 : ℚ) ≤ k := Nat.cast_nonneg _
    conv_lhs => rw [hxX]
    rw [mul_pow]
    refine mul_lt_mul_of_pos_right ?_ (by positivity)
    nlinarith

/-- The root of a double in the new units. -/
theorem flSqrt_scales (k : ℤ) : SqrtScales flSqrt (2 ^ k) := by
  intro x hx
  have h2 : (2 : ℚ) ≠ 0 := by norm_num
  rcases hx.eq_or_lt with rfl | hx
  · simp [flSqrt]
  have e1 : (2 : ℚ) ^ k * 2 ^ k = 2 ^ (2 * k) := by rw [two_mul, zpow_add₀ h2]
  rw [e1, flSqrt, flSqrt, if_neg (not_le.2 hx), if_neg (not_le.2 (by positivity)), log_zpow_mul _ hx]
  have e2 : (2 * k + Int.log 2 x) / 2 - 52 = k + (Int.log 2 x / 2 - 52) := by omega
  rw [e2]
  generalize Int.log 2 x / 2 - 52 = e
  have e3 : 4 * ((2 : ℚ) ^ (2 * k) * x) / 2 ^ (2 * (k + e)) = 4 * x / 2 ^ (2 * e) := by
    rw [mul_add, zpow_add₀ h2, mul_left_comm, mul_div_mul_left _ _ (by positivity)]
  rw [e3, zpow_add₀ h2]
  ring

/-- C206: so the theorem applies to numpy's sums, a correctly rounded root and every factor `± 2 ^ k`. -/
theorem C206_numpy (k : ℤ) (a : ℚ) (ha : a = 2 ^ k ∨ a = -2 ^ k) :
    ExactFactor a ∧ SumScales npSum a ∧ SqrtScales flSqrt (a * a) := by
  have h := (C206_factors a).2 ⟨k, ha⟩
  refine ⟨h, npSum_scales h, ?_⟩
  have e : a * a = 2 ^ (2 * k) := by
    rcases ha with rfl | rfl
    · rw [two_mul, zpow_add₀ (by norm_num)]
    · rw [neg_mul_neg, two_mul, zpow_add₀ (by norm_num)]
  rw [e]
  exact flSqrt_scales _

/-- C206: the factor cannot be any number: in tenths (`a = 10`), with every response, every step size and every intermediate
count a double, the third cost is not 100 times the cost. -/
theorem C206_refuted : ¬ ∀ (forest : List (SkTree ℚ 1)) (cfg : SmoothCfg ℚ) (sources : TuneSrc → ℕ → List (TuneRow ℚ 1)) (a : ℚ),
    a ≠ 0 → ∀ out out', flSmooth npSum (fun x _ => x) id noCe (some .reg) forest cfg sources = .ok out →
      flSmooth npSum (fun x _ => x) id noCe (some .reg) (forest.map (affTree a 0)) (unitCfg a cfg)
        (fun src i => (sources src i).map (affRow a 0)) = .ok out' → out'.costs = out.costs.map (a ^ 2 * ·) := by
  intro h
  have k1 : (match flSmooth npSum (fun x _ => x) id noCe (some .reg) [exStump, exTree]
      { exCfg with sanityCheck := false, steps := [0, 1], tFix := 25 / 256 } (fun _ => exTune2) with
    | .ok out => some (out.costs.getD 2 0) | .error _ => none) = some (6438740092256253 / 35184372088832) := by decide +kernel
  have k2 : (match flSmooth npSum (fun x _ => x) id noCe (some .reg) ([exStump, exTree].map (affTree 10 0))
      (unitCfg 10 { exCfg with sanityCheck := false, steps := [0, 1], tFix := 25 / 256 })
      (fun _ i => (exTune2 i).map (affRow 10 0)) with
    | .ok out => some (out.costs.getD 2 0) | .error _ => none) = some 18300 := by decide +kernel
  rcases h1 : flSmooth npSum (fun x _ => x) id noCe (some .reg) [exStump, exTree]
      { exCfg with sanityCheck := false, steps := [0, 1], tFix := 25 / 256 } (fun _ => exTune2) with e | out
  · rw [h1] at k1; cases k1
  rcases h2 : flSmooth npSum (fun x _ => x) id noCe (some .reg) ([exStump, exTree].map (affTree 10 0))
      (unitCfg 10 { exCfg with sanityCheck := false, steps := [0, 1], tFix := 25 / 256 })
      (fun _ i => (exTune2 i).map (affRow 10 0)) with e | out'
  · rw [h2] at k2; cases k2
  rw [h1] at k1
  rw [h2] at k2
  have := h [exStump, exTree] _ (fun _ => exTune2) 10 (by norm_num) out out' h1 h2
  simp only [Option.some.injEq] at k1 k2
  rw [this] at k2
  have hg : (out.costs.map ((10 : ℚ) ^ 2 * ·)).getD 2 0 = 10 ^ 2 * out.costs.getD 2 0 := by
    rw [List.getD_eq_getElem?_getD, List.getD_eq_getElem?_getD, List.getElem?_map]
    cases out.costs[2]? <;> simp
  rw [hg, k1] at k2
  norm_num at k2

/-- Factor `-8`, two steps: the same weights, 64 times the costs, and the values times `-8`. -/
example : (match flSmooth npSum (fun x _ => x) id noCe (some .reg) ([exStump, exTree].map (affTree (-8) 0))
      (unitCfg (-8) { exCfg with sanityCheck := false, steps := [0, 1], tFix := 1 / 4 })
      (fun _ i => (exTune2 i).map (affRow (-8) 0)) with
    | .ok out => some (List.ofFn out.lamb1, out.costs) | .error _ => none) =
    (match flSmooth npSum (fun x _ => x) id noCe (some .reg) [exStump, exTree]
      { exCfg with sanityCheck := false, steps := [0, 1], tFix := 1 / 4 } (fun _ => exTune2) with
    | .ok out => some (List.ofFn out.lamb1, out.costs.map (64 * ·)) | .error _ => none) := by decide +kernel

/-- The root of two as a double. -/
example : flSqrt 2 = 6369051672525773 / 4503599627370496 ∧ flSqrt 9 = 3 := by decide +kernel

end SmoothRF
