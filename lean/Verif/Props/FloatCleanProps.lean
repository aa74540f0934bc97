import Verif.Model.FloatClean
import Verif.Props.FloatCostProps
import Verif.Props.FloatProps

/-!
# C195: the objective of smooth_clean in double precision
-/

set_option linter.unusedSectionVars false

namespace SmoothRF

open Topo SkTree

attribute [local irreducible] fl

/-- Exact smoothed value of the leaf reached: weighted level sums of `n · value` over those of `n` (0 where the latter
is 0). -/
def OobTree.pred (pa : Bool) {n : ℕ} (lamb : Fin n → ℚ) (q : OobTree) : ℚ :=
  let num := ∑ k : Fin n, levelSum pa q.D (fun j => q.t.mass .reg (q.t.leafNode j) 0) q.i k * lamb k
  let den := ∑ k : Fin n, levelSum pa q.D (fun j => q.t.nSamp (q.t.leafNode j)) q.i k * lamb k
  if den = 0 then 0 else num / den

/-- The trees for which the observation is out of bag. -/
def OobObs.oobTrees (o : OobObs) : List OobTree := o.trees.filter fun q => q.oob

/-- Exact mean of the smoothed predictions of the out-of-bag trees (0 if there is none). -/
def OobObs.pred (pa : Bool) {n : ℕ} (lamb : Fin n → ℚ) (o : OobObs) : ℚ :=
  (o.oobTrees.map fun q => q.pred pa lamb).sum / (o.oobTrees.length : ℚ)

/-- Exact mean squared error over a list of observations. -/
def oobLoss (pa : Bool) {n : ℕ} (lamb : Fin n → ℚ) (obs : List OobObs) : ℚ :=
  (obs.map fun o => (o.pred pa lamb - o.y) ^ 2).sum / (obs.length : ℚ)

/-- What is assumed of a tree: whole positive leaf sizes, enough columns, leaf values at most `M`, at most `N` roundings. -/
structure OobTree.OK (n N : ℕ) (M : ℚ) (q : OobTree) : Prop where
  whole : WholeCounts q.t
  pos : ∀ j : Fin q.t.nLeaves, 0 < q.t.nSamp (q.t.leafNode j)
  cols : q.t.maxDist q.D + 1 ≤ n
  size : q.t.nLeaves + n + 3 ≤ N
  bound : ∀ j : Fin q.t.nLeaves, |q.t.value (q.t.leafNode j) 0| ≤ M

/-- What is assumed of an observation. -/
structure OobObs.OK (n N T : ℕ) (M : ℚ) (o : OobObs) : Prop where
  trees : ∀ q ∈ o.trees, q.OK n N M
  count : o.trees.length ≤ T
  resp : |o.y| ≤ M

theorem OobTree.OK.leaf {n N : ℕ} {M : ℚ} {q : OobTree} (h : q.OK n N M) (hM : 0 ≤ M) :
    CostLeaf.OK .reg n N M (⟨q.t, q.D, q.i, 0, 0, 0⟩ : CostLeaf 1) where
  whole := h.whole
  pos := h.pos
  cols := h.cols
  size := h.size
  bound := h.bound
  resp := by simpa using hM
  weight := le_rfl

theorem OobTree.OK.pred_eq {n N : ℕ} {M : ℚ} {q : OobTree} (h : q.OK n N M) (hM : 0 ≤ M) (hN : N ≤ 2 ^ 50) (pa : Bool)
    (lamb : Fin n → ℚ) (hl : ∀ k, 0 ≤ lamb k) :
    smoothValue (leafRow .reg q.t pa q.D n q.i 0) lamb = q.pred pa lamb :=
  (C164_value (sum := flSum) rsum_flSum .reg q.t h.whole pa q.D n h.cols (h.size.trans hN) q.i 0 lamb hl hM h.bound).2

theorem OobTree.OK.pred_le {n N : ℕ} {M : ℚ} {q : OobTree} (h : q.OK n N M) (hM : 0 ≤ M) (hN : N ≤ 2 ^ 50) (pa : Bool)
    (lamb : Fin n → ℚ) (hl : ∀ k, 0 ≤ lamb k) : |q.pred pa lamb| ≤ M := by
  rw [← h.pred_eq hM hN pa lamb hl]
  exact smoothValue_le (h.leaf hM) hM pa lamb hl

/-- C195: the quotients that `calc_y_oob` forms are the smoothed leaf values of C164; none is infinite. -/
theorem flLeftPart_eq {sum : List ℚ → ℚ} (hs : IsFlSum sum) {n N : ℕ} {M : ℚ} {q : OobTree} (h : q.OK n N M)
    (hN : N ≤ 2 ^ 50) (pa : Bool) (lamb : Fin n → ℚ) (hl : ∀ k, 0 ≤ lamb k) :
    flLeftPart sum (flLeafRow sum .reg q.t pa q.D n q.i 0) lamb =
      .ok (flSmoothValue sum (flLeafRow sum .reg q.t pa q.D n q.i 0) lamb) := by
  have ha := C164_assertion hs .reg q.t h.whole h.pos pa q.D n h.cols (h.size.trans hN) 0 lamb hl
  unfold flFillAssert at ha
  rw [List.all_eq_true] at ha
  have ha := ha (flLeafRow sum .reg q.t pa q.D n q.i 0) (List.mem_map.2 ⟨q.i, List.mem_finRange _, rfl⟩)
  unfold flLeftPart flSmoothValue
  by_cases hg : flDot sum (flLeafRow sum .reg q.t pa q.D n q.i 0).gam lamb = 0
  · simp only [hg, if_true, zero_div, fl_zero, ite_self, one_ne_zero, if_false]
  · have he : flDot sum (flLeafRow sum .reg q.t pa q.D n q.i 0).eta lamb ≠ 0 := by
      intro e
      simp [e, hg] at ha
    simp only [if_neg hg, if_neg he]

theorem mapM_ok' {α β : Type} (f : α → Except PyErr β) (g : α → β) (l : List α) (h : ∀ a ∈ l, f a = .ok (g a)) :
    l.mapM f = .ok (l.map g) := by
  induction l with
  | nil => rfl
  | cons a l ih =>
    rw [List.mapM_cons, h a (by simp), ih fun b hb => h b (by simp [hb])]
    rfl

/-- The value of `y_oob` in doubles. -/
def flOobValue (sum : List ℚ → ℚ) (pa : Bool) (n : ℕ) (lamb : Fin n → ℚ) (o : OobObs) : ℚ :=
  sum (o.trees.map fun q => fl ((if q.oob then fl (1 / (o.oobTrees.length : ℚ)) else 0) *
    flSmoothValue sum (flLeafRow sum .reg q.t pa q.D n q.i 0) lamb))

theorem count_oob (l : List OobTree) : (l.map fun q => q.oob).count true = (l.filter fun q => q.oob).length := by
  induction l with
  | nil => rfl
  | cons q l ih => cases h : q.oob <;> simp [h, ih]

theorem zipWith_same {α β γ δ : Type} (f : β → γ → δ) (g : α → β) (h : α → γ) (l : List α) :
    List.zipWith f (l.map g) (l.map h) = l.map fun a => f (g a) (h a) := by
  induction l with
  | nil => rfl
  | cons a l ih => simp [ih]

theorem flYOob_eq {sum : List ℚ → ℚ} (hs : IsFlSum sum) {n N T : ℕ} {M : ℚ} (hN : N ≤ 2 ^ 50) (hT : T ≤ 2 ^ 53) (pa : Bool)
    (lamb : Fin n → ℚ) (hl : ∀ k, 0 ≤ lamb k) {o : OobObs} (ho : o.OK n N T M) :
    flYOob sum pa n lamb o = .ok (flOobValue sum pa n lamb o, flEverOob (o.trees.map fun q => q.oob)) := by
  have h1 := mapM_ok' (fun q : OobTree => flLeftPart sum (flLeafRow sum .reg q.t pa q.D n q.i 0) lamb)
    (fun q => flSmoothValue sum (flLeafRow sum .reg q.t pa q.D n q.i 0) lamb) o.trees
    fun q hq => flLeftPart_eq hs (ho.trees q hq) hN pa lamb hl
  have h2 := flOobRow_eq (o.trees.map fun q => q.oob) (by rw [List.length_map]; exact ho.count.trans hT)
  have h3 : List.zipWith (fun w l => fl (w * l)) (flOobRow (o.trees.map fun q => q.oob))
      (o.trees.map fun q => flSmoothValue sum (flLeafRow sum .reg q.t pa q.D n q.i 0) lamb) =
      o.trees.map fun q => fl ((if q.oob then fl (1 / (o.oobTrees.length : ℚ)) else 0) *
        flSmoothValue sum (flLeafRow sum .reg q.t pa q.D n q.i 0) lamb) := by
    rw [h2, count_oob, List.map_map]
    exact zipWith_same _ _ _ _
  unfold flYOob flOobValue
  rw [h1, ← h3]
  rfl

theorem sum_filter_ite {α : Type} (p : α → Bool) (f : α → ℚ) (l : List α) :
    (l.map fun a => if p a then f a else 0).sum = ((l.filter p).map f).sum := by
  induction l with
  | nil => rfl
  | cons a l ih => cases h : p a <;> simp [h, ih]

/-- C195: an out-of-bag prediction in doubles is within `8 (2N + T + 1) 2^-53 M` of the exact mean over the out-of-bag
trees. -/
theorem oobValue_err {sum : List ℚ → ℚ} (hs : IsFlSum sum) {n N T : ℕ} {M : ℚ} (hM : 0 ≤ M) (hN : N ≤ 2 ^ 50)
    (hT : T + 2 ≤ 2 ^ 49) (pa : Bool) (lamb : Fin n → ℚ) (hl : ∀ k, 0 ≤ lamb k) {o : OobObs} (ho : o.OK n N T M) :
    |flOobValue sum pa n lamb o - o.pred pa lamb| ≤ 8 * ((2 * N + T + 1 : ℕ) : ℚ) * (1 / 2 ^ 53) * M ∧
    |o.pred pa lamb| ≤ M := by
  by_cases hz : o.oobTrees = []
  · have hno : ∀ q ∈ o.trees, q.oob = false := by
      intro q hq
      by_contra h
      have : q ∈ o.oobTrees := List.mem_filter.2 ⟨hq, by simpa using h⟩
      rw [hz] at this
      cases this
    have e : (o.trees.map fun q => fl ((if q.oob then fl (1 / (o.oobTrees.length : ℚ)) else 0) *
        flSmoothValue sum (flLeafRow sum .reg q.t pa q.D n q.i 0) lamb)) = o.trees.map fun _ => (0 : ℚ) :=
      List.map_congr_left fun q hq => by
        rw [hno q hq]
        simp [fl_zero]
    have hs0 := Approx.sum (E := 1) (w := fun _ => 0) (f := fun _ => 0) (f' := fun _ => 0) (l := o.trees)
      (fun _ _ => by simp [Approx]) (hs _)
    have h0 : sum (o.trees.map fun _ => (0 : ℚ)) = 0 := by
      have := hs0.1
      simpa using this
    unfold flOobValue OobObs.pred
    rw [e, h0, hz]
    simp only [List.map_nil, List.sum_nil, zero_div, sub_zero, abs_zero]
    exact ⟨by positivity, hM⟩
  have hm : (0 : ℚ) < (o.oobTrees.length : ℚ) := by exact_mod_cast List.length_pos_iff.2 hz
  have hNT : ∀ q ∈ o.trees, Approx ((1 + 1 / 2 ^ 53) ^ 2 * (1 + 8 * N / 2 ^ 53))
      (if q.oob then M / (o.oobTrees.length : ℚ) else 0) (if q.oob then q.pred pa lamb / (o.oobTrees.length : ℚ) else 0)
      (fl ((if q.oob then fl (1 / (o.oobTrees.length : ℚ)) else 0) *
        flSmoothValue sum (flLeafRow sum .reg q.t pa q.D n q.i 0) lamb)) := by
    intro q hq
    have h := ho.trees q hq
    cases hb : q.oob
    · simp [fl_zero, Approx]
    · simp only [if_true]
      have c1 := (C164_value hs .reg q.t h.whole pa q.D n h.cols (h.size.trans hN) q.i 0 lamb hl hM h.bound).1
      have a1 : Approx (1 + 8 * N / 2 ^ 53) M (q.pred pa lamb)
          (flSmoothValue sum (flLeafRow sum .reg q.t pa q.D n q.i 0) lamb) := by
        refine ⟨c1.trans ?_, h.pred_le hM hN pa lamb hl⟩
        have hsize : ((q.t.nLeaves + n + 3 : ℕ) : ℚ) ≤ N := by exact_mod_cast h.size
        refine mul_le_mul_of_nonneg_right ?_ hM
        rw [add_sub_cancel_left, mul_one_div]
        gcongr
      have a2 : Approx (1 : ℚ) (1 / (o.oobTrees.length : ℚ)) (1 / (o.oobTrees.length : ℚ)) (1 / (o.oobTrees.length : ℚ)) :=
        ⟨by simp, le_of_eq (_root_.abs_of_nonneg (by positivity))⟩
      have a3 := ((a2.fl).mul' a1).fl
      have e1 : (1 + 1 / 2 ^ 53) * ((1 + 1 / 2 ^ 53) * 1 * (1 + 8 * (N : ℚ) / 2 ^ 53)) =
          (1 + 1 / 2 ^ 53) ^ 2 * (1 + 8 * N / 2 ^ 53) := by ring
      rw [e1, one_div_mul_eq_div, one_div_mul_eq_div] at a3
      exact a3
  have key := Approx.sum hNT (hs _)
  have s1 : (o.trees.map fun q => if q.oob then M / (o.oobTrees.length : ℚ) else 0).sum = M := by
    rw [sum_filter_ite]
    change (o.oobTrees.map _).sum = M
    rw [List.map_const', List.sum_replicate, nsmul_eq_mul, mul_div_cancel₀ _ hm.ne']
  have s2 : (o.trees.map fun q => if q.oob then q.pred pa lamb / (o.oobTrees.length : ℚ) else 0).sum = o.pred pa lamb := by
    rw [sum_filter_ite]
    unfold OobObs.pred OobObs.oobTrees
    simp only [div_eq_mul_inv]
    rw [List.sum_map_mul_right]
  rw [s1, s2, List.length_map] at key
  refine ⟨key.1.trans (mul_le_mul_of_nonneg_right ?_ hM), key.2⟩
  have hk : (1 + 1 / 2 ^ 53 : ℚ) ^ o.trees.length * ((1 + 1 / 2 ^ 53) ^ 2 * (1 + 8 * N / 2 ^ 53)) ≤
      (1 + 1 / 2 ^ 53) ^ (T + 2) * (1 + 8 * N / 2 ^ 53) := by
    rw [← mul_assoc, ← pow_add]
    refine mul_le_mul_of_nonneg_right (pow_le_pow_right₀ (by norm_num) ?_) (by positivity)
    have := ho.count
    omega
  have hp := pow_small (T + 2) (hT.trans (by norm_num))
  have hp2 := mul_le_mul_of_nonneg_right hp (by positivity : (0 : ℚ) ≤ 1 + 8 * N / 2 ^ 53)
  have hT' : ((T + 2 : ℕ) : ℚ) ≤ 2 ^ 49 := by exact_mod_cast hT
  have b0 : (0 : ℚ) ≤ N := by positivity
  have h5 : ((T + 2 : ℕ) : ℚ) * N ≤ 2 ^ 49 * N := mul_le_mul_of_nonneg_right hT' b0
  push_cast at *
  have e3 : (1 + 2 * ((T : ℚ) + 2) * (1 / 2 ^ 53)) * (1 + 8 * N / 2 ^ 53) =
      1 + 2 * (T + 2) / 2 ^ 53 + 8 * N / 2 ^ 53 + 16 * ((T + 2) * N) / 2 ^ 106 := by ring
  rw [e3] at hp2
  have h6 : 16 * (((T : ℚ) + 2) * N) / 2 ^ 106 ≤ 16 * (2 ^ 49 * N) / 2 ^ 106 := by
    apply div_le_div_of_nonneg_right _ (by positivity); linarith
  have t0 : (0 : ℚ) ≤ T := by positivity
  linarith

/-- C195: in doubles `calc_y_oob` never divides by zero, and every prediction is within `8 (2N + T + 1) 2^-53 M` of the
exact mean of the smoothed predictions over the out-of-bag trees. -/
theorem C195_prediction {sum : List ℚ → ℚ} (hs : IsFlSum sum) (pa : Bool) (n N T : ℕ) (M : ℚ) (hM : 0 ≤ M)
    (hN : N ≤ 2 ^ 50) (hT : T + 2 ≤ 2 ^ 49) (lamb : Fin n → ℚ) (hl : ∀ k, 0 ≤ lamb k) (o : OobObs) (ho : o.OK n N T M) :
    ∃ p, flYOob sum pa n lamb o = .ok (p, flEverOob (o.trees.map fun q => q.oob)) ∧
      |p - o.pred pa lamb| ≤ 8 * ((2 * N + T + 1 : ℕ) : ℚ) * (1 / 2 ^ 53) * M :=
  ⟨_, flYOob_eq hs hN ((Nat.le_add_right T 2).trans (hT.trans (by norm_num))) pa lamb hl ho,
    (oobValue_err hs hM hN hT pa lamb hl ho).1⟩

theorem filter_zipWith {α : Type} (e : α → Bool) (f : α → ℚ) (l : List α) :
    (l.map fun a => (e a, f a)).filter (fun q => q.1) = (l.filter e).map fun a => (e a, f a) := by
  induction l with
  | nil => rfl
  | cons a l ih => cases h : e a <;> simp [h, ih]

/-- C195: in doubles the full cost of `smooth_clean` is `nan` if no observation passes the test `np.sum(item) == 1`, and
otherwise within `44 (2N + T + m + 5) 2^-53 M²` of the exact mean squared error over the `m` observations that do. -/
theorem C195_cost {sum : List ℚ → ℚ} (hs : IsFlSum sum) (pa : Bool) (n N T : ℕ) (M : ℚ) (hM : 0 ≤ M)
    (hN : 2 * N + T + 1 ≤ 2 ^ 46) (lamb : Fin n → ℚ) (hl : ∀ k, 0 ≤ lamb k) (obs : List OobObs)
    (ho : ∀ o ∈ obs, o.OK n N T M) (hR : obs.length + 4 ≤ 2 ^ 49) :
    let sel := obs.filter fun o => flEverOob (o.trees.map fun q => q.oob)
    (sel = [] → flCleanCost sum pa n obs lamb = .error .nonFinite) ∧
    (sel ≠ [] → ∃ c, flCleanCost sum pa n obs lamb = .ok c ∧
      |c - oobLoss pa lamb sel| ≤ 44 * (2 * N + T + sel.length + 5) / 2 ^ 53 * M ^ 2) := by
  intro sel
  have hN1 : N ≤ 2 ^ 50 := by omega
  have hT1 : T + 2 ≤ 2 ^ 49 := by omega
  have h1 := mapM_ok' (flYOob sum pa n lamb)
    (fun o => (flOobValue sum pa n lamb o, flEverOob (o.trees.map fun q => q.oob))) obs
    fun o h => flYOob_eq hs hN1 (by omega) pa lamb hl (ho o h)
  have h2 : (List.zipWith (fun (p : ℚ × Bool) (o : OobObs) => (p.2, fl (fl (p.1 - o.y) * fl (p.1 - o.y))))
      (obs.map fun o => (flOobValue sum pa n lamb o, flEverOob (o.trees.map fun q => q.oob))) obs).filter (fun q => q.1) =
      sel.map fun o => (flEverOob (o.trees.map fun q => q.oob),
        fl (fl (flOobValue sum pa n lamb o - o.y) * fl (flOobValue sum pa n lamb o - o.y))) := by
    rw [← filter_zipWith]
    congr 1
    have := zipWith_same (fun (p : ℚ × Bool) (o : OobObs) => (p.2, fl (fl (p.1 - o.y) * fl (p.1 - o.y))))
      (fun o => (flOobValue sum pa n lamb o, flEverOob (o.trees.map fun q => q.oob))) id obs
    rw [List.map_id] at this
    exact this
  have h3 : flCleanCost sum pa n obs lamb = if sel.length = 0 then .error .nonFinite else
      .ok (fl (sum (sel.map fun o =>
        fl (fl (flOobValue sum pa n lamb o - o.y) * fl (flOobValue sum pa n lamb o - o.y))) / (sel.length : ℚ))) := by
    unfold flCleanCost
    rw [h1]
    simp only [bind, Except.bind, pure, Except.pure]
    rw [h2, List.length_map, List.map_map]
    rfl
  constructor
  · intro h0
    rw [h3, h0]
    rfl
  intro h0
  have hlen : sel.length ≠ 0 := fun e => h0 (List.length_eq_zero_iff.1 e)
  have hm : (0 : ℚ) < (sel.length : ℚ) := by exact_mod_cast Nat.pos_of_ne_zero hlen
  rw [h3, if_neg hlen]
  refine ⟨_, rfl, ?_⟩
  have hterm : ∀ o ∈ sel, Approx ((1 + 1 / 2 ^ 53) ^ 3 * (1 + 4 * ((2 * N + T + 1 : ℕ) : ℚ) / 2 ^ 53) ^ 2) (4 * M ^ 2)
      ((o.pred pa lamb - o.y) ^ 2)
      (fl (fl (flOobValue sum pa n lamb o - o.y) * fl (flOobValue sum pa n lamb o - o.y))) := by
    intro o hos
    have hok := ho o (List.mem_filter.1 hos).1
    obtain ⟨e1, e2⟩ := oobValue_err hs hM hN1 hT1 pa lamb hl hok
    have base : Approx (1 + 4 * ((2 * N + T + 1 : ℕ) : ℚ) / 2 ^ 53) (2 * M) (o.pred pa lamb - o.y)
        (flOobValue sum pa n lamb o - o.y) := by
      constructor
      · rw [sub_sub_sub_cancel_right]
        refine e1.trans (le_of_eq ?_)
        ring
      · refine (abs_sub _ _).trans ?_
        have := hok.resp
        linarith
    have sq := ((base.fl).mul' (base.fl)).fl
    have q1 : (1 + 1 / 2 ^ 53) * ((1 + 1 / 2 ^ 53) * (1 + 4 * ((2 * N + T + 1 : ℕ) : ℚ) / 2 ^ 53) *
        ((1 + 1 / 2 ^ 53) * (1 + 4 * ((2 * N + T + 1 : ℕ) : ℚ) / 2 ^ 53))) =
        (1 + 1 / 2 ^ 53) ^ 3 * (1 + 4 * ((2 * N + T + 1 : ℕ) : ℚ) / 2 ^ 53) ^ 2 := by ring
    have q2 : 2 * M * (2 * M) = 4 * M ^ 2 := by ring
    rw [q1, q2, ← pow_two] at sq
    exact sq
  have key := (((Approx.sum hterm (hs _)).mul (inv_nonneg.2 hm.le)).fl).1
  rw [List.length_map, ← div_eq_mul_inv, ← div_eq_mul_inv, ← div_eq_mul_inv] at key
  have q3 : (sel.map fun _ => 4 * M ^ 2).sum / (sel.length : ℚ) = 4 * M ^ 2 := by
    rw [List.map_const', List.sum_replicate, nsmul_eq_mul, mul_div_cancel_left₀ _ hm.ne']
  have q4 : (1 + 1 / 2 ^ 53) * ((1 + 1 / 2 ^ 53) ^ sel.length *
      ((1 + 1 / 2 ^ 53) ^ 3 * (1 + 4 * ((2 * N + T + 1 : ℕ) : ℚ) / 2 ^ 53) ^ 2)) - 1 =
      costErr (2 * N + T + 1) sel.length := by
    unfold costErr
    rw [show sel.length + 4 = 1 + sel.length + 3 by omega, pow_add, pow_add, pow_one]
    ring
  rw [q3, q4] at key
  have hsel : sel.length ≤ obs.length := List.length_filter_le _ _
  have hce := costErr_le hN (show sel.length + 4 ≤ 2 ^ 49 by omega)
  refine key.trans ((mul_le_mul_of_nonneg_right hce (by positivity)).trans (le_of_eq ?_))
  push_cast
  ring

/-- C195: if every observation with an out-of-bag tree has a power of two of them, or at most five in a forest of fewer
than eight trees, the cost in doubles is close to the exact mean squared error over all observations that are ever out
of bag. -/
theorem C195_all_partial {sum : List ℚ → ℚ} (hs : IsFlSum sum) (pa : Bool) (n N T : ℕ) (M : ℚ) (hM : 0 ≤ M)
    (hN : 2 * N + T + 1 ≤ 2 ^ 46) (lamb : Fin n → ℚ) (hl : ∀ k, 0 ≤ lamb k) (obs : List OobObs)
    (ho : ∀ o ∈ obs, o.OK n N T M) (hR : obs.length + 4 ≤ 2 ^ 49)
    (hc : ∀ o ∈ obs, o.oobTrees ≠ [] → (∃ j, o.oobTrees.length = 2 ^ j) ∨ (o.trees.length < 8 ∧ o.oobTrees.length ≤ 5))
    (hne : ∃ o ∈ obs, o.oobTrees ≠ []) :
    ∃ c, flCleanCost sum pa n obs lamb = .ok c ∧
      |c - oobLoss pa lamb (obs.filter fun o => !o.oobTrees.isEmpty)| ≤
        44 * (2 * N + T + obs.length + 5) / 2 ^ 53 * M ^ 2 := by
  have hf : obs.filter (fun o => flEverOob (o.trees.map fun q => q.oob)) = obs.filter fun o => !o.oobTrees.isEmpty := by
    refine List.filter_congr fun o h => ?_
    have hlen : (o.trees.map fun q => q.oob).length ≤ 2 ^ 53 := by
      have := (ho o h).count
      rw [List.length_map]
      omega
    have hcount : (o.trees.map fun q => q.oob).count true = o.oobTrees.length := count_oob _
    by_cases h0 : o.oobTrees = []
    · rw [h0]
      have : flEverOob (o.trees.map fun q => q.oob) ≠ true := by
        intro e
        have hm := C153_sound _ hlen e
        have := List.count_pos_iff.2 hm
        rw [hcount, h0] at this
        exact absurd this (lt_irrefl _)
      simpa using this
    · have hi : (!o.oobTrees.isEmpty) = true := by
        simpa using h0
      rw [hi]
      rcases hc o h h0 with ⟨j, hj⟩ | ⟨h8, h5⟩
      · exact C153_ever_oob_partial _ hlen j (hcount.trans hj)
      · refine (C153_few_trees _ (by rwa [List.length_map])).2 ?_
        rw [hcount]
        exact ⟨List.length_pos_iff.2 h0, h5⟩
  obtain ⟨-, h2⟩ := C195_cost hs pa n N T M hM hN lamb hl obs ho hR
  rw [hf] at h2
  obtain ⟨o, hoo, h0⟩ := hne
  obtain ⟨c, hc1, hc2⟩ := h2 fun e => by
    have : o ∈ obs.filter fun o => !o.oobTrees.isEmpty := List.mem_filter.2 ⟨hoo, by simpa using h0⟩
    rw [e] at this
    cases this
  refine ⟨c, hc1, hc2.trans ?_⟩
  have : ((obs.filter fun o => !o.oobTrees.isEmpty).length : ℚ) ≤ obs.length := by
    exact_mod_cast List.length_filter_le _ _
  gcongr

/-! ### Observations that are out of bag six times -/

/-- The first leaf (value 0) of a stump with leaf values 0 and 1. -/
abbrev exOobTree (b : Bool) : OobTree := ⟨exUnit, exUnit.distDepth .standard, ⟨0, by decide⟩, b⟩

/-- Six trees, out of bag for all of them, with response 1; and out of bag for the first only, with response 0. -/
abbrev exOobObs : List OobObs :=
  [⟨List.replicate 6 (exOobTree true), 1⟩, ⟨exOobTree true :: List.replicate 5 (exOobTree false), 0⟩]

theorem exOobTree_ok (b : Bool) : (exOobTree b).OK 2 7 1 where
  whole := exUnitLeaf_ok.whole
  pos := exUnitLeaf_ok.pos
  cols := exUnitLeaf_ok.cols
  size := exUnitLeaf_ok.size
  bound := exUnitLeaf_ok.bound

theorem exOobObs_ok : ∀ o ∈ exOobObs, o.OK 2 7 6 1 := by
  intro o h
  simp only [exOobObs, List.mem_cons, List.not_mem_nil, or_false] at h
  rcases h with rfl | rfl
  · exact ⟨fun q hq => (List.mem_replicate.1 hq).2 ▸ exOobTree_ok true, by simp, by norm_num⟩
  · refine ⟨fun q hq => ?_, by simp, by norm_num⟩
    rcases List.mem_cons.1 hq with rfl | hq
    · exact exOobTree_ok true
    · exact (List.mem_replicate.1 hq).2 ▸ exOobTree_ok false

/-- C195: without such a condition the cost in doubles is not close to the mean squared error over the observations that are
ever out of bag: with six trees the worst fitted observation is dropped, and the cost is 0 instead of 1/2; on its
own it gives `nan` instead of 1. -/
theorem C195_refuted :
    (∀ o ∈ exOobObs, o.OK 2 7 6 1 ∧ o.oobTrees ≠ []) ∧
    flCleanCost npSum false 2 exOobObs ![1, 0] = .ok 0 ∧ oobLoss false ![1, 0] exOobObs = 1 / 2 ∧
    flCleanCost npSum false 2 (exOobObs.take 1) ![1, 0] = .error .nonFinite ∧
    oobLoss false ![1, 0] (exOobObs.take 1) = 1 :=
  ⟨fun o h => ⟨exOobObs_ok o h, by revert o; decide +kernel⟩, by decide +kernel, by decide +kernel, by decide +kernel,
    by decide +kernel⟩

/-- Three trees, observations out of bag for all and for one of them: the hypotheses of `C195_all_partial` hold, and
the cost in doubles is not the exact one. -/
example : (∀ o ∈ [(⟨List.replicate 3 (exOobTree true), 1⟩ : OobObs),
      ⟨exOobTree true :: List.replicate 2 (exOobTree false), 1 / 4⟩],
      o.oobTrees ≠ [] ∧ o.trees.length < 8 ∧ o.oobTrees.length ≤ 5) ∧
    flCleanCost npSum false 2 [⟨List.replicate 3 (exOobTree true), 1⟩,
      ⟨exOobTree true :: List.replicate 2 (exOobTree false), 1 / 4⟩] ![3 / 10, 7 / 10] =
        .ok (658651445502935 / 4503599627370496) ∧
    oobLoss false ![3 / 10, 7 / 10] [⟨List.replicate 3 (exOobTree true), 1⟩,
      ⟨exOobTree true :: List.replicate 2 (exOobTree false), 1 / 4⟩] = 117 / 800 :=
  ⟨by decide +kernel, by decide +kernel, by decide +kernel⟩

end SmoothRF
