import Verif.Props.TorchRunProps
import Mathlib.Analysis.SpecialFunctions.ExpDeriv
import Mathlib.Analysis.Calculus.Deriv.Inv

/-!
# C202: the gradient of the loss smooth_pytorch trains on
-/

set_option linter.unusedSectionVars false

namespace SmoothRF
open Topo SkTree

/-! ### Scores, shares and predictions -/

/-- Score of level `k` for a leaf with features `f`: bias plus weights times the columns of that level. -/
noncomputable def torchScore (nv n : ℕ) (p : Params ℝ) (f : ℕ → ℝ) (k : ℕ) : ℝ :=
  ∑ v ∈ Finset.range nv, p.weight k v * f (k + n * v) + p.bias k

/-- Prediction for a leaf: level sums weighted by the exponentials of the scores. -/
noncomputable def torchPred (nv : ℕ) {n : ℕ} (p : Params ℝ) (g e : Fin n → ℝ) (f : ℕ → ℝ) : ℝ :=
  (∑ k : Fin n, g k * Real.exp (torchScore nv n p f k)) / ∑ k : Fin n, e k * Real.exp (torchScore nv n p f k)

/-- Share of level `k` in the denominator of the prediction. -/
noncomputable def torchShare (nv : ℕ) {n : ℕ} (p : Params ℝ) (e : Fin n → ℝ) (f : ℕ → ℝ) (k : Fin n) : ℝ :=
  e k * Real.exp (torchScore nv n p f k) / ∑ j : Fin n, e j * Real.exp (torchScore nv n p f j)

/-- Parameters moved by `t` in direction `d`. -/
def Params.along (p d : Params ℝ) (t : ℝ) : Params ℝ :=
  ⟨fun k v => p.weight k v + t * d.weight k v, fun k => p.bias k + t * d.bias k⟩

/-- An item the network accepts: lists of one length, enough variables, and level counts that are non-negative and not all
zero. -/
structure Item.OK {n : ℕ} (nv : ℕ) (x : Item ℝ n) : Prop where
  pos : 0 < nv
  vars : nv ≤ x.numVars
  gam : x.gamma.length = x.y.length
  eta : x.eta.length = x.y.length
  feat : x.feats.length = x.y.length
  wts : x.weights.length = x.y.length
  wsum : x.weights.sum ≠ 0
  nonneg : ∀ e ∈ x.eta, ∀ k, 0 ≤ e k
  some : ∀ e ∈ x.eta, ∃ k, 0 < e k

/-- The leaves of an item: level sums and features. -/
def Item.leaves {n : ℕ} (x : Item ℝ n) : List (((Fin n → ℝ) × (Fin n → ℝ)) × (ℕ → ℝ)) := (x.gamma.zip x.eta).zip x.feats

theorem torchLinear_eq (nv n : ℕ) (p : Params ℝ) (f : ℕ → ℝ) (k : ℕ) : Net.linear ⟨nv, p⟩ n f k = torchScore nv n p f k := by
  unfold Net.linear torchScore
  rw [← List.sum_toFinset _ (List.nodup_range), List.toFinset_range]

theorem den_pos {n : ℕ} {e : Fin n → ℝ} (h0 : ∀ k, 0 ≤ e k) (h1 : ∃ k, 0 < e k) (z : ℕ → ℝ) :
    0 < ∑ k : Fin n, e k * Real.exp (z k) := by
  obtain ⟨k, hk⟩ := h1
  exact Finset.sum_pos' (fun j _ => mul_nonneg (h0 j) (Real.exp_pos _).le) ⟨k, Finset.mem_univ _, mul_pos hk (Real.exp_pos _)⟩

/-- The network's prediction for one leaf. -/
theorem leafOut_eq {nv n : ℕ} {p : Params ℝ} {g e : Fin n → ℝ} (h0 : ∀ k, 0 ≤ e k) (h1 : ∃ k, 0 < e k) (f : ℕ → ℝ) :
    leafOut g e (Net.lamb Real.exp ⟨nv, p⟩ f) = .ok (torchPred nv p g e f) := by
  have hS : 0 < ∑ j : Fin n, Real.exp (torchScore nv n p f j) := by
    have := den_pos (n := n) (e := fun _ => 1) (fun _ => zero_le_one) (by obtain ⟨k, _⟩ := h1; exact ⟨k, one_pos⟩)
      (torchScore nv n p f)
    simpa using this
  have hd : ∀ u : Fin n → ℝ, dot u (Net.lamb Real.exp ⟨nv, p⟩ f) =
      (∑ k : Fin n, u k * Real.exp (torchScore nv n p f k)) / ∑ j : Fin n, Real.exp (torchScore nv n p f j) := by
    intro u
    unfold dot Net.lamb softmax
    simp only [torchLinear_eq]
    rw [Finset.sum_div]
    exact Finset.sum_congr rfl fun k _ => by ring
  have hp := den_pos h0 h1 (torchScore nv n p f)
  unfold leafOut
  rw [hd, hd, if_neg (div_pos hp hS).ne']
  unfold torchPred
  congr 1
  rw [div_div_div_cancel_right₀ hS.ne']

theorem leaves_mem {n : ℕ} {x : Item ℝ n} {l : ((Fin n → ℝ) × (Fin n → ℝ)) × (ℕ → ℝ)} (h : l ∈ x.leaves) :
    l.1.2 ∈ x.eta := (List.of_mem_zip (List.of_mem_zip h).1).2

theorem forward_eq {nv n : ℕ} {x : Item ℝ n} (h : x.OK nv) (p : Params ℝ) :
    forward Real.exp ⟨nv, p⟩ x = .ok (x.leaves.map fun l => torchPred nv p l.1.1 l.1.2 l.2) := by
  unfold forward
  rw [if_neg (by have := h.pos; have := h.vars; simp only [not_or, not_lt]; omega)]
  refine mapM_ok _ _ _ fun l hl => ?_
  exact leafOut_eq (h.nonneg _ (leaves_mem hl)) (h.some _ (leaves_mem hl)) _

theorem leaves_length {nv n : ℕ} {x : Item ℝ n} (h : x.OK nv) : x.leaves.length = x.y.length := by
  simp [Item.leaves, h.gam, h.eta, h.feat]

/-- The loss on an item. -/
theorem itemLoss_eq {nv n : ℕ} {x : Item ℝ n} (h : x.OK nv) (p : Params ℝ) :
    itemLoss Real.exp ⟨nv, p⟩ x = .ok ((x.y.length : ℝ) *
        (((x.y.zip x.weights).map fun e => e.2 * (e.1 - wMean x.y x.weights) ^ 2).sum / x.weights.sum) +
      (x.leaves.map fun l => (torchPred nv p l.1.1 l.1.2 l.2 - wMean x.y x.weights) ^ 2).sum) := by
  rw [C86_decomposition (forward_eq h p) h.wts (by rw [List.length_map, leaves_length h]) h.wsum, List.length_map,
    leaves_length h, List.map_map]
  rfl

theorem score_along (nv n : ℕ) (p d : Params ℝ) (f : ℕ → ℝ) (k : ℕ) (t : ℝ) :
    torchScore nv n (p.along d t) f k = torchScore nv n p f k + t * torchScore nv n d f k := by
  unfold torchScore Params.along
  simp only [add_mul, Finset.sum_add_distrib, mul_add, Finset.mul_sum]
  have : ∀ v, t * d.weight k v * f (k + n * v) = t * (d.weight k v * f (k + n * v)) := fun v => by ring
  simp only [this]
  ring

/-- Slope of one prediction. -/
theorem pred_deriv {nv n : ℕ} (p d : Params ℝ) {g e : Fin n → ℝ} (h0 : ∀ k, 0 ≤ e k) (h1 : ∃ k, 0 < e k) (f : ℕ → ℝ) :
    HasDerivAt (fun t => torchPred nv (p.along d t) g e f)
      (∑ k : Fin n, torchScore nv n d f k * (g k - torchPred nv p g e f * e k) * Real.exp (torchScore nv n p f k) /
        ∑ j : Fin n, e j * Real.exp (torchScore nv n p f j)) 0 := by
  have hlin : ∀ k : Fin n, HasDerivAt (fun t : ℝ => Real.exp (torchScore nv n (p.along d t) f k))
      (torchScore nv n d f k * Real.exp (torchScore nv n p f k)) 0 := by
    intro k
    have h : HasDerivAt (fun t : ℝ => torchScore nv n (p.along d t) f k) (torchScore nv n d f k) 0 := by
      simp only [score_along]
      have := ((hasDerivAt_id (0 : ℝ)).mul_const (torchScore nv n d f k)).const_add (torchScore nv n p f k)
      simpa using this
    have h2 := h.exp
    rw [score_along, zero_mul, add_zero, mul_comm] at h2
    exact h2
  have hsum : ∀ u : Fin n → ℝ, HasDerivAt (fun t : ℝ => ∑ k : Fin n, u k * Real.exp (torchScore nv n (p.along d t) f k))
      (∑ k : Fin n, u k * (torchScore nv n d f k * Real.exp (torchScore nv n p f k))) 0 :=
    fun u => HasDerivAt.fun_sum fun k _ => (hlin k).const_mul (u k)
  have hp := den_pos h0 h1 (torchScore nv n p f)
  have e0 : ∀ u : Fin n → ℝ, ∑ k : Fin n, u k * Real.exp (torchScore nv n (p.along d 0) f k) =
      ∑ k : Fin n, u k * Real.exp (torchScore nv n p f k) := by
    intro u
    simp only [score_along, zero_mul, add_zero]
  have := (hsum g).fun_div (hsum e) (by rw [e0]; exact hp.ne')
  rw [e0, e0] at this
  unfold torchPred
  refine this.congr_deriv ?_
  generalize hD : ∑ k : Fin n, e k * Real.exp (torchScore nv n p f k) = D at *
  generalize hG : ∑ k : Fin n, g k * Real.exp (torchScore nv n p f k) = G
  rw [← Finset.sum_div, div_eq_div_iff (by positivity) hp.ne']
  have e1 : ∑ k : Fin n, torchScore nv n d f k * (g k - G / D * e k) * Real.exp (torchScore nv n p f k) =
      ∑ k : Fin n, g k * (torchScore nv n d f k * Real.exp (torchScore nv n p f k)) -
        G / D * ∑ k : Fin n, e k * (torchScore nv n d f k * Real.exp (torchScore nv n p f k)) := by
    rw [Finset.mul_sum, ← Finset.sum_sub_distrib]
    exact Finset.sum_congr rfl fun k _ => by ring
  rw [e1]
  field_simp

/-- C202: the slope of the loss of `smooth_pytorch` in any direction of the parameters: each prediction's distance from the
mean response (C86), times the change of the scores weighted by how far each level's mass is from the prediction. -/
theorem C202_slope {nv n : ℕ} {x : Item ℝ n} (h : x.OK nv) (p d : Params ℝ) :
    ∃ L : ℝ → ℝ, (∀ t, itemLoss Real.exp ⟨nv, p.along d t⟩ x = .ok (L t)) ∧
      HasDerivAt L ((x.leaves.map fun l => 2 * (torchPred nv p l.1.1 l.1.2 l.2 - wMean x.y x.weights) *
        ∑ k : Fin n, torchScore nv n d l.2 k * (l.1.1 k - torchPred nv p l.1.1 l.1.2 l.2 * l.1.2 k) *
          Real.exp (torchScore nv n p l.2 k) / ∑ j : Fin n, l.1.2 j * Real.exp (torchScore nv n p l.2 j)).sum) 0 := by
  refine ⟨_, fun t => itemLoss_eq h (p.along d t), HasDerivAt.const_add _ ?_⟩
  have key : ∀ ls : List (((Fin n → ℝ) × (Fin n → ℝ)) × (ℕ → ℝ)), (∀ l ∈ ls, l ∈ x.leaves) →
      HasDerivAt (fun t => (ls.map fun l => (torchPred nv (p.along d t) l.1.1 l.1.2 l.2 - wMean x.y x.weights) ^ 2).sum)
        ((ls.map fun l => 2 * (torchPred nv p l.1.1 l.1.2 l.2 - wMean x.y x.weights) *
        ∑ k : Fin n, torchScore nv n d l.2 k * (l.1.1 k - torchPred nv p l.1.1 l.1.2 l.2 * l.1.2 k) *
          Real.exp (torchScore nv n p l.2 k) / ∑ j : Fin n, l.1.2 j * Real.exp (torchScore nv n p l.2 j)).sum) 0 := by
    intro ls hls
    induction ls with
    | nil => simpa using hasDerivAt_const (0 : ℝ) (0 : ℝ)
    | cons l ls ih =>
      simp only [List.map_cons, List.sum_cons]
      have hl := leaves_mem (hls l (by simp))
      have h1 := ((pred_deriv (nv := nv) p d (g := l.1.1) (h.nonneg _ hl) (h.some _ hl) l.2).sub_const
        (wMean x.y x.weights)).fun_pow 2
      have e : torchPred nv (p.along d 0) l.1.1 l.1.2 l.2 = torchPred nv p l.1.1 l.1.2 l.2 := by
        unfold torchPred
        simp only [score_along, zero_mul, add_zero]
      rw [e] at h1
      refine (h1.fun_add (ih fun l hl => hls l (by simp [hl]))).congr_deriv ?_
      simp
  exact key x.leaves fun _ hl => hl

/-- C202: adding the same number to all biases changes neither the predictions nor the loss; nor does adding the same number
to the weights that all levels give to a variable whose columns are equal (the entries of the one-dimensional dictionary,
C66). -/
theorem C202_shift {nv n : ℕ} {x : Item ℝ n} (h : x.OK nv) (p : Params ℝ) (s : ℝ) (u : ℕ → ℝ)
    (hu : ∀ v < nv, u v ≠ 0 → ∀ f ∈ x.feats, ∀ k : Fin n, f (k + n * v) = f (n * v)) :
    forward Real.exp ⟨nv, ⟨fun k v => p.weight k v + u v, fun k => p.bias k + s⟩⟩ x = forward Real.exp ⟨nv, p⟩ x ∧
    itemLoss Real.exp ⟨nv, ⟨fun k v => p.weight k v + u v, fun k => p.bias k + s⟩⟩ x = itemLoss Real.exp ⟨nv, p⟩ x := by
  have hp : ∀ l ∈ x.leaves, torchPred nv ⟨fun k v => p.weight k v + u v, fun k => p.bias k + s⟩ l.1.1 l.1.2 l.2 =
      torchPred nv p l.1.1 l.1.2 l.2 := by
    intro l hl
    have hf : l.2 ∈ x.feats := (List.of_mem_zip hl).2
    have hz : ∀ k : Fin n, torchScore nv n ⟨fun k v => p.weight k v + u v, fun k => p.bias k + s⟩ l.2 k =
        torchScore nv n p l.2 k + (∑ v ∈ Finset.range nv, u v * l.2 (n * v) + s) := by
      intro k
      unfold torchScore
      simp only [add_mul, Finset.sum_add_distrib]
      have : ∑ v ∈ Finset.range nv, u v * l.2 (k + n * v) = ∑ v ∈ Finset.range nv, u v * l.2 (n * v) := by
        refine Finset.sum_congr rfl fun v hv => ?_
        by_cases h0 : u v = 0
        · rw [h0, zero_mul, zero_mul]
        · rw [hu v (Finset.mem_range.1 hv) h0 l.2 hf k]
      rw [this]
      ring
    unfold torchPred
    generalize ∑ v ∈ Finset.range nv, u v * l.2 (n * v) + s = c at hz
    simp only [hz, Real.exp_add, ← mul_assoc]
    rw [← Finset.sum_mul, ← Finset.sum_mul, mul_div_mul_right _ _ (Real.exp_pos _).ne']
  constructor
  · rw [forward_eq h, forward_eq h, List.map_congr_left hp]
  · rw [itemLoss_eq h, itemLoss_eq h]
    congr 3
    exact List.map_congr_left fun l hl => by rw [hp l hl]

/-- The slopes of the scores weighted by the distance of each level's mass from the prediction do not depend on a common
shift. -/
theorem slope_shift {nv n : ℕ} (p d : Params ℝ) {g e : Fin n → ℝ} (h0 : ∀ k, 0 ≤ e k) (h1 : ∃ k, 0 < e k) (f : ℕ → ℝ) (c : ℝ) :
    ∑ k : Fin n, torchScore nv n d f k * (g k - torchPred nv p g e f * e k) * Real.exp (torchScore nv n p f k) /
        ∑ j : Fin n, e j * Real.exp (torchScore nv n p f j) =
      ∑ k : Fin n, (torchScore nv n d f k - c) * (g k - torchPred nv p g e f * e k) * Real.exp (torchScore nv n p f k) /
        ∑ j : Fin n, e j * Real.exp (torchScore nv n p f j) := by
  have hp := den_pos h0 h1 (torchScore nv n p f)
  have hz : ∑ k : Fin n, c * (g k - torchPred nv p g e f * e k) * Real.exp (torchScore nv n p f k) /
        ∑ j : Fin n, e j * Real.exp (torchScore nv n p f j) = 0 := by
    rw [← Finset.sum_div, div_eq_zero_iff]
    left
    have : ∀ k : Fin n, c * (g k - torchPred nv p g e f * e k) * Real.exp (torchScore nv n p f k) =
        c * (g k * Real.exp (torchScore nv n p f k)) -
          c * torchPred nv p g e f * (e k * Real.exp (torchScore nv n p f k)) := fun k => by ring
    rw [Finset.sum_congr rfl fun k _ => this k, Finset.sum_sub_distrib, ← Finset.mul_sum, ← Finset.mul_sum, mul_assoc]
    unfold torchPred
    rw [div_mul_cancel₀ _ hp.ne', sub_self]
  rw [← sub_zero (∑ k : Fin n, torchScore nv n d f k * _ * _ / _), ← hz, ← Finset.sum_sub_distrib]
  exact Finset.sum_congr rfl fun k _ => by ring

theorem pred_abs {nv n : ℕ} (p : Params ℝ) {g e : Fin n → ℝ} (h0 : ∀ k, 0 ≤ e k) (h1 : ∃ k, 0 < e k) (f : ℕ → ℝ) {M : ℝ}
    (hM : ∀ k, |g k| ≤ M * e k) : |torchPred nv p g e f| ≤ M := by
  have hp := den_pos h0 h1 (torchScore nv n p f)
  unfold torchPred
  rw [abs_div, abs_of_pos hp, div_le_iff₀ hp, Finset.mul_sum]
  refine (Finset.abs_sum_le_sum_abs _ _).trans (Finset.sum_le_sum fun k _ => ?_)
  rw [abs_mul, abs_of_pos (Real.exp_pos _), ← mul_assoc]
  exact mul_le_mul_of_nonneg_right (hM k) (Real.exp_pos _).le

/-- Slope of one prediction: at most twice the largest level mean times the shares of the levels that move relative to
level `c`. -/
theorem slope_abs {nv n : ℕ} (p d : Params ℝ) {g e : Fin n → ℝ} (h0 : ∀ k, 0 ≤ e k) (h1 : ∃ k, 0 < e k) (f : ℕ → ℝ) {M : ℝ}
    (hM : ∀ k, |g k| ≤ M * e k) (c : ℝ) :
    |∑ k : Fin n, torchScore nv n d f k * (g k - torchPred nv p g e f * e k) * Real.exp (torchScore nv n p f k) /
        ∑ j : Fin n, e j * Real.exp (torchScore nv n p f j)| ≤
      2 * M * ∑ k : Fin n, |torchScore nv n d f k - c| * torchShare nv p e f k := by
  have hp := den_pos h0 h1 (torchScore nv n p f)
  rw [slope_shift p d h0 h1 f c, Finset.mul_sum]
  refine (Finset.abs_sum_le_sum_abs _ _).trans (Finset.sum_le_sum fun k _ => ?_)
  unfold torchShare
  rw [abs_div, abs_of_pos hp, abs_mul, abs_mul, abs_of_pos (Real.exp_pos _), ← mul_div_assoc, ← mul_div_assoc]
  refine div_le_div_of_nonneg_right ?_ hp.le
  have : |g k - torchPred nv p g e f * e k| ≤ 2 * M * e k := by
    refine (abs_sub _ _).trans ?_
    rw [abs_mul, abs_of_nonneg (h0 k)]
    have := mul_le_mul_of_nonneg_right (pred_abs (nv := nv) p h0 h1 f hM) (h0 k)
    linarith [hM k]
  calc |torchScore nv n d f k - c| * |g k - torchPred nv p g e f * e k| * Real.exp (torchScore nv n p f k)
      ≤ |torchScore nv n d f k - c| * (2 * M * e k) * Real.exp (torchScore nv n p f k) :=
        mul_le_mul_of_nonneg_right (mul_le_mul_of_nonneg_left this (abs_nonneg _)) (Real.exp_pos _).le
    _ = _ := by ring

/-- C202: the deterministic start is flat: with `init = b` the slope of the loss in every direction is at most
`4 M exp(-b)` times the distances of the predictions from the mean response and the relative movements of the levels, where
`M` bounds the level means. -/
theorem C202_flat_start {nv n : ℕ} {x : Item ℝ (n + 1)} (h : x.OK nv) {b : ℝ} {rnd : Params ℝ} {net : Net ℝ}
    (hnet : initNet nv (some b) rnd = .ok net) (d : Params ℝ) {M : ℝ} (hM : ∀ l ∈ x.leaves, ∀ k, |l.1.1 k| ≤ M * l.1.2 k)
    (he : ∀ e ∈ x.eta, 0 < e 0) :
    ∃ (L : ℝ → ℝ) (s : ℝ), (∀ t, itemLoss Real.exp ⟨nv, net.params.along d t⟩ x = .ok (L t)) ∧ HasDerivAt L s 0 ∧
      |s| ≤ 4 * M * Real.exp (-b) * (x.leaves.map fun l =>
        |torchPred nv net.params l.1.1 l.1.2 l.2 - wMean x.y x.weights| *
          ∑ k : Fin (n + 1), |torchScore nv (n + 1) d l.2 k - torchScore nv (n + 1) d l.2 0| * (l.1.2 k / l.1.2 0)).sum := by
  obtain ⟨L, h1, h2⟩ := C202_slope h net.params d
  refine ⟨L, _, h1, h2, ?_⟩
  have hnp : net.params = ⟨fun _ _ => 0, fun k => if k = 0 then b else 0⟩ := by
    by_cases hb : b ≤ 0
    · simp [initNet, hb] at hnet
    · rw [initNet, if_neg hb] at hnet
      cases hnet
      rfl
  have hz : ∀ (f : ℕ → ℝ) (k : ℕ), torchScore nv (n + 1) net.params f k = if k = 0 then b else 0 := by
    intro f k
    rw [hnp]
    unfold torchScore
    simp
  have hM0 : x.leaves ≠ [] → 0 ≤ M := by
    intro hne
    obtain ⟨l, hl⟩ := List.exists_mem_of_ne_nil _ hne
    have h3 := hM l hl 0
    have h4 := he _ (leaves_mem hl)
    by_contra hc
    have := mul_neg_of_neg_of_pos (not_le.1 hc) h4
    linarith [abs_nonneg (l.1.1 0)]
  have key : ∀ l ∈ x.leaves, |2 * (torchPred nv net.params l.1.1 l.1.2 l.2 - wMean x.y x.weights) *
        ∑ k : Fin (n + 1), torchScore nv (n + 1) d l.2 k * (l.1.1 k - torchPred nv net.params l.1.1 l.1.2 l.2 * l.1.2 k) *
          Real.exp (torchScore nv (n + 1) net.params l.2 k) /
            ∑ j : Fin (n + 1), l.1.2 j * Real.exp (torchScore nv (n + 1) net.params l.2 j)| ≤
      4 * M * Real.exp (-b) * (|torchPred nv net.params l.1.1 l.1.2 l.2 - wMean x.y x.weights| *
          ∑ k : Fin (n + 1), |torchScore nv (n + 1) d l.2 k - torchScore nv (n + 1) d l.2 0| * (l.1.2 k / l.1.2 0)) := by
    intro l hl
    have hle := leaves_mem hl
    have hn0 := h.nonneg _ hle
    have hp0 := he _ hle
    have hMM := hM0 (List.ne_nil_of_mem hl)
    have hsl := slope_abs (nv := nv) net.params d hn0 (h.some _ hle) l.2 (hM l hl) (torchScore nv (n + 1) d l.2 0)
    have hsh : ∀ k : Fin (n + 1), |torchScore nv (n + 1) d l.2 k - torchScore nv (n + 1) d l.2 0| *
        torchShare nv net.params l.1.2 l.2 k ≤
        |torchScore nv (n + 1) d l.2 k - torchScore nv (n + 1) d l.2 0| * (Real.exp (-b) * (l.1.2 k / l.1.2 0)) := by
      intro k
      by_cases hk : k = 0
      · subst hk; simp
      · refine mul_le_mul_of_nonneg_left ?_ (abs_nonneg _)
        unfold torchShare
        have hkv : (k : ℕ) ≠ 0 := fun hh => hk (Fin.ext hh)
        rw [hz, if_neg hkv, Real.exp_zero, mul_one]
        have hD : l.1.2 0 * Real.exp b ≤ ∑ j : Fin (n + 1), l.1.2 j * Real.exp (torchScore nv (n + 1) net.params l.2 j) := by
          have := Finset.single_le_sum (f := fun j : Fin (n + 1) => l.1.2 j *
            Real.exp (torchScore nv (n + 1) net.params l.2 j)) (fun j _ => mul_nonneg (hn0 j) (Real.exp_pos _).le)
            (Finset.mem_univ 0)
          simpa [hz] using this
        have hpos : 0 < l.1.2 0 * Real.exp b := mul_pos hp0 (Real.exp_pos _)
        calc _ ≤ l.1.2 k / (l.1.2 0 * Real.exp b) := div_le_div_of_nonneg_left (hn0 k) hpos hD
          _ = _ := by rw [Real.exp_neg]; field_simp
    have hS := Finset.sum_le_sum fun k (_ : k ∈ Finset.univ) => hsh k
    have e1 : ∑ k : Fin (n + 1), |torchScore nv (n + 1) d l.2 k - torchScore nv (n + 1) d l.2 0| *
        (Real.exp (-b) * (l.1.2 k / l.1.2 0)) = Real.exp (-b) *
        ∑ k : Fin (n + 1), |torchScore nv (n + 1) d l.2 k - torchScore nv (n + 1) d l.2 0| * (l.1.2 k / l.1.2 0) := by
      rw [Finset.mul_sum]
      exact Finset.sum_congr rfl fun k _ => by ring
    rw [e1] at hS
    rw [abs_mul, abs_mul, abs_two]
    have hS2 := hsl.trans (mul_le_mul_of_nonneg_left hS (by positivity : (0 : ℝ) ≤ 2 * M))
    refine (mul_le_mul_of_nonneg_left hS2 (by positivity)).trans (le_of_eq (by ring))
  rw [← List.sum_map_mul_left]
  generalize x.leaves = ls at key
  clear h1 h2
  induction ls with
  | nil => simp
  | cons l ls ih =>
    simp only [List.map_cons, List.sum_cons]
    exact (abs_add_le _ _).trans (add_le_add (key l (by simp)) (ih fun l' hl' => key l' (by simp [hl'])))

/-! ### A fit that is not a stationary point -/

/-- Two leaves, two levels, one variable. -/
noncomputable def exTorchItem : Item ℝ 2 :=
  { gamma := [![1, 3], ![5, 5]], eta := [![1, 1], ![1, 1]], numVars := 1, feats := [fun _ => 0, fun _ => 0],
    y := [2, 5], weights := [1, 1] }

theorem exTorchItem_ok : exTorchItem.OK 1 where
  pos := one_pos
  vars := le_rfl
  gam := rfl
  eta := rfl
  feat := rfl
  wts := rfl
  wsum := by norm_num [exTorchItem]
  nonneg := by
    intro e he k
    simp only [exTorchItem, List.mem_cons, List.not_mem_nil, or_false, or_self] at he
    subst he
    fin_cases k <;> simp
  some := by
    intro e he
    simp only [exTorchItem, List.mem_cons, List.not_mem_nil, or_false, or_self] at he
    subst he
    exact ⟨0, by simp⟩

/-- A case for `C202_flat_start`: the start `init = 10` on this item, moving the second bias: slope at most
`20 exp(-10)` times the sum of the distances of the two predictions from the mean response. -/
example (rnd : Params ℝ) : ∃ net, initNet 1 (some (10 : ℝ)) rnd = .ok net ∧
    (∀ l ∈ exTorchItem.leaves, ∀ k, |l.1.1 k| ≤ 5 * l.1.2 k) ∧ (∀ e ∈ exTorchItem.eta, 0 < e 0) ∧
    ∀ f : ℕ → ℝ, ∑ k : Fin 2, |torchScore 1 2 ⟨fun _ _ => 0, fun k => if k = 1 then 1 else 0⟩ f k -
      torchScore 1 2 ⟨fun _ _ => 0, fun k => if k = 1 then 1 else 0⟩ f 0| * ((![1, 1] : Fin 2 → ℝ) k / ![1, 1] 0) = 1 := by
  refine ⟨_, by rw [initNet, if_neg (by norm_num)], ?_, ?_, ?_⟩
  · intro l hl k
    simp only [exTorchItem, Item.leaves, List.zip_cons_cons, List.zip_nil_left, List.mem_cons, List.not_mem_nil, or_false] at hl
    rcases hl with rfl | rfl <;> fin_cases k <;> norm_num [abs_of_pos]
  · intro e he
    simp only [exTorchItem, List.mem_cons, List.not_mem_nil, or_false, or_self] at he
    subst he
    simp
  · intro f
    norm_num [torchScore, Fin.sum_univ_two]

/-- A case for `C202_shift`: the features of the item are constant, so both the biases and the weights may be shifted. -/
example : ∀ v < 1, (3 : ℝ) ≠ 0 → ∀ f ∈ exTorchItem.feats, ∀ k : Fin 2, f (k + 2 * v) = f (2 * v) := by
  intro v _ _ f hf k
  simp only [exTorchItem, List.mem_cons, List.not_mem_nil, or_false, or_self] at hf
  subst hf
  rfl

/-- C202: the network that fits the responses exactly is not a stationary point of the loss: with weights and biases 0 the
predictions are the responses, and lowering the first bias lowers the loss at rate 3/2. -/
theorem C202_stationary_refuted :
    ∃ (x : Item ℝ 2) (p d : Params ℝ), x.OK 1 ∧ forward Real.exp ⟨1, p⟩ x = .ok x.y ∧
      ∃ L : ℝ → ℝ, (∀ t, itemLoss Real.exp ⟨1, p.along d t⟩ x = .ok (L t)) ∧ HasDerivAt L (3 / 2) 0 := by
  refine ⟨exTorchItem, ⟨fun _ _ => 0, fun _ => 0⟩, ⟨fun _ _ => 0, fun k => if k = 0 then 1 else 0⟩, exTorchItem_ok, ?_, ?_⟩
  · rw [forward_eq exTorchItem_ok]
    norm_num [exTorchItem, Item.leaves, torchPred, torchScore, Fin.sum_univ_two]
  · obtain ⟨L, h1, h2⟩ := C202_slope exTorchItem_ok ⟨fun _ _ => 0, fun _ => 0⟩ ⟨fun _ _ => 0, fun k => if k = 0 then 1 else 0⟩
    refine ⟨L, h1, h2.congr_deriv ?_⟩
    norm_num [exTorchItem, Item.leaves, torchPred, torchScore, Fin.sum_univ_two, wMean]

end SmoothRF
