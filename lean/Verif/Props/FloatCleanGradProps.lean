import Verif.Props.FloatCleanForestProps
import Verif.Props.FloatGradProps
import Verif.Props.CleanReturnProps

/-!
# C201: the gradient of smooth_clean in double precision
-/

set_option linter.unusedSectionVars false

namespace SmoothRF

open Topo SkTree

attribute [local irreducible] fl

local notation "U" => ((1 : ℚ) + 1 / 2 ^ 53)

/-! ### The exact gradient, from level sums -/

/-- Weighted mass around the leaf. -/
def OobTree.num (pa : Bool) {n : ℕ} (lamb : Fin n → ℚ) (q : OobTree) : ℚ :=
  ∑ k : Fin n, levelSum pa q.D (fun j => q.t.mass .reg (q.t.leafNode j) 0) q.i k * lamb k

/-- Weighted size around the leaf. -/
def OobTree.den (pa : Bool) {n : ℕ} (lamb : Fin n → ℚ) (q : OobTree) : ℚ :=
  ∑ k : Fin n, levelSum pa q.D (fun j => q.t.nSamp (q.t.leafNode j)) q.i k * lamb k

/-- A number, or 1 if it is 0. -/
def orOne (x : ℚ) : ℚ := if x = 0 then 1 else x

/-- What `calc_y_oob_grad` means to add for one tree: `γ_k / G` with `G` the numerator (C47), zero `G` replaced by 1. -/
def OobTree.gradA (pa : Bool) {n : ℕ} (lamb : Fin n → ℚ) (k : Fin n) (q : OobTree) : ℚ :=
  levelSum pa q.D (fun j => q.t.mass .reg (q.t.leafNode j) 0) q.i k / orOne (q.num pa lamb)

/-- What it means to subtract for one tree: `G η_k / H²`, zero `H` replaced by 1. -/
def OobTree.gradB (pa : Bool) {n : ℕ} (lamb : Fin n → ℚ) (k : Fin n) (q : OobTree) : ℚ :=
  q.num pa lamb / orOne (q.den pa lamb) ^ 2 * levelSum pa q.D (fun j => q.t.nSamp (q.t.leafNode j)) q.i k

/-- Mean of a quantity over the out-of-bag trees (0 if there is none). -/
def OobObs.mean (f : OobTree → ℚ) (o : OobObs) : ℚ := (o.oobTrees.map f).sum / (o.oobTrees.length : ℚ)

/-- Exact component `k` of `calc_l2_grad`, the factor being `2/m`. -/
def oobGrad (pa : Bool) {n : ℕ} (lamb : Fin n → ℚ) (m : ℕ) (obs : List OobObs) (k : Fin n) : ℚ :=
  2 / (m : ℚ) * (obs.map fun o => (o.pred pa lamb - o.y) *
    (o.mean (OobTree.gradA pa lamb k) - o.mean (OobTree.gradB pa lamb k))).sum

/-- The same with absolute values, and `2 M` for the residuals: the scale of the error. -/
def oobGradScale (pa : Bool) {n : ℕ} (lamb : Fin n → ℚ) (M : ℚ) (m : ℕ) (obs : List OobObs) (k : Fin n) : ℚ :=
  2 / (m : ℚ) * (obs.map fun o => 2 * M *
    (o.mean (fun q => |q.gradA pa lamb k|) + o.mean fun q => |q.gradB pa lamb k|)).sum

/-! ### Quantities of one tree -/

/-- Leaf values that are not negative. -/
def OobTree.Nonneg (q : OobTree) : Prop := ∀ j : Fin q.t.nLeaves, 0 ≤ q.t.value (q.t.leafNode j) 0

section Tree

variable {sum : List ℚ → ℚ} {n N : ℕ} {M : ℚ} {q : OobTree}

/-- Gamma entries without cancellation. -/
theorem OobTree.OK.gam (hs : IsFlSum sum) (h : q.OK n N M) (h0 : q.Nonneg) (pa : Bool) (k : Fin n) :
    Approx (U ^ (q.t.nLeaves + 1)) (levelSum pa q.D (fun j => q.t.mass .reg (q.t.leafNode j) 0) q.i k)
      (levelSum pa q.D (fun j => q.t.mass .reg (q.t.leafNode j) 0) q.i k)
      ((flLeafRow sum .reg q.t pa q.D n q.i 0).gam k) := by
  rw [flLeafRow_gam hs .reg q.t pa q.D n h.cols q.i 0 k, ← levelSel_sum]
  have hj : ∀ j, Approx (1 + 1 / 2 ^ 53) (q.t.mass .reg (q.t.leafNode j) 0) (q.t.mass .reg (q.t.leafNode j) 0)
      (flNy .reg q.t (q.t.leafNode j) 0) := by
    intro j
    have h1 : 0 ≤ q.t.mass .reg (q.t.leafNode j) 0 := mul_nonneg (h.pos j).le (h0 j)
    have := (Approx.exact (le_of_eq (abs_of_nonneg h1))).fl
    rw [mul_one] at this
    exact this
  have := Approx.sum (l := levelSel pa q.D q.i k) (fun j _ => hj j) (hs _)
  rw [List.length_map, ← pow_succ] at this
  exact this.mono (U_mono (by have := levelSel_length pa q.D q.i k; omega))

theorem OobTree.OK.gam_nonneg (h : q.OK n N M) (h0 : q.Nonneg) (pa : Bool) (k : ℕ) :
    0 ≤ levelSum pa q.D (fun j => q.t.mass .reg (q.t.leafNode j) 0) q.i k :=
  levelSum_nonneg _ _ _ (fun j => mul_nonneg (h.pos j).le (h0 j)) _ _

theorem OobTree.OK.eta_nonneg (h : q.OK n N M) (pa : Bool) (k : ℕ) :
    0 ≤ levelSum pa q.D (fun j => q.t.nSamp (q.t.leafNode j)) q.i k :=
  levelSum_nonneg _ _ _ (fun j => (h.pos j).le) _ _

theorem OobTree.OK.eta (hs : IsFlSum sum) (h : q.OK n N M) (pa : Bool) (k : Fin n) :
    (flLeafRow sum .reg q.t pa q.D n q.i 0).eta k = levelSum pa q.D (fun j => q.t.nSamp (q.t.leafNode j)) q.i k := by
  rw [flLeafRow_eta hs .reg q.t pa q.D n h.cols q.i 0 k, flEta_exact hs q.t h.whole pa q.D q.i k.val, levelSel_sum]

theorem OobTree.OK.flNum (hs : IsFlSum sum) (h : q.OK n N M) (h0 : q.Nonneg) (pa : Bool) {lamb : Fin n → ℚ}
    (hl : ∀ k, 0 ≤ lamb k) :
    Approx (U ^ N) (q.num pa lamb) (q.num pa lamb) (flDot sum (flLeafRow sum .reg q.t pa q.D n q.i 0).gam lamb) := by
  have := Approx.sum (l := List.finRange n) (fun k _ => ((h.gam hs h0 pa k).mul (hl k)).fl) (hs _)
  rw [finRange_sum, List.length_map, List.length_finRange, ← pow_succ', ← pow_add] at this
  exact this.mono (U_mono (by have := h.size; omega))

theorem OobTree.OK.flDen (hs : IsFlSum sum) (h : q.OK n N M) (pa : Bool) {lamb : Fin n → ℚ} (hl : ∀ k, 0 ≤ lamb k) :
    Approx (U ^ N) (q.den pa lamb) (q.den pa lamb) (flDot sum (flLeafRow sum .reg q.t pa q.D n q.i 0).eta lamb) := by
  have he : ∀ k : Fin n, Approx 1 (levelSum pa q.D (fun j => q.t.nSamp (q.t.leafNode j)) q.i k)
      (levelSum pa q.D (fun j => q.t.nSamp (q.t.leafNode j)) q.i k) ((flLeafRow sum .reg q.t pa q.D n q.i 0).eta k) := by
    intro k
    rw [h.eta hs pa k]
    exact Approx.exact (le_of_eq (abs_of_nonneg (h.eta_nonneg pa k)))
  have := Approx.sum (l := List.finRange n) (fun k _ => ((he k).mul (hl k)).fl) (hs _)
  rw [finRange_sum, List.length_map, List.length_finRange, mul_one, ← pow_succ] at this
  exact this.mono (U_mono (by have := h.size; omega))

theorem OobTree.OK.num_nonneg (h : q.OK n N M) (h0 : q.Nonneg) (pa : Bool) {lamb : Fin n → ℚ} (hl : ∀ k, 0 ≤ lamb k) :
    0 ≤ q.num pa lamb := Finset.sum_nonneg fun k _ => mul_nonneg (h.gam_nonneg h0 pa k) (hl k)

theorem OobTree.OK.den_nonneg (h : q.OK n N M) (pa : Bool) {lamb : Fin n → ℚ} (hl : ∀ k, 0 ≤ lamb k) :
    0 ≤ q.den pa lamb := Finset.sum_nonneg fun k _ => mul_nonneg (h.eta_nonneg pa k) (hl k)

theorem orOne_pos {x : ℚ} (h : 0 ≤ x) : 0 < orOne x := by
  unfold orOne
  split_ifs with h0
  · exact one_pos
  · exact lt_of_le_of_ne h (Ne.symm h0)

/-- A sum without cancellation vanishes in doubles when it vanishes. -/
theorem Approx.orOne {E x x' : ℚ} (hx : 0 ≤ x) (hE : E - 1 ≤ 1 / 4) (h1 : 1 ≤ E) (h : Approx E x x x') :
    Approx E (orOne x) (orOne x) (if x' = 0 then 1 else x') := by
  have hz := approx_zero hx hE h
  unfold SmoothRF.orOne
  by_cases h0 : x = 0
  · rw [if_pos h0, if_pos (hz.2 h0)]
    exact (Approx.exact (by norm_num)).mono h1
  · rw [if_neg h0, if_neg fun e => h0 (hz.1 e)]
    exact h

/-- What is added for one tree, with weight `w`. -/
theorem gradA_approx (hs : IsFlSum sum) (h : q.OK n N M) (h0 : q.Nonneg) (hN : N ≤ 2 ^ 48) (pa : Bool) {lamb : Fin n → ℚ}
    (hl : ∀ k, 0 ≤ lamb k) {w w' : ℚ} (hw : Approx U w w w') (k : Fin n) :
    Approx (U ^ (5 * N + 6)) (w * q.gradA pa lamb k) (w * q.gradA pa lamb k)
      (fl (flStar sum (flLeafRow sum .reg q.t pa q.D n q.i 0) lamb w' *
        (flLeafRow sum .reg q.t pa q.D n q.i 0).gam k)) := by
  have hq : U ^ N - 1 ≤ 1 / 4 := by
    have := pow_quarter' hN
    have := U_mono (show N ≤ 2 * N + 1 by omega)
    linarith
  have h1 : (1 : ℚ) ≤ U ^ N := one_le_pow₀ (by norm_num)
  have a := ((h.flNum hs h0 pa hl).orOne (h.num_nonneg h0 pa hl) hq h1).inv' (orOne_pos (h.num_nonneg h0 pa hl)) hq
  have g := (h.gam hs h0 pa k).mono (U_mono (show q.t.nLeaves + 1 ≤ N by have := h.size; omega))
  have b := (((a.fl.mul' hw).fl.mul' g).fl).mono
    (le_trans (le_of_eq (by ring)) (U_mono (show 3 * N + 4 ≤ 5 * N + 6 by omega)))
  have e : 1 / orOne (q.num pa lamb) * w * levelSum pa q.D (fun j => q.t.mass .reg (q.t.leafNode j) 0) q.i k =
      w * q.gradA pa lamb k := by
    unfold OobTree.gradA
    ring
  rw [e] at b
  exact b

/-- What is subtracted for one tree, with weight `w`. -/
theorem gradB_approx (hs : IsFlSum sum) (h : q.OK n N M) (h0 : q.Nonneg) (hN : N ≤ 2 ^ 48) (pa : Bool) {lamb : Fin n → ℚ}
    (hl : ∀ k, 0 ≤ lamb k) {w w' : ℚ} (hw : Approx U w w w') (k : Fin n) :
    Approx (U ^ (5 * N + 6)) (w * q.gradB pa lamb k) (w * q.gradB pa lamb k)
      (fl (flStar2 sum (flLeafRow sum .reg q.t pa q.D n q.i 0) lamb w' *
        (flLeafRow sum .reg q.t pa q.D n q.i 0).eta k)) := by
  have hq' := pow_quarter' hN
  have hq : U ^ N - 1 ≤ 1 / 4 := by
    have := U_mono (show N ≤ 2 * N + 1 by omega)
    linarith
  have h1 : (1 : ℚ) ≤ U ^ N := one_le_pow₀ (by norm_num)
  have hd := orOne_pos (h.den_nonneg pa hl)
  have d := (h.flDen hs pa hl).orOne (h.den_nonneg pa hl) hq h1
  have sq := ((d.mul' d).fl).mono (le_of_eq (by ring) : _ ≤ U ^ (2 * N + 1))
  have iv := ((h.flNum hs h0 pa hl).mul' (sq.inv' (mul_pos hd hd) hq')).fl
  simp only [mul_one_div] at iv
  have b := (((iv.mul' hw).fl.mul (h.eta_nonneg pa k)).fl).mono (le_of_eq (by ring) : _ ≤ U ^ (5 * N + 6))
  have e : q.num pa lamb / (orOne (q.den pa lamb) * orOne (q.den pa lamb)) * w *
      levelSum pa q.D (fun j => q.t.nSamp (q.t.leafNode j)) q.i k = w * q.gradB pa lamb k := by
    unfold OobTree.gradB
    ring
  rw [e, ← h.eta hs pa k] at b
  exact b

theorem gradA_nonneg (h : q.OK n N M) (h0 : q.Nonneg) (pa : Bool) {lamb : Fin n → ℚ} (hl : ∀ k, 0 ≤ lamb k) (k : Fin n) :
    0 ≤ q.gradA pa lamb k := div_nonneg (h.gam_nonneg h0 pa k) (orOne_pos (h.num_nonneg h0 pa hl)).le

theorem gradB_nonneg (h : q.OK n N M) (h0 : q.Nonneg) (pa : Bool) {lamb : Fin n → ℚ} (hl : ∀ k, 0 ≤ lamb k) (k : Fin n) :
    0 ≤ q.gradB pa lamb k :=
  mul_nonneg (div_nonneg (h.num_nonneg h0 pa hl) (pow_nonneg (orOne_pos (h.den_nonneg pa hl)).le 2)) (h.eta_nonneg pa k)

end Tree

/-! ### One observation -/

section Obs

variable {sum : List ℚ → ℚ} {n N T : ℕ} {M : ℚ} {o : OobObs}

/-- The mean over the out-of-bag trees as a weighted sum over all trees. -/
theorem OobObs.mean_eq (f : OobTree → ℚ) (o : OobObs) :
    (o.trees.map fun q => (if q.oob then 1 / (o.oobTrees.length : ℚ) else 0) * f q).sum = o.mean f := by
  have e : (o.trees.map fun q => (if q.oob then 1 / (o.oobTrees.length : ℚ) else 0) * f q) =
      o.trees.map fun q => if q.oob then f q / (o.oobTrees.length : ℚ) else 0 := by
    refine List.map_congr_left fun q _ => ?_
    split_ifs
    · ring
    · ring
  rw [e, sum_filter_ite]
  unfold OobObs.mean OobObs.oobTrees
  simp only [div_eq_mul_inv]
  rw [List.sum_map_mul_right]

theorem OobObs.mean_congr {f g : OobTree → ℚ} {o : OobObs} (h : ∀ q ∈ o.trees, f q = g q) : o.mean f = o.mean g := by
  have : o.oobTrees.map f = o.oobTrees.map g := List.map_congr_left fun q hq => h q (List.mem_filter.1 hq).1
  unfold OobObs.mean
  rw [this]

theorem weight_approx (m : ℕ) (b : Bool) :
    Approx U (if b then 1 / (m : ℚ) else 0) (if b then 1 / (m : ℚ) else 0) (if b then fl (1 / (m : ℚ)) else 0) := by
  cases b
  · simp [Approx]
  · have := (Approx.exact (le_of_eq (abs_of_nonneg (by positivity : (0 : ℚ) ≤ 1 / (m : ℚ))))).fl
    rw [mul_one] at this
    exact this

/-- One row of `calc_y_oob_grad`. -/
theorem yOobGrad_approx (hs : IsFlSum sum) (ho : o.OK n N T M) (h0 : ∀ q ∈ o.trees, q.Nonneg) (hN : N ≤ 2 ^ 48)
    (hT : T ≤ 2 ^ 53) (pa : Bool) {lamb : Fin n → ℚ} (hl : ∀ k, 0 ≤ lamb k) (k : Fin n) :
    Approx (U ^ (5 * N + T + 7)) (o.mean (OobTree.gradA pa lamb k) + o.mean (OobTree.gradB pa lamb k))
      (o.mean (OobTree.gradA pa lamb k) - o.mean (OobTree.gradB pa lamb k)) (flYOobGrad sum pa n lamb o k) := by
  have hr := flOobRow_eq (o.trees.map fun q => q.oob) (by rw [List.length_map]; exact ho.count.trans hT)
  rw [count_oob, List.map_map] at hr
  have a := Approx.sum (l := o.trees) (fun q hq => gradA_approx hs (ho.trees q hq) (h0 q hq) hN pa hl
    (weight_approx o.oobTrees.length q.oob) k) (hs _)
  have b := Approx.sum (l := o.trees) (fun q hq => gradB_approx hs (ho.trees q hq) (h0 q hq) hN pa hl
    (weight_approx o.oobTrees.length q.oob) k) (hs _)
  rw [OobObs.mean_eq, List.length_map, ← pow_add] at a b
  have c := ((a.sub' b).fl).mono (le_trans (le_of_eq (pow_succ' _ _).symm)
    (U_mono (show o.trees.length + (5 * N + 6) + 1 ≤ 5 * N + T + 7 by have := ho.count; omega)))
  unfold flYOobGrad
  simp only [hr]
  unfold OobObs.oobTrees at c
  rw [zipWith_same, zipWith_same]
  exact c

/-- One term of `calc_l2_grad`. -/
theorem l2Term_approx (hs : IsFlSum sum) (hM : 0 ≤ M) (ho : o.OK n N T M) (h0 : ∀ q ∈ o.trees, q.Nonneg)
    (hN : N ≤ 2 ^ 48) (hT : T + 2 ≤ 2 ^ 49) (pa : Bool) {lamb : Fin n → ℚ} (hl : ∀ k, 0 ≤ lamb k) (m : ℕ) (k : Fin n) :
    Approx (U ^ (13 * N + 5 * T + 15))
      (2 / (m : ℚ) * (2 * M * (o.mean (OobTree.gradA pa lamb k) + o.mean (OobTree.gradB pa lamb k))))
      (2 / (m : ℚ) * ((o.pred pa lamb - o.y) *
        (o.mean (OobTree.gradA pa lamb k) - o.mean (OobTree.gradB pa lamb k))))
      (fl (fl (fl (2 / (m : ℚ)) * fl (flOobValue sum pa n lamb o - o.y)) * flYOobGrad sum pa n lamb o k)) := by
  obtain ⟨e1, e2⟩ := oobValue_err hs hM (hN.trans (by norm_num)) hT pa lamb hl ho
  have base : Approx (U ^ (4 * (2 * N + T + 1))) (2 * M) (o.pred pa lamb - o.y) (flOobValue sum pa n lamb o - o.y) := by
    constructor
    · rw [sub_sub_sub_cancel_right]
      have hb : 1 + ((4 * (2 * N + T + 1) : ℕ) : ℚ) * (1 / 2 ^ 53) ≤ U ^ (4 * (2 * N + T + 1)) :=
        one_add_mul_le_pow (by norm_num) _
      refine e1.trans ?_
      have e : 8 * ((2 * N + T + 1 : ℕ) : ℚ) * (1 / 2 ^ 53) * M =
          (((4 * (2 * N + T + 1) : ℕ) : ℚ) * (1 / 2 ^ 53)) * (2 * M) := by
        push_cast
        ring
      rw [e]
      exact mul_le_mul_of_nonneg_right (by linarith) (by linarith)
    · refine (abs_sub _ _).trans ?_
      have := ho.resp
      linarith
  have two := (Approx.exact (le_of_eq (abs_of_nonneg (by positivity : (0 : ℚ) ≤ 2 / (m : ℚ))))).fl
  have c := (((two.mul' base.fl).fl.mul' (yOobGrad_approx hs ho h0 hN (by omega) pa hl k)).fl).mono
    (le_of_eq (by ring) : _ ≤ U ^ (13 * N + 5 * T + 15))
  simp only [mul_assoc] at c ⊢
  exact c

end Obs

/-! ### calc_l2_grad -/

section Grad

variable {sum : List ℚ → ℚ} {n N T : ℕ} {M : ℚ}

/-- C201: for leaf values that are not negative, the gradient of `smooth_clean` in doubles is that of the formulas in the
code up to a relative error of `2 (13 N + 5 T + R + 15) 2^-53`, relative to the formulas with absolute values, for `R`
observations, `T` trees, at most `N - 3` leaves and columns, and any order of summation. The factor is `2/m` with `m` the
observations that pass the test `np.sum(item) == 1`. -/
theorem C201_gradient (hs : IsFlSum sum) (hM : 0 ≤ M) (pa : Bool) (hT : T + 2 ≤ 2 ^ 49) {lamb : Fin n → ℚ}
    (hl : ∀ k, 0 ≤ lamb k) {sub : List OobObs} (hN : 13 * N + 5 * T + 15 + sub.length ≤ 2 ^ 51)
    (ho : ∀ o ∈ sub, o.OK n N T M) (h0 : ∀ o ∈ sub, ∀ q ∈ o.trees, q.Nonneg) {g' : Fin n → ℚ}
    (hg : flL2Grad sum pa n sub lamb = .ok g') (k : Fin n) :
    let m := (sub.filter fun o => flEverOob (o.trees.map fun q => q.oob)).length
    |g' k - oobGrad pa lamb m sub k| ≤
      2 * (13 * N + 5 * T + 15 + sub.length) / 2 ^ 53 * oobGradScale pa lamb M m sub k := by
  intro m
  have hN' : N ≤ 2 ^ 48 := by omega
  have h1 := mapM_ok' (flYOob sum pa n lamb)
    (fun o => (flOobValue sum pa n lamb o, flEverOob (o.trees.map fun q => q.oob))) sub
    fun o hoo => flYOob_eq hs (hN'.trans (by norm_num)) (by omega) pa lamb hl (ho o hoo)
  have h2 : ((sub.map fun o => (flOobValue sum pa n lamb o, flEverOob (o.trees.map fun q => q.oob))).filter
      fun p => p.2).length = m := by
    rw [List.filter_map, List.length_map]; rfl
  unfold flL2Grad at hg
  rw [h1] at hg
  simp only [bind, Except.bind, h2] at hg
  have hm : m ≠ 0 := by
    intro e
    rw [if_pos e] at hg
    cases hg
  rw [if_neg hm] at hg
  have hg := congrFun (Except.ok.inj hg) k
  have hz := zipWith_same (fun (p : ℚ × Bool) (o : OobObs) =>
    fl (fl (fl (2 / (m : ℚ)) * fl (p.1 - o.y)) * flYOobGrad sum pa n lamb o k))
    (fun o => (flOobValue sum pa n lamb o, flEverOob (o.trees.map fun q => q.oob))) id sub
  rw [List.map_id] at hz
  have key := (Approx.sum (fun o hoo => l2Term_approx hs hM (ho o hoo) (h0 o hoo) hN' hT pa hl m k) (hs _)).1
  rw [List.length_map, List.sum_map_mul_left, List.sum_map_mul_left, ← pow_add] at key
  have hsc : oobGradScale pa lamb M m sub k = 2 / (m : ℚ) * (sub.map fun o => 2 * M *
      (o.mean (OobTree.gradA pa lamb k) + o.mean (OobTree.gradB pa lamb k))).sum := by
    unfold oobGradScale
    congr 2
    refine List.map_congr_left fun o hoo => ?_
    rw [OobObs.mean_congr (f := fun q => |q.gradA pa lamb k|) fun q hq =>
        abs_of_nonneg (gradA_nonneg ((ho o hoo).trees q hq) (h0 o hoo q hq) pa hl k),
      OobObs.mean_congr (f := fun q => |q.gradB pa lamb k|) fun q hq =>
        abs_of_nonneg (gradB_nonneg ((ho o hoo).trees q hq) (h0 o hoo q hq) pa hl k)]
  rw [← hsc] at key
  have hW : 0 ≤ oobGradScale pa lamb M m sub k := by
    rw [hsc]
    refine mul_nonneg (by positivity) (List.sum_nonneg fun x hx => ?_)
    obtain ⟨o, hoo, rfl⟩ := List.mem_map.1 hx
    have := (yOobGrad_approx hs (ho o hoo) (h0 o hoo) hN' (by omega) pa hl k).2
    exact mul_nonneg (by linarith) ((abs_nonneg _).trans this)
  have e : g' k = sum (sub.map fun o =>
      fl (fl (fl (2 / (m : ℚ)) * fl (flOobValue sum pa n lamb o - o.y)) * flYOobGrad sum pa n lamb o k)) := by
    rw [← hg]
    exact congrArg sum hz
  rw [e]
  refine key.trans (mul_le_mul_of_nonneg_right ?_ hW)
  have hp := pow_small (13 * N + 5 * T + 15 + sub.length) (hN.trans (by norm_num))
  rw [show sub.length + (13 * N + 5 * T + 15) = 13 * N + 5 * T + 15 + sub.length by omega]
  push_cast at hp
  linarith

/-- C201: a component above the error bound has the sign of the exact one: a plain gradient step moves that weight in the
same direction. -/
theorem C201_sign (hs : IsFlSum sum) (hM : 0 ≤ M) (pa : Bool) (hT : T + 2 ≤ 2 ^ 49) {lamb : Fin n → ℚ}
    (hl : ∀ k, 0 ≤ lamb k) {sub : List OobObs} (hN : 13 * N + 5 * T + 15 + sub.length ≤ 2 ^ 51)
    (ho : ∀ o ∈ sub, o.OK n N T M) (h0 : ∀ o ∈ sub, ∀ q ∈ o.trees, q.Nonneg) {g' : Fin n → ℚ}
    (hg : flL2Grad sum pa n sub lamb = .ok g') (k : Fin n) :
    let m := (sub.filter fun o => flEverOob (o.trees.map fun q => q.oob)).length
    2 * (13 * N + 5 * T + 15 + sub.length) / 2 ^ 53 * oobGradScale pa lamb M m sub k < |oobGrad pa lamb m sub k| →
    (0 < oobGrad pa lamb m sub k → 0 < g' k) ∧ (oobGrad pa lamb m sub k < 0 → g' k < 0) := by
  intro m hk
  have h5 := (C201_gradient hs hM pa hT hl hN ho h0 hg k).trans_lt hk
  constructor
  · intro hp
    rw [abs_of_pos hp] at h5
    have := (abs_lt.1 h5).1
    linarith
  · intro hp
    rw [abs_of_neg hp] at h5
    have := (abs_lt.1 h5).2
    linarith

end Grad

/-! ### The code on a forest -/

section Forest

variable {forest : List (SkTree ℚ 1)} {style : Style} {y : List ℚ} {leafOf : ℕ → ℕ → ℕ} {uns : ℕ → List ℕ}

/-- A mean over the out-of-bag trees of an observation of the forest. -/
theorem ObsOf.mean_sum {i : ℕ} {o : OobObs} (h : ObsOf forest style y leafOf uns i o) (F : OobTree → ℚ) (G : ℕ → ℚ)
    (hFG : ∀ tt ∈ forest.zipIdx, ∀ q, oobTreeOf style leafOf uns i tt = .ok q → F q = G tt.2) :
    o.mean F = ∑ t ∈ Finset.range forest.length,
      (if i ∈ uns t then 1 / ((oobTrees forest.length uns i).card : ℚ) else 0) * G t := by
  have key : ∀ (F : OobTree → ℚ) (G : ℕ → ℚ),
      (∀ tt ∈ forest.zipIdx, ∀ q, oobTreeOf style leafOf uns i tt = .ok q → F q = G tt.2) →
      (o.oobTrees.map F).sum = ∑ t ∈ oobTrees forest.length uns i, G t := by
    intro F G hFG
    unfold OobObs.oobTrees
    rw [← sum_filter_ite, ← forall2_map_eq (f := fun tt : SkTree ℚ 1 × ℕ => if i ∈ uns tt.2 then G tt.2 else 0) h.2
      (fun tt htt q hq => by
        rw [← hFG tt htt q hq, oobTreeOf_ok hq (oobTreeOf_lt hq)]
        simp), sum_zipIdx _ 0]
    unfold oobTrees
    rw [Finset.sum_filter]
    refine Finset.sum_congr rfl fun t ht => ?_
    rw [List.getElem?_eq_getElem (Finset.mem_range.1 ht), Option.elim_some, Nat.zero_add]
  have hlen := key (fun _ => 1) (fun _ => 1) (by intros; rfl)
  simp only [List.map_const', List.sum_replicate, nsmul_eq_mul, mul_one, Finset.sum_const] at hlen
  unfold OobObs.mean
  rw [key F G hFG, hlen]
  simp only [ite_mul, zero_mul]
  rw [← Finset.sum_filter, ← Finset.mul_sum, one_div_mul_eq_div]
  rfl

/-- C201: in terms of the code. If every drawn observation that is out of bag for some tree is recognised as such (C153),
`calc_l2_grad` returns in doubles and in exact arithmetic, and the two are close as in `C201_gradient`. -/
theorem C201_code {sum : List ℚ → ℚ} (hs : IsFlSum sum) {N : ℕ} {M : ℚ} (H : FlInput .reg forest (fun _ => []) N M)
    (hM : 0 ≤ M) (h0 : ∀ t ∈ forest, ∀ j : Fin t.nLeaves, 0 ≤ t.value (t.leafNode j) 0)
    (hy : ∀ x ∈ y, |x| ≤ M) (hl : ∀ t tr, forest[t]? = some tr → ∀ i < y.length, leafOf t i < tr.nLeaves)
    (pa : Bool) (hT : forest.length + 2 ≤ 2 ^ 49) {c : List ℕ} (hN : 13 * N + 5 * forest.length + 15 + c.length ≤ 2 ^ 51)
    {lamb : Fin (forestDepth forest + 1) → ℚ} (hlamb : ∀ k, 0 ≤ lamb k)
    {obs sub : List OobObs} (hobs : oobObsOf forest style y leafOf uns = .ok obs) (hsub : drawn obs c = .ok sub)
    (hne : HasOob forest.length uns c)
    (hrec : ∀ i ∈ c, (∃ t < forest.length, i ∈ uns t) → recognised forest.length uns i = true) :
    ∃ g g', calcL2Grad (cleanData forest style pa y.length leafOf uns) y lamb c = .ok g ∧
      flL2Grad sum pa (forestDepth forest + 1) sub lamb = .ok g' ∧
      ∀ k, |g' k - g k| ≤ 2 * (13 * N + 5 * forest.length + 15 + c.length) / 2 ^ 53 *
        oobGradScale pa lamb M (c.filter fun i => decide (∃ t < forest.length, i ∈ uns t)).length sub k := by
  have hF : List.Forall₂ (ObsOf forest style y leafOf uns) c sub := by
    refine (drawn_ok hsub).imp fun i o hio => ?_
    exact (oobObsOf_ok hobs).2 i o hio
  have hok : ∀ o ∈ sub, o.OK (forestDepth forest + 1) N forest.length M := by
    intro o hoo
    obtain ⟨i, _, hi⟩ := forall2_mem_right hF o hoo
    exact hi.ok H hy
  have hnn : ∀ o ∈ sub, ∀ q ∈ o.trees, q.Nonneg := by
    intro o hoo q hq
    obtain ⟨i, _, hi⟩ := forall2_mem_right hF o hoo
    obtain ⟨tt, htt, he⟩ := forall2_mem_right hi.2 q hq
    rw [oobTreeOf_ok he (oobTreeOf_lt he)]
    exact h0 _ (mem_zipIdx_fst htt)
  have hlt : ∀ i ∈ c, i < y.length := by
    intro i hi
    obtain ⟨o, _, hio⟩ := forall2_mem_right hF.flip i hi
    exact (List.getElem?_eq_some_iff.1 hio.1).1
  have hlen : sub.length = c.length := hF.length_eq.symm
  have hf : c.filter (recognised forest.length uns) = c.filter fun i => decide (∃ t < forest.length, i ∈ uns t) := by
    refine List.filter_congr fun i hi => ?_
    rw [Bool.eq_iff_iff, decide_eq_true_eq]
    refine ⟨fun e => ?_, hrec i hi⟩
    have := C153_sound _ (by rw [List.length_map, List.length_range]; omega) e
    obtain ⟨t, ht, h⟩ := List.mem_map.1 this
    exact ⟨t, List.mem_range.1 ht, by simpa using h⟩
  have hm := (oobLoss_eq hF pa lamb).2
  rw [hf] at hm
  have hcne : c.filter (fun i => decide (∃ t < forest.length, i ∈ uns t)) ≠ [] := by
    obtain ⟨i, hi, h⟩ := hne
    intro e
    have : i ∈ c.filter fun i => decide (∃ t < forest.length, i ∈ uns t) := List.mem_filter.2 ⟨hi, by simpa using h⟩
    rw [e] at this
    cases this
  obtain ⟨g', hg'⟩ := (flL2Grad_eq (pa := pa) hs (by omega) (by omega) hlamb hok).2 (by
    intro e
    rw [e] at hm
    exact hcne (List.length_eq_zero_iff.1 hm.symm))
  have h1 := C46_oob_average forest H.wf style pa y.length leafOf uns hl lamb
    (fun t ht r h => levelSum_zero_num (H.pos t ht) hlamb r h) c hlt
  have h2 := calcYOobGrad_eq (cleanView forest H.wf style pa y.length leafOf uns hl) lamb c hlt
  have hyv : ∀ i ∈ c, y[i]? = some (y.getD i 0) := fun i hi => by
    rw [List.getD_eq_getElem?_getD, List.getElem?_eq_getElem (hlt i hi)]; rfl
  refine ⟨_, g', (C76_l2_grad hyv h1 h2).trans (if_neg hcne), hg', fun k => ?_⟩
  have main := C201_gradient hs hM pa hT hlamb (by rw [hlen]; exact hN) hok hnn hg' k
  rw [hlen, hm] at main
  convert main using 3
  unfold oobGrad
  congr 2
  refine forall2_map_eq hF fun i hi o hio => ?_
  have eA := hio.mean_sum (OobTree.gradA pa lamb k) (fun t =>
    leafAt forest 0 (gVec style pa (forestDepth forest + 1)) t (leafOf t i) k /
      orOne (dot (leafAt forest 0 (gVec style pa _) t (leafOf t i)) lamb)) (by
    intro tt htt q hq
    have hlq := oobTreeOf_lt hq
    have hget : forest[tt.2]? = some tt.1 := by
      have := List.mem_zipIdx (x := tt.1) (i := tt.2) htt
      simp only [Nat.sub_zero, Nat.zero_add] at this
      rw [this.2.2, List.getElem?_eq_getElem]
    rw [oobTreeOf_ok hq hlq, leafAt_pos hget hlq]
    rfl)
  have eB := hio.mean_sum (OobTree.gradB pa lamb k) (fun t =>
    dot (leafAt forest 0 (gVec style pa _) t (leafOf t i)) lamb /
      orOne (dot (leafAt forest 0 (hVec style pa _) t (leafOf t i)) lamb) ^ 2 *
      leafAt forest 0 (hVec style pa (forestDepth forest + 1)) t (leafOf t i) k) (by
    intro tt htt q hq
    have hlq := oobTreeOf_lt hq
    have hget : forest[tt.2]? = some tt.1 := by
      have := List.mem_zipIdx (x := tt.1) (i := tt.2) htt
      simp only [Nat.sub_zero, Nat.zero_add] at this
      rw [this.2.2, List.getElem?_eq_getElem]
    rw [oobTreeOf_ok hq hlq, leafAt_pos hget hlq, leafAt_pos hget hlq]
    rfl)
  have eP : o.y = y.getD i 0 := by
    have := hyv i hi
    rw [hio.1] at this
    exact Option.some.inj this
  rw [eA, eB, hio.pred_eq pa lamb, eP]
  congr 2
  · refine Finset.sum_congr rfl fun t _ => ?_
    unfold orOne
    ring
  · refine Finset.sum_congr rfl fun t _ => ?_
    unfold orOne
    ring

end Forest

/-! ### Cases -/

/-- An observation out of bag for one tree, whose leaf values cancel up to rounding: `3 * fl (1/3) - 1`. -/
abbrev exCancelObs : OobObs := ⟨[⟨exCancel 3, (exCancel 3).distDepth .standard, ⟨0, by decide⟩, true⟩], 1⟩

theorem exCancelObs_ok : exCancelObs.OK 2 7 1 1 where
  trees := by
    intro q hq
    rw [List.mem_singleton.1 hq]
    have h := List.mem_singleton.2 (rfl : exCancel 3 = exCancel 3)
    exact ⟨exCancel_input3.whole _ h, exCancel_input3.pos _ h, by decide +kernel, exCancel_input3.size _ h,
      exCancel_input3.bound _ h 0⟩
  count := by simp
  resp := by norm_num

/-- C201: without the assumption on the leaf values the error can be a quarter of the scale, and the component can have the
opposite sign, with a single tree and a single observation. -/
theorem C201_refuted : exCancelObs.OK 2 7 1 1 ∧ ∃ g' : Fin 2 → ℚ, flL2Grad npSum true 2 [exCancelObs] ![0, 1] = .ok g' ∧
    g' 0 < 0 ∧ 0 < oobGrad true ![0, 1] 1 [exCancelObs] (0 : Fin 2) ∧
    1 / 4 * oobGradScale true ![0, 1] 1 1 [exCancelObs] (0 : Fin 2) <
      |g' 0 - oobGrad true ![0, 1] 1 [exCancelObs] (0 : Fin 2)| := by
  have h1 : (match flL2Grad npSum true 2 [exCancelObs] ![0, 1] with | .ok g => some (g 0) | .error _ => none) = some (-2) := by
    decide +kernel
  refine ⟨exCancelObs_ok, ?_⟩
  rcases hr : flL2Grad npSum true 2 [exCancelObs] ![0, 1] with e | g'
  · rw [hr] at h1; cases h1
  · rw [hr] at h1
    have h2 : g' 0 = -2 := Option.some.inj h1
    refine ⟨g', rfl, ?_⟩
    rw [h2]
    refine ⟨by norm_num, ?_, ?_⟩ <;> decide +kernel

/-- Two trees with leaf values 0 and 1, and thirds as level means. -/
abbrev exGradObs : OobObs :=
  ⟨[exOobTree true, ⟨exThird, exThird.distDepth .standard, ⟨0, by decide⟩, true⟩], 1 / 3⟩

theorem exGradObs_ok : (∀ o ∈ [exGradObs], o.OK 2 7 2 1) ∧ ∀ o ∈ [exGradObs], ∀ q ∈ o.trees, q.Nonneg := by
  constructor
  · intro o h
    rw [List.mem_singleton.1 h]
    refine ⟨fun q hq => ?_, by simp, by norm_num⟩
    rcases List.mem_cons.1 hq with rfl | hq
    · exact exOobTree_ok true
    · rw [List.mem_singleton.1 hq]
      exact ⟨exThirdLeaf_ok.whole, exThirdLeaf_ok.pos, exThirdLeaf_ok.cols, exThirdLeaf_ok.size, exThirdLeaf_ok.bound⟩
  · intro o h
    rw [List.mem_singleton.1 h]
    intro q hq
    rcases List.mem_cons.1 hq with rfl | hq
    · show ∀ j : Fin exUnit.nLeaves, 0 ≤ exUnit.value (exUnit.leafNode j) 0
      decide +kernel
    · rw [List.mem_singleton.1 hq]
      show ∀ j : Fin exThird.nLeaves, 0 ≤ exThird.value (exThird.leafNode j) 0
      decide +kernel

/-- The hypotheses of `C201_gradient` and `C201_sign` are met, and the doubles are not the exact components. -/
example : (match flL2Grad npSum false 2 [exGradObs] ![1 / 4, 3 / 4] with | .ok g => some (g 0, g 1) | .error _ => none) =
      some (-5251190600499965 / 9007199254740992, 1984503443673169 / 4503599627370496) ∧
    oobGrad false ![1 / 4, 3 / 4] 1 [exGradObs] (0 : Fin 2) = -6399 / 10976 ∧
    oobGrad false ![1 / 4, 3 / 4] 1 [exGradObs] (1 : Fin 2) = 43529 / 98784 ∧
    oobGradScale false ![1 / 4, 3 / 4] 1 1 [exGradObs] (0 : Fin 2) = 243 / 98 := by
  refine ⟨?_, ?_, ?_, ?_⟩ <;> decide +kernel

/-- The conclusion there. -/
example {g' : Fin 2 → ℚ} (hg : flL2Grad npSum false 2 [exGradObs] ![1 / 4, 3 / 4] = .ok g') :
    g' 0 < 0 ∧ 0 < g' 1 := by
  have h := C201_sign npSum_rsum (by norm_num : (0 : ℚ) ≤ 1) false (by norm_num : 2 + 2 ≤ 2 ^ 49)
    (lamb := ![1 / 4, 3 / 4]) (by decide +kernel) (sub := [exGradObs]) (N := 7) (T := 2) (by decide) exGradObs_ok.1
    exGradObs_ok.2 hg
  exact ⟨(h 0 (by decide +kernel)).2 (by decide +kernel), (h 1 (by decide +kernel)).1 (by decide +kernel)⟩

/-- `C201_code` for two observations and two trees: all the assumptions hold. -/
example : ∃ obs sub, oobObsOf [exStump, exTree] .standard [3, 2, 3] (fun t i => if t = 0 then i % 2 else i % 3)
      (fun t => if t = 0 then [0, 1] else [1]) = .ok obs ∧ drawn obs [0, 1] = .ok sub ∧
    ∃ g g', calcL2Grad (cleanData [exStump, exTree] .standard true 3 (fun t i => if t = 0 then i % 2 else i % 3)
        (fun t => if t = 0 then [0, 1] else [1])) [3, 2, 3] ![1 / 3, 1 / 3, 1 / 3] [0, 1] = .ok g ∧
      flL2Grad npSum true 3 sub ![1 / 3, 1 / 3, 1 / 3] = .ok g' ∧
      ∀ k, |g' k - g k| ≤ 2 * (13 * (9 : ℕ) + 5 * 2 + 15 + 2) / 2 ^ 53 *
        oobGradScale true ![1 / 3, 1 / 3, 1 / 3] 10 2 sub k := by
  have hobs : ∃ obs, oobObsOf [exStump, exTree] .standard [3, 2, 3] (fun t i => if t = 0 then i % 2 else i % 3)
      (fun t => if t = 0 then [0, 1] else [1]) = .ok obs := ⟨_, rfl⟩
  obtain ⟨obs, hobs⟩ := hobs
  have hlen := (oobObsOf_ok hobs).1
  have hsub : ∃ sub, drawn obs [0, 1] = .ok sub := by
    match obs, hlen with
    | [a, b, c], _ => exact ⟨[a, b], rfl⟩
  obtain ⟨sub, hsub⟩ := hsub
  refine ⟨obs, sub, hobs, hsub, ?_⟩
  have := C201_code npSum_rsum exForest_clean (by norm_num : (0 : ℚ) ≤ 10) ?_ ?_ ?_ true (by norm_num)
    (c := [0, 1]) (by norm_num) (lamb := ![1 / 3, 1 / 3, 1 / 3]) (by decide +kernel) hobs hsub (by decide) (by decide +kernel)
  · exact this
  · decide +kernel
  · decide +kernel
  · intro t tr h i hi
    match t, h with
    | 0, h => cases h; revert i; decide +kernel
    | 1, h => cases h; revert i; decide +kernel

end SmoothRF
