import Verif.Model.FloatGrad
import Verif.Props.FloatCostProps
import Verif.Props.CostProps
import Mathlib.Algebra.BigOperators.Field

/-!
# C187: take_gradient in double precision
-/

set_option linter.unusedSectionVars false

namespace SmoothRF

open Topo SkTree

variable {C : ℕ}

attribute [local irreducible] fl

/-- The unit of rounding as a factor. -/
local notation "U" => ((1 : ℚ) + 1 / 2 ^ 53)

theorem U_mono {a b : ℕ} (h : a ≤ b) : U ^ a ≤ U ^ b := pow_le_pow_right₀ (by norm_num) h

theorem Approx.exact {w x : ℚ} (h : |x| ≤ w) : Approx 1 w x x := ⟨by simp, h⟩

theorem Approx.add' {E w v x x' y y' : ℚ} (h : Approx E w x x') (g : Approx E v y y') :
    Approx E (w + v) (x + y) (x' + y') := by
  constructor
  · rw [show x' + y' - (x + y) = (x' - x) + (y' - y) by ring]
    refine (abs_add_le _ _).trans ?_
    have := h.1; have := g.1
    linarith
  · exact (abs_add_le _ _).trans (add_le_add h.2 g.2)

theorem Approx.neg' {E w x x' : ℚ} (h : Approx E w x x') : Approx E w (-x) (-x') := by
  constructor
  · rw [show -x' - -x = -(x' - x) by ring, abs_neg]; exact h.1
  · rw [abs_neg]; exact h.2

theorem Approx.sub' {E w v x x' y y' : ℚ} (h : Approx E w x x') (g : Approx E v y y') :
    Approx E (w + v) (x - y) (x' - y') := by
  have := h.add' g.neg'
  rwa [← sub_eq_add_neg, ← sub_eq_add_neg] at this

/-- A reciprocal costs at most twice the error. -/
theorem Approx.inv' {E d d' : ℚ} (hd : 0 < d) (hE : E - 1 ≤ 1 / 4) (h : Approx E d d d') :
    Approx (E ^ 2) (1 / d) (1 / d) (1 / d') := by
  have h1 := h.1
  have e0 : 0 ≤ E - 1 := by
    by_contra hn
    have : (E - 1) * d < 0 := mul_neg_of_neg_of_pos (not_le.1 hn) hd
    have := abs_nonneg (d' - d)
    linarith
  have hd' : 3 / 4 * d ≤ d' := by
    have := (_root_.abs_le.1 h1).1
    nlinarith
  have hd'0 : 0 < d' := by linarith
  refine ⟨?_, by rw [abs_of_pos (by positivity)]⟩
  have e : 1 / d' - 1 / d = -(d' - d) / (d' * d) := by
    field_simp
    ring
  rw [e, abs_div, abs_neg, abs_of_pos (mul_pos hd'0 hd), div_le_iff₀ (mul_pos hd'0 hd)]
  have e2 : (E ^ 2 - 1) * (1 / d) * (d' * d) = (E ^ 2 - 1) * d' := by
    field_simp
  rw [e2]
  have e3 : (E ^ 2 - 1) * (3 / 4 * d) ≤ (E ^ 2 - 1) * d' := mul_le_mul_of_nonneg_left hd' (by nlinarith)
  refine h1.trans (le_trans ?_ e3)
  have : (E - 1) * d * (E + 1) = (E ^ 2 - 1) * d := by ring
  nlinarith [mul_nonneg e0 hd.le]

theorem CostLeaf.OK.fills {sum : List ℚ → ℚ} (hs : IsFlSum sum) {kind : Kind} {n N : ℕ} {M : ℚ} {l : CostLeaf C}
    (h : l.OK kind n N M) (hN : N ≤ 2 ^ 50) (pa : Bool) (lamb : Fin n → ℚ) (hl : ∀ k, 0 ≤ lamb k) :
    0 < etaFill (l.row kind pa n) lamb ∧
    Approx (U ^ N) (etaFill (l.row kind pa n) lamb) (etaFill (l.row kind pa n) lamb)
      (flEtaFill sum (l.flRow sum kind pa n) lamb) ∧
    Approx (U ^ N) (M * etaFill (l.row kind pa n) lamb) (dot (l.row kind pa n).gam lamb)
      (flDot sum (l.flRow sum kind pa n).gam lamb) := by
  have hsz := h.size
  have hN' := h.size.trans hN
  obtain ⟨h1, h2⟩ := flDots hs kind l.t h.whole pa l.D n h.cols l.i l.c lamb hl h.bound
  have hd0 := dot_eta_nonneg kind l.t h.whole pa l.D n h.cols l.i l.c lamb hl
  have hz := approx_zero hd0 (pow_quarter hN') h2
  have hg0 := h.gam_zero pa lamb hl
  have hm : U ^ (l.t.nLeaves + n + 2) ≤ U ^ N := U_mono (by omega)
  have hM : 0 ≤ M := (abs_nonneg _).trans h.resp
  unfold etaFill flEtaFill
  rw [l.row_eta, l.row_gam, l.flRow_eta, l.flRow_gam]
  by_cases h0 : dot (leafRow kind l.t pa l.D n l.i l.c).eta lamb = 0
  · rw [if_pos h0, if_pos (hz.2 h0), hg0 h0]
    rw [h0, mul_zero] at h1
    have h3 := h1.abs_le
    rw [mul_zero] at h3
    rw [abs_eq_zero.1 (le_antisymm h3 (abs_nonneg _))]
    have h1U : (1 : ℚ) ≤ U ^ N := one_le_pow₀ (by norm_num)
    exact ⟨one_pos, (Approx.exact (by norm_num)).mono h1U, (Approx.exact (by simpa using hM)).mono h1U⟩
  · rw [if_neg h0, if_neg fun e => h0 (hz.1 e)]
    exact ⟨lt_of_le_of_ne hd0 (Ne.symm h0), h2.mono hm, h1.mono hm⟩

theorem CostLeaf.OK.entries {sum : List ℚ → ℚ} (hs : IsFlSum sum) {kind : Kind} {n N : ℕ} {M : ℚ} {l : CostLeaf C}
    (h : l.OK kind n N M) (pa : Bool) (k : Fin n) :
    0 ≤ (l.row kind pa n).eta k ∧ (l.flRow sum kind pa n).eta k = (l.row kind pa n).eta k ∧
    Approx (U ^ N) (M * (l.row kind pa n).eta k) ((l.row kind pa n).gam k) ((l.flRow sum kind pa n).gam k) := by
  have h0 : ∀ j : Fin l.t.nLeaves, 0 ≤ l.t.nSamp (l.t.leafNode j) := fun j => (h.pos j).le
  have hsz := h.size
  rw [l.row_eta, l.row_gam, l.flRow_eta, l.flRow_gam, leafRow_eta kind l.t pa l.D n h.cols l.i l.c k,
    flLeafRow_eta hs kind l.t pa l.D n h.cols l.i l.c k, leafRow_gam kind l.t pa l.D n h.cols l.i l.c k,
    flLeafRow_gam hs kind l.t pa l.D n h.cols l.i l.c k]
  refine ⟨?_, flEta_exact hs l.t h.whole pa l.D l.i k.val, ?_⟩
  · apply List.sum_nonneg
    intro x hx
    obtain ⟨j, _, rfl⟩ := List.mem_map.1 hx
    exact h0 j
  · have := Approx.sum (l := levelSel pa l.D l.i k) (fun j _ => flNy_approx kind l.t h.whole h.bound j) (hs _)
    rw [List.length_map, List.sum_map_mul_left, ← pow_succ] at this
    exact this.mono (U_mono (by have := levelSel_length pa l.D l.i k; omega))

theorem pow_quarter' {N : ℕ} (hN : N ≤ 2 ^ 48) : U ^ (2 * N + 1) - 1 ≤ 1 / 4 := by
  have h := pow_small (2 * N + 1) (by omega)
  have hq : ((2 * N + 1 : ℕ) : ℚ) ≤ 562949953421313 := by exact_mod_cast (by omega : 2 * N + 1 ≤ 562949953421313)
  norm_num at h hq ⊢
  linarith

/-- The left factor of a row. -/
theorem gradLeft_approx {N : ℕ} {M y w d d' g g' : ℚ} (hw : 0 ≤ w) (hd : 0 < d) (hN : U ^ N - 1 ≤ 1 / 4)
    (hy : |y| ≤ M) (h1 : Approx (U ^ N) d d d') (h2 : Approx (U ^ N) (M * d) g g') :
    Approx (U ^ (3 * N + 4)) (4 * M * w) (-2 * (y - g / d) * w) (fl (fl (-2 * fl (y - fl (g' / d'))) * w)) := by
  have a := (h2.mul' (h1.inv' hd hN)).fl
  have e1 : M * d * (1 / d) = M := by field_simp
  rw [e1, mul_one_div, mul_one_div] at a
  have b := (((Approx.exact hy).mono (one_le_pow₀ (by norm_num) : (1 : ℚ) ≤ U ^ (3 * N + 1))).sub'
    (a.mono (le_of_eq (by ring)))).fl
  have c := ((((Approx.exact (by norm_num : |(-2 : ℚ)| ≤ 2)).mul' b).fl.mul hw).fl).mono
    (le_of_eq (by ring) : _ ≤ U ^ (3 * N + 4))
  have e2 : 2 * (M + M) * w = 4 * M * w := by ring
  rwa [e2] at c

/-- The right factor of a row. -/
theorem gradYhat_approx {N : ℕ} {M d d' g g' e γ γ' : ℚ} (he : 0 ≤ e) (hd : 0 < d) (hN : U ^ (2 * N + 1) - 1 ≤ 1 / 4)
    (h1 : Approx (U ^ N) d d d') (h2 : Approx (U ^ N) (M * d) g g') (h3 : Approx (U ^ N) (M * e) γ γ') :
    Approx (U ^ (5 * N + 5)) (2 * M * e / d) (1 / d * γ - g / d ^ 2 * e)
      (fl (fl (fl (1 / d') * γ') - fl (fl (g' / fl (d' * d')) * e))) := by
  have hN1 : U ^ N - 1 ≤ 1 / 4 := by
    have := U_mono (show N ≤ 2 * N + 1 by omega)
    linarith
  have a := (((h1.inv' hd hN1).fl.mul' h3).fl).mono (le_trans (le_of_eq (by ring)) (U_mono (show 3 * N + 2 ≤ 5 * N + 4 by omega)))
  have sq := ((h1.mul' h1).fl).mono (le_of_eq (by ring) : _ ≤ U ^ (2 * N + 1))
  have iv := (h2.mul' (sq.inv' (mul_pos hd hd) hN)).fl
  simp only [mul_one_div] at iv
  have b := ((iv.mul he).fl).mono (le_of_eq (by ring) : _ ≤ U ^ (5 * N + 4))
  have c := ((a.sub' b).fl).mono (le_of_eq (by ring) : _ ≤ U ^ (5 * N + 5))
  have e1 : 1 / d * (M * e) + M * d / (d * d) * e = 2 * M * e / d := by
    field_simp
    ring
  have e2 : g / (d * d) * e = g / d ^ 2 * e := by rw [pow_two]
  rw [e1, e2] at c
  exact c

/-- One row of the gradient. -/
theorem gradTerm_approx {sum : List ℚ → ℚ} (hs : IsFlSum sum) {kind : Kind} {n N : ℕ} {M : ℚ} {l : CostLeaf C}
    (h : l.OK kind n N M) (hN : N ≤ 2 ^ 48) (pa : Bool) (lamb : Fin n → ℚ) (hl : ∀ k, 0 ≤ lamb k) (k : Fin n) :
    Approx (U ^ (8 * N + 10))
      (8 * M ^ 2 * (l.w * (l.row kind pa n).eta k / etaFill (l.row kind pa n) lamb))
      (-2 * residual (l.row kind pa n) lamb * (l.row kind pa n).w *
        (1 / etaFill (l.row kind pa n) lamb * (l.row kind pa n).gam k -
          dot (l.row kind pa n).gam lamb / etaFill (l.row kind pa n) lamb ^ 2 * (l.row kind pa n).eta k))
      (fl (flGradLeft sum (l.flRow sum kind pa n) lamb * flGradYhat sum (l.flRow sum kind pa n) lamb k)) := by
  obtain ⟨hd, h1, h2⟩ := h.fills hs (hN.trans (by norm_num)) pa lamb hl
  obtain ⟨h3, h4, h5⟩ := h.entries hs pa k
  have hq := pow_quarter' hN
  have hq1 : U ^ N - 1 ≤ 1 / 4 := by
    have := U_mono (show N ≤ 2 * N + 1 by omega)
    linarith
  have a := gradLeft_approx h.weight hd hq1 h.resp h1 h2
  have b := gradYhat_approx h3 hd hq h1 h2 h5
  have c := ((a.mul' b).fl).mono (le_of_eq (by ring) : _ ≤ U ^ (8 * N + 10))
  unfold flGradLeft flGradYhat residual
  rw [h4]
  have e : 4 * M * l.w * (2 * M * (l.row kind pa n).eta k / etaFill (l.row kind pa n) lamb) =
      8 * M ^ 2 * (l.w * (l.row kind pa n).eta k / etaFill (l.row kind pa n) lamb) := by ring
  rw [e] at c
  exact c

theorem takeGradient_rows {kind : Kind} {n N : ℕ} {M : ℚ} (pa : Bool) (L : List (CostLeaf C))
    (hL : ∀ l ∈ L, l.OK kind n N M) (lamb : Fin n → ℚ) (hl : ∀ k, 0 ≤ lamb k) :
    fillAssert (L.map fun l => l.row kind pa n) lamb = true := by
  have := calcCost_rows pa L hL lamb hl
  unfold calcCost at this
  split_ifs at this with h
  exact h

theorem flTakeGradient_rows {sum : List ℚ → ℚ} (hs : IsFlSum sum) {kind : Kind} {n N : ℕ} {M : ℚ} (hN : N ≤ 2 ^ 50)
    (pa : Bool) (L : List (CostLeaf C)) (hL : ∀ l ∈ L, l.OK kind n N M) (lamb : Fin n → ℚ) (hl : ∀ k, 0 ≤ lamb k) :
    flFillAssert sum (L.map fun l => l.flRow sum kind pa n) lamb = true := by
  have := flCalcCost_rows hs hN pa L hL lamb hl
  unfold flCalcCost at this
  split_ifs at this with h
  exact h

/-- C187: in doubles `take_gradient` returns whenever it does in exact arithmetic, and its `k`th component is within
`16 (8 N + R + 10) 2^-53 M² Σ w η_k / (η · λ)` of the exact one, for `R` rows with leaf values and responses at most `M`
and trees with at most `N - 3` leaves and columns together, in any order of summation. -/
theorem C187_gradient {sum : List ℚ → ℚ} (hs : IsFlSum sum) (kind : Kind) (pa : Bool) (n N : ℕ) (M : ℚ)
    (L : List (CostLeaf C)) (hL : ∀ l ∈ L, l.OK kind n N M) (hN : 8 * N + 10 + L.length ≤ 2 ^ 51)
    (lamb : Fin n → ℚ) (hl : ∀ k, 0 ≤ lamb k) :
    ∃ g g', takeGradient (L.map fun l => l.row kind pa n) lamb = .ok g ∧
      flTakeGradient sum (L.map fun l => l.flRow sum kind pa n) lamb = .ok g' ∧
      ∀ k, |g' k - g k| ≤ 16 * (8 * N + 10 + L.length) / 2 ^ 53 * M ^ 2 *
        (L.map fun l => l.w * (l.row kind pa n).eta k / etaFill (l.row kind pa n) lamb).sum := by
  have hN' : N ≤ 2 ^ 48 := by omega
  unfold takeGradient flTakeGradient
  rw [if_pos (takeGradient_rows pa L hL lamb hl), if_pos (flTakeGradient_rows hs (hN'.trans (by norm_num)) pa L hL lamb hl)]
  refine ⟨_, _, rfl, rfl, fun k => ?_⟩
  simp only [List.map_map]
  have hsum := hs (L.map fun l =>
    fl (flGradLeft sum (l.flRow sum kind pa n) lamb * flGradYhat sum (l.flRow sum kind pa n) lamb k))
  rw [List.length_map] at hsum
  have key := (Approx.sum (fun l hlL => gradTerm_approx hs (hL l hlL) hN' pa lamb hl k) hsum).1
  rw [List.sum_map_mul_left] at key
  have hW : 0 ≤ (L.map fun l => l.w * (l.row kind pa n).eta k / etaFill (l.row kind pa n) lamb).sum := by
    apply List.sum_nonneg
    intro x hx
    obtain ⟨l, hlL, rfl⟩ := List.mem_map.1 hx
    have h1 := (hL l hlL).fills hs (hN'.trans (by norm_num)) pa lamb hl
    have h2 := (hL l hlL).entries hs pa k
    exact div_nonneg (mul_nonneg (hL l hlL).weight h2.1) h1.1.le
  refine le_trans (le_of_eq ?_) (key.trans ?_)
  · rfl
  · have hp := pow_small (8 * N + 10 + L.length) (hN.trans (by norm_num))
    rw [← pow_add, show L.length + (8 * N + 10) = 8 * N + 10 + L.length by omega]
    generalize (L.map fun l => l.w * (l.row kind pa n).eta k / etaFill (l.row kind pa n) lamb).sum = W at *
    have hp' : U ^ (8 * N + 10 + L.length) - 1 ≤ 2 * (8 * N + 10 + L.length) / 2 ^ 53 := by
      push_cast at hp
      linarith
    refine (mul_le_mul_of_nonneg_right hp' (by positivity)).trans (le_of_eq ?_)
    ring

/-- C187: a component of the exact gradient above the error bound has the same sign in doubles. -/
theorem C187_sign {sum : List ℚ → ℚ} (hs : IsFlSum sum) (kind : Kind) (pa : Bool) (n N : ℕ) (M : ℚ)
    (L : List (CostLeaf C)) (hL : ∀ l ∈ L, l.OK kind n N M) (hN : 8 * N + 10 + L.length ≤ 2 ^ 51)
    (lamb : Fin n → ℚ) (hl : ∀ k, 0 ≤ lamb k) {g g' : Fin n → ℚ}
    (hg : takeGradient (L.map fun l => l.row kind pa n) lamb = .ok g)
    (hg' : flTakeGradient sum (L.map fun l => l.flRow sum kind pa n) lamb = .ok g') (k : Fin n)
    (hk : 16 * (8 * N + 10 + L.length) / 2 ^ 53 * M ^ 2 *
        (L.map fun l => l.w * (l.row kind pa n).eta k / etaFill (l.row kind pa n) lamb).sum < |g k|) :
    (0 < g k → 0 < g' k) ∧ (g k < 0 → g' k < 0) := by
  obtain ⟨g0, g0', h1, h2, h3⟩ := C187_gradient hs kind pa n N M L hL hN lamb hl
  rw [hg] at h1
  rw [hg'] at h2
  rw [← Except.ok.inj h1, ← Except.ok.inj h2] at h3
  have h4 := _root_.abs_le.1 ((h3 k).trans hk.le)
  have h5 := (h3 k).trans_lt hk
  constructor
  · intro h0
    rw [abs_of_pos h0] at h5
    have := (abs_lt.1 h5).1
    linarith
  · intro h0
    rw [abs_of_neg h0] at h5
    have := (abs_lt.1 h5).2
    linarith

theorem sum_comm_list {ι : Type} {n : ℕ} (L : List ι) (f : ι → Fin n → ℚ) :
    ∑ k, (L.map fun l => f l k).sum = (L.map fun l => ∑ k, f l k).sum := by
  induction L with
  | nil => simp
  | cons a L ih => simp [Finset.sum_add_distrib, ih]

/-- C187: the exact gradient is orthogonal to the weights (C25); in doubles it is up to
`16 (8 N + R + 10) 2^-53 M² W`, with `W` the total weight of the rows. -/
theorem C187_orthogonal {sum : List ℚ → ℚ} (hs : IsFlSum sum) (kind : Kind) (pa : Bool) (n N : ℕ) (M : ℚ)
    (L : List (CostLeaf C)) (hL : ∀ l ∈ L, l.OK kind n N M) (hN : 8 * N + 10 + L.length ≤ 2 ^ 51)
    (lamb : Fin n → ℚ) (hl : ∀ k, 0 ≤ lamb k) {g' : Fin n → ℚ}
    (hg' : flTakeGradient sum (L.map fun l => l.flRow sum kind pa n) lamb = .ok g') :
    |∑ k, lamb k * g' k| ≤ 16 * (8 * N + 10 + L.length) / 2 ^ 53 * M ^ 2 * (L.map fun l => l.w).sum := by
  obtain ⟨g, g0', h1, h2, h3⟩ := C187_gradient hs kind pa n N M L hL hN lamb hl
  rw [hg'] at h2
  rw [← Except.ok.inj h2] at h3
  have ho := C25_gradient_orthogonal _ _ _ h1
  have e : ∑ k, lamb k * g' k = ∑ k, lamb k * (g' k - g k) := by
    simp only [mul_sub, Finset.sum_sub_distrib]
    have : ∑ k, lamb k * g k = 0 := by
      rw [← ho]
      exact Finset.sum_congr rfl fun k _ => mul_comm _ _
    rw [this, sub_zero]
  rw [e]
  refine (Finset.abs_sum_le_sum_abs _ _).trans ?_
  have step : ∀ k ∈ Finset.univ, |lamb k * (g' k - g k)| ≤ 16 * (8 * N + 10 + L.length) / 2 ^ 53 * M ^ 2 *
      (L.map fun l => l.w * ((l.row kind pa n).eta k * lamb k / etaFill (l.row kind pa n) lamb)).sum := by
    intro k _
    rw [abs_mul, abs_of_nonneg (hl k)]
    refine (mul_le_mul_of_nonneg_left (h3 k) (hl k)).trans (le_of_eq ?_)
    rw [mul_left_comm, ← List.sum_map_mul_left]
    congr 3
    funext l
    ring
  refine (Finset.sum_le_sum step).trans ?_
  rw [← Finset.mul_sum, sum_comm_list]
  refine mul_le_mul_of_nonneg_left ?_ (by positivity)
  refine List.sum_le_sum fun l hlL => ?_
  rw [← Finset.mul_sum, ← Finset.sum_div]
  have hd := ((hL l hlL).fills hs (by omega) pa lamb hl).1
  refine mul_le_of_le_one_right (hL l hlL).weight ?_
  show dot (l.row kind pa n).eta lamb / etaFill (l.row kind pa n) lamb ≤ 1
  rw [div_le_one hd]
  unfold etaFill
  split_ifs with h0
  · rw [h0]; norm_num
  · exact le_rfl

/-! ### Cases -/

/-- Two leaves with one and two observations. -/
abbrev exThird : SkTree ℚ 1 :=
  { toTopo := ⟨2, ![some 1, none, none], ![some 2, none, none]⟩
    value := fun i _ => ![2 / 3, 0, 1] i
    nSamp := ![3, 1, 2]
    impurity := ![2 / 9, 0, 0] }

abbrev exThirdLeaf : CostLeaf 1 := ⟨exThird, exThird.distDepth .standard, ⟨0, by decide⟩, 0, 1, 1⟩

/-- The case meets the assumptions. -/
theorem exThirdLeaf_ok : exThirdLeaf.OK .reg 2 7 1 where
  whole := ⟨fun j => ⟨if j.val = 0 then 1 else 2, by revert j; decide +kernel⟩, by decide +kernel⟩
  pos := by decide +kernel
  cols := by decide +kernel
  size := by decide +kernel
  bound := by
    intro j
    show |exThird.value (exThird.leafNode j) 0| ≤ 1
    revert j
    decide +kernel
  resp := by decide +kernel
  weight := by decide +kernel

theorem exThird_fl : flTakeGradient npSum ([exThirdLeaf].map fun l => l.flRow npSum .reg false 2) ![1 / 4, 3 / 4] =
    .ok ![5041930778164055 / 36028797018963968, -3361287185442703 / 72057594037927936] := by
  unfold flTakeGradient
  rw [if_pos (by decide +kernel)]
  congr 1
  funext k
  revert k
  decide +kernel

/-- C187: in doubles the gradient need not be orthogonal to the weights. -/
theorem C187_orthogonal_refuted :
    ¬ ∀ (sum : List ℚ → ℚ) (kind : Kind) (pa : Bool) (n N : ℕ) (M : ℚ) (L : List (CostLeaf 1)), IsFlSum sum →
      (∀ l ∈ L, l.OK kind n N M) → ∀ lamb : Fin n → ℚ, (∀ k, 0 ≤ lamb k) → ∀ g' : Fin n → ℚ,
        flTakeGradient sum (L.map fun l => l.flRow sum kind pa n) lamb = .ok g' → ∑ k, lamb k * g' k = 0 := by
  intro h
  have h1 := h npSum .reg false 2 7 1 [exThirdLeaf] npSum_rsum
    (by intro l hl; rw [List.mem_singleton.1 hl]; exact exThirdLeaf_ok) ![1 / 4, 3 / 4] (by decide +kernel)
    ![5041930778164055 / 36028797018963968, -3361287185442703 / 72057594037927936] exThird_fl
  revert h1
  norm_num [Fin.sum_univ_two]

/-- C187: in doubles the gradient can vanish where no component of the exact one does: below the error bound nothing is
known about the sign, and the descent stops. -/
theorem C187_vanishes : ∃ (lamb g : Fin 2 → ℚ), (∀ k, 0 < lamb k) ∧
    takeGradient ([exThirdLeaf].map fun l => l.row .reg false 2) lamb = .ok g ∧ (∀ k, g k ≠ 0) ∧
    flTakeGradient npSum ([exThirdLeaf].map fun l => l.flRow npSum .reg false 2) lamb = .ok ![0, 0] := by
  refine ⟨![1 / 2 ^ 60, 1], ![5316911983139663491615228241121378304 / 12259964326927110882817512166621463950713126728474034177,
    -4611686018427387904 / 12259964326927110882817512166621463950713126728474034177], ?_, ?_, ?_, ?_⟩
  · decide +kernel
  · unfold takeGradient
    rw [if_pos (by decide +kernel)]
    congr 1
    funext k
    revert k
    decide +kernel
  · decide +kernel
  · unfold flTakeGradient
    rw [if_pos (by decide +kernel)]
    congr 1
    funext k
    revert k
    decide +kernel

example : |∑ k, (![1 / 4, 3 / 4] : Fin 2 → ℚ) k *
    (![5041930778164055 / 36028797018963968, -3361287185442703 / 72057594037927936] : Fin 2 → ℚ) k| ≤
      16 * (8 * (7 : ℕ) + 10 + ([exThirdLeaf] : List (CostLeaf 1)).length) / 2 ^ 53 * 1 ^ 2 *
        (([exThirdLeaf] : List (CostLeaf 1)).map fun l => l.w).sum :=
  C187_orthogonal npSum_rsum .reg false 2 7 1 [exThirdLeaf]
    (by intro l hl; rw [List.mem_singleton.1 hl]; exact exThirdLeaf_ok) (by simp) ![1 / 4, 3 / 4] (by decide +kernel)
    exThird_fl

end SmoothRF
