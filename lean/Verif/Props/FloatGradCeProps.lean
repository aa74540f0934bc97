import Verif.Props.FloatGradProps
import Verif.Props.NormProps

/-!
# C188: take_gradient_ce in double precision
-/

set_option linter.unusedSectionVars false

namespace SmoothRF

open Topo SkTree

variable {C : ℕ}

attribute [local irreducible] fl

local notation "U" => ((1 : ℚ) + 1 / 2 ^ 53)

/-- What is assumed of a row: whole positive sample sizes, enough columns, class weights, proportions and weights that are
not negative, at most `N` roundings. -/
structure CostLeaf.CeOK (n N : ℕ) (l : CostLeaf C) : Prop where
  whole : WholeCounts l.t
  pos : ∀ j : Fin l.t.nLeaves, 0 < l.t.nSamp (l.t.leafNode j)
  cols : l.t.maxDist l.D + 1 ≤ n
  size : l.t.nLeaves + n + 3 ≤ N
  value : ∀ j : Fin l.t.nLeaves, 0 ≤ l.t.value (l.t.leafNode j) l.c
  prop : 0 ≤ l.y
  weight : 0 ≤ l.w

theorem CostLeaf.CeOK.entries {sum : List ℚ → ℚ} (hs : IsFlSum sum) {n N : ℕ} {l : CostLeaf C}
    (h : l.CeOK n N) (pa : Bool) (k : Fin n) :
    0 ≤ (l.row .cls pa n).eta k ∧ (l.flRow sum .cls pa n).eta k = (l.row .cls pa n).eta k ∧
    0 ≤ (l.row .cls pa n).gam k ∧
    Approx (U ^ (l.t.nLeaves + 1)) ((l.row .cls pa n).gam k) ((l.row .cls pa n).gam k)
      ((l.flRow sum .cls pa n).gam k) := by
  rw [l.row_eta, l.row_gam, l.flRow_eta, l.flRow_gam, leafRow_eta .cls l.t pa l.D n h.cols l.i l.c k,
    flLeafRow_eta hs .cls l.t pa l.D n h.cols l.i l.c k, leafRow_gam .cls l.t pa l.D n h.cols l.i l.c k,
    flLeafRow_gam hs .cls l.t pa l.D n h.cols l.i l.c k]
  have nn : ∀ {f : Fin l.t.nLeaves → ℚ}, (∀ j, 0 ≤ f j) → 0 ≤ ((levelSel pa l.D l.i k).map f).sum := by
    intro f hf
    apply List.sum_nonneg
    intro x hx
    obtain ⟨j, _, rfl⟩ := List.mem_map.1 hx
    exact hf j
  refine ⟨nn fun j => (h.pos j).le, flEta_exact hs l.t h.whole pa l.D l.i k.val, nn fun j => h.value j, ?_⟩
  have := Approx.sum (l := levelSel pa l.D l.i k) (w := fun j => l.t.ny .cls (l.t.leafNode j) l.c)
    (f := fun j => l.t.ny .cls (l.t.leafNode j) l.c) (f' := fun j => flNy .cls l.t (l.t.leafNode j) l.c)
    (E := 1) (fun j _ => Approx.exact (le_of_eq (abs_of_nonneg (h.value j)))) (hs _)
  rw [List.length_map, mul_one] at this
  exact this.mono (U_mono (by have := levelSel_length pa l.D l.i k; omega))

theorem CostLeaf.CeOK.dots {sum : List ℚ → ℚ} (hs : IsFlSum sum) {n N : ℕ} {l : CostLeaf C}
    (h : l.CeOK n N) (pa : Bool) (lamb : Fin n → ℚ) (hl : ∀ k, 0 ≤ lamb k) :
    0 ≤ dot (l.row .cls pa n).gam lamb ∧ 0 ≤ dot (l.row .cls pa n).eta lamb ∧
    Approx (U ^ N) (dot (l.row .cls pa n).gam lamb) (dot (l.row .cls pa n).gam lamb)
      (flDot sum (l.flRow sum .cls pa n).gam lamb) ∧
    Approx (U ^ N) (dot (l.row .cls pa n).eta lamb) (dot (l.row .cls pa n).eta lamb)
      (flDot sum (l.flRow sum .cls pa n).eta lamb) := by
  have hsz := h.size
  refine ⟨Finset.sum_nonneg fun k _ => mul_nonneg (h.entries hs pa k).2.2.1 (hl k),
    Finset.sum_nonneg fun k _ => mul_nonneg (h.entries hs pa k).1 (hl k), ?_, ?_⟩
  · have := Approx.sum (l := List.finRange n) (fun k _ => (((h.entries hs pa k).2.2.2).mul (hl k)).fl) (hs _)
    rw [finRange_sum, List.length_map, List.length_finRange, ← pow_succ', ← pow_add] at this
    exact this.mono (U_mono (by omega))
  · have hg : ∀ k, Approx 1 ((l.row .cls pa n).eta k) ((l.row .cls pa n).eta k) ((l.flRow sum .cls pa n).eta k) :=
      fun k => by
        rw [(h.entries hs pa k).2.1]
        exact Approx.exact (by rw [abs_of_nonneg (h.entries hs pa k).1])
    have := Approx.sum (l := List.finRange n) (fun k _ => ((hg k).mul (hl k)).fl) (hs _)
    rw [finRange_sum, List.length_map, List.length_finRange, mul_one, ← pow_succ] at this
    exact this.mono (U_mono (by omega))

/-- With positive sample sizes a denominator is 0 only if the numerator is. -/
theorem CostLeaf.CeOK.gam_zero {n N : ℕ} {l : CostLeaf C} (h : l.CeOK n N) (pa : Bool) (lamb : Fin n → ℚ)
    (hl : ∀ k, 0 ≤ lamb k) (h0 : dot (l.row .cls pa n).eta lamb = 0) : dot (l.row .cls pa n).gam lamb = 0 := by
  refine Finset.sum_eq_zero fun k hk => ?_
  have e := (Finset.sum_eq_zero_iff_of_nonneg
    (fun k _ => mul_nonneg (h.entries (sum := flSum) rsum_flSum pa k).1 (hl k))).1 h0 k hk
  rcases mul_eq_zero.1 e with e | e
  · rw [l.row_eta, leafRow_eta .cls l.t pa l.D n h.cols l.i l.c k] at e
    have hnil : levelSel pa l.D l.i k = [] := by
      by_contra hne
      obtain ⟨j, hj⟩ := List.exists_mem_of_ne_nil _ hne
      have := List.sum_pos ((levelSel pa l.D l.i k).map fun j => l.t.nSamp (l.t.leafNode j))
        (by
          intro x hx
          obtain ⟨j, _, rfl⟩ := List.mem_map.1 hx
          exact h.pos j)
        (by simp [hne])
      linarith
    rw [l.row_gam, leafRow_gam .cls l.t pa l.D n h.cols l.i l.c k, hnil]
    simp
  · rw [e, mul_zero]

theorem approx_zero' {E d d' : ℚ} (hd : 0 ≤ d) (hE : E - 1 ≤ 1 / 4) (h : Approx E d d d') (hp : 0 < d) : 0 < d' := by
  have h1 := (_root_.abs_le.1 h.1).1
  nlinarith

theorem pow_quarter3 {N : ℕ} (hN : N ≤ 2 ^ 47) : U ^ (3 * N + 1) - 1 ≤ 1 / 4 := by
  have h := pow_small (3 * N + 1) (by omega)
  have hq : ((3 * N + 1 : ℕ) : ℚ) ≤ 562949953421313 := by exact_mod_cast (by omega : 3 * N + 1 ≤ 562949953421313)
  norm_num at h hq ⊢
  linarith

/-- One row with positive `phat`. -/
theorem ceTerm_approx {N : ℕ} (hN : N ≤ 2 ^ 47) {w y d d' g g' e γ γ' : ℚ} (hw : 0 ≤ w) (hy : 0 ≤ y) (hd : 0 < d)
    (hg : 0 < g) (he : 0 ≤ e) (hγ : 0 ≤ γ)
    (h1 : Approx (U ^ N) d d d') (h2 : Approx (U ^ N) g g g') (h3 : Approx (U ^ N) γ γ γ') :
    Approx (U ^ (12 * N + 10)) (w * y * (γ / g + e / d)) ((γ * d - e * g) / d ^ 2 * (-w * y / (g / d)))
      (fl (fl (fl (fl (γ' * d') - fl (e * g')) / fl (d' * d')) * fl (fl (-w * y) / fl (g' / d')))) := by
  have hq3 := pow_quarter3 hN
  have hq1 : U ^ N - 1 ≤ 1 / 4 := by
    have := U_mono (show N ≤ 3 * N + 1 by omega)
    linarith
  have hq2 : U ^ (2 * N + 1) - 1 ≤ 1 / 4 := by
    have := U_mono (show 2 * N + 1 ≤ 3 * N + 1 by omega)
    linarith
  -- phat
  have p := ((h2.mul' (h1.inv' hd hq1)).fl).mono (le_of_eq (by ring) : _ ≤ U ^ (3 * N + 1))
  simp only [mul_one_div] at p
  have wy : |(-w * y)| ≤ w * y := by
    rw [neg_mul, abs_neg, abs_of_nonneg (mul_nonneg hw hy)]
  have left := (((Approx.exact wy).fl.mul' (p.inv' (div_pos hg hd) hq3)).fl).mono
    (le_of_eq (by ring) : _ ≤ U ^ (6 * N + 4))
  simp only [mul_one_div] at left
  -- the other factor
  have a := ((h3.mul' h1).fl).mono (le_of_eq (by ring) : _ ≤ U ^ (2 * N + 1))
  have b := (((Approx.exact (le_of_eq (abs_of_nonneg he))).mul' h2).fl).mono
    (le_trans (le_of_eq (by ring)) (U_mono (show N + 1 ≤ 2 * N + 1 by omega)))
  have sq := ((h1.mul' h1).fl).mono (le_of_eq (by ring) : _ ≤ U ^ (2 * N + 1))
  have right := (((a.sub' b).fl.mul' (sq.inv' (mul_pos hd hd) hq2)).fl).mono
    (le_of_eq (by ring) : _ ≤ U ^ (6 * N + 5))
  simp only [mul_one_div] at right
  have c := ((right.mul' left).fl).mono (le_of_eq (by ring) : _ ≤ U ^ (12 * N + 10))
  have e1 : (γ * d + e * g) / (d * d) * (w * y / (g / d)) = w * y * (γ / g + e / d) := by
    field_simp
  have e2 : (γ * d - e * g) / (d * d) = (γ * d - e * g) / d ^ 2 := by rw [pow_two]
  rw [e1, e2] at c
  exact c

theorem CostLeaf.CeOK.phat {sum : List ℚ → ℚ} (hs : IsFlSum sum) {n N : ℕ} {l : CostLeaf C}
    (h : l.CeOK n N) (hN : N ≤ 2 ^ 47) (pa : Bool) (lamb : Fin n → ℚ) (hl : ∀ k, 0 ≤ lamb k) :
    (dot (l.row .cls pa n).gam lamb = 0 ∧ pHat (l.row .cls pa n) lamb = 0 ∧
      flDot sum (l.flRow sum .cls pa n).gam lamb = 0 ∧ flPHat sum (l.flRow sum .cls pa n) lamb = 0) ∨
    (0 < dot (l.row .cls pa n).gam lamb ∧ 0 < pHat (l.row .cls pa n) lamb ∧ 0 < etaFill (l.row .cls pa n) lamb ∧
      flPHat sum (l.flRow sum .cls pa n) lamb ≠ 0 ∧ flDot sum (l.flRow sum .cls pa n).eta lamb ≠ 0 ∧
      Approx (U ^ N) (etaFill (l.row .cls pa n) lamb) (etaFill (l.row .cls pa n) lamb)
        (flEtaFill sum (l.flRow sum .cls pa n) lamb)) := by
  obtain ⟨g0, d0, hg, hd⟩ := h.dots hs pa lamb hl
  have hq3 := pow_quarter3 hN
  have hq1 : U ^ N - 1 ≤ 1 / 4 := by
    have := U_mono (show N ≤ 3 * N + 1 by omega)
    linarith
  rcases g0.lt_or_eq with gp | gz
  · right
    have dz : dot (l.row .cls pa n).eta lamb ≠ 0 := fun e => by
      rw [h.gam_zero pa lamb hl e] at gp
      exact lt_irrefl _ gp
    have dp := lt_of_le_of_ne d0 (Ne.symm dz)
    have dp' := approx_zero' d0 hq1 hd dp
    have e1 : etaFill (l.row .cls pa n) lamb = dot (l.row .cls pa n).eta lamb := by unfold etaFill; rw [if_neg dz]
    have e2 : flEtaFill sum (l.flRow sum .cls pa n) lamb = flDot sum (l.flRow sum .cls pa n).eta lamb := by
      unfold flEtaFill; rw [if_neg dp'.ne']
    have p := ((hg.mul' (hd.inv' dp hq1)).fl).mono (le_of_eq (by ring) : _ ≤ U ^ (3 * N + 1))
    simp only [mul_one_div] at p
    have pp := approx_zero' (div_pos gp dp).le hq3 p (div_pos gp dp)
    refine ⟨gp, ?_, by rw [e1]; exact dp, ?_, dp'.ne', by rw [e1, e2]; exact hd⟩
    · unfold pHat; rw [e1]; exact div_pos gp dp
    · unfold flPHat; rw [e2]; exact pp.ne'
  · left
    have g' : flDot sum (l.flRow sum .cls pa n).gam lamb = 0 := by
      rw [← gz] at hg
      have := hg.abs_le
      rw [mul_zero] at this
      exact abs_eq_zero.1 (le_antisymm this (abs_nonneg _))
    refine ⟨gz.symm, ?_, g', ?_⟩
    · unfold pHat; rw [← gz, zero_div]
    · unfold flPHat; rw [g', zero_div]; exact fl_zero

/-- C188: in doubles `take_gradient_ce` is not finite exactly when it is not in exact arithmetic; otherwise both return
and the `k`th components differ by at most `2 (12 N + R + 10) 2^-53 Σ w p (Γ_k / (Γ · λ) + η_k / (η · λ))`, for `R` rows
and trees with at most `N - 3` leaves and columns together, in any order of summation. -/
theorem C188_gradient {sum : List ℚ → ℚ} (hs : IsFlSum sum) (pa : Bool) (n N : ℕ)
    (L : List (CostLeaf C)) (hL : ∀ l ∈ L, l.CeOK n N) (hN : 12 * N + 10 + L.length ≤ 2 ^ 50)
    (lamb : Fin n → ℚ) (hl : ∀ k, 0 ≤ lamb k) :
    (takeGradientCe (L.map fun l => l.row .cls pa n) lamb = .error .nonFinite ∧
      flTakeGradientCe sum (L.map fun l => l.flRow sum .cls pa n) lamb = .error .nonFinite) ∨
    ∃ g g', takeGradientCe (L.map fun l => l.row .cls pa n) lamb = .ok g ∧
      flTakeGradientCe sum (L.map fun l => l.flRow sum .cls pa n) lamb = .ok g' ∧
      (∀ l ∈ L, 0 < dot (l.row .cls pa n).gam lamb ∧ 0 < dot (l.row .cls pa n).eta lamb) ∧
      ∀ k, |g' k - g k| ≤ 2 * (12 * N + 10 + L.length) / 2 ^ 53 *
        (L.map fun l => l.w * l.y * ((l.row .cls pa n).gam k / dot (l.row .cls pa n).gam lamb +
          (l.row .cls pa n).eta k / dot (l.row .cls pa n).eta lamb)).sum := by
  have hN' : N ≤ 2 ^ 47 := by omega
  have a1 : fillAssert (L.map fun l => l.row .cls pa n) lamb = true := by
    unfold fillAssert
    rw [List.all_eq_true]
    intro r hr
    obtain ⟨l, hlL, rfl⟩ := List.mem_map.1 hr
    by_cases h0 : dot (l.row .cls pa n).eta lamb = 0
    · simp [(hL l hlL).gam_zero pa lamb hl h0]
    · simp [h0]
  have a2 : flFillAssert sum (L.map fun l => l.flRow sum .cls pa n) lamb = true := by
    unfold flFillAssert
    rw [List.all_eq_true]
    intro r hr
    obtain ⟨l, hlL, rfl⟩ := List.mem_map.1 hr
    rcases (hL l hlL).phat hs hN' pa lamb hl with h | h
    · simp [h.2.2.1]
    · simp [h.2.2.2.2.1]
  unfold takeGradientCe flTakeGradientCe
  rw [if_pos a1, if_pos a2]
  by_cases hz : ∃ l ∈ L, dot (l.row .cls pa n).gam lamb = 0
  · left
    obtain ⟨l, hlL, h0⟩ := hz
    rcases (hL l hlL).phat hs hN' pa lamb hl with h | h
    · constructor
      · rw [if_pos]
        rw [List.any_eq_true]
        exact ⟨_, List.mem_map.2 ⟨l, hlL, rfl⟩, by simp [h.2.1]⟩
      · rw [if_pos]
        rw [List.any_eq_true]
        exact ⟨_, List.mem_map.2 ⟨l, hlL, rfl⟩, by simp [h.2.2.2]⟩
    · exact absurd h0 h.1.ne'
  right
  have hp : ∀ l ∈ L, 0 < dot (l.row .cls pa n).gam lamb ∧ 0 < pHat (l.row .cls pa n) lamb ∧
      0 < etaFill (l.row .cls pa n) lamb ∧
      flPHat sum (l.flRow sum .cls pa n) lamb ≠ 0 ∧ flDot sum (l.flRow sum .cls pa n).eta lamb ≠ 0 ∧
      Approx (U ^ N) (etaFill (l.row .cls pa n) lamb) (etaFill (l.row .cls pa n) lamb)
        (flEtaFill sum (l.flRow sum .cls pa n) lamb) := fun l hlL => by
    rcases (hL l hlL).phat hs hN' pa lamb hl with h | h
    · exact absurd ⟨l, hlL, h.1⟩ hz
    · exact h
  have hd : ∀ l ∈ L, dot (l.row .cls pa n).eta lamb ≠ 0 := fun l hlL e =>
    (hp l hlL).1.ne' ((hL l hlL).gam_zero pa lamb hl e)
  have he : ∀ l ∈ L, etaFill (l.row .cls pa n) lamb = dot (l.row .cls pa n).eta lamb := fun l hlL => by
    unfold etaFill; rw [if_neg (hd l hlL)]
  rw [if_neg, if_neg]
  rotate_left
  · rw [List.any_eq_true]
    rintro ⟨r, hr, h0⟩
    obtain ⟨l, hlL, rfl⟩ := List.mem_map.1 hr
    exact (hp l hlL).2.2.2.1 (of_decide_eq_true h0)
  · rw [List.any_eq_true]
    rintro ⟨r, hr, h0⟩
    obtain ⟨l, hlL, rfl⟩ := List.mem_map.1 hr
    exact (hp l hlL).2.1.ne' (of_decide_eq_true h0)
  refine ⟨_, _, rfl, rfl, fun l hlL => ⟨(hp l hlL).1, by rw [← he l hlL]; exact (hp l hlL).2.2.1⟩, fun k => ?_⟩
  simp only [List.map_map]
  have hsum := hs (L.map fun l =>
    fl (flCeRight sum (l.flRow sum .cls pa n) lamb k * flCeLeft sum (l.flRow sum .cls pa n) lamb))
  rw [List.length_map] at hsum
  have term : ∀ l ∈ L, Approx (U ^ (12 * N + 10))
      (l.w * l.y * ((l.row .cls pa n).gam k / dot (l.row .cls pa n).gam lamb +
          (l.row .cls pa n).eta k / dot (l.row .cls pa n).eta lamb))
      (((l.row .cls pa n).gam k * etaFill (l.row .cls pa n) lamb -
        (l.row .cls pa n).eta k * dot (l.row .cls pa n).gam lamb) / etaFill (l.row .cls pa n) lamb ^ 2 *
        (-(l.row .cls pa n).w * (l.row .cls pa n).y / pHat (l.row .cls pa n) lamb))
      (fl (flCeRight sum (l.flRow sum .cls pa n) lamb k * flCeLeft sum (l.flRow sum .cls pa n) lamb)) := by
    intro l hlL
    have h := hL l hlL
    have hsz := h.size
    obtain ⟨p1, p2, p3, p4, p5, p6⟩ := hp l hlL
    obtain ⟨n1, n2, n3, n4⟩ := h.entries hs pa k
    have d3 := (h.dots hs pa lamb hl).2.2.1
    have c := ceTerm_approx hN' h.weight h.prop p3 p1 n1 n3 p6 d3 (n4.mono (U_mono (by omega)))
    unfold flCeRight flCeLeft flPHat pHat
    rw [n2, ← he l hlL]
    exact c
  have key := (Approx.sum term hsum).1
  have hW : 0 ≤ (L.map fun l => l.w * l.y * ((l.row .cls pa n).gam k / dot (l.row .cls pa n).gam lamb +
          (l.row .cls pa n).eta k / dot (l.row .cls pa n).eta lamb)).sum := by
    apply List.sum_nonneg
    intro x hx
    obtain ⟨l, hlL, rfl⟩ := List.mem_map.1 hx
    exact (abs_nonneg _).trans (term l hlL).2
  refine le_trans (le_of_eq ?_) (key.trans ?_)
  · rfl
  · have hp := pow_small (12 * N + 10 + L.length) (hN.trans (by norm_num))
    rw [← pow_add, show L.length + (12 * N + 10) = 12 * N + 10 + L.length by omega]
    have hp' : U ^ (12 * N + 10 + L.length) - 1 ≤ 2 * (12 * N + 10 + L.length) / 2 ^ 53 := by
      push_cast at hp
      linarith
    exact mul_le_mul_of_nonneg_right hp' hW

/-- C188: the exact gradient is orthogonal to the weights (C104); in doubles it is up to `4 (12 N + R + 10) 2^-53 Σ w p`. -/
theorem C188_orthogonal {sum : List ℚ → ℚ} (hs : IsFlSum sum) (pa : Bool) (n N : ℕ)
    (L : List (CostLeaf C)) (hL : ∀ l ∈ L, l.CeOK n N) (hN : 12 * N + 10 + L.length ≤ 2 ^ 50)
    (lamb : Fin n → ℚ) (hl : ∀ k, 0 ≤ lamb k) {g' : Fin n → ℚ}
    (hg' : flTakeGradientCe sum (L.map fun l => l.flRow sum .cls pa n) lamb = .ok g') :
    |∑ k, lamb k * g' k| ≤ 4 * (12 * N + 10 + L.length) / 2 ^ 53 * (L.map fun l => l.w * l.y).sum := by
  rcases C188_gradient hs pa n N L hL hN lamb hl with ⟨_, h⟩ | ⟨g, g0', h1, h2, hpos, h3⟩
  · rw [hg'] at h; exact absurd h (by simp)
  rw [hg'] at h2
  rw [← Except.ok.inj h2] at h3
  have ho := C104_ce_orthogonal _ _ _ h1
  have e : ∑ k, lamb k * g' k = ∑ k, lamb k * (g' k - g k) := by
    simp only [mul_sub, Finset.sum_sub_distrib]
    have : ∑ k, lamb k * g k = 0 := by
      rw [← ho]
      exact Finset.sum_congr rfl fun k _ => mul_comm _ _
    rw [this, sub_zero]
  rw [e]
  refine (Finset.abs_sum_le_sum_abs _ _).trans ?_
  have step : ∀ k ∈ Finset.univ, |lamb k * (g' k - g k)| ≤ 2 * (12 * N + 10 + L.length) / 2 ^ 53 *
      (L.map fun l => l.w * l.y * ((l.row .cls pa n).gam k * lamb k / dot (l.row .cls pa n).gam lamb +
          (l.row .cls pa n).eta k * lamb k / dot (l.row .cls pa n).eta lamb)).sum := by
    intro k _
    rw [abs_mul, abs_of_nonneg (hl k)]
    refine (mul_le_mul_of_nonneg_left (h3 k) (hl k)).trans (le_of_eq ?_)
    rw [mul_left_comm, ← List.sum_map_mul_left]
    congr 3
    funext l
    ring
  refine (Finset.sum_le_sum step).trans (le_of_eq ?_)
  rw [← Finset.mul_sum, sum_comm_list]
  have : (L.map fun l => ∑ k, l.w * l.y * ((l.row .cls pa n).gam k * lamb k / dot (l.row .cls pa n).gam lamb +
      (l.row .cls pa n).eta k * lamb k / dot (l.row .cls pa n).eta lamb)) = L.map fun l => 2 * (l.w * l.y) := by
    refine List.map_congr_left fun l hlL => ?_
    obtain ⟨q1, q2⟩ := hpos l hlL
    rw [← Finset.mul_sum, Finset.sum_add_distrib, ← Finset.sum_div, ← Finset.sum_div]
    have f1 : (∑ k, (l.row .cls pa n).gam k * lamb k) / dot (l.row .cls pa n).gam lamb = 1 := div_self q1.ne'
    have f2 : (∑ k, (l.row .cls pa n).eta k * lamb k) / dot (l.row .cls pa n).eta lamb = 1 := div_self q2.ne'
    rw [f1, f2]
    ring
  rw [this, List.sum_map_mul_left]
  ring

/-! ### Cases -/

/-- Two leaves with one and two observations, of the second class 1 and 1. -/
abbrev exThirdCls : SkTree ℚ 2 :=
  { toTopo := ⟨2, ![some 1, none, none], ![some 2, none, none]⟩
    value := fun i c => (![![1, 2], ![0, 1], ![1, 1]] i : Fin 2 → ℚ) c
    nSamp := ![3, 1, 2]
    impurity := ![4 / 9, 0, 1 / 2] }

abbrev exThirdClsLeaf : CostLeaf 2 := ⟨exThirdCls, exThirdCls.distDepth .standard, ⟨0, by decide⟩, 1, 1, 1⟩

/-- The case meets the assumptions. -/
theorem exThirdClsLeaf_ok : exThirdClsLeaf.CeOK 2 7 where
  whole := ⟨fun j => ⟨if j.val = 0 then 1 else 2, by revert j; decide +kernel⟩, by decide +kernel⟩
  pos := by decide +kernel
  cols := by decide +kernel
  size := by decide +kernel
  value := by
    intro j
    show 0 ≤ exThirdCls.value (exThirdCls.leafNode j) 1
    revert j
    decide +kernel
  prop := by decide +kernel
  weight := by decide +kernel

theorem exThirdCls_fl :
    flTakeGradientCe npSum ([exThirdClsLeaf].map fun l => l.flRow npSum .cls false 2) ![3 / 4, 1 / 4] =
      .ok ![-3602879701896397 / 18014398509481984, 5404319552844595 / 9007199254740992] := by
  unfold flTakeGradientCe
  rw [if_pos (by decide +kernel), if_neg (by decide +kernel)]
  congr 1
  funext k
  revert k
  decide +kernel

/-- C188: in doubles the gradient need not be orthogonal to the weights. -/
theorem C188_orthogonal_refuted :
    ¬ ∀ (sum : List ℚ → ℚ) (pa : Bool) (n N : ℕ) (L : List (CostLeaf 2)), IsFlSum sum →
      (∀ l ∈ L, l.CeOK n N) → ∀ lamb : Fin n → ℚ, (∀ k, 0 ≤ lamb k) → ∀ g' : Fin n → ℚ,
        flTakeGradientCe sum (L.map fun l => l.flRow sum .cls pa n) lamb = .ok g' → ∑ k, lamb k * g' k = 0 := by
  intro h
  have h1 := h npSum false 2 7 [exThirdClsLeaf] npSum_rsum
    (by intro l hl; rw [List.mem_singleton.1 hl]; exact exThirdClsLeaf_ok) ![3 / 4, 1 / 4] (by decide +kernel)
    ![-3602879701896397 / 18014398509481984, 5404319552844595 / 9007199254740992] exThirdCls_fl
  revert h1
  norm_num [Fin.sum_univ_two]

/- Both branches of C188 occur: with all weights 0 the gradient is not finite. -/
example : flTakeGradientCe npSum ([exThirdClsLeaf].map fun l => l.flRow npSum .cls false 2) ![0, 0] =
    .error .nonFinite := by
  unfold flTakeGradientCe
  rw [if_pos (by decide +kernel), if_pos (by decide +kernel)]

example : |∑ k, (![3 / 4, 1 / 4] : Fin 2 → ℚ) k *
    (![-3602879701896397 / 18014398509481984, 5404319552844595 / 9007199254740992] : Fin 2 → ℚ) k| ≤
      4 * (12 * (7 : ℕ) + 10 + ([exThirdClsLeaf] : List (CostLeaf 2)).length) / 2 ^ 53 *
        (([exThirdClsLeaf] : List (CostLeaf 2)).map fun l => l.w * l.y).sum :=
  C188_orthogonal npSum_rsum false 2 7 [exThirdClsLeaf]
    (by intro l hl; rw [List.mem_singleton.1 hl]; exact exThirdClsLeaf_ok) (by simp) ![3 / 4, 1 / 4]
    (by decide +kernel) exThirdCls_fl

end SmoothRF
