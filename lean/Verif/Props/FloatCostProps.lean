import Verif.Model.FloatCost
import Verif.Props.FloatSmoothProps
import Verif.Props.FloatProxProps

/-!
# C180: calc_cost in double precision and the choice of the best weights
-/

set_option linter.unusedSectionVars false

namespace SmoothRF

open Topo SkTree

variable {C : ℕ}

attribute [local irreducible] fl

theorem Approx.mul' {E F w v x x' y y' : ℚ} (h : Approx E w x x') (g : Approx F v y y') :
    Approx (E * F) (w * v) (x * y) (x' * y') := by
  have w0 : 0 ≤ w := (abs_nonneg _).trans h.2
  have h1 := mul_le_mul h.1 g.abs_le (abs_nonneg _) ((abs_nonneg _).trans h.1)
  have h2 := mul_le_mul h.2 g.1 (abs_nonneg _) w0
  constructor
  · have e : x' * y' - x * y = (x' - x) * y' + x * (y' - y) := by ring
    rw [e]
    refine (abs_add_le _ _).trans ?_
    rw [abs_mul, abs_mul]
    nlinarith
  · rw [abs_mul]
    exact mul_le_mul h.2 g.2 (abs_nonneg _) w0

theorem CostLeaf.row_gam (kind : Kind) (pa : Bool) (n : ℕ) (l : CostLeaf C) :
    (l.row kind pa n).gam = (leafRow kind l.t pa l.D n l.i l.c).gam := by unfold CostLeaf.row; rfl

theorem CostLeaf.row_eta (kind : Kind) (pa : Bool) (n : ℕ) (l : CostLeaf C) :
    (l.row kind pa n).eta = (leafRow kind l.t pa l.D n l.i l.c).eta := by unfold CostLeaf.row; rfl

theorem CostLeaf.row_y (kind : Kind) (pa : Bool) (n : ℕ) (l : CostLeaf C) : (l.row kind pa n).y = l.y := rfl

theorem CostLeaf.row_w (kind : Kind) (pa : Bool) (n : ℕ) (l : CostLeaf C) : (l.row kind pa n).w = l.w := rfl

theorem CostLeaf.flRow_gam (sum : List ℚ → ℚ) (kind : Kind) (pa : Bool) (n : ℕ) (l : CostLeaf C) :
    (l.flRow sum kind pa n).gam = (flLeafRow sum kind l.t pa l.D n l.i l.c).gam := by unfold CostLeaf.flRow; rfl

theorem CostLeaf.flRow_eta (sum : List ℚ → ℚ) (kind : Kind) (pa : Bool) (n : ℕ) (l : CostLeaf C) :
    (l.flRow sum kind pa n).eta = (flLeafRow sum kind l.t pa l.D n l.i l.c).eta := by unfold CostLeaf.flRow; rfl

theorem residual_congr {n : ℕ} {r r' : Row ℚ n} (hg : r.gam = r'.gam) (he : r.eta = r'.eta) (lamb : Fin n → ℚ) :
    residual r lamb = r.y - dot r'.gam lamb / etaFill r' lamb := by
  unfold residual etaFill
  rw [hg, he]

theorem flCostTerm_congr (sum : List ℚ → ℚ) {n : ℕ} {r r' : Row ℚ n} (hg : r.gam = r'.gam) (he : r.eta = r'.eta)
    (lamb : Fin n → ℚ) :
    flCostTerm sum r lamb =
      fl (fl (fl (r.y - flSmoothValue sum r' lamb) * fl (r.y - flSmoothValue sum r' lamb)) * r.w) := by
  unfold flCostTerm flSmoothValue
  rw [hg, he]

/-- What is assumed of a row: whole sample sizes, enough columns, leaf values and responses at most `M`, a non-negative
weight, at most `N` roundings. -/
structure CostLeaf.OK (kind : Kind) (n N : ℕ) (M : ℚ) (l : CostLeaf C) : Prop where
  whole : WholeCounts l.t
  pos : ∀ j : Fin l.t.nLeaves, 0 < l.t.nSamp (l.t.leafNode j)
  cols : l.t.maxDist l.D + 1 ≤ n
  size : l.t.nLeaves + n + 3 ≤ N
  bound : LeafBound kind l.t M l.c
  resp : |l.y| ≤ M
  weight : 0 ≤ l.w

theorem smoothValue_le {kind : Kind} {n N : ℕ} {M : ℚ} {l : CostLeaf C} (h : l.OK kind n N M) (hM : 0 ≤ M)
    (pa : Bool) (lamb : Fin n → ℚ) (hl : ∀ k, 0 ≤ lamb k) :
    |smoothValue (leafRow kind l.t pa l.D n l.i l.c) lamb| ≤ M := by
  have h1 := (flDots (sum := flSum) rsum_flSum kind l.t h.whole pa l.D n h.cols l.i l.c lamb hl h.bound).1.2
  have hd0 := dot_eta_nonneg kind l.t h.whole pa l.D n h.cols l.i l.c lamb hl
  unfold smoothValue etaFill
  by_cases h0 : dot (leafRow kind l.t pa l.D n l.i l.c).eta lamb = 0
  · rw [if_pos h0]; simpa using hM
  · rw [if_neg h0, if_neg h0, abs_div, abs_of_nonneg hd0, div_le_iff₀ (lt_of_le_of_ne hd0 (Ne.symm h0))]
    exact h1

/-- Relative error of a cost over `R` rows. -/
def costErr (N R : ℕ) : ℚ := (1 + 1 / 2 ^ 53) ^ (R + 4) * (1 + 4 * N / 2 ^ 53) ^ 2 - 1

theorem costErr_le {N R : ℕ} (hN : N ≤ 2 ^ 46) (hR : R + 4 ≤ 2 ^ 49) : costErr N R ≤ 11 * (N + R + 4) / 2 ^ 53 := by
  have h := pow_small (R + 4) (hR.trans (by norm_num))
  have a0 : (0 : ℚ) ≤ (R + 4 : ℕ) := by positivity
  have a1 : ((R + 4 : ℕ) : ℚ) ≤ 2 ^ 49 := by exact_mod_cast hR
  have b0 : (0 : ℚ) ≤ N := by positivity
  have b1 : (N : ℚ) ≤ 2 ^ 46 := by exact_mod_cast hN
  unfold costErr
  have e : 11 * ((N : ℚ) + R + 4) / 2 ^ 53 = 11 * (N + (R + 4 : ℕ)) / 2 ^ 53 := by push_cast; ring
  rw [e]
  generalize ((R + 4 : ℕ) : ℚ) = r at *
  generalize (N : ℚ) = m at *
  have h2 : (1 + 1 / 2 ^ 53 : ℚ) ^ (R + 4) * (1 + 4 * m / 2 ^ 53) ^ 2 ≤
      (1 + 2 * r * (1 / 2 ^ 53)) * (1 + 4 * m / 2 ^ 53) ^ 2 := mul_le_mul_of_nonneg_right h (by positivity)
  have h3 : (1 + 4 * m / 2 ^ 53) ^ 2 ≤ 1 + (8 + 1 / 8) * m / 2 ^ 53 := by
    have : m * m ≤ 2 ^ 46 * m := mul_le_mul_of_nonneg_right b1 b0
    have e : (1 + 4 * m / 2 ^ 53) ^ 2 = 1 + 8 * m / 2 ^ 53 + 16 * (m * m) / 2 ^ 106 := by ring
    rw [e]
    have : 16 * (m * m) / 2 ^ 106 ≤ 16 * (2 ^ 46 * m) / 2 ^ 106 := by
      apply div_le_div_of_nonneg_right _ (by positivity); linarith
    linarith
  have h4 : (1 + 2 * r * (1 / 2 ^ 53)) * (1 + 4 * m / 2 ^ 53) ^ 2 ≤
      (1 + 2 * r * (1 / 2 ^ 53)) * (1 + (8 + 1 / 8) * m / 2 ^ 53) := mul_le_mul_of_nonneg_left h3 (by positivity)
  have h5 : r * m ≤ 2 ^ 49 * m := mul_le_mul_of_nonneg_right a1 b0
  have e2 : (1 + 2 * r * (1 / 2 ^ 53)) * (1 + (8 + 1 / 8) * m / 2 ^ 53) =
      1 + 2 * r / 2 ^ 53 + (8 + 1 / 8) * m / 2 ^ 53 + (16 + 1 / 4) * (r * m) / 2 ^ 106 := by ring
  rw [e2] at h4
  have h6 : (16 + 1 / 4) * (r * m) / 2 ^ 106 ≤ (16 + 1 / 4) * (2 ^ 49 * m) / 2 ^ 106 := by
    apply div_le_div_of_nonneg_right _ (by positivity); linarith
  linarith

theorem CostLeaf.OK.gam_zero {kind : Kind} {n N : ℕ} {M : ℚ} {l : CostLeaf C} (h : l.OK kind n N M)
    (pa : Bool) (lamb : Fin n → ℚ) (hl : ∀ k, 0 ≤ lamb k)
    (h0 : dot (leafRow kind l.t pa l.D n l.i l.c).eta lamb = 0) :
    dot (leafRow kind l.t pa l.D n l.i l.c).gam lamb = 0 := by
  have h1 := (flDots (sum := flSum) rsum_flSum kind l.t h.whole pa l.D n h.cols l.i l.c lamb hl h.bound).1.2
  rw [h0, mul_zero] at h1
  exact abs_eq_zero.1 (le_antisymm h1 (abs_nonneg _))

theorem CostLeaf.OK.residual_eq {kind : Kind} {n N : ℕ} {M : ℚ} {l : CostLeaf C} (h : l.OK kind n N M)
    (pa : Bool) (lamb : Fin n → ℚ) (hl : ∀ k, 0 ≤ lamb k) :
    residual (l.row kind pa n) lamb = l.y - smoothValue (leafRow kind l.t pa l.D n l.i l.c) lamb := by
  rw [residual_congr (l.row_gam kind pa n) (l.row_eta kind pa n) lamb, l.row_y]
  unfold smoothValue
  by_cases h0 : dot (leafRow kind l.t pa l.D n l.i l.c).eta lamb = 0
  · rw [if_pos h0, h.gam_zero pa lamb hl h0, zero_div]
  · rw [if_neg h0]

theorem costTerm_approx {N : ℕ} {M y w p p' : ℚ} (hy : |y| ≤ M) (hw : 0 ≤ w) (hp : |p| ≤ M)
    (hp' : |p' - p| ≤ 8 * N * (1 / 2 ^ 53) * M) :
    Approx ((1 + 1 / 2 ^ 53) ^ 4 * (1 + 4 * N / 2 ^ 53) ^ 2) (4 * M ^ 2 * w)
      ((y - p) ^ 2 * w) (fl (fl (fl (y - p') * fl (y - p')) * w)) := by
  have base : Approx (1 + 4 * N / 2 ^ 53) (2 * M) (y - p) (y - p') := by
    constructor
    · rw [show y - p' - (y - p) = -(p' - p) by ring, abs_neg]
      refine hp'.trans (le_of_eq ?_)
      ring
    · refine (abs_sub _ _).trans ?_
      linarith
  have sq := (((base.fl).mul' (base.fl)).fl.mul hw).fl
  have e1 : (1 + 1 / 2 ^ 53) * ((1 + 1 / 2 ^ 53) *
      ((1 + 1 / 2 ^ 53) * (1 + 4 * (N : ℚ) / 2 ^ 53) * ((1 + 1 / 2 ^ 53) * (1 + 4 * N / 2 ^ 53)))) =
      (1 + 1 / 2 ^ 53) ^ 4 * (1 + 4 * N / 2 ^ 53) ^ 2 := by ring
  have e2 : 2 * M * (2 * M) * w = 4 * M ^ 2 * w := by ring
  have e3 : (y - p) * (y - p) * w = (y - p) ^ 2 * w := by ring
  rw [e2, e3] at sq
  rw [← e1]
  exact sq

theorem flCostTerm_approx {sum : List ℚ → ℚ} (hs : IsFlSum sum) {kind : Kind} {n N : ℕ} {M : ℚ} {l : CostLeaf C}
    (h : l.OK kind n N M) (hM : 0 ≤ M) (hN : N ≤ 2 ^ 50) (pa : Bool) (lamb : Fin n → ℚ) (hl : ∀ k, 0 ≤ lamb k) :
    Approx ((1 + 1 / 2 ^ 53) ^ 4 * (1 + 4 * N / 2 ^ 53) ^ 2) (4 * M ^ 2 * l.w)
      (residual (l.row kind pa n) lamb ^ 2 * l.w) (flCostTerm sum (l.flRow sum kind pa n) lamb) := by
  have c1 := flSmooth_close hs kind l.t h.whole pa l.D n h.cols (h.size.trans hN) l.i l.c lamb hl hM h.bound
  rw [h.residual_eq pa lamb hl,
    flCostTerm_congr sum (l.flRow_gam sum kind pa n) (l.flRow_eta sum kind pa n) lamb]
  refine costTerm_approx h.resp h.weight (smoothValue_le h hM pa lamb hl) (c1.trans ?_)
  have hsize : ((l.t.nLeaves + n + 3 : ℕ) : ℚ) ≤ N := by exact_mod_cast h.size
  exact mul_le_mul_of_nonneg_right (by linarith) hM

theorem calcCost_rows {kind : Kind} {n N : ℕ} {M : ℚ} (pa : Bool) (L : List (CostLeaf C))
    (hL : ∀ l ∈ L, l.OK kind n N M) (lamb : Fin n → ℚ) (hl : ∀ k, 0 ≤ lamb k) :
    calcCost (L.map fun l => l.row kind pa n) lamb =
      .ok (L.map fun l => residual (l.row kind pa n) lamb ^ 2 * l.w).sum := by
  have a1 : fillAssert (L.map fun l => l.row kind pa n) lamb = true := by
    unfold fillAssert
    rw [List.all_eq_true]
    intro r hr
    obtain ⟨l, hlL, rfl⟩ := List.mem_map.1 hr
    by_cases h0 : dot (leafRow kind l.t pa l.D n l.i l.c).eta lamb = 0
    · have hz : dot (l.row kind pa n).gam lamb = 0 := by rw [l.row_gam]; exact (hL l hlL).gam_zero pa lamb hl h0
      rw [hz]; simp
    · have hz : dot (l.row kind pa n).eta lamb ≠ 0 := by rw [l.row_eta]; exact h0
      simp [hz]
  unfold calcCost
  rw [if_pos a1, List.map_map]
  rfl

theorem flCalcCost_rows {sum : List ℚ → ℚ} (hs : IsFlSum sum) {kind : Kind} {n N : ℕ} {M : ℚ} (hN : N ≤ 2 ^ 50)
    (pa : Bool) (L : List (CostLeaf C)) (hL : ∀ l ∈ L, l.OK kind n N M) (lamb : Fin n → ℚ) (hl : ∀ k, 0 ≤ lamb k) :
    flCalcCost sum (L.map fun l => l.flRow sum kind pa n) lamb =
      .ok (sum (L.map fun l => flCostTerm sum (l.flRow sum kind pa n) lamb)) := by
  have a2 : flFillAssert sum (L.map fun l => l.flRow sum kind pa n) lamb = true := by
    unfold flFillAssert
    rw [List.all_eq_true]
    intro r hr
    obtain ⟨l, hlL, rfl⟩ := List.mem_map.1 hr
    have h := hL l hlL
    have := C164_assertion hs kind l.t h.whole h.pos pa l.D n h.cols (h.size.trans hN) l.c lamb hl
    unfold flFillAssert at this
    rw [List.all_eq_true] at this
    have := this (flLeafRow sum kind l.t pa l.D n l.i l.c) (List.mem_map.2 ⟨l.i, List.mem_finRange _, rfl⟩)
    rw [l.flRow_gam, l.flRow_eta]
    exact this
  unfold flCalcCost
  rw [if_pos a2, List.map_map]
  rfl

theorem costSum_err {N : ℕ} {M : ℚ} {L : List (CostLeaf C)} {f f' : CostLeaf C → ℚ}
    (h : ∀ l ∈ L, Approx ((1 + 1 / 2 ^ 53) ^ 4 * (1 + 4 * N / 2 ^ 53) ^ 2) (4 * M ^ 2 * l.w) (f l) (f' l))
    {s : ℚ} (hs : RSum L.length (L.map f') s) :
    |s - (L.map f).sum| ≤ costErr N L.length * (4 * M ^ 2 * (L.map fun l => l.w).sum) := by
  have key := (Approx.sum h hs).1
  rw [List.sum_map_mul_left] at key
  refine key.trans (le_of_eq ?_)
  congr 1
  unfold costErr
  rw [pow_add, mul_assoc]

/-- C180: in doubles `calc_cost` returns whenever it does in exact arithmetic, and its value is within
`44 (N + R + 4) 2^-53 M² W` of the exact loss, for `R` rows with total weight `W`, leaf values and responses at most
`M`, and trees with at most `N - 3` leaves and columns together, in any order of summation. -/
theorem C180_cost {sum : List ℚ → ℚ} (hs : IsFlSum sum) (kind : Kind) (pa : Bool) (n N : ℕ) (M : ℚ) (hM : 0 ≤ M)
    (hN : N ≤ 2 ^ 46) (L : List (CostLeaf C)) (hL : ∀ l ∈ L, l.OK kind n N M) (hR : L.length + 4 ≤ 2 ^ 49)
    (lamb : Fin n → ℚ) (hl : ∀ k, 0 ≤ lamb k) :
    ∃ c c', calcCost (L.map fun l => l.row kind pa n) lamb = .ok c ∧
      flCalcCost sum (L.map fun l => l.flRow sum kind pa n) lamb = .ok c' ∧
      |c' - c| ≤ 44 * (N + L.length + 4) / 2 ^ 53 * M ^ 2 * (L.map fun l => l.w).sum := by
  have hN' : N ≤ 2 ^ 50 := hN.trans (Nat.pow_le_pow_right (by norm_num) (by norm_num))
  refine ⟨_, _, calcCost_rows pa L hL lamb hl, flCalcCost_rows hs hN' pa L hL lamb hl, ?_⟩
  have hsum := hs (L.map fun l => flCostTerm sum (l.flRow sum kind pa n) lamb)
  rw [List.length_map] at hsum
  have key := costSum_err (fun l hlL => flCostTerm_approx hs (hL l hlL) hM hN' pa lamb hl) hsum
  have hW : 0 ≤ (L.map fun l => l.w).sum := by
    apply List.sum_nonneg
    intro x hx
    obtain ⟨l, hlL, rfl⟩ := List.mem_map.1 hx
    exact (hL l hlL).weight
  have h2 := costErr_le hN hR
  generalize (L.map fun l => l.w).sum = W at *
  refine key.trans ((mul_le_mul_of_nonneg_right h2 (by positivity)).trans (le_of_eq ?_))
  ring

/-- The comparisons keep a weight vector of least cost. -/
theorem trackBest_spec {n : ℕ} {cost : (Fin n → ℚ) → Except PyErr ℚ} {f : (Fin n → ℚ) → ℚ} {init : Fin n → ℚ}
    {visited : List (Fin n → ℚ)} (h : ∀ lamb ∈ init :: visited, cost lamb = .ok (f lamb)) :
    ∃ best, best ∈ init :: visited ∧
      trackBest cost init visited = .ok (best, f best, (init :: visited).map f) ∧
      ∀ lamb ∈ init :: visited, f best ≤ f lamb := by
  have key : ∀ (rest done : List (Fin n → ℚ)) (b : Fin n → ℚ),
      (∀ lamb ∈ rest, cost lamb = .ok (f lamb)) → b ∈ done → (∀ lamb ∈ done, f b ≤ f lamb) →
      ∃ best, best ∈ done ++ rest ∧
        (rest.foldlM (fun (acc : (Fin n → ℚ) × ℚ × List ℚ) lamb => do
          let cNew ← cost lamb
          let all := acc.2.2 ++ [cNew]
          pure (if cNew < acc.2.1 then (lamb, cNew, all) else (acc.1, acc.2.1, all))) (b, f b, done.map f) :
            Except PyErr _) = .ok (best, f best, (done ++ rest).map f) ∧
        ∀ lamb ∈ done ++ rest, f best ≤ f lamb := by
    intro rest
    induction rest with
    | nil =>
      intro done b _ hb hle
      refine ⟨b, by simpa using hb, ?_, by simpa using hle⟩
      simp [pure, Except.pure]
    | cons x rest ih =>
      intro done b hc hb hle
      have hx := hc x (by simp)
      have step : ∃ b', b' ∈ done ++ [x] ∧ (∀ lamb ∈ done ++ [x], f b' ≤ f lamb) ∧
          (if f x < f b then (x, f x, done.map f ++ [f x]) else (b, f b, done.map f ++ [f x])) =
            (b', f b', (done ++ [x]).map f) := by
        by_cases hlt : f x < f b
        · refine ⟨x, by simp, ?_, by simp [hlt]⟩
          intro lamb hm
          rcases List.mem_append.1 hm with hm | hm
          · exact hlt.le.trans (hle _ hm)
          · rw [List.mem_singleton.1 hm]
        · refine ⟨b, by simp [hb], ?_, by simp [hlt]⟩
          intro lamb hm
          rcases List.mem_append.1 hm with hm | hm
          · exact hle _ hm
          · rw [List.mem_singleton.1 hm]; exact not_lt.1 hlt
      obtain ⟨b', hb', hle', he⟩ := step
      obtain ⟨best, h1, h2, h3⟩ := ih (done ++ [x]) b' (fun l hl => hc l (by simp [hl])) hb' hle'
      refine ⟨best, by simpa using h1, ?_, by simpa using h3⟩
      rw [List.foldlM_cons, hx]
      simp only [bind, Except.bind, pure, Except.pure] at h2 ⊢
      rw [he]
      simpa using h2
  obtain ⟨best, h1, h2, h3⟩ := key visited [init] init (fun l hl => h l (by simp [hl])) (by simp)
    (by intro l hl; rw [List.mem_singleton.1 hl])
  refine ⟨best, by simpa using h1, ?_, by simpa using h3⟩
  unfold trackBest
  rw [h init (by simp)]
  simpa [bind, Except.bind] using h2

/-- C180: whatever weights the steps visit, as long as none is negative, the ones returned as best are among those visited
and their exact loss is at most twice the error of a cost above the least exact loss visited. -/
theorem C180_best {sum : List ℚ → ℚ} (hs : IsFlSum sum) (kind : Kind) (pa : Bool) (n N : ℕ) (M : ℚ) (hM : 0 ≤ M)
    (hN : N ≤ 2 ^ 46) (L : List (CostLeaf C)) (hL : ∀ l ∈ L, l.OK kind n N M) (hR : L.length + 4 ≤ 2 ^ 49)
    (init : Fin n → ℚ) (visited : List (Fin n → ℚ)) (hv : ∀ lamb ∈ init :: visited, ∀ k, 0 ≤ lamb k) :
    ∃ best cb all, trackBest (flCalcCost sum (L.map fun l => l.flRow sum kind pa n)) init visited = .ok (best, cb, all) ∧
      best ∈ init :: visited ∧ all.length = visited.length + 1 ∧
      ∀ lamb ∈ init :: visited, ∃ c0 c, calcCost (L.map fun l => l.row kind pa n) best = .ok c0 ∧
        calcCost (L.map fun l => l.row kind pa n) lamb = .ok c ∧
        c0 ≤ c + 88 * (N + L.length + 4) / 2 ^ 53 * M ^ 2 * (L.map fun l => l.w).sum := by
  have hN' : N ≤ 2 ^ 50 := hN.trans (Nat.pow_le_pow_right (by norm_num) (by norm_num))
  obtain ⟨best, hb, he, hle⟩ := trackBest_spec
    (cost := flCalcCost sum (L.map fun l => l.flRow sum kind pa n))
    (f := fun lamb => sum (L.map fun l => flCostTerm sum (l.flRow sum kind pa n) lamb))
    (fun lamb hm => flCalcCost_rows hs hN' pa L hL lamb (hv lamb hm))
  refine ⟨best, _, _, he, hb, by simp, fun lamb hm => ?_⟩
  obtain ⟨c0, c0', h1, h2, h3⟩ := C180_cost hs kind pa n N M hM hN L hL hR best (hv best hb)
  obtain ⟨c, c', g1, g2, g3⟩ := C180_cost hs kind pa n N M hM hN L hL hR lamb (hv lamb hm)
  refine ⟨c0, c, h1, g1, ?_⟩
  have h4 := hle lamb hm
  rw [flCalcCost_rows hs hN' pa L hL _ (hv best hb)] at h2
  rw [flCalcCost_rows hs hN' pa L hL _ (hv lamb hm)] at g2
  rw [← Except.ok.inj h2] at h3
  rw [← Except.ok.inj g2] at g3
  have h5 := (abs_le.1 h3).1
  have g5 := (abs_le.1 g3).2
  generalize (L.map fun l => l.w).sum = W at *
  have e : 88 * ((N : ℚ) + L.length + 4) / 2 ^ 53 * M ^ 2 * W =
      2 * (44 * (N + L.length + 4) / 2 ^ 53 * M ^ 2 * W) := by ring
  rw [e]
  linarith

/-! ### A case where doubles do not keep the exact minimiser -/

/-- Two leaves with values 0 and 1. -/
abbrev exUnit : SkTree ℚ 1 :=
  { toTopo := ⟨2, ![some 1, none, none], ![some 2, none, none]⟩
    value := fun i _ => ![1 / 2, 0, 1] i
    nSamp := ![2, 1, 1]
    impurity := ![1 / 4, 0, 0] }

abbrev exUnitLeaf : CostLeaf 1 := ⟨exUnit, exUnit.distDepth .standard, ⟨0, by decide⟩, 0, 1, 1⟩

/-- The case meets the assumptions. -/
theorem exUnitLeaf_ok : exUnitLeaf.OK .reg 2 7 1 where
  whole := ⟨fun j => ⟨1, by revert j; decide +kernel⟩, by decide +kernel⟩
  pos := by decide +kernel
  cols := by decide +kernel
  size := by decide +kernel
  bound := by
    intro j
    show |exUnit.value (exUnit.leafNode j) 0| ≤ 1
    revert j
    decide +kernel
  resp := by decide +kernel
  weight := by decide +kernel

/-- C180: the weights kept need not have the least exact loss. From `(1, 0)` a step to `(1, 2^-60)` lowers the loss, but
the two costs round to the same number and the start is returned. -/
theorem C180_refuted :
    ¬ ∀ (sum : List ℚ → ℚ) (kind : Kind) (pa : Bool) (n N : ℕ) (M : ℚ) (L : List (CostLeaf 1)), IsFlSum sum →
      (∀ l ∈ L, l.OK kind n N M) → ∀ (init : Fin n → ℚ) (visited : List (Fin n → ℚ)),
      (∀ lamb ∈ init :: visited, ∀ k, 0 ≤ lamb k) →
      ∀ best cb all, trackBest (flCalcCost sum (L.map fun l => l.flRow sum kind pa n)) init visited =
          .ok (best, cb, all) →
        ∀ lamb ∈ init :: visited, ∀ c0 c, calcCost (L.map fun l => l.row kind pa n) best = .ok c0 →
          calcCost (L.map fun l => l.row kind pa n) lamb = .ok c → c0 ≤ c := by
  intro h
  have h1 := h npSum .reg false 2 7 1 [exUnitLeaf] npSum_rsum
    (by intro l hl; rw [List.mem_singleton.1 hl]; exact exUnitLeaf_ok) ![1, 0] [![1, 1 / 2 ^ 60]]
    (by decide +kernel) ![1, 0] 1 [1, 1] (by decide +kernel) ![1, 1 / 2 ^ 60] (by simp) 1
    ((1 - (1 / 2 ^ 60) / (1 + 1 / 2 ^ 60)) ^ 2) (by decide +kernel) (by decide +kernel)
  revert h1
  norm_num

example : ∃ best cb all, trackBest (flCalcCost npSum ([exUnitLeaf].map fun l => l.flRow npSum .reg false 2))
    ![1, 0] [![1 / 2, 1 / 2], ![3 / 4, 1 / 4]] = .ok (best, cb, all) ∧ best = ![1 / 2, 1 / 2] ∧ cb = 1 / 4 ∧
      all = [1, 1 / 4, 9 / 16] :=
  ⟨![1 / 2, 1 / 2], 1 / 4, [1, 1 / 4, 9 / 16], by decide +kernel, rfl, rfl, rfl⟩

end SmoothRF
