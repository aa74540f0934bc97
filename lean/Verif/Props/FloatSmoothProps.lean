import Verif.Model.FloatSmooth
import Verif.Proofs.FloatSum
import Verif.Proofs.Gamma
import Verif.Props.FloatProxProps
import Verif.Props.GammaProps

/-!
# C164: smoothed leaf values in double precision
-/

set_option linter.unusedSectionVars false

namespace SmoothRF
open Topo SkTree

/-- A summation in doubles: whatever the order, at most as many roundings per entry as there are entries. -/
def IsFlSum (sum : List ℚ → ℚ) : Prop := ∀ l : List ℚ, RSum l.length l (sum l)

example : IsFlSum flSum := rsum_flSum
example : IsFlSum npSum := npSum_rsum

/-- Error of a rounded sum of numbers of any sign. -/
theorem RSum.abs_err {d : ℕ} {l : List ℚ} {s : ℚ} (h : RSum d l s) :
    |s - l.sum| ≤ ((1 + 1 / 2 ^ 53) ^ d - 1) * (l.map fun x => |x|).sum := by
  induction h with
  | zero d => simp
  | one d x =>
    simp only [List.sum_cons, List.sum_nil, add_zero, sub_self, abs_zero, List.map_cons, List.map_nil]
    exact mul_nonneg (sub_nonneg.2 (one_le_pow₀ (by norm_num))) (abs_nonneg x)
  | @add d a b l s t _ _ hp iha ihb =>
    have hsum : l.sum = a.sum + b.sum := by rw [← hp.sum_eq, List.sum_append]
    have habs : (l.map fun x => |x|).sum = (a.map fun x => |x|).sum + (b.map fun x => |x|).sum := by
      rw [← (hp.map _).sum_eq, List.map_append, List.sum_append]
    rw [hsum, habs, pow_succ]
    have sumle : ∀ l : List ℚ, |l.sum| ≤ (l.map fun x => |x|).sum := by
      intro l
      induction l with
      | nil => simp
      | cons x l ih => simp only [List.sum_cons, List.map_cons]; exact (abs_add_le _ _).trans (by linarith)
    have ha := sumle a
    have hb := sumle b
    set A := (a.map fun x => |x|).sum
    set B := (b.map fun x => |x|).sum
    set E : ℚ := (1 + 1 / 2 ^ 53) ^ d
    have e1 := fl_err (s + t)
    have e2 : |s + t - (a.sum + b.sum)| ≤ (E - 1) * (A + B) := by
      have : s + t - (a.sum + b.sum) = (s - a.sum) + (t - b.sum) := by ring
      rw [this]
      exact (abs_add_le _ _).trans (by linarith)
    have e3 : |s + t| ≤ E * (A + B) := by
      have : s + t = (s + t - (a.sum + b.sum)) + a.sum + b.sum := by ring
      rw [this]
      refine (abs_add_le _ _).trans ?_
      have := abs_add_le (s + t - (a.sum + b.sum)) a.sum
      linarith
    have : fl (s + t) - (a.sum + b.sum) = (fl (s + t) - (s + t)) + (s + t - (a.sum + b.sum)) := by ring
    rw [this]
    refine (abs_add_le _ _).trans ?_
    have e4 : |s + t| / 2 ^ 53 ≤ E * (A + B) * (1 / 2 ^ 53) := by
      rw [div_eq_mul_one_div]; exact mul_le_mul_of_nonneg_right e3 (by positivity)
    nlinarith [e1, e2, e4]

/-- `x'` approximates `x` with error at most `(E - 1) w`, and `w` bounds `x`. -/
def Approx (E w x x' : ℚ) : Prop := |x' - x| ≤ (E - 1) * w ∧ |x| ≤ w

theorem Approx.abs_le {E w x x' : ℚ} (h : Approx E w x x') : |x'| ≤ E * w := by
  have : x' = (x' - x) + x := by ring
  rw [this]
  refine (abs_add_le _ _).trans ?_
  have := h.1; have := h.2
  linarith

theorem Approx.fl {E w x x' : ℚ} (h : Approx E w x x') : Approx ((1 + 1 / 2 ^ 53) * E) w x (fl x') := by
  refine ⟨?_, h.2⟩
  have e1 := fl_err x'
  have e2 := h.abs_le
  have : SmoothRF.fl x' - x = (SmoothRF.fl x' - x') + (x' - x) := by ring
  rw [this]
  refine (abs_add_le _ _).trans ?_
  have := h.1
  have e4 : |x'| / 2 ^ 53 ≤ E * w * (1 / 2 ^ 53) := by
    rw [div_eq_mul_one_div]; exact mul_le_mul_of_nonneg_right e2 (by positivity)
  linarith

theorem Approx.mul {E w x x' : ℚ} (h : Approx E w x x') {a : ℚ} (ha : 0 ≤ a) :
    Approx E (w * a) (x * a) (x' * a) := by
  constructor
  · rw [← sub_mul, abs_mul, abs_of_nonneg ha, ← mul_assoc]
    exact mul_le_mul_of_nonneg_right h.1 ha
  · rw [abs_mul, abs_of_nonneg ha]
    exact mul_le_mul_of_nonneg_right h.2 ha

theorem Approx.mono {E E' w x x' : ℚ} (h : Approx E w x x') (hE : E ≤ E') : Approx E' w x x' :=
  ⟨h.1.trans (mul_le_mul_of_nonneg_right (by linarith) ((abs_nonneg _).trans h.2)), h.2⟩

theorem Approx.sum {ι : Type} {E : ℚ} {w f f' : ι → ℚ} {l : List ι}
    (h : ∀ j ∈ l, Approx E (w j) (f j) (f' j)) {d : ℕ} {s : ℚ} (hs : RSum d (l.map f') s) :
    Approx ((1 + 1 / 2 ^ 53) ^ d * E) (l.map w).sum (l.map f).sum s := by
  have key : Approx E (l.map w).sum (l.map f).sum (l.map f').sum ∧
      ((l.map f').map fun x => |x|).sum ≤ E * (l.map w).sum := by
    clear hs
    induction l with
    | nil => simp [Approx]
    | cons j l ih =>
      have hj := h j (by simp)
      obtain ⟨⟨h1, h2⟩, h3⟩ := ih fun i hi => h i (by simp [hi])
      have h4 := hj.abs_le
      simp only [List.map_cons, List.sum_cons]
      refine ⟨⟨?_, ?_⟩, by linarith⟩
      · have : f' j + (l.map f').sum - (f j + (l.map f).sum) =
            (f' j - f j) + ((l.map f').sum - (l.map f).sum) := by ring
        rw [this]
        refine (abs_add_le _ _).trans ?_
        have := hj.1
        linarith
      · exact (abs_add_le _ _).trans (by have := hj.2; linarith)
  refine ⟨?_, key.1.2⟩
  have e1 := hs.abs_err
  have e2 := key.1.1
  have hE : (0 : ℚ) ≤ (1 + 1 / 2 ^ 53) ^ d - 1 := sub_nonneg.2 (one_le_pow₀ (by norm_num))
  have e3 := mul_le_mul_of_nonneg_left key.2 hE
  have : s - (l.map f).sum = (s - (l.map f').sum) + ((l.map f').sum - (l.map f).sum) := by ring
  rw [this]
  refine (abs_add_le _ _).trans ?_
  linarith

/-! ### the rows -/

theorem levelSel_sum (pa : Bool) {n : ℕ} (D : Fin n → Fin n → ℤ) (v : Fin n → ℚ) (i : Fin n) (k : ℕ) :
    ((levelSel pa D i k).map v).sum = levelSum pa D v i k := by
  have aux : ∀ p : Fin n → Bool, (((List.finRange n).filter p).map v).sum =
      ∑ j ∈ Finset.univ.filter (fun j => p j = true), v j := by
    intro p
    rw [Finset.sum_filter, ← List.sum_ofFn, List.ofFn_eq_map]
    generalize List.finRange n = l
    induction l with
    | nil => simp
    | cons a l ih =>
      by_cases h : p a = true
      · simp [List.filter_cons, h, ih]
      · simp [List.filter_cons, h, ih]
  unfold levelSel levelSum
  rw [aux]
  cases pa <;> simp

theorem padRow_map (pa : Bool) (m width : ℕ) (f : ℕ → ℚ) (hf : ∀ k, m < k → f k = if pa then f m else 0)
    (hw : m + 1 ≤ width) :
    padRow pa width ((List.range (m + 1)).map f) = (List.range width).map f := by
  have hsplit : (List.range width).map f =
      (List.range (m + 1)).map f ++ List.replicate (width - (m + 1)) (if pa then f m else 0) := by
    apply List.ext_getElem
    · simp; omega
    · intro k h1 h2
      by_cases hk : k < m + 1
      · rw [List.getElem_append_left (by simpa using hk)]; simp
      · rw [List.getElem_append_right (by simpa using Nat.not_lt.1 hk)]
        simp only [List.getElem_map, List.getElem_range, List.getElem_replicate]
        exact hf k (by omega)
  unfold padRow
  simp only [List.length_map, List.length_range]
  by_cases he : m + 1 = width
  · subst he; simp
  · rw [if_pos he, hsplit]
    cases pa
    · simp
    · simp [List.range_succ]

theorem rsum_nil {d : ℕ} {s : ℚ} (h : RSum d [] s) : s = 0 := by
  have := h.abs_err
  simpa using this

variable {C : ℕ}

theorem flLeafRow_entry {sum : List ℚ → ℚ} (hs : IsFlSum sum) (t : SkTree ℚ C) (pa : Bool)
    (D : Fin t.nLeaves → Fin t.nLeaves → ℤ) (n : ℕ) (hn : t.maxDist D + 1 ≤ n) (i : Fin t.nLeaves)
    (v : Fin t.nLeaves → ℚ) (k : Fin n) :
    toVec n (padRow pa n (flLevelRow sum t pa D v i)) k = sum ((levelSel pa D i k).map v) := by
  unfold flLevelRow
  rw [padRow_map pa (t.maxDist D) n (fun k => sum ((levelSel pa D i k).map v)) ?_ hn]
  · simp [toVec]
  · intro k hk
    have hle : ∀ j, D i j ≤ t.maxDist D := fun j => by
      have := t.maxDist_le D i j; omega
    cases pa
    · have : levelSel false D i k = [] := by
        unfold levelSel
        apply List.filter_eq_nil_iff.2
        intro j _
        have := hle j
        simp; omega
      rw [this]
      simpa using rsum_nil (hs [])
    · have : levelSel true D i k = levelSel true D i (t.maxDist D) := by
        unfold levelSel
        apply List.filter_congr
        intro j _
        have := hle j
        simp only [if_true]
        rw [decide_eq_true (by omega), decide_eq_true (by omega)]
      rw [this]; simp

theorem leafRow_entry (t : SkTree ℚ C) (pa : Bool)
    (D : Fin t.nLeaves → Fin t.nLeaves → ℤ) (n : ℕ) (hn : t.maxDist D + 1 ≤ n) (i : Fin t.nLeaves)
    (v : Fin t.nLeaves → ℚ) (k : Fin n) :
    toVec n (padRow pa n (t.levelRow pa D v i)) k = ((levelSel pa D i k).map v).sum := by
  rw [padRow_levelRow t pa D v i n hn, levelSel_sum]
  simp [toVec]

theorem levelSel_length (pa : Bool) {n : ℕ} (D : Fin n → Fin n → ℤ) (i : Fin n) (k : ℕ) :
    (levelSel pa D i k).length ≤ n := by
  refine (List.length_filter_le _ _).trans (by simp)

/-- Whole sample sizes that add up to at most `2^53`. -/
structure WholeCounts (t : SkTree ℚ C) : Prop where
  whole : ∀ j : Fin t.nLeaves, ∃ m : ℕ, t.nSamp (t.leafNode j) = m
  total : ∑ j : Fin t.nLeaves, t.nSamp (t.leafNode j) ≤ 2 ^ 53

/-- Bound of the leaf entries: means for a regressor, class counts relative to the sample size for a
classifier. -/
def LeafBound (kind : Kind) (t : SkTree ℚ C) (M : ℚ) (c : Fin C) : Prop :=
  ∀ j : Fin t.nLeaves, match kind with
    | .reg => |t.value (t.leafNode j) c| ≤ M
    | .cls => |t.value (t.leafNode j) c| ≤ M * t.nSamp (t.leafNode j)

/-- Sample sizes are added without error. -/
theorem flEta_exact {sum : List ℚ → ℚ} (hs : IsFlSum sum) (t : SkTree ℚ C) (hc : WholeCounts t) (pa : Bool)
    (D : Fin t.nLeaves → Fin t.nLeaves → ℤ) (i : Fin t.nLeaves) (k : ℕ) :
    sum ((levelSel pa D i k).map fun j => t.nSamp (t.leafNode j)) =
      ((levelSel pa D i k).map fun j => t.nSamp (t.leafNode j)).sum := by
  refine ((hs _).exact 0 ?_ ?_).1
  · intro x hx
    obtain ⟨j, _, rfl⟩ := List.mem_map.1 hx
    obtain ⟨m, hm⟩ := hc.whole j
    exact ⟨m, by simp [hm]⟩
  · have h0 : ∀ j : Fin t.nLeaves, 0 ≤ t.nSamp (t.leafNode j) := fun j => by
      obtain ⟨m, hm⟩ := hc.whole j; rw [hm]; positivity
    have : ((levelSel pa D i k).map fun j => t.nSamp (t.leafNode j)).sum ≤
        ∑ j : Fin t.nLeaves, t.nSamp (t.leafNode j) := by
      rw [levelSel_sum]
      unfold levelSum
      split_ifs
      · exact Finset.sum_le_sum_of_subset_of_nonneg (Finset.filter_subset _ _) fun j _ _ => h0 j
      · exact Finset.sum_le_sum_of_subset_of_nonneg (Finset.filter_subset _ _) fun j _ _ => h0 j
    have := hc.total
    simp only [zpow_zero, mul_one]
    linarith

theorem flNy_approx (kind : Kind) (t : SkTree ℚ C) (hc : WholeCounts t) {M : ℚ} {c : Fin C}
    (hb : LeafBound kind t M c) (j : Fin t.nLeaves) :
    Approx (1 + 1 / 2 ^ 53) (M * t.nSamp (t.leafNode j)) (t.ny kind (t.leafNode j) c)
      (flNy kind t (t.leafNode j) c) := by
  obtain ⟨m, hm⟩ := hc.whole j
  have h0 : 0 ≤ t.nSamp (t.leafNode j) := by rw [hm]; positivity
  have hj := hb j
  have base : ∀ {w x : ℚ}, |x| ≤ w → Approx 1 w x x := fun h => ⟨by simp, h⟩
  cases kind
  · have : |t.nSamp (t.leafNode j) * t.value (t.leafNode j) c| ≤ M * t.nSamp (t.leafNode j) := by
      rw [abs_mul, abs_of_nonneg h0, mul_comm]
      exact mul_le_mul_of_nonneg_right hj h0
    simpa [SkTree.ny, flNy] using (base this).fl
  · exact (base (show |t.value (t.leafNode j) c| ≤ _ from hj)).mono (by norm_num)

theorem finRange_sum {n : ℕ} (f : Fin n → ℚ) : ((List.finRange n).map f).sum = ∑ k, f k := by
  rw [← List.sum_ofFn, List.ofFn_eq_map]

theorem flLeafRow_eta {sum : List ℚ → ℚ} (hs : IsFlSum sum) (kind : Kind) (t : SkTree ℚ C) (pa : Bool)
    (D : Fin t.nLeaves → Fin t.nLeaves → ℤ) (n : ℕ) (hn : t.maxDist D + 1 ≤ n) (i : Fin t.nLeaves)
    (c : Fin C) (k : Fin n) : (flLeafRow sum kind t pa D n i c).eta k =
      sum ((levelSel pa D i k).map fun j => t.nSamp (t.leafNode j)) := by
  rw [← flLeafRow_entry hs t pa D n hn i]
  rfl

theorem flLeafRow_gam {sum : List ℚ → ℚ} (hs : IsFlSum sum) (kind : Kind) (t : SkTree ℚ C) (pa : Bool)
    (D : Fin t.nLeaves → Fin t.nLeaves → ℤ) (n : ℕ) (hn : t.maxDist D + 1 ≤ n) (i : Fin t.nLeaves)
    (c : Fin C) (k : Fin n) : (flLeafRow sum kind t pa D n i c).gam k =
      sum ((levelSel pa D i k).map fun j => flNy kind t (t.leafNode j) c) := by
  rw [← flLeafRow_entry hs t pa D n hn i]
  rfl

theorem leafRow_eta (kind : Kind) (t : SkTree ℚ C) (pa : Bool)
    (D : Fin t.nLeaves → Fin t.nLeaves → ℤ) (n : ℕ) (hn : t.maxDist D + 1 ≤ n) (i : Fin t.nLeaves)
    (c : Fin C) (k : Fin n) : (leafRow kind t pa D n i c).eta k =
      ((levelSel pa D i k).map fun j => t.nSamp (t.leafNode j)).sum := by
  rw [← leafRow_entry t pa D n hn i]
  rfl

theorem leafRow_gam (kind : Kind) (t : SkTree ℚ C) (pa : Bool)
    (D : Fin t.nLeaves → Fin t.nLeaves → ℤ) (n : ℕ) (hn : t.maxDist D + 1 ≤ n) (i : Fin t.nLeaves)
    (c : Fin C) (k : Fin n) : (leafRow kind t pa D n i c).gam k =
      ((levelSel pa D i k).map fun j => t.ny kind (t.leafNode j) c).sum := by
  rw [← leafRow_entry t pa D n hn i]
  rfl

/-- Numerator and denominator of a smoothed value. -/
theorem flDots {sum : List ℚ → ℚ} (hs : IsFlSum sum) (kind : Kind) (t : SkTree ℚ C) (hc : WholeCounts t)
    (pa : Bool) (D : Fin t.nLeaves → Fin t.nLeaves → ℤ) (n : ℕ) (hn : t.maxDist D + 1 ≤ n)
    (i : Fin t.nLeaves) (c : Fin C) (lamb : Fin n → ℚ) (hl : ∀ k, 0 ≤ lamb k) {M : ℚ}
    (hb : LeafBound kind t M c) :
    let r := leafRow kind t pa D n i c
    let r' := flLeafRow sum kind t pa D n i c
    Approx ((1 + 1 / 2 ^ 53) ^ (t.nLeaves + n + 2)) (M * dot r.eta lamb) (dot r.gam lamb)
      (flDot sum r'.gam lamb) ∧
    Approx ((1 + 1 / 2 ^ 53) ^ (t.nLeaves + n + 2)) (dot r.eta lamb) (dot r.eta lamb)
      (flDot sum r'.eta lamb) := by
  intro r r'
  have h0 : ∀ j : Fin t.nLeaves, 0 ≤ t.nSamp (t.leafNode j) := fun j => by
    obtain ⟨m, hm⟩ := hc.whole j; rw [hm]; positivity
  have heta : ∀ k, r.eta k = ((levelSel pa D i k).map fun j => t.nSamp (t.leafNode j)).sum := fun k =>
    leafRow_eta kind t pa D n hn i c k
  have heta' : ∀ k, r'.eta k = r.eta k := fun k => by
    have e1 : r'.eta k = sum ((levelSel pa D i k).map fun j => t.nSamp (t.leafNode j)) :=
      flLeafRow_eta hs kind t pa D n hn i c k
    have e2 := flEta_exact hs t hc pa D i k.val
    rw [heta k, e1, e2]
  have heta0 : ∀ k, 0 ≤ r.eta k := fun k => by
    rw [heta k]
    apply List.sum_nonneg
    intro x hx
    obtain ⟨j, _, rfl⟩ := List.mem_map.1 hx
    exact h0 j
  have pw : ∀ {a b : ℕ}, a ≤ b → ((1 + 1 / 2 ^ 53 : ℚ)) ^ a ≤ (1 + 1 / 2 ^ 53) ^ b := fun h =>
    pow_le_pow_right₀ (by norm_num) h
  constructor
  · have hg : ∀ k, Approx ((1 + 1 / 2 ^ 53) ^ (t.nLeaves + 1)) (M * r.eta k) (r.gam k) (r'.gam k) := by
      intro k
      have e1 : r.gam k = ((levelSel pa D i k).map fun j => t.ny kind (t.leafNode j) c).sum :=
        leafRow_gam kind t pa D n hn i c k
      have e2 : r'.gam k = sum ((levelSel pa D i k).map fun j => flNy kind t (t.leafNode j) c) :=
        flLeafRow_gam hs kind t pa D n hn i c k
      have := Approx.sum (l := levelSel pa D i k) (fun j _ => flNy_approx kind t hc hb j) (hs _)
      rw [← e1, ← e2, List.length_map, List.sum_map_mul_left, ← heta k, ← pow_succ] at this
      exact this.mono (pw (by have := levelSel_length pa D i k; omega))
    have := Approx.sum (l := List.finRange n) (fun k _ => ((hg k).mul (hl k)).fl) (hs _)
    rw [finRange_sum, finRange_sum, List.length_map, List.length_finRange] at this
    simp only [mul_assoc] at this
    rw [← Finset.mul_sum, ← pow_succ', ← pow_add] at this
    exact this.mono (pw (by omega))
  · have hg : ∀ k, Approx 1 (r.eta k) (r.eta k) (r'.eta k) := fun k => by
      rw [heta' k]; exact ⟨by simp, by rw [abs_of_nonneg (heta0 k)]⟩
    have := Approx.sum (l := List.finRange n) (fun k _ => ((hg k).mul (hl k)).fl) (hs _)
    rw [finRange_sum, List.length_map, List.length_finRange, mul_one, ← pow_succ] at this
    exact this.mono (pw (by omega))

theorem dot_eta_nonneg (kind : Kind) (t : SkTree ℚ C) (hc : WholeCounts t)
    (pa : Bool) (D : Fin t.nLeaves → Fin t.nLeaves → ℤ) (n : ℕ) (hn : t.maxDist D + 1 ≤ n)
    (i : Fin t.nLeaves) (c : Fin C) (lamb : Fin n → ℚ) (hl : ∀ k, 0 ≤ lamb k) :
    0 ≤ dot (leafRow kind t pa D n i c).eta lamb := by
  apply Finset.sum_nonneg
  intro k _
  refine mul_nonneg ?_ (hl k)
  rw [leafRow_eta kind t pa D n hn i c k]
  apply List.sum_nonneg
  intro x hx
  obtain ⟨j, _, rfl⟩ := List.mem_map.1 hx
  obtain ⟨m, hm⟩ := hc.whole j
  rw [hm]; positivity

theorem dot_eta_eq (kind : Kind) (t : SkTree ℚ C)
    (pa : Bool) (D : Fin t.nLeaves → Fin t.nLeaves → ℤ) (n : ℕ) (hn : t.maxDist D + 1 ≤ n)
    (i : Fin t.nLeaves) (c : Fin C) (lamb : Fin n → ℚ) :
    dot (leafRow kind t pa D n i c).eta lamb =
      ∑ k : Fin n, levelSum pa D (fun j => t.nSamp (t.leafNode j)) i k * lamb k := by
  unfold dot
  refine Finset.sum_congr rfl fun k _ => ?_
  rw [leafRow_eta kind t pa D n hn i c k, levelSel_sum]

theorem pow_quarter {N : ℕ} (hN : N + 1 ≤ 2 ^ 50) : (1 + 1 / 2 ^ 53 : ℚ) ^ N - 1 ≤ 1 / 4 := by
  have h := pow_small N (hN.trans' (Nat.le_succ N) |>.trans (by norm_num))
  have hq : (N : ℚ) ≤ 1125899906842624 := by exact_mod_cast (by omega : N ≤ 1125899906842624)
  norm_num at h ⊢
  linarith

theorem approx_zero {E d d' : ℚ} (hd : 0 ≤ d) (hE : E - 1 ≤ 1 / 4) (h : Approx E d d d') : d' = 0 ↔ d = 0 := by
  have h1 := h.1
  constructor
  · rintro rfl
    rw [zero_sub, abs_neg, abs_of_nonneg hd] at h1
    nlinarith
  · rintro rfl
    simpa using h1

/-- C164: the denominator of a row is 0 in doubles exactly when it is 0 in exact arithmetic. -/
theorem C164_zero {sum : List ℚ → ℚ} (hs : IsFlSum sum) (kind : Kind) (t : SkTree ℚ C) (hc : WholeCounts t)
    (pa : Bool) (D : Fin t.nLeaves → Fin t.nLeaves → ℤ) (n : ℕ) (hn : t.maxDist D + 1 ≤ n)
    (hN : t.nLeaves + n + 3 ≤ 2 ^ 50) (i : Fin t.nLeaves) (c : Fin C) (lamb : Fin n → ℚ) (hl : ∀ k, 0 ≤ lamb k) :
    flDot sum (flLeafRow sum kind t pa D n i c).eta lamb = 0 ↔
      ∑ k : Fin n, levelSum pa D (fun j => t.nSamp (t.leafNode j)) i k * lamb k = 0 := by
  rw [← dot_eta_eq kind t pa D n hn i c lamb]
  have hb : LeafBound .reg t (∑ j, |t.value (t.leafNode j) c|) c := fun j =>
    Finset.single_le_sum (f := fun j => |t.value (t.leafNode j) c|) (fun j _ => abs_nonneg _) (Finset.mem_univ j)
  have h := (flDots hs .reg t hc pa D n hn i c lamb hl hb).2
  exact approx_zero (dot_eta_nonneg kind t hc pa D n hn i c lamb hl) (pow_quarter hN) h

/-- C164: the assertion `Gamma_fill[eta_fill == 0] == 0` of the gradient and the cost never fires in doubles,
whatever the leaf values are. -/
theorem C164_assertion {sum : List ℚ → ℚ} (hs : IsFlSum sum) (kind : Kind) (t : SkTree ℚ C) (hc : WholeCounts t)
    (pos : ∀ j : Fin t.nLeaves, 0 < t.nSamp (t.leafNode j))
    (pa : Bool) (D : Fin t.nLeaves → Fin t.nLeaves → ℤ) (n : ℕ) (hn : t.maxDist D + 1 ≤ n)
    (hN : t.nLeaves + n + 3 ≤ 2 ^ 50) (c : Fin C) (lamb : Fin n → ℚ) (hl : ∀ k, 0 ≤ lamb k) :
    flFillAssert sum ((List.finRange t.nLeaves).map fun i => flLeafRow sum kind t pa D n i c) lamb = true := by
  have hM : ∀ j, |t.value (t.leafNode j) c| ≤ ∑ j, |t.value (t.leafNode j) c| := fun j =>
    Finset.single_le_sum (f := fun j => |t.value (t.leafNode j) c|) (fun j _ => abs_nonneg _) (Finset.mem_univ j)
  have hb : LeafBound kind t (∑ j, |t.value (t.leafNode j) c|) c := by
    intro j
    cases kind
    · exact hM j
    · have h1 : 1 ≤ t.nSamp (t.leafNode j) := by
        obtain ⟨m, hm⟩ := hc.whole j
        have := pos j
        rw [hm] at this ⊢
        exact_mod_cast this
      have h0 : 0 ≤ ∑ j, |t.value (t.leafNode j) c| := Finset.sum_nonneg fun j _ => abs_nonneg _
      show |t.value (t.leafNode j) c| ≤ _
      have := hM j
      nlinarith
  unfold flFillAssert
  rw [List.all_eq_true]
  intro r hr
  obtain ⟨i, _, rfl⟩ := List.mem_map.1 hr
  obtain ⟨h1, h2⟩ := flDots hs kind t hc pa D n hn i c lamb hl hb
  by_cases h0 : flDot sum (flLeafRow sum kind t pa D n i c).eta lamb = 0
  · have hd := (approx_zero (dot_eta_nonneg kind t hc pa D n hn i c lamb hl) (pow_quarter hN) h2).1 h0
    rw [hd, mul_zero] at h1
    have := h1.abs_le
    rw [mul_zero] at this
    have : flDot sum (flLeafRow sum kind t pa D n i c).gam lamb = 0 := abs_eq_zero.1 (le_antisymm this (abs_nonneg _))
    simp [this]
  · simp [h0]

theorem flSmooth_close {sum : List ℚ → ℚ} (hs : IsFlSum sum) (kind : Kind) (t : SkTree ℚ C) (hc : WholeCounts t)
    (pa : Bool) (D : Fin t.nLeaves → Fin t.nLeaves → ℤ) (n : ℕ) (hn : t.maxDist D + 1 ≤ n)
    (hN : t.nLeaves + n + 3 ≤ 2 ^ 50) (i : Fin t.nLeaves) (c : Fin C) (lamb : Fin n → ℚ) (hl : ∀ k, 0 ≤ lamb k)
    {M : ℚ} (hM : 0 ≤ M) (hb : LeafBound kind t M c) :
    |flSmoothValue sum (flLeafRow sum kind t pa D n i c) lamb - smoothValue (leafRow kind t pa D n i c) lamb| ≤
      8 * (t.nLeaves + n + 3 : ℕ) * (1 / 2 ^ 53) * M := by
  obtain ⟨⟨h1, h1'⟩, h2⟩ := flDots hs kind t hc pa D n hn i c lamb hl hb
  have hd0 := dot_eta_nonneg kind t hc pa D n hn i c lamb hl
  have hz := approx_zero hd0 (pow_quarter hN) h2
  have hq := pow_quarter hN
  have hp := pow_small (t.nLeaves + n + 2) (by omega)
  unfold flSmoothValue smoothValue etaFill
  by_cases h0 : dot (leafRow kind t pa D n i c).eta lamb = 0
  · rw [if_pos h0, if_pos (hz.2 h0)]
    simp only [sub_self, abs_zero]
    positivity
  rw [if_neg h0, if_neg h0, if_neg (fun h => h0 (hz.1 h))]
  have h2 := h2.1
  generalize dot (leafRow kind t pa D n i c).eta lamb = d at *
  generalize dot (leafRow kind t pa D n i c).gam lamb = g at *
  generalize flDot sum (flLeafRow sum kind t pa D n i c).eta lamb = d' at *
  generalize flDot sum (flLeafRow sum kind t pa D n i c).gam lamb = g' at *
  have hd : 0 < d := lt_of_le_of_ne hd0 (Ne.symm h0)
  generalize hε : (1 + 1 / 2 ^ 53 : ℚ) ^ (t.nLeaves + n + 2) - 1 = ε at *
  have hε0 : 0 ≤ ε := by rw [← hε]; exact sub_nonneg.2 (one_le_pow₀ (by norm_num))
  have hd' : 3 / 4 * d ≤ d' := by
    have := (abs_le.1 h2).1
    nlinarith
  have hd'0 : 0 < d' := by linarith
  have q1 : |g' / d' - g / d| ≤ 8 / 3 * ε * M := by
    have e : g' / d' - g / d = ((g' - g) * d + g * (d - d')) / (d' * d) := by
      field_simp
      ring
    rw [e, abs_div, abs_of_pos (mul_pos hd'0 hd), div_le_iff₀ (mul_pos hd'0 hd)]
    refine (abs_add_le _ _).trans ?_
    rw [abs_mul, abs_mul, abs_of_pos hd, abs_sub_comm d d']
    have a1 : |g' - g| * d ≤ ε * (M * d) * d := mul_le_mul_of_nonneg_right h1 hd.le
    have a2 : |g| * |d' - d| ≤ (M * d) * (ε * d) := mul_le_mul h1' h2 (abs_nonneg _) (by positivity)
    have a3 : 8 / 3 * ε * M * (3 / 4 * d * d) ≤ 8 / 3 * ε * M * (d' * d) :=
      mul_le_mul_of_nonneg_left (mul_le_mul_of_nonneg_right hd' hd.le) (by positivity)
    nlinarith
  have q2 : |g / d| ≤ M := by
    rw [abs_div, abs_of_pos hd, div_le_iff₀ hd]; exact h1'
  have q3 : |g' / d'| ≤ 2 * M := by
    have : g' / d' = (g' / d' - g / d) + g / d := by ring
    rw [this]
    refine (abs_add_le _ _).trans ?_
    have : ε * M ≤ 1 / 4 * M := mul_le_mul_of_nonneg_right hq hM
    linarith
  have q4 := fl_err (g' / d')
  have e : fl (g' / d') - g / d = (fl (g' / d') - g' / d') + (g' / d' - g / d) := by ring
  rw [e]
  refine (abs_add_le _ _).trans ?_
  have q5 : |g' / d'| / 2 ^ 53 ≤ 2 * M * (1 / 2 ^ 53) := by
    rw [div_eq_mul_one_div]; exact mul_le_mul_of_nonneg_right q3 (by positivity)
  have hε1 : ε ≤ 2 * (t.nLeaves + n + 2 : ℕ) * (1 / 2 ^ 53) := by linarith
  have q6 : ε * M ≤ 2 * (t.nLeaves + n + 2 : ℕ) * (1 / 2 ^ 53) * M := mul_le_mul_of_nonneg_right hε1 hM
  have hNc : ((t.nLeaves + n + 3 : ℕ) : ℚ) = (t.nLeaves + n + 2 : ℕ) + 1 := by push_cast; ring
  rw [hNc]
  have q7 : 0 ≤ ((t.nLeaves + n + 2 : ℕ) : ℚ) * (1 / 2 ^ 53) * M := by positivity
  have q8 : 0 ≤ (1 / 2 ^ 53 : ℚ) * M := by positivity
  linarith

/-- C164: a smoothed leaf value in doubles is within `8 (leaves + columns + 3) 2^-53 M` of the exact ratio of the
weighted level sums (0 where the denominator is 0), which is what the exact model computes. -/
theorem C164_value {sum : List ℚ → ℚ} (hs : IsFlSum sum) (kind : Kind) (t : SkTree ℚ C) (hc : WholeCounts t)
    (pa : Bool) (D : Fin t.nLeaves → Fin t.nLeaves → ℤ) (n : ℕ) (hn : t.maxDist D + 1 ≤ n)
    (hN : t.nLeaves + n + 3 ≤ 2 ^ 50) (i : Fin t.nLeaves) (c : Fin C) (lamb : Fin n → ℚ) (hl : ∀ k, 0 ≤ lamb k)
    {M : ℚ} (hM : 0 ≤ M) (hb : LeafBound kind t M c) :
    let num := ∑ k : Fin n, levelSum pa D (fun j => t.mass kind (t.leafNode j) c) i k * lamb k
    let den := ∑ k : Fin n, levelSum pa D (fun j => t.nSamp (t.leafNode j)) i k * lamb k
    |flSmoothValue sum (flLeafRow sum kind t pa D n i c) lamb - (if den = 0 then 0 else num / den)| ≤
        8 * (t.nLeaves + n + 3 : ℕ) * (1 / 2 ^ 53) * M ∧
      smoothValue (leafRow kind t pa D n i c) lamb = if den = 0 then 0 else num / den := by
  intro num den
  have hden := dot_eta_eq kind t pa D n hn i c lamb
  have hnum : dot (leafRow kind t pa D n i c).gam lamb = num := by
    refine Finset.sum_congr rfl fun k _ => ?_
    rw [leafRow_gam kind t pa D n hn i c k, levelSel_sum]
    cases kind <;> rfl
  have e : smoothValue (leafRow kind t pa D n i c) lamb = if den = 0 then 0 else num / den := by
    unfold smoothValue etaFill
    rw [hden, hnum]
    by_cases h : den = 0
    · rw [if_pos h, if_pos h]
    · rw [if_neg h, if_neg h, if_neg h]
  refine ⟨?_, e⟩
  rw [← e]
  exact flSmooth_close hs kind t hc pa D n hn hN i c lamb hl hM hb

/- The hypotheses hold for `exTree` (six observations, leaf means at most 10), and the rounded value is not the exact
one: the bound cannot be 0. -/
example : WholeCounts exTree :=
  ⟨fun j => by
      have : exTree.nSamp (exTree.leafNode j) = 1 ∨ exTree.nSamp (exTree.leafNode j) = 2 ∨
        exTree.nSamp (exTree.leafNode j) = 3 := by revert j; decide +kernel
      rcases this with h | h | h
      · exact ⟨1, by rw [h]; norm_num⟩
      · exact ⟨2, by rw [h]; norm_num⟩
      · exact ⟨3, by rw [h]; norm_num⟩,
    by decide +kernel⟩

example : LeafBound .reg exTree 10 0 := by
  intro j
  show |exTree.value (exTree.leafNode j) 0| ≤ 10
  revert j
  decide +kernel

example : exTree.maxDist (exTree.distDepth .standard) + 1 ≤ 3 ∧
    flSmoothValue npSum (flLeafRow npSum .reg exTree false (exTree.distDepth .standard) 3 ⟨0, by decide⟩ 0)
      ![1 / 2, 1 / 4, 1 / 4] ≠
    smoothValue (leafRow .reg exTree false (exTree.distDepth .standard) 3 ⟨0, by decide⟩ 0)
      ![1 / 2, 1 / 4, 1 / 4] := by
  decide +kernel

end SmoothRF
