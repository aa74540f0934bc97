import Verif.Props.FloatSmoothProps
import Verif.Props.FloatProps
import Verif.Proofs.Smooth2

/-!
# C165: the sanity check of smooth in double precision

With `sanity_check = True` the weights stay at `(1, 0, ..., 0)` (smooth_base.py 1289-1296, 1360-1362).
-/

set_option linter.unusedSectionVars false

namespace SmoothRF
open Topo SkTree

/-- A rounded sum with at most one entry that is not 0. -/
theorem RSum.single {d : ℕ} {l : List ℚ} {s : ℚ} (h : RSum d l s)
    (hl : l.countP (fun x => decide (x ≠ 0)) ≤ 1) (hf : ∀ x ∈ l, IsFloat x) : s = l.sum ∧ IsFloat s := by
  induction h with
  | zero d => exact ⟨by simp, isFloat_zero⟩
  | one d x => exact ⟨by simp, hf x (by simp)⟩
  | @add d a b l s t _ _ hp iha ihb =>
    have hcount : a.countP (fun x => decide (x ≠ 0)) + b.countP (fun x => decide (x ≠ 0)) ≤ 1 := by
      rw [← List.countP_append, hp.countP_eq]; exact hl
    obtain ⟨ha, fa⟩ := iha (by omega) fun x hx => hf x (hp.subset (List.mem_append_left _ hx))
    obtain ⟨hb, fb⟩ := ihb (by omega) fun x hx => hf x (hp.subset (List.mem_append_right _ hx))
    have hsum : l.sum = s + t := by rw [ha, hb, ← hp.sum_eq, List.sum_append]
    have zero : ∀ l : List ℚ, l.countP (fun x => decide (x ≠ 0)) = 0 → l.sum = 0 := by
      intro l hl
      apply List.sum_eq_zero
      intro x hx
      have := List.countP_eq_zero.1 hl x hx
      simpa using this
    have hst : IsFloat (s + t) := by
      rcases (by omega : a.countP (fun x => decide (x ≠ 0)) = 0 ∨ b.countP (fun x => decide (x ≠ 0)) = 0) with h | h
      · rw [ha, zero a h, zero_add]; exact fb
      · rw [hb, zero b h, add_zero]; exact fa
    rw [hsum, fl_of_float hst]
    exact ⟨rfl, hst⟩

/-- The weights `(1, 0, ..., 0)`. -/
def firstWeight (n : ℕ) : Fin n → ℚ := fun k => if k.val = 0 then 1 else 0

theorem flDot_first {sum : List ℚ → ℚ} (hs : IsFlSum sum) {n : ℕ} (a : Fin (n + 1) → ℚ) (h : IsFloat (a 0)) :
    flDot sum a (firstWeight (n + 1)) = a 0 := by
  have e : ((List.finRange (n + 1)).map fun k => fl (a k * firstWeight (n + 1) k)) =
      a 0 :: List.replicate n 0 := by
    rw [List.finRange_succ, List.map_cons, List.map_map]
    congr 1
    · simp [firstWeight, fl_of_float h]
    · rw [List.eq_replicate_iff]
      refine ⟨by simp, fun x hx => ?_⟩
      obtain ⟨k, _, rfl⟩ := List.mem_map.1 hx
      simp [firstWeight, fl_zero]
  unfold flDot
  rw [e]
  have := ((hs (a 0 :: List.replicate n 0)).single ?_ ?_).1
  · simpa using this
  · rw [List.countP_cons, List.countP_replicate]
    simp
    split_ifs <;> simp
  · intro x hx
    rcases List.mem_cons.1 hx with rfl | hx
    · exact h
    · rw [List.eq_of_mem_replicate hx]; exact isFloat_zero

variable {C : ℕ}

theorem levelSel_self {t : Topo} (h : t.WF) (pa : Bool) (s : Style) (i : Fin t.nLeaves) :
    levelSel pa (t.distDepth s) i 0 = [i] := by
  have e : ∀ j, (if pa then decide (t.distDepth s i j ≤ (0 : ℕ)) else decide (t.distDepth s i j = (0 : ℕ))) =
      (j == i) := by
    intro j
    rw [show (j == i) = decide (j = i) from rfl]
    have h1 := distDepth_eq_zero h s i j
    have h2 := distDepth_nonneg h s i j
    cases pa <;> simp only [Bool.false_eq_true, if_false, if_true, Nat.cast_zero, decide_eq_decide]
    · rw [h1]; exact eq_comm
    · rw [show t.distDepth s i j ≤ 0 ↔ t.distDepth s i j = 0 by omega, h1]; exact eq_comm
  unfold levelSel
  simp only [e]
  have := List.nodup_finRange t.nLeaves
  rw [List.filter_beq, List.count_eq_one_of_mem this (List.mem_finRange i)]
  rfl

theorem isFloat_nat {m : ℕ} (h : m ≤ 2 ^ 53) : IsFloat (m : ℚ) :=
  ⟨m, 0, by rw [abs_of_nonneg (by positivity)]; exact_mod_cast h, by simp⟩

/-- C165: the value of a leaf after the sanity check is the stored total `ny` of the leaf, divided by its sample
size. -/
theorem C165_value {sum : List ℚ → ℚ} (hs : IsFlSum sum) (kind : Kind) (t : SkTree ℚ C) (h : t.WF)
    (hc : WholeCounts t) (pa : Bool) (s : Style) (n : ℕ) (hn : t.maxDist (t.distDepth s) + 1 ≤ n)
    (i : Fin t.nLeaves) (hi : t.nSamp (t.leafNode i) ≠ 0) (c : Fin C)
    (hv : kind = .cls → IsFloat (t.value (t.leafNode i) c)) :
    flSmoothValue sum (flLeafRow sum kind t pa (t.distDepth s) n i c) (firstWeight n) =
      fl (flNy kind t (t.leafNode i) c / t.nSamp (t.leafNode i)) := by
  obtain ⟨n, rfl⟩ : ∃ m, n = m + 1 := ⟨n - 1, by omega⟩
  have one : ∀ x : ℚ, IsFloat x → sum [x] = x := fun x hx => by
    have := ((hs [x]).single (by rw [List.countP_cons]; simp; split_ifs <;> simp) (by simpa using hx)).1
    simpa using this
  have hfn : IsFloat (t.nSamp (t.leafNode i)) := by
    obtain ⟨m, hm⟩ := hc.whole i
    rw [hm]
    apply isFloat_nat
    have h1 : t.nSamp (t.leafNode i) ≤ ∑ j : Fin t.nLeaves, t.nSamp (t.leafNode j) :=
      Finset.single_le_sum (f := fun j : Fin t.nLeaves => t.nSamp (t.leafNode j))
        (fun j _ => by obtain ⟨m, hm⟩ := hc.whole j; rw [hm]; positivity) (Finset.mem_univ i)
    have h2 := h1.trans hc.total
    rw [hm] at h2
    exact_mod_cast h2
  have hfg : IsFloat (flNy kind t (t.leafNode i) c) := by
    cases kind
    · exact fl_isFloat _
    · exact hv rfl
  have he : (flLeafRow sum kind t pa (t.distDepth s) (n + 1) i c).eta 0 = t.nSamp (t.leafNode i) := by
    rw [flLeafRow_eta hs kind t pa _ _ hn, Fin.val_zero, levelSel_self h]
    exact one _ hfn
  have hg : (flLeafRow sum kind t pa (t.distDepth s) (n + 1) i c).gam 0 = flNy kind t (t.leafNode i) c := by
    rw [flLeafRow_gam hs kind t pa _ _ hn, Fin.val_zero, levelSel_self h]
    exact one _ hfg
  unfold flSmoothValue
  rw [flDot_first hs _ (by rw [he]; exact hfn), flDot_first hs _ (by rw [hg]; exact hfg), he, hg, if_neg hi]

/-- C165: a fitted regression tree stores in a leaf the double nearest to `S / n` for a double `S`, the sum of the
leaf's responses; such a leaf keeps its value in every bit. -/
theorem C165_bits {sum : List ℚ → ℚ} (hs : IsFlSum sum) (t : SkTree ℚ C) (h : t.WF)
    (hc : WholeCounts t) (pa : Bool) (s : Style) (n : ℕ) (hn : t.maxDist (t.distDepth s) + 1 ≤ n)
    (i : Fin t.nLeaves) (hi : t.nSamp (t.leafNode i) ≠ 0) (c : Fin C) {S : ℚ} (hS : IsFloat S)
    (hv : t.value (t.leafNode i) c = fl (S / t.nSamp (t.leafNode i))) :
    flSmoothValue sum (flLeafRow sum .reg t pa (t.distDepth s) n i c) (firstWeight n) =
      t.value (t.leafNode i) c := by
  rw [C165_value hs .reg t h hc pa s n hn i hi c (fun h => by cases h)]
  obtain ⟨m, hm⟩ := hc.whole i
  have h1 : t.nSamp (t.leafNode i) ≤ ∑ j : Fin t.nLeaves, t.nSamp (t.leafNode j) :=
    Finset.single_le_sum (f := fun j : Fin t.nLeaves => t.nSamp (t.leafNode j))
      (fun j _ => by obtain ⟨m, hm⟩ := hc.whole j; rw [hm]; positivity) (Finset.mem_univ i)
  have h2 := h1.trans hc.total
  rw [hm] at hi h2
  show fl (fl (t.nSamp (t.leafNode i) * t.value (t.leafNode i) c) / t.nSamp (t.leafNode i)) = _
  rw [hv, hm]
  exact C155_sanity S hS m (Nat.pos_of_ne_zero fun h => hi (by rw [h]; simp)) (by exact_mod_cast h2)

/-- C165: whatever the leaf holds, the relative change is at most two roundings. -/
theorem C165_close {sum : List ℚ → ℚ} (hs : IsFlSum sum) (t : SkTree ℚ C) (h : t.WF)
    (hc : WholeCounts t) (pa : Bool) (s : Style) (n : ℕ) (hn : t.maxDist (t.distDepth s) + 1 ≤ n)
    (i : Fin t.nLeaves) (hi : t.nSamp (t.leafNode i) ≠ 0) (c : Fin C) :
    |flSmoothValue sum (flLeafRow sum .reg t pa (t.distDepth s) n i c) (firstWeight n) -
      t.value (t.leafNode i) c| ≤ (2 / 2 ^ 53 + 1 / 2 ^ 106) * |t.value (t.leafNode i) c| := by
  rw [C165_value hs .reg t h hc pa s n hn i hi c (fun h => by cases h)]
  obtain ⟨m, hm⟩ := hc.whole i
  rw [hm] at hi
  show |fl (fl (t.nSamp (t.leafNode i) * t.value (t.leafNode i) c) / t.nSamp (t.leafNode i)) - _| ≤ _
  rw [hm]
  exact C155_any_value _ m (Nat.pos_of_ne_zero fun h => hi (by rw [h]; simp))

/-- The double nearest to 0.1. -/
def tenth : ℚ := 3602879701896397 / 36028797018963968

/-- A stump whose leaves hold three observations each. -/
abbrev exThirds : SkTree ℚ 1 :=
  { toTopo := ⟨2, ![some 1, none, none], ![some 2, none, none]⟩
    value := fun i _ => ![1 / 2, tenth, 1] i
    nSamp := ![6, 3, 3]
    impurity := ![1, 0, 0] }

theorem exThirds_counts : WholeCounts exThirds :=
  ⟨fun j => by
      have : exThirds.nSamp (exThirds.leafNode j) = 3 := by revert j; decide +kernel
      exact ⟨3, by rw [this]; norm_num⟩,
    by decide +kernel⟩

/-- C165: without that hypothesis (a forest that was smoothed before) the value may change: a leaf of three
observations holding 0.1. -/
theorem C165_refuted {sum : List ℚ → ℚ} (hs : IsFlSum sum) (pa : Bool) (s : Style) :
    flSmoothValue sum (flLeafRow sum .reg exThirds pa (exThirds.distDepth s) 2 ⟨0, by decide⟩ 0) (firstWeight 2) ≠
      exThirds.value (exThirds.leafNode ⟨0, by decide⟩) 0 := by
  rw [C165_value hs .reg exThirds (by decide) exThirds_counts pa s 2 (by cases s <;> decide +kernel) ⟨0, by decide⟩
    (by decide +kernel) 0 (fun h => by cases h)]
  decide +kernel

example : IsFloat tenth := ⟨3602879701896397, -55, by norm_num, by rw [tenth]; norm_num⟩

/- The hypothesis of `C165_bits` for the other leaf: three observations with sum 3. -/
example : exThirds.value (exThirds.leafNode ⟨1, by decide⟩) 0 =
    fl (3 / exThirds.nSamp (exThirds.leafNode ⟨1, by decide⟩)) := by decide +kernel

end SmoothRF
