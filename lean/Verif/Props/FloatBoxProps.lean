import Verif.Model.FloatBox
import Verif.Props.BoxProps
import Verif.Props.FloatQuantileProps
import Mathlib.Algebra.Order.Archimedean.Basic
import Mathlib.Algebra.Order.Round

/-!
# C179: boxes and centres of the two children of a split, centres in doubles, routing in single precision
-/

set_option linter.unusedSectionVars false

namespace SmoothRF
open SplitTree Topo

section
variable {K : Type} [Field K] [LinearOrder K] [IsStrictOrderedRing K] {p : ℕ}

/-- C179: the box of a child is that of its parent except in the feature of the split, where the threshold replaces the
upper bound (left) or the lower bound (right); the centres agree in all other features. -/
theorem C179_children {t : SplitTree K p} (h : t.WF) {X : List (Fin p → K)} {b : t.Boxes}
    (hb : t.boundBox X = .ok b) {c : t.Node → Fin p → K} (hc : t.centerTree X = .ok c) (i l r : t.Node)
    (hl : t.left i = some l) (hr : t.right i = some r) :
    (∀ j, j ≠ t.feature i → b l j = b i j ∧ b r j = b i j ∧ c l j = c i j ∧ c r j = c i j) ∧
    b l (t.feature i) = ((b i (t.feature i)).1, t.threshold i) ∧
    b r (t.feature i) = (t.threshold i, (b i (t.feature i)).2) ∧
    c l (t.feature i) + c r (t.feature i) = c i (t.feature i) + t.threshold i := by
  cases X with
  | nil => cases hb
  | cons x xs =>
    obtain ⟨b', e, -, hcc⟩ := boundBox_spec h x xs
    rw [e] at hb
    obtain rfl := Except.ok.inj hb
    have e2 : c = fun i j => ((b' i j).1 + (b' i j).2) / 2 := by
      unfold centerTree at hc
      rw [e] at hc
      exact (Except.ok.inj hc).symm
    have e3 := (hcc i).1 l hl
    have e4 := (hcc i).2 r hr
    refine ⟨fun j hj => ?_, ?_, ?_, ?_⟩
    · have h1 : b' l j = b' i j := by rw [e3]; simp [leftBox, hj]
      have h2 : b' r j = b' i j := by rw [e4]; simp [rightBox, hj]
      exact ⟨h1, h2, by rw [e2]; simp only [h1], by rw [e2]; simp only [h2]⟩
    · rw [e3]; simp [leftBox]
    · rw [e4]; simp [rightBox]
    · rw [e2]
      simp only [e3, e4, leftBox, rightBox]
      simp
      ring

/-- C179: if the tree compares rounded features (`cast`, off by at most `eps` times the number) with its thresholds,
every row of `X` that it sends through a node is within `eps * |x|` of the node's box, in every feature. -/
theorem C179_single {t : SplitTree K p} (h : t.WF) {X : List (Fin p → K)} {b : t.Boxes}
    (hb : t.boundBox X = .ok b) (cast : K → K) (eps : K) (hcast : ∀ v, |cast v - v| ≤ eps * |v|)
    (heps : 0 ≤ eps) (i : t.Node) (x : Fin p → K) (hx : x ∈ X) (hr : t.Routed (fun j => cast (x j)) i) (j : Fin p) :
    (b i j).1 - eps * |x j| ≤ x j ∧ x j ≤ (b i j).2 + eps * |x j| := by
  cases X with
  | nil => cases hb
  | cons x0 xs =>
    obtain ⟨b', e, h0, hc⟩ := boundBox_spec h x0 xs
    rw [e] at hb
    obtain rfl := Except.ok.inj hb
    have ex : ∀ j, 0 ≤ eps * |x j| := fun j => mul_nonneg heps (abs_nonneg _)
    have hv := fun j => abs_le.1 (hcast (x j))
    induction hr generalizing j with
    | root =>
      rw [h0 j]
      have h1 := colMin_le x0 xs j x hx
      have h2 := le_colMax x0 xs j x hx
      constructor <;> linarith [ex j]
    | @goLeft i l _ hl hle ih =>
      rw [(hc i).1 l hl]
      by_cases hj : j = t.feature i
      · subst hj
        simp only [leftBox, if_true]
        simp only [Function.update_self]
        exact ⟨(ih _).1, by linarith [(hv (t.feature i)).1]⟩
      · simp only [leftBox, Function.update_of_ne hj]
        exact ih j
    | @goRight i r _ hr hlt ih =>
      rw [(hc i).2 r hr]
      by_cases hj : j = t.feature i
      · subst hj
        simp only [rightBox]
        simp only [Function.update_self]
        exact ⟨by linarith [(hv (t.feature i)).2], (ih _).2⟩
      · simp only [rightBox, Function.update_of_ne hj]
        exact ih j

end

variable {p : ℕ}

/-- C179: in doubles the centres are computed whenever the boxes are; the children of a split still share them in all
other features, and a centre lies in its box if the box is not empty and its bounds are doubles. -/
theorem C179_float_center {t : SplitTree ℚ p} (h : t.WF) {X : List (Fin p → ℚ)} {b : t.Boxes}
    (hb : t.boundBox X = .ok b) : ∃ c, t.flCenterTree X = .ok c ∧
      (∀ i l r, t.left i = some l → t.right i = some r → ∀ j, j ≠ t.feature i → c l j = c i j ∧ c r j = c i j) ∧
      ∀ i j, (b i j).1 ≤ (b i j).2 → IsFloat (b i j).1 → IsFloat (b i j).2 →
        (b i j).1 ≤ c i j ∧ c i j ≤ (b i j).2 := by
  refine ⟨fun i j => fl (fl ((b i j).1 + (b i j).2) / 2), by unfold flCenterTree; rw [hb]; rfl, ?_, ?_⟩
  · intro i l r hl hr j hj
    obtain ⟨h1, h2, -⟩ := (C179_children h hb (c := fun i j => ((b i j).1 + (b i j).2) / 2)
      (by unfold centerTree; rw [hb]; rfl) i l r hl hr).1 j hj
    simp only [h1, h2, and_self]
  · intro i j hle f1 f2
    have dbl : ∀ {v : ℚ}, IsFloat v → IsFloat (2 * v) := by
      rintro v ⟨m, e, hm, rfl⟩
      exact ⟨m, e + 1, hm, by rw [zpow_add_one₀ (by norm_num)]; ring⟩
    have a1 : 2 * (b i j).1 ≤ fl ((b i j).1 + (b i j).2) := float_le_fl (dbl f1) (by linarith)
    have a2 : fl ((b i j).1 + (b i j).2) ≤ 2 * (b i j).2 := fl_le_float (dbl f2) (by linarith)
    exact ⟨float_le_fl f1 (by linarith), fl_le_float f2 (by linarith)⟩

/-- A number with at most 24 binary digits. -/
def IsSingle (x : ℚ) : Prop := ∃ m e : ℤ, |m| ≤ 2 ^ 24 ∧ x = m * 2 ^ e

/-- `cast` rounds to the nearest number with 24 binary digits, as scikit-learn does with the features (`float32`)
before a tree compares them with its thresholds. -/
def ToSingle (cast : ℚ → ℚ) : Prop :=
  ∀ x, IsSingle (cast x) ∧ ∀ y, IsSingle y → |cast x - x| ≤ |y - x|

/-- C179: rounding to single precision is off by at most `2^-24` times the number. -/
theorem C179_single_eps {cast : ℚ → ℚ} (h : ToSingle cast) (x : ℚ) : |cast x - x| ≤ 1 / 2 ^ 24 * |x| := by
  have near : ∀ x : ℚ, 0 < x → ∃ y, IsSingle y ∧ |y - x| ≤ 1 / 2 ^ 24 * x := by
    intro x hx
    obtain ⟨n, h1, h2⟩ := exists_mem_Ico_zpow hx (by norm_num : (1 : ℚ) < 2)
    have hp : (0 : ℚ) < 2 ^ (n - 23) := by positivity
    have e1 : (2 : ℚ) ^ n = 2 ^ 23 * 2 ^ (n - 23) := by
      rw [← zpow_natCast, ← zpow_add₀ (by norm_num)]; norm_num
    have e2 : (2 : ℚ) ^ (n + 1) = 2 ^ 24 * 2 ^ (n - 23) := by
      rw [← zpow_natCast, ← zpow_add₀ (by norm_num)]; congr 1; push_cast; ring
    rw [e1] at h1
    rw [e2] at h2
    set q := x / 2 ^ (n - 23) with hq
    have hxq : x = q * 2 ^ (n - 23) := by rw [hq]; field_simp
    have q1 : 2 ^ 23 ≤ q := by rw [hq, le_div_iff₀ hp]; exact h1
    have q2 : q < 2 ^ 24 := by rw [hq, div_lt_iff₀ hp]; exact h2
    have hr := abs_sub_round q
    refine ⟨round q * 2 ^ (n - 23), ⟨round q, n - 23, ?_, rfl⟩, ?_⟩
    · rw [abs_le] at hr ⊢
      constructor
      · have : (-(2 ^ 24 : ℤ) : ℚ) ≤ round q := by push_cast; linarith
        exact_mod_cast this
      · have : (round q : ℚ) < 2 ^ 24 + 1 := by linarith
        have : round q < 2 ^ 24 + 1 := by exact_mod_cast this
        omega
    · rw [hxq, ← sub_mul, abs_mul, abs_of_pos hp, abs_sub_comm, ← mul_assoc]
      apply mul_le_mul_of_nonneg_right _ hp.le
      linarith
  rcases lt_trichotomy x 0 with hx | rfl | hx
  · obtain ⟨y, ⟨m, e, hm, rfl⟩, hy⟩ := near (-x) (by linarith)
    have := (h x).2 (-(m * 2 ^ e)) ⟨-m, e, by rwa [abs_neg], by push_cast; ring⟩
    rw [abs_of_neg hx]
    refine this.trans (le_trans (le_of_eq ?_) hy)
    rw [show -((m : ℚ) * 2 ^ e) - x = -(m * 2 ^ e - -x) by ring, abs_neg]
  · have := (h 0).2 0 ⟨0, 0, by norm_num, by simp⟩
    simpa using this
  · obtain ⟨y, hy, hyx⟩ := near x hx
    rw [abs_of_pos hx]
    exact ((h x).2 y hy).trans hyx

/-- One split at one half. -/
abbrev exHalf : SplitTree ℚ 1 :=
  { toTopo := ⟨2, ![some 1, none, none], ![some 2, none, none]⟩
    feature := ![0, 0, 0]
    threshold := ![1 / 2, 0, 0] }

/-- Three rows, the second just above the threshold. -/
abbrev exHalfRows : List (Fin 1 → ℚ) := [![0], ![1 / 2 + 1 / 2 ^ 40], ![1]]

/-- C179, false with single-precision routing: "the box of a node contains every row of `X` that reaches it". The row
`1/2 + 2^-40` is rounded to `1/2` and goes left at the threshold `1/2`, out of the box `[0, 1/2]` of the left leaf. -/
theorem C179_refuted (cast : ℚ → ℚ) (hcast : ToSingle cast) : exHalf.WF ∧
    ∃ b, exHalf.boundBox exHalfRows = .ok b ∧ ∃ x ∈ exHalfRows, IsFloat (x 0) ∧
      exHalf.Routed (fun j => cast (x j)) (1 : Fin 3) ∧ ¬ InBox (b (1 : Fin 3)) x := by
  refine ⟨by decide, ?_⟩
  obtain ⟨b, hb, h0, hc⟩ := boundBox_spec (t := exHalf) (by decide) ![0] [![1 / 2 + 1 / 2 ^ 40], ![1]]
  refine ⟨b, hb, ![1 / 2 + 1 / 2 ^ 40], by simp, ?_, ?_, ?_⟩
  · exact ⟨2 ^ 39 + 1, -40, by norm_num, by norm_num⟩
  · refine .goLeft (i := (0 : Fin 3)) .root rfl ?_
    show cast (1 / 2 + 1 / 2 ^ 40) ≤ 1 / 2
    obtain ⟨⟨m, e, hm, hv⟩, hn⟩ := hcast (1 / 2 + 1 / 2 ^ 40)
    have h1 := hn (1 / 2) ⟨1, -1, by norm_num, by norm_num⟩
    rw [show (1 / 2 : ℚ) - (1 / 2 + 1 / 2 ^ 40) = -(1 / 2 ^ 40) by ring, abs_neg,
      abs_of_pos (a := (1 / 2 ^ 40 : ℚ)) (by positivity), abs_le] at h1
    rw [hv] at h1 ⊢
    rcases le_or_gt (-24) e with he | he
    · obtain ⟨k, hk⟩ : ∃ k : ℕ, e = k - 24 := ⟨(e + 24).toNat, by omega⟩
      have e1 : (m : ℚ) * 2 ^ e = ((m * 2 ^ k : ℤ) : ℚ) / 2 ^ 24 := by
        rw [hk, zpow_sub₀ (by norm_num)]
        push_cast
        rw [zpow_natCast]
        norm_num
        ring
      rw [e1] at h1 ⊢
      have h2 : ((m * 2 ^ k : ℤ) : ℚ) < 2 ^ 23 + 1 := by
        have := h1.2
        rw [sub_le_iff_le_add, div_le_iff₀ (by norm_num)] at this
        norm_num at this ⊢
        linarith
      have h3 : (m * 2 ^ k : ℤ) < 2 ^ 23 + 1 := by exact_mod_cast h2
      have h4 : (m * 2 ^ k : ℤ) ≤ 2 ^ 23 := by omega
      rw [div_le_iff₀ (by norm_num)]
      have h5 : ((m * 2 ^ k : ℤ) : ℚ) ≤ 2 ^ 23 := by exact_mod_cast h4
      linarith
    · have h2 : (m : ℚ) ≤ 2 ^ 24 := by exact_mod_cast (le_abs_self m).trans hm
      have h3 : (2 : ℚ) ^ e ≤ 2 ^ (-25 : ℤ) := zpow_le_zpow_right₀ (by norm_num) (by omega)
      have h4 : (0 : ℚ) < 2 ^ e := by positivity
      calc (m : ℚ) * 2 ^ e ≤ 2 ^ 24 * 2 ^ e := mul_le_mul_of_nonneg_right h2 h4.le
        _ ≤ 2 ^ 24 * 2 ^ (-25 : ℤ) := mul_le_mul_of_nonneg_left h3 (by norm_num)
        _ = 1 / 2 := by norm_num
  · intro hin
    have h1 := (hin 0).2
    rw [(hc (0 : Fin 3)).1 (1 : Fin 3) rfl] at h1
    have : (1 / 2 + 1 / 2 ^ 40 : ℚ) ≤ 1 / 2 := by
      simpa [leftBox] using h1
    norm_num at this

/-- The tree of the static checks in test_bound_box_tree and test_center_tree. -/
abbrev exStatic : SplitTree ℚ 2 :=
  { toTopo := ⟨6, ![some 1, none, some 3, none, some 5, none, none], ![some 2, none, some 4, none, some 6, none, none]⟩
    feature := ![0, 0, 1, 0, 0, 0, 0]
    threshold := ![50, -1, 50, -1, 75, -1, -1] }

/-- C179: the boxes and centres expected by the static checks of the two tests. -/
theorem C179_static :
    boxesOf exStatic [![100, 100], ![0, 0]] =
      some [[(0, 100), (0, 100)], [(0, 50), (0, 100)], [(50, 100), (0, 100)], [(50, 100), (0, 50)],
        [(50, 100), (50, 100)], [(50, 75), (50, 100)], [(75, 100), (50, 100)]] ∧
    ∃ c, exStatic.flCenterTree [![100, 100], ![0, 0]] = .ok c ∧ (List.ofFn fun i => List.ofFn (c i)) =
      [[50, 50], [25, 50], [75, 50], [75, 25], [75, 75], [125 / 2, 75], [175 / 2, 75]] :=
  ⟨by decide +kernel, _, rfl, by decide +kernel⟩

/-- The hypotheses of C179 on the tree of the static checks: boxes and centres are computed, node 2 is a split. -/
example : exStatic.WF ∧ (∃ b, exStatic.boundBox [![100, 100], ![0, 0]] = .ok b) ∧
    (∃ c, exStatic.centerTree [![100, 100], ![0, 0]] = .ok c) ∧
    exStatic.left (2 : Fin 7) = some 3 ∧ exStatic.right (2 : Fin 7) = some 4 :=
  ⟨by decide, ⟨_, rfl⟩, ⟨_, rfl⟩, rfl, rfl⟩

end SmoothRF
