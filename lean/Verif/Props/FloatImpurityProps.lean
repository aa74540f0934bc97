import Verif.Model.FloatTree
import Verif.Proofs.FloatSum
import Verif.Props.TestTreeProps

/-!
# C162: impurities in double precision
-/

set_option linter.unusedSectionVars false

namespace SmoothRF
open Topo

variable {t : Topo}

abbrev exFlStump : Topo := ⟨2, ![some 1, none, none], ![some 2, none, none]⟩

theorem upd_apply (h : t.WF) (s : t.Node → ℚ) (i c : t.Node) (v : ℚ) (f : ℚ → ℚ) :
    updChild (updChild (Function.update s i v) (t.left i) f) (t.right i) f c =
      if c = i then v else if t.IsChild i c then f (s c) else s c := by
  have hli : ¬ t.left i = some i := fun e => absurd (h.lt i i (Or.inl e)) (lt_irrefl _)
  have hri : ¬ t.right i = some i := fun e => absurd (h.lt i i (Or.inr e)) (lt_irrefl _)
  simp only [updChild_apply, IsChild]
  by_cases hci : c = i
  · subst hci; simp [hli, hri]
  · by_cases hl : t.left i = some c
    · have := h.ne i c hl; simp [hci, hl, this]
    · by_cases hr : t.right i = some c <;> simp [hci, hl, hr]

/-- C162: in doubles the change in impurity of a child is the rounded difference. -/
theorem C162_change (h : t.WF) (imp : t.Node → ℚ) (hf : ∀ i, IsFloat (imp i)) :
    t.flChangeInImpurity imp 0 = imp 0 ∧
    ∀ p c, t.IsChild p c → t.flChangeInImpurity imp c = fl (imp c - imp p) := by
  have key := foldl_finRange_inv (n := t.m + 1)
    (fun (dv : t.Node → ℚ) split =>
      let dv := Function.update dv split (fl (dv split + imp split))
      let dv := updChild dv (t.left split) (fun x => fl (x - imp split))
      updChild dv (t.right split) (fun x => fl (x - imp split)))
    (fun k dv => ∀ c : t.Node,
      (∀ p, t.IsChild p c → dv c = if c.val < k then fl (imp c - imp p) else if p.val < k then -imp p else 0) ∧
      ((∀ p : t.Node, ¬ t.IsChild p c) → dv c = if c.val < k then imp c else 0))
    (fun _ => 0)
    (fun c => by simp)
    (by
      intro i s hs c
      simp only [upd_apply h]
      constructor
      · intro p hp
        have hpc : p.val < c.val := h.lt _ _ hp
        rw [(hs c).1 p hp]
        by_cases hci : c = i
        · subst hci
          rw [if_pos rfl, (hs c).1 p hp, if_neg (lt_irrefl _), if_pos hpc, if_pos (Nat.lt_succ_self _),
            neg_add_eq_sub]
        · have hne : c.val ≠ i.val := fun e => hci (Fin.ext e)
          rw [if_neg hci]
          by_cases hch : t.IsChild i c
          · have := h.uniq _ _ _ hp hch
            subst this
            rw [if_pos hch, if_neg (by omega), if_neg (lt_irrefl _), if_neg (by omega),
              if_pos (Nat.lt_succ_self _), zero_sub, fl_of_float (hf p).neg]
          · have : p.val ≠ i.val := fun e => hch (by rwa [show i = p from Fin.ext e.symm])
            rw [if_neg hch]
            by_cases hlt : c.val < i.val
            · rw [if_pos hlt, if_pos (show c.val < i.val + 1 by omega)]
            · rw [if_neg hlt, if_neg (show ¬ c.val < i.val + 1 by omega)]
              by_cases hpl : p.val < i.val
              · rw [if_pos hpl, if_pos (show p.val < i.val + 1 by omega)]
              · rw [if_neg hpl, if_neg (show ¬ p.val < i.val + 1 by omega)]
      · intro hn
        rw [(hs c).2 hn, if_neg (hn i)]
        by_cases hci : c = i
        · subst hci
          rw [if_pos rfl, (hs c).2 hn, if_neg (lt_irrefl _), if_pos (Nat.lt_succ_self _), zero_add,
            fl_of_float (hf c)]
        · have hne : c.val ≠ i.val := fun e => hci (Fin.ext e)
          rw [if_neg hci]
          by_cases hlt : c.val < i.val
          · rw [if_pos hlt, if_pos (show c.val < i.val + 1 by omega)]
          · rw [if_neg hlt, if_neg (show ¬ c.val < i.val + 1 by omega)])
  constructor
  · have := (key 0).2 (fun p => h.root_no_parent p)
    rw [if_pos (Fin.isLt 0)] at this
    exact this
  · intro p c hc
    have := (key c).1 p hc
    rw [if_pos c.isLt] at this
    exact this

/-- The test's loop in doubles: a child's value is the rounded sum of its parent's value and its change. -/
theorem flRebuild_spec (h : t.WF) (diff : t.Node → ℚ) :
    t.flRebuildImpurity diff 0 = fl (diff 0) ∧
    ∀ p c, t.IsChild p c → t.flRebuildImpurity diff c = fl (t.flRebuildImpurity diff p + diff c) := by
  have key := foldl_finRange_inv (n := t.m + 1)
    (fun (a : t.Node → ℚ) split =>
      let a := Function.update a split (fl (a split + diff split))
      let a := updChild a (t.left split) (fun x => fl (x + a split))
      updChild a (t.right split) (fun x => fl (x + a split)))
    (fun k a => ∀ c : t.Node, IsFloat (a c) ∧
      (∀ p, t.IsChild p c → a c = if c.val < k then fl (a p + diff c) else if p.val < k then a p else 0) ∧
      (c = 0 → a c = if c.val < k then fl (diff 0) else 0))
    (fun _ => 0)
    (fun c => by simp [isFloat_zero])
    (by
      intro i s hs c
      have hli : ¬ t.left i = some i := fun e => absurd (h.lt i i (Or.inl e)) (lt_irrefl _)
      have hv : ∀ c, (updChild (updChild (Function.update s i (fl (s i + diff i))) (t.left i)
          (fun x => fl (x + (Function.update s i (fl (s i + diff i))) i))) (t.right i)
          (fun x => fl (x + (updChild (Function.update s i (fl (s i + diff i))) (t.left i)
          (fun x => fl (x + (Function.update s i (fl (s i + diff i))) i))) i))) c =
          if c = i then fl (s i + diff i) else if t.IsChild i c then fl (s c + fl (s i + diff i)) else s c := by
        intro c
        have e : (updChild (Function.update s i (fl (s i + diff i))) (t.left i)
          (fun x => fl (x + (Function.update s i (fl (s i + diff i))) i))) i = fl (s i + diff i) := by
          simp [updChild_apply, hli]
        rw [e, Function.update_self]
        exact upd_apply h s i c _ _
      simp only [hv]
      refine ⟨?_, ?_, ?_⟩
      · split
        · exact fl_isFloat _
        · split
          · exact fl_isFloat _
          · exact (hs c).1
      · intro p hp
        have hpc : p.val < c.val := h.lt _ _ hp
        by_cases hci : c = i
        · subst hci
          have hpne : ¬ p = c := fun e => by rw [e] at hpc; exact lt_irrefl _ hpc
          have hnc : ¬ t.IsChild c p := fun e => absurd (h.lt _ _ e) (not_lt.2 (le_of_lt hpc))
          rw [if_pos rfl, if_pos (Nat.lt_succ_self _), if_neg hpne, if_neg hnc, (hs c).2.1 p hp,
            if_neg (lt_irrefl _), if_pos hpc]
        · have hne : c.val ≠ i.val := fun e => hci (Fin.ext e)
          rw [if_neg hci]
          by_cases hch : t.IsChild i c
          · have := h.uniq _ _ _ hp hch
            subst this
            rw [if_pos hch, if_pos rfl, if_neg (by omega), if_pos (Nat.lt_succ_self _), (hs c).2.1 p hp,
              if_neg (by omega), if_neg (lt_irrefl _), zero_add, fl_of_float (fl_isFloat _)]
          · have hpi : ¬ p = i := fun e => hch (e ▸ hp)
            have hpiv : p.val ≠ i.val := fun e => hpi (Fin.ext e)
            rw [if_neg hch, if_neg hpi, (hs c).2.1 p hp]
            by_cases hlt : c.val < i.val
            · have hnc : ¬ t.IsChild i p := fun e => by
                have : i.val < p.val := h.lt _ _ e
                omega
              rw [if_pos hlt, if_pos (show c.val < i.val + 1 by omega), if_neg hnc]
            · rw [if_neg hlt, if_neg (show ¬ c.val < i.val + 1 by omega)]
              by_cases hpl : p.val < i.val
              · have hnc : ¬ t.IsChild i p := fun e => by
                  have : i.val < p.val := h.lt _ _ e
                  omega
                rw [if_pos hpl, if_pos (show p.val < i.val + 1 by omega), if_neg hnc]
              · rw [if_neg hpl, if_neg (show ¬ p.val < i.val + 1 by omega)]
      · intro e
        have hn : ¬ t.IsChild i c := fun hch => h.root_no_parent _ (e ▸ hch)
        rw [if_neg hn]
        by_cases hci : c = i
        · subst hci
          rw [if_pos rfl, if_pos (Nat.lt_succ_self _), (hs c).2.2 e, if_neg (lt_irrefl _), zero_add, e]
        · have hne : c.val ≠ i.val := fun e => hci (Fin.ext e)
          rw [if_neg hci, (hs c).2.2 e]
          by_cases hlt : c.val < i.val
          · rw [if_pos hlt, if_pos (show c.val < i.val + 1 by omega)]
          · rw [if_neg hlt, if_neg (show ¬ c.val < i.val + 1 by omega)])
  constructor
  · have := (key 0).2.2 rfl
    rw [if_pos (Fin.isLt 0)] at this
    exact this
  · intro p c hc
    have := (key c).2.1 p hc
    rw [if_pos c.isLt] at this
    exact this

/-- Sterbenz: the difference of two doubles within a factor two of each other is a double. -/
theorem sterbenz {x y : ℚ} (hx : IsFloat x) (hy : IsFloat y) (h1 : y / 2 ≤ x) (h2 : x ≤ 2 * y) :
    IsFloat (x - y) := by
  obtain ⟨m, e, hm, rfl⟩ := hx
  obtain ⟨n, f, hn, rfl⟩ := hy
  have he : (0 : ℚ) < 2 ^ e := by positivity
  have hf : (0 : ℚ) < 2 ^ f := by positivity
  rcases le_total e f with hef | hef
  · obtain ⟨k, rfl⟩ : ∃ k : ℕ, f = e + k := ⟨(f - e).toNat, by omega⟩
    have e1 : (2 : ℚ) ^ (e + (k : ℤ)) = 2 ^ k * 2 ^ e := by
      rw [zpow_add₀ (by norm_num), zpow_natCast, mul_comm]
    rw [e1] at h1 h2 ⊢
    have a1 : (n : ℚ) * 2 ^ k ≤ 2 * m := by
      have : (n : ℚ) * 2 ^ k * 2 ^ e ≤ 2 * m * 2 ^ e := by linarith
      exact le_of_mul_le_mul_right this he
    have a2 : (m : ℚ) ≤ 2 * (n * 2 ^ k) := by
      have : (m : ℚ) * 2 ^ e ≤ 2 * (n * 2 ^ k) * 2 ^ e := by linarith
      exact le_of_mul_le_mul_right this he
    refine ⟨m - n * 2 ^ k, e, ?_, by push_cast; ring⟩
    have b1 : n * 2 ^ k ≤ 2 * m := by exact_mod_cast a1
    have b2 : m ≤ 2 * (n * 2 ^ k) := by exact_mod_cast a2
    rw [abs_le] at hm ⊢
    constructor <;> linarith
  · obtain ⟨k, rfl⟩ : ∃ k : ℕ, e = f + k := ⟨(e - f).toNat, by omega⟩
    have e1 : (2 : ℚ) ^ (f + (k : ℤ)) = 2 ^ k * 2 ^ f := by
      rw [zpow_add₀ (by norm_num), zpow_natCast, mul_comm]
    rw [e1] at h1 h2 ⊢
    have a1 : (n : ℚ) ≤ 2 * (m * 2 ^ k) := by
      have : (n : ℚ) * 2 ^ f ≤ 2 * (m * 2 ^ k) * 2 ^ f := by linarith
      exact le_of_mul_le_mul_right this hf
    have a2 : (m : ℚ) * 2 ^ k ≤ 2 * n := by
      have : (m : ℚ) * 2 ^ k * 2 ^ f ≤ 2 * n * 2 ^ f := by linarith
      exact le_of_mul_le_mul_right this hf
    refine ⟨m * 2 ^ k - n, f, ?_, by push_cast; ring⟩
    have b1 : n ≤ 2 * (m * 2 ^ k) := by exact_mod_cast a1
    have b2 : m * 2 ^ k ≤ 2 * n := by exact_mod_cast a2
    rw [abs_le] at hn ⊢
    constructor <;> linarith

/-- C162: the assertion of test_change_in_impurity in doubles holds for every tree in which the impurity of a child
is zero or within a factor two of its parent's. -/
theorem C162_factor_two (h : t.WF) (imp : t.Node → ℚ) (hf : ∀ i, IsFloat (imp i))
    (h2 : ∀ p c, t.IsChild p c → imp c = 0 ∨ (imp p / 2 ≤ imp c ∧ imp c ≤ 2 * imp p)) :
    t.flRebuildImpurity (t.flChangeInImpurity imp) = imp := by
  obtain ⟨r0, r1⟩ := flRebuild_spec h (t.flChangeInImpurity imp)
  obtain ⟨c0, c1⟩ := C162_change h imp hf
  funext i
  obtain ⟨d, hd⟩ : ∃ d, t.DepthIs i d := ⟨_, depthPerNode_spec h i⟩
  induction hd with
  | root => rw [r0, c0, fl_of_float (hf 0)]
  | @child p c d hc _ ih =>
    rw [r1 p c hc, ih, c1 p c hc]
    rcases h2 p c hc with e | ⟨e1, e2⟩
    · rw [e, zero_sub, fl_of_float (hf p).neg, add_neg_cancel, fl_zero]
    · rw [fl_of_float (sterbenz (hf c) (hf p) e1 e2), add_sub_cancel, fl_of_float (hf c)]

/-- C162: the rebuilt impurities of a tree with impurities up to `M` are off by at most
`((1 + 2^-53)^depth - 1) (2 + 2^-53) M`. -/
theorem C162_error (h : t.WF) (imp : t.Node → ℚ) (hf : ∀ i, IsFloat (imp i)) (M : ℚ)
    (hM : ∀ i, 0 ≤ imp i ∧ imp i ≤ M) (i : t.Node) (d : ℕ) (hd : t.DepthIs i d) :
    |t.flRebuildImpurity (t.flChangeInImpurity imp) i - imp i| ≤
      ((1 + 1 / 2 ^ 53) ^ d - 1) * (2 + 1 / 2 ^ 53) * M := by
  obtain ⟨r0, r1⟩ := flRebuild_spec h (t.flChangeInImpurity imp)
  obtain ⟨c0, c1⟩ := C162_change h imp hf
  generalize hu : (1 : ℚ) / 2 ^ 53 = u
  have hu0 : 0 ≤ u := by rw [← hu]; positivity
  have herr : ∀ x : ℚ, |fl x - x| ≤ u * |x| := fun x => by
    rw [← hu]; calc |fl x - x| ≤ |x| / 2 ^ 53 := fl_err x
      _ = _ := by ring
  induction hd with
  | root => rw [r0, c0, fl_of_float (hf 0)]; simp
  | @child p c d hc _ ih =>
    rw [r1 p c hc, c1 p c hc]
    generalize hr : t.flRebuildImpurity (t.flChangeInImpurity imp) p = r at ih ⊢
    have hM0 : 0 ≤ M := (hM p).1.trans (hM p).2
    have a1 := herr (imp c - imp p)
    have a2 := herr (r + fl (imp c - imp p))
    have a3 : |imp c - imp p| ≤ M := by
      rw [abs_le]; constructor <;> linarith [(hM p).1, (hM p).2, (hM c).1, (hM c).2]
    have a4 : |r + fl (imp c - imp p) - imp c| ≤ |r - imp p| + u * M := by
      calc |r + fl (imp c - imp p) - imp c|
          = |(r - imp p) + (fl (imp c - imp p) - (imp c - imp p))| := by congr 1; ring
        _ ≤ |r - imp p| + |fl (imp c - imp p) - (imp c - imp p)| := abs_add_le _ _
        _ ≤ _ := by
          have := mul_le_mul_of_nonneg_left a3 hu0
          linarith
    have a5 : |r + fl (imp c - imp p)| ≤ |r - imp p| + u * M + M := by
      calc |r + fl (imp c - imp p)| = |(r + fl (imp c - imp p) - imp c) + imp c| := by congr 1; ring
        _ ≤ |r + fl (imp c - imp p) - imp c| + |imp c| := abs_add_le _ _
        _ ≤ _ := by
          rw [abs_of_nonneg (hM c).1]
          linarith [(hM c).2]
    have a6 : |fl (r + fl (imp c - imp p)) - imp c| ≤ u * |r + fl (imp c - imp p)| +
        |r + fl (imp c - imp p) - imp c| := by
      calc |fl (r + fl (imp c - imp p)) - imp c|
          = |(fl (r + fl (imp c - imp p)) - (r + fl (imp c - imp p))) +
            (r + fl (imp c - imp p) - imp c)| := by congr 1; ring
        _ ≤ _ := (abs_add_le _ _).trans (by linarith)
    have a7 := mul_le_mul_of_nonneg_left a5 hu0
    have a8 := mul_le_mul_of_nonneg_left ih (by linarith : (0 : ℚ) ≤ 1 + u)
    have e : ((1 + u) ^ (d + 1) - 1) * (2 + u) * M =
        (1 + u) * (((1 + u) ^ d - 1) * (2 + u) * M) + (2 * u + u * u) * M := by
      rw [pow_succ (1 + u) d]; ring
    rw [e]
    nlinarith

/-- Impurities `1/3`, `1/5` and `0` as doubles: the left child is within a factor two. -/
example : (∀ p c : exFlStump.Node, exFlStump.IsChild p c →
      (![fl (1 / 3), fl (1 / 5), 0] : Fin 3 → ℚ) c = 0 ∨
      ((![fl (1 / 3), fl (1 / 5), 0] : Fin 3 → ℚ) p / 2 ≤ (![fl (1 / 3), fl (1 / 5), 0] : Fin 3 → ℚ) c ∧
        (![fl (1 / 3), fl (1 / 5), 0] : Fin 3 → ℚ) c ≤ 2 * (![fl (1 / 3), fl (1 / 5), 0] : Fin 3 → ℚ) p)) ∧
    exFlStump.flChangeInImpurity ![fl (1 / 3), fl (1 / 5), 0] (1 : Fin 3) ≠ 1 / 5 - 1 / 3 := by decide +kernel

/-! ### Gini impurities -/

/-- A whole multiple of `2^-53` in `[0, 1]`. -/
def OnGrid (x : ℚ) : Prop := ∃ k : ℕ, k ≤ 2 ^ 53 ∧ x = k / 2 ^ 53

theorem grid_float (k : ℤ) (hk : |k| ≤ 2 ^ 53) : IsFloat ((k : ℚ) / 2 ^ 53) :=
  ⟨k, -53, hk, by rw [zpow_neg, div_eq_mul_inv]; norm_cast⟩

theorem OnGrid.isFloat {x : ℚ} (h : OnGrid x) : IsFloat x := by
  obtain ⟨k, hk, rfl⟩ := h
  have := grid_float (k : ℤ) (by rw [abs_of_nonneg (by positivity)]; exact_mod_cast hk)
  rwa [Int.cast_natCast] at this

theorem OnGrid.sub {x y : ℚ} (hx : OnGrid x) (hy : OnGrid y) : IsFloat (x - y) := by
  obtain ⟨k, hk, rfl⟩ := hx
  obtain ⟨l, hl, rfl⟩ := hy
  have := grid_float ((k : ℤ) - l) (by rw [abs_le]; constructor <;> omega)
  rw [← sub_div]
  rwa [Int.cast_sub, Int.cast_natCast, Int.cast_natCast] at this

theorem OnGrid.fl {x : ℚ} (h : OnGrid x) : SmoothRF.fl x = x := fl_of_float h.isFloat

/-- Subtracting a double between 0 and 1 from 1 gives a multiple of `2^-53`. -/
theorem one_sub_grid {x : ℚ} (hx : IsFloat x) (h0 : 0 ≤ x) (h1 : x ≤ 1) : OnGrid (fl (1 - x)) := by
  have e53 : (2 : ℚ) ^ (-53 : ℤ) = 1 / 2 ^ 53 := by norm_num
  rcases eq_or_lt_of_le h0 with rfl | h0
  · have : OnGrid (1 - 0) := ⟨2 ^ 53, le_rfl, by norm_num⟩
    rwa [this.fl]
  rcases le_or_gt x (1 / 2) with hh | hh
  · obtain ⟨m, e, he, a1, a2, hm⟩ := fl_pos_spec (show 0 < 1 - x by linarith)
    have hE : e = -53 := binade_unique a1 a2 (by rw [e53]; norm_num; linarith) (by rw [e53]; norm_num; linarith)
    have hr := nearInt_range a1 a2 hm
    exact ⟨m, hr.2, by rw [he, hE, e53]; ring⟩
  · obtain ⟨m, e, hm, rfl⟩ := hx
    have hpos : (0 : ℚ) < 2 ^ e := by positivity
    have hmle : (m : ℚ) ≤ 2 ^ 53 := by
      have := (abs_le.1 hm).2
      exact_mod_cast this
    have hlt : (2 : ℚ) ^ (-54 : ℤ) < 2 ^ e := by
      have : (m : ℚ) * 2 ^ e ≤ 2 ^ 53 * 2 ^ e := mul_le_mul_of_nonneg_right hmle hpos.le
      have e54 : (2 : ℚ) ^ (-54 : ℤ) = 1 / 2 ^ 54 := by norm_num
      rw [e54]
      norm_num at this ⊢
      linarith
    have hlt' : -54 < e := (zpow_lt_zpow_iff_right₀ (by norm_num)).1 hlt
    obtain ⟨k, rfl⟩ : ∃ k : ℕ, e = k + -53 := ⟨(e + 53).toNat, by omega⟩
    rw [zpow_add₀ (by norm_num), zpow_natCast, e53] at *
    have hm0 : 0 ≤ m * 2 ^ k := by
      have : (0 : ℚ) ≤ m * 2 ^ k := by
        by_contra hneg
        have : (m : ℚ) * (2 ^ k * (1 / 2 ^ 53)) < 0 := by
          rw [← mul_assoc]; exact mul_neg_of_neg_of_pos (not_le.1 hneg) (by positivity)
        linarith
      exact_mod_cast this
    obtain ⟨n, hn⟩ := Int.eq_ofNat_of_zero_le hm0
    have hnq : (m : ℚ) * 2 ^ k = n := by exact_mod_cast congrArg (Int.cast (R := ℚ)) hn
    rw [← mul_assoc, hnq] at h1 ⊢
    have hn1 : n ≤ 2 ^ 53 := by
      have : (n : ℚ) ≤ 2 ^ 53 := by
        have := mul_le_mul_of_nonneg_right h1 (show (0 : ℚ) ≤ 2 ^ 53 by positivity)
        rwa [mul_assoc, one_div, inv_mul_cancel₀ (by positivity), mul_one, one_mul] at this
      exact_mod_cast this
    have hg : OnGrid (1 - (n : ℚ) * (1 / 2 ^ 53)) := by
      refine ⟨2 ^ 53 - n, Nat.sub_le _ _, ?_⟩
      rw [Nat.cast_sub hn1]
      push_cast
      norm_num
      ring
    rwa [hg.fl]

/-- C162: every Gini impurity which scikit-learn stores is a multiple of `2^-53` between 0 and 1. -/
theorem C162_gini_grid (sq W : ℕ) (hW : 0 < W) (hW2 : W ≤ 2 ^ 26) (h : sq ≤ W * W) : OnGrid (flGini sq W) := by
  have hw : IsFloat (W : ℚ) := ⟨W, 0, by rw [abs_of_nonneg (by positivity)]; norm_cast; omega, by simp⟩
  have hww : IsFloat ((W : ℚ) * W) := by
    refine ⟨W * W, 0, ?_, by push_cast; simp⟩
    rw [abs_of_nonneg (by positivity)]
    norm_cast
    calc W * W ≤ 2 ^ 26 * 2 ^ 26 := Nat.mul_le_mul hW2 hW2
      _ ≤ 2 ^ 53 := by norm_num
  unfold flGini
  rw [fl_of_float hw, fl_of_float hww]
  have hpos : (0 : ℚ) < (W : ℚ) * W := by positivity
  have hx0 : (0 : ℚ) ≤ (sq : ℚ) / (W * W) := by positivity
  have hx1 : (sq : ℚ) / (W * W) ≤ 1 := by
    rw [div_le_one hpos]
    exact_mod_cast h
  have n0 := fl_nearest ((sq : ℚ) / (W * W)) 0 isFloat_zero
  have n1 := fl_nearest ((sq : ℚ) / (W * W)) 1 ⟨1, 0, by norm_num, by simp⟩
  rw [zero_sub, abs_neg, abs_of_nonneg hx0, abs_le] at n0
  rw [abs_of_nonneg (by linarith : (0 : ℚ) ≤ 1 - (sq : ℚ) / (W * W)), abs_le] at n1
  exact one_sub_grid (fl_isFloat _) (by linarith) (by linarith)

theorem shared_eq (h : t.WF) (i j : Fin t.nLeaves) (a : t.Node)
    (ha : t.IsLCA (t.leafNode i) (t.leafNode j) a) (l : List t.Node) (hl : t.RootPath a l) :
    t.sharedNodes i j = l := by
  have hmem : ∀ k, k ∈ t.sharedNodes i j ↔ k ∈ l := by
    intro k
    rw [RootPath.mem h hl]
    simp only [sharedNodes, List.mem_filter, List.mem_finRange, true_and, decide_eq_true_eq,
      decisionLeaf_spec h]
    constructor
    · rintro ⟨h1, h2⟩
      refine ha.2.2 k ?_ ?_
      · by_contra hn; simp [hn] at h1
      · by_contra hn; simp [hn] at h2
    · intro hk
      simp [hk.trans ha.1, hk.trans ha.2.1]
  have s1 : (t.sharedNodes i j).Pairwise (· < ·) := (List.pairwise_lt_finRange _).filter _
  have s2 := (rootPath_sorted h hl).1
  exact ((List.perm_ext_iff_of_nodup (s1.imp fun h => ne_of_lt h) (s2.imp fun h => ne_of_lt h)).2 hmem).eq_of_pairwise
    (fun _ _ _ _ h1 h2 => absurd h1 (lt_asymm h2)) s1 s2

theorem flQ_grid (h : t.WF) (imp : t.Node → ℚ) (hg : ∀ i, OnGrid (imp i)) (w : t.Node → ℚ)
    (h0 : w 0 = imp 0) (hw : ∀ p c, t.IsChild p c → w c = imp c - imp p) (rev : Bool)
    (i j : Fin t.nLeaves) (a : t.Node) (ha : t.IsLCA (t.leafNode i) (t.leafNode j) a) :
    t.flQ rev w i j = imp a := by
  obtain ⟨l, hl, -⟩ := (plusParent_row h a)
  unfold flQ
  rw [shared_eq h i j a ha l hl]
  cases rev with
  | false =>
    simp only [Bool.false_eq_true, if_false]
    clear ha
    induction hl with
    | root => simp [flSum, h0, (hg 0).fl]
    | @child p c l hc _ ih =>
      rw [List.map_append]
      unfold flSum at ih ⊢
      rw [List.foldl_append, ih]
      simp [hw p c hc, (hg c).fl]
  | true =>
    simp only [if_true]
    have key : ∀ {p : t.Node} {l : List t.Node}, t.RootPath p l → ∀ y, OnGrid y →
        (l.reverse.map w).foldl (fun r x => fl (r + x)) (y - imp p) = y := by
      intro p l hl
      induction hl with
      | root => intro y hy; simp [h0, hy.fl]
      | @child p c l hc _ ih =>
        intro y hy
        have e : y - imp c + (imp c - imp p) = y - imp p := by ring
        simp only [List.reverse_append, List.reverse_singleton, List.singleton_append, List.map_cons,
          List.foldl_cons, hw p c hc, e]
        rw [fl_of_float (hy.sub (hg p))]
        exact ih y hy
    have := key hl (imp a) (hg a)
    rw [sub_self] at this
    exact this

/-- C162: with Gini impurities nothing is rounded: changes in impurity, the impurities rebuilt from them (the
assertion of test_change_in_impurity) and impurity distances in doubles are those of exact arithmetic. -/
theorem C162_gini_exact (h : t.WF) (sq W : t.Node → ℕ) (hW : ∀ i, 0 < W i ∧ W i ≤ 2 ^ 26)
    (hsq : ∀ i, sq i ≤ W i * W i) (imp : t.Node → ℚ) (himp : ∀ i, imp i = flGini (sq i) (W i)) :
    t.flChangeInImpurity imp = t.changeInImpurity imp ∧
    t.flRebuildImpurity (t.flChangeInImpurity imp) = imp ∧
    ∀ rev s i j, t.flDistImpurity rev imp s i j = t.distImpurity imp s i j := by
  have hg : ∀ i, OnGrid (imp i) := fun i => himp i ▸ C162_gini_grid _ _ (hW i).1 (hW i).2 (hsq i)
  have hf : ∀ i, IsFloat (imp i) := fun i => (hg i).isFloat
  obtain ⟨c0, c1⟩ := C162_change h imp hf
  obtain ⟨e0, e1⟩ := changeInImpurity_spec h imp
  have c1' : ∀ p c, t.IsChild p c → t.flChangeInImpurity imp c = imp c - imp p := fun p c hc => by
    rw [c1 p c hc, fl_of_float ((hg c).sub (hg p))]
  have hch : t.flChangeInImpurity imp = t.changeInImpurity imp := by
    funext i
    by_cases hi : i = 0
    · rw [hi, c0, e0]
    · obtain ⟨p, hp⟩ := h.parent i hi
      rw [c1' p i hp, e1 p i hp]
  refine ⟨hch, ?_, ?_⟩
  · obtain ⟨r0, r1⟩ := flRebuild_spec h (t.flChangeInImpurity imp)
    funext i
    obtain ⟨d, hd⟩ : ∃ d, t.DepthIs i d := ⟨_, depthPerNode_spec h i⟩
    induction hd with
    | root => rw [r0, c0, (hg 0).fl]
    | @child p c d hc _ ih => rw [r1 p c hc, ih, c1' p c hc, add_sub_cancel, (hg c).fl]
  · intro rev s i j
    have key : ∀ i j, -(fl (t.flQ rev (t.flChangeInImpurity imp) i i - t.flQ rev (t.flChangeInImpurity imp) i j)) =
        -(t.Qmat (t.changeInImpurity imp) i i - t.Qmat (t.changeInImpurity imp) i j) := by
      intro i j
      obtain ⟨a, ha⟩ := exists_lca h (t.leafNode i) (t.leafNode j)
      rw [flQ_grid h imp hg _ c0 c1' rev i j a ha, flQ_grid h imp hg _ c0 c1' rev i i _ (isLCA_self _),
        fl_of_float ((hg _).sub (hg _)), Qmat_eq h _ i j ha, Qmat_eq h _ i i (isLCA_self _),
        sum_changeInImpurity h, sum_changeInImpurity h]
    simp only [flDistImpurity, distImpurity]
    congr 1
    funext i j
    exact key i j

/-- C162: the stored Gini impurity is the Gini impurity up to `2^-52`. -/
theorem C162_gini_error (sq W : ℕ) (hW : 0 < W) (hW2 : W ≤ 2 ^ 26) (h : sq ≤ W * W) :
    |flGini sq W - (1 - (sq : ℚ) / (W * W))| ≤ 1 / 2 ^ 52 := by
  have hw : IsFloat (W : ℚ) := ⟨W, 0, by rw [abs_of_nonneg (by positivity)]; norm_cast; omega, by simp⟩
  have hww : IsFloat ((W : ℚ) * W) := by
    refine ⟨W * W, 0, ?_, by push_cast; simp⟩
    rw [abs_of_nonneg (by positivity)]
    norm_cast
    calc W * W ≤ 2 ^ 26 * 2 ^ 26 := Nat.mul_le_mul hW2 hW2
      _ ≤ 2 ^ 53 := by norm_num
  have hpos : (0 : ℚ) < (W : ℚ) * W := by positivity
  have hx0 : (0 : ℚ) ≤ (sq : ℚ) / (W * W) := by positivity
  have hx1 : (sq : ℚ) / (W * W) ≤ 1 := by
    rw [div_le_one hpos]
    exact_mod_cast h
  have hg := C162_gini_grid sq W hW hW2 h
  unfold flGini at hg ⊢
  rw [fl_of_float hw, fl_of_float hww] at hg ⊢
  have h1 := fl_err ((sq : ℚ) / (W * W))
  have h2 := fl_err (1 - fl ((sq : ℚ) / (W * W)))
  rw [_root_.abs_of_nonneg hx0] at h1
  generalize fl (1 - fl ((sq : ℚ) / (W * W))) = v at *
  generalize fl ((sq : ℚ) / (W * W)) = y at *
  generalize (sq : ℚ) / (W * W) = x at *
  have h3 : |1 - y| ≤ 1 := by
    obtain ⟨l, u⟩ := _root_.abs_le.1 h1
    norm_num at l u
    rw [_root_.abs_le]
    constructor <;> linarith
  obtain ⟨l, u⟩ := _root_.abs_le.1 h1
  obtain ⟨l', u'⟩ := _root_.abs_le.1 (h2.trans (div_le_div_of_nonneg_right h3 (by norm_num)))
  norm_num at l u l' u' ⊢
  rw [_root_.abs_le]
  constructor <;> linarith

/-- Three classes: 12 observations (5, 4, 3), split into (5, 0, 0) and (0, 4, 3). -/
example : (List.ofFn (exFlStump.flDistImpurity true ![flGini 50 12, flGini 25 5, flGini 25 7] .standard ⟨0, by decide⟩)) =
    [0, flGini 50 12] ∧ flGini 50 12 ≠ 94 / 144 := by decide +kernel

/-- C162: the stored variance is the variance up to `2^-49` times the mean square. -/
theorem C162_variance_error (sq sum W : ℚ) (h : (sum / W) ^ 2 ≤ sq / W) :
    |flVariance sq sum W - (sq / W - (sum / W) ^ 2)| ≤ sq / W / 2 ^ 49 := by
  have hA : 0 ≤ sq / W := le_trans (sq_nonneg _) h
  have h1 := fl_err (sq / W)
  have h2 := fl_err (sum / W)
  have h3 := fl_err (fl (sum / W) * fl (sum / W))
  have h4 := fl_err (fl (sq / W) - fl (fl (sum / W) * fl (sum / W)))
  unfold flVariance
  rw [_root_.abs_of_nonneg hA] at h1
  generalize fl (fl (sq / W) - fl (fl (sum / W) * fl (sum / W))) = v at *
  generalize fl (fl (sum / W) * fl (sum / W)) = b2 at *
  generalize fl (sq / W) = a at *
  generalize fl (sum / W) = b at *
  generalize sq / W = A at *
  generalize sum / W = B at *
  have e0 : |b * b - B ^ 2| ≤ A * (3 / 2 ^ 53) := by
    have : b * b - B ^ 2 = (b - B) * (b - B) + 2 * (B * (b - B)) := by ring
    have hB : |B| * |B| = B ^ 2 := by rw [abs_mul_abs_self]; ring
    have q1 : |(b - B) * (b - B)| ≤ B ^ 2 / 2 ^ 106 := by
      rw [abs_mul]
      refine (mul_le_mul h2 h2 (abs_nonneg _) (by positivity)).trans (le_of_eq ?_)
      rw [div_mul_div_comm, hB]; norm_num
    have q2 : |2 * (B * (b - B))| ≤ 2 * (B ^ 2 / 2 ^ 53) := by
      rw [abs_mul, abs_mul, abs_two]
      refine mul_le_mul_of_nonneg_left ?_ (by norm_num)
      refine (mul_le_mul_of_nonneg_left h2 (abs_nonneg _)).trans (le_of_eq ?_)
      rw [mul_div_assoc', hB]
    rw [this]
    refine (abs_add_le _ _).trans ?_
    have : (0 : ℚ) ≤ B ^ 2 := sq_nonneg _
    norm_num at q1 q2 ⊢
    linarith
  have e1 : |b * b| ≤ A * 2 := by
    have : (0 : ℚ) ≤ B ^ 2 := sq_nonneg _
    obtain ⟨l, u⟩ := _root_.abs_le.1 e0
    rw [_root_.abs_of_nonneg (mul_self_nonneg b)]
    norm_num at u
    linarith
  have e2 : |b2 - b * b| ≤ A * 2 / 2 ^ 53 := h3.trans (by gcongr)
  have e3 : |a - b2| ≤ A * 3 := by
    obtain ⟨l1, u1⟩ := _root_.abs_le.1 h1
    obtain ⟨l2, u2⟩ := _root_.abs_le.1 e0
    obtain ⟨l3, u3⟩ := _root_.abs_le.1 e2
    have : (0 : ℚ) ≤ B ^ 2 := sq_nonneg _
    norm_num at l1 u1 l2 u2 l3 u3
    rw [_root_.abs_le]
    constructor <;> linarith
  have e4 : |v - (a - b2)| ≤ A * 3 / 2 ^ 53 := h4.trans (by gcongr)
  obtain ⟨l1, u1⟩ := _root_.abs_le.1 h1
  obtain ⟨l2, u2⟩ := _root_.abs_le.1 e0
  obtain ⟨l3, u3⟩ := _root_.abs_le.1 e2
  obtain ⟨l4, u4⟩ := _root_.abs_le.1 e4
  norm_num at l1 u1 l2 u2 l3 u3 l4 u4 ⊢
  rw [_root_.abs_le]
  constructor <;> linarith

/-- The values 0, 0, 1: the exact variance is 2/9, the stored one is not. -/
example : ((1 : ℚ) / 3) ^ 2 ≤ 1 / 3 ∧ flVariance 1 1 3 ≠ 2 / 9 ∧ flVariance 10 4 4 = 3 / 2 := by
  constructor <;> decide +kernel

/-- C162: the same assertion fails for the variance, the impurity of regression trees: four observations
`0, 0, 1, 3`, the first three in the left child. -/
theorem C162_refuted : ∃ (t : Topo) (imp : t.Node → ℚ), t.WF ∧ (∀ i, IsFloat (imp i)) ∧
    (imp = fun i => if i.val = 0 then flVariance 10 4 4 else if i.val = 1 then flVariance 1 1 3
      else flVariance 9 3 1) ∧
    t.flRebuildImpurity (t.flChangeInImpurity imp) ≠ imp :=
  ⟨exFlStump, fun i => if i.val = 0 then flVariance 10 4 4 else if i.val = 1 then flVariance 1 1 3
      else flVariance 9 3 1, by decide, fun i => by
      dsimp only
      split
      · exact fl_isFloat _
      · split <;> exact fl_isFloat _, rfl, fun e => by
      have := congrFun e (1 : Fin 3)
      revert this
      decide +kernel⟩

/-- C162: two leaves at distance zero in exact arithmetic may be at a positive distance in doubles, so that they
fall into different levels (C11 isolates the distance zero). -/
theorem C162_zero_lost : ∃ (t : Topo) (imp : t.Node → ℚ) (i j : Fin t.nLeaves), t.WF ∧ (∀ i, IsFloat (imp i)) ∧
    t.distImpurity imp .standard i j = 0 ∧ ∀ rev, t.flDistImpurity rev imp .standard i j ≠ 0 :=
  ⟨exTopo2, ![fl (1 / 3), 0, fl (2 / 3), 0, 1, 0, fl (1 / 3)], ⟨3, by decide⟩, ⟨0, by decide⟩, by decide, by
      intro i
      have : ∀ i : Fin 7, fl ((![fl (1 / 3), 0, fl (2 / 3), 0, 1, 0, fl (1 / 3)] : Fin 7 → ℚ) i) =
        (![fl (1 / 3), 0, fl (2 / 3), 0, 1, 0, fl (1 / 3)] : Fin 7 → ℚ) i := by decide +kernel
      exact this i ▸ fl_isFloat _, by decide +kernel, by decide +kernel⟩

end SmoothRF
