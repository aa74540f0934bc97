import Verif.Model.Impurity
import Verif.Proofs.Discretise
import Verif.Proofs.Gamma2
import Verif.Proofs.Sgd

/-! Lemmas for C94–C96. -/

set_option linter.unusedSectionVars false

namespace SmoothRF

variable {K : Type} [Field K] [LinearOrder K] [IsStrictOrderedRing K]

theorem withInf_length (b : List K) : (withInf b).length = b.length := by simp [withInf]

/-- The break vector is the shared one, or the shared one with the tree's own `upper_zero` inserted. -/
theorem mkBreaks_shape {levels pos : List K} {br : List (Ext K)} (h : mkBreaks levels pos = .ok br)
    (hp0 : ∀ x ∈ pos, 0 < x) :
    br = withInf (sortedSet levels) ∨ ∃ u k, 0 < u ∧ (∃ d ∈ pos, u < d) ∧
      br = (withInf (sortedSet levels)).take k ++ [fin u] ++ (withInf (sortedSet levels)).drop k := by
  unfold mkBreaks at h
  rcases pos with _ | ⟨p, ps⟩
  · cases h
  simp only at h
  split at h
  · cases h
  have hb := (Except.ok.inj h).symm
  obtain ⟨hmin, hmem⟩ := foldl_min_spec p ps
  have hpos := hp0 _ hmem
  have hlt : min (ps.foldl min p) 2 / 2 < ps.foldl min p := by
    have := min_le_left (ps.foldl min p) 2
    linarith
  split at hb
  · exact Or.inr ⟨_, _, by have : 0 < min (ps.foldl min p) 2 := lt_min hpos (by norm_num)
                           linarith, ⟨_, hmem, hlt⟩, hb⟩
  · exact Or.inl hb

theorem bot_mem_of_ok {levels pos : List K} {br : List (Ext K)} (h : mkBreaks levels pos = .ok br) :
    (⊥ : Ext K) ∈ withInf (sortedSet levels) := by
  obtain ⟨x, mid, y, u, p, ps, hpos, he, -⟩ := mkBreaks_ok h
  rw [he, withInf_cons]; simp

/-- Number of breaks of a tree: that of the shared vector, or one more. -/
theorem mkBreaks_length {levels pos : List K} {br : List (Ext K)} (h : mkBreaks levels pos = .ok br)
    (hp0 : ∀ x ∈ pos, 0 < x) :
    (sortedSet levels).length ≤ br.length ∧ br.length ≤ (sortedSet levels).length + 1 := by
  rcases mkBreaks_shape h hp0 with rfl | ⟨u, k, -, -, rfl⟩
  · rw [withInf_length]; omega
  · have := congrArg List.length (List.take_append_drop k (withInf (sortedSet levels)))
    rw [withInf_length] at this
    simp only [List.length_append, List.length_singleton] at this ⊢
    omega

/-- The level of `x` against the tree's breaks and against the shared ones. -/
theorem cutLevel_shared {levels pos : List K} {br : List (Ext K)} (h : mkBreaks levels pos = .ok br)
    (hp0 : ∀ x ∈ pos, 0 < x) (x : K) :
    cutLevel (withInf (sortedSet levels)) x ≤ cutLevel br x ∧
    cutLevel br x ≤ cutLevel (withInf (sortedSet levels)) x + 1 ∧
    (x ≤ 0 → cutLevel br x = cutLevel (withInf (sortedSet levels)) x) := by
  have hbot := bot_mem_of_ok h
  set B := withInf (sortedSet levels) with hB
  have hpos : 0 < (B.filter (fun b => decide (b < fin x))).length :=
    List.length_pos_of_mem (List.mem_filter.2 ⟨hbot, by simpa using bot_lt_fin x⟩)
  rcases mkBreaks_shape h hp0 with rfl | ⟨u, k, hu, -, rfl⟩
  · exact ⟨le_rfl, Nat.le_succ _, fun _ => rfl⟩
  · unfold cutLevel
    rw [← hB]
    have hs : (B.filter (fun b => decide (b < fin x))).length =
        ((B.take k).filter (fun b => decide (b < fin x))).length +
        ((B.drop k).filter (fun b => decide (b < fin x))).length := by
      rw [← List.length_append, ← List.filter_append, List.take_append_drop]
    rw [List.filter_append, List.filter_append, List.length_append, List.length_append]
    by_cases hx : u < x
    · have : (List.filter (fun b => decide (b < fin x)) [fin u]).length = 1 := by
        simp [fin_lt, hx]
      rw [this]
      refine ⟨by omega, by omega, fun h0 => absurd (hu.trans hx) (not_lt.2 h0)⟩
    · have : (List.filter (fun b => decide (b < fin x)) [fin u]).length = 0 := by
        simp [fin_lt, not_lt.1 hx]
      rw [this]
      refine ⟨by omega, by omega, fun _ => by omega⟩

namespace SkTree
variable {C : ℕ}

theorem impLevels_arr (t : SkTree K C) (s : Topo.Style) (l : List K) :
    t.impLevels s (.arr l) = discretise l (t.impDist s) := rfl

theorem impStep_ok {kind : Kind} {s : Topo.Style} {pa : Bool} {lv : List K} {width : ℕ}
    {acc G : GE K C} {t : SkTree K C} {k : ℕ}
    (h : impStep kind s pa lv width acc (t, k) = .ok G) :
    ∃ lev L, discretise lv (t.impDist s) = .ok (lev, L) ∧
      t.maxDist (fun i j => (lev i j : ℤ)) + 1 ≤ width ∧
      G = { gamma := fun c => acc.gamma c ++
              (t.gammaTree kind pa (fun i j => (lev i j : ℤ)) c).map (padRow pa width)
            eta := acc.eta ++ (t.etaTree pa (fun i j => (lev i j : ℤ))).map (padRow pa width)
            tIdx := acc.tIdx ++ List.replicate t.nLeaves k } := by
  unfold impStep at h
  obtain ⟨⟨lev, L⟩, hd, h⟩ := bind_ok h
  simp only at h
  split at h
  · cases h
  · rename_i hw
    exact ⟨lev, L, hd, by omega, (Except.ok.inj h).symm⟩

theorem impStep_run {kind : Kind} {s : Topo.Style} {pa : Bool} {lv : List K} {width : ℕ}
    {acc : GE K C} {t : SkTree K C} {k : ℕ} {lev : Fin t.nLeaves → Fin t.nLeaves → ℕ} {L : ℕ}
    (hd : discretise lv (t.impDist s) = .ok (lev, L))
    (hw : t.maxDist (fun i j => (lev i j : ℤ)) + 1 ≤ width) :
    impStep kind s pa lv width acc (t, k) = .ok
      { gamma := fun c => acc.gamma c ++
              (t.gammaTree kind pa (fun i j => (lev i j : ℤ)) c).map (padRow pa width)
        eta := acc.eta ++ (t.etaTree pa (fun i j => (lev i j : ℤ))).map (padRow pa width)
        tIdx := acc.tIdx ++ List.replicate t.nLeaves k } := by
  unfold impStep
  simp only [impLevels_arr, hd, bind, Except.bind]
  rw [if_neg (by omega)]
  rfl

/-- Every level of a tree is a column of a matrix as wide as any tree's number of breaks. -/
theorem lev_lt {n m : ℕ} {lv : List K} {o0 : Fin n → Fin n → K} {o : Fin m → Fin m → K}
    {lev0 : Fin n → Fin n → ℕ} {L0 : ℕ} {lev : Fin m → Fin m → ℕ} {L : ℕ}
    (h0 : discretise lv o0 = .ok (lev0, L0)) (h : discretise lv o = .ok (lev, L)) (i j : Fin m) :
    lev i j < L0 := by
  obtain ⟨br0, hb0, rfl, rfl⟩ := discretise_ok h0
  obtain ⟨br, hb, rfl, rfl⟩ := discretise_ok h
  have a := mkBreaks_length hb0 (fun x hx => ((mem_positives o0 x).1 hx).1)
  have b := mkBreaks_length hb (fun x hx => ((mem_positives o x).1 hx).1)
  obtain ⟨hbot, htop⟩ := mkBreaks_bot_top hb
  have := cutLevel_bound br hbot htop (o i j)
  show cutLevel br (o i j) < _
  omega

theorem maxDist_lt (t : SkTree K C) (lev : Fin t.nLeaves → Fin t.nLeaves → ℕ) (W : ℕ)
    (hW : 0 < W) (h : ∀ i j, lev i j < W) : t.maxDist (fun i j => (lev i j : ℤ)) + 1 ≤ W := by
  rcases t.maxDist_attained (fun i j => (lev i j : ℤ)) with e | ⟨i, j, e⟩
  · omega
  · have := h i j
    rw [e]; simp only [Int.toNat_natCast]; omega

theorem fold_ok {kind : Kind} {s : Topo.Style} {pa : Bool} {lv : List K} {width : ℕ}
    (forest : List (SkTree K C)) (k : ℕ) (acc : GE K C)
    (lev : (t : SkTree K C) → Fin t.nLeaves → Fin t.nLeaves → ℕ)
    (hd : ∀ t ∈ forest, ∃ L, discretise lv (t.impDist s) = .ok (lev t, L))
    (hw : ∀ t ∈ forest, t.maxDist (fun i j => (lev t i j : ℤ)) + 1 ≤ width) :
    ∃ G, (forest.zipIdx k).foldlM (impStep kind s pa lv width) acc = .ok G ∧
      (∀ c, G.gamma c = acc.gamma c ++ forest.flatMap fun t =>
        (t.gammaTree kind pa (fun i j => (lev t i j : ℤ)) c).map (padRow pa width)) ∧
      G.eta = (acc.eta ++ forest.flatMap fun t =>
        (t.etaTree pa (fun i j => (lev t i j : ℤ))).map (padRow pa width)) ∧
      G.tIdx = (acc.tIdx ++ (forest.zipIdx k).flatMap fun tt => List.replicate tt.1.nLeaves tt.2) := by
  induction forest generalizing k acc with
  | nil => exact ⟨acc, rfl, by simp, by simp, by simp⟩
  | cons t ts ih =>
    obtain ⟨L, hL⟩ := hd t (by simp)
    rw [List.zipIdx_cons, List.foldlM_cons, impStep_run hL (hw t (by simp))]
    obtain ⟨G, hG, h1, h2, h3⟩ := ih (k + 1) _ (fun t ht => hd t (by simp [ht]))
      (fun t ht => hw t (by simp [ht]))
    refine ⟨G, hG, fun c => ?_, ?_, ?_⟩
    · rw [h1 c]; simp
    · rw [h2]; simp
    · rw [h3]; simp

theorem fold_inv {kind : Kind} {s : Topo.Style} {pa : Bool} {lv : List K} {width : ℕ}
    (forest : List (SkTree K C)) (k : ℕ) (acc G : GE K C)
    (h : (forest.zipIdx k).foldlM (impStep kind s pa lv width) acc = .ok G) :
    ∀ t ∈ forest, ∃ lev L, discretise lv (t.impDist s) = .ok (lev, L) := by
  induction forest generalizing k acc with
  | nil => simp
  | cons t ts ih =>
    rw [List.zipIdx_cons, List.foldlM_cons] at h
    obtain ⟨acc', h1, h2⟩ := bind_ok h
    obtain ⟨lev, L, hd, -, -⟩ := impStep_ok h1
    intro t' ht'
    rcases List.mem_cons.1 ht' with rfl | ht'
    · exact ⟨lev, L, hd⟩
    · exact ih _ _ h2 t' ht'

end SkTree

/-! ### quantiles -/

theorem getD_lt {s : List K} {i : ℕ} (h : i < s.length) : s.getD i 0 = s[i] := by
  simp [List.getD, h]

/-- Sorted lists are monotone in the index. -/
theorem sorted_getD {s : List K} (hs : s.Pairwise (· ≤ ·)) {a b : ℕ} (hab : a ≤ b) (hb : b < s.length) :
    s.getD a 0 ≤ s.getD b 0 := by
  rw [getD_lt (lt_of_le_of_lt hab hb), getD_lt hb]
  rcases eq_or_lt_of_le hab with rfl | h
  · exact le_rfl
  · exact List.pairwise_iff_getElem.1 hs a b _ _ h

theorem sorted_unique {s s' : List K} (hp : s.Perm s') (h : s.Pairwise (· ≤ ·))
    (h' : s'.Pairwise (· ≤ ·)) : s = s' :=
  hp.eq_of_pairwise (fun _ _ _ _ h1 h2 => le_antisymm h1 h2) h h'

/-- Position of the virtual index. -/
theorem quantile_index {n levels k : ℕ} (hl : 0 < levels) (hk : k ≤ levels) :
    (n - 1) * k / levels ≤ n - 1 ∧ ((n - 1) * k / levels = n - 1 → (n - 1) * k % levels = 0) := by
  have h1 : (n - 1) * k ≤ (n - 1) * levels := Nat.mul_le_mul_left _ hk
  have h2 : (n - 1) * k / levels ≤ n - 1 := by
    have := Nat.div_le_div_right (c := levels) h1
    rwa [Nat.mul_div_cancel _ hl] at this
  refine ⟨h2, fun e => ?_⟩
  have h3 := Nat.div_add_mod ((n - 1) * k) levels
  rw [e, Nat.mul_comm] at h3
  omega

/-- The quantile is the convex combination of two consecutive order statistics. -/
theorem quantileAt_between (vals : List K) (levels k : ℕ) (hv : vals ≠ []) (hl : 0 < levels)
    (hk : k ≤ levels) :
    let s := vals.insertionSort (· ≤ ·)
    let a := (s.length - 1) * k / levels
    a < s.length ∧ s.getD a 0 ≤ quantileAt vals levels k ∧
      quantileAt vals levels k ≤ s.getD (min (a + 1) (s.length - 1)) 0 ∧
      ((s.length - 1) * k % levels = 0 → quantileAt vals levels k = s.getD a 0) := by
  intro s a
  have hs : s.Pairwise (· ≤ ·) := List.pairwise_insertionSort _ _
  have hn : 0 < s.length := by
    rw [List.length_insertionSort]; exact List.length_pos_iff.2 hv
  obtain ⟨h1, h2⟩ := quantile_index (n := s.length) hl hk
  have ha : a ≤ s.length - 1 := h1
  have hmono : s.getD a 0 ≤ s.getD (min (a + 1) (s.length - 1)) 0 :=
    sorted_getD hs (le_min (Nat.le_succ _) ha) (by omega)
  have hlK : (0 : K) < levels := by exact_mod_cast hl
  have hr0 : (0 : K) ≤ (((s.length - 1) * k % levels : ℕ) : K) / levels := by positivity
  have hr1 : (((s.length - 1) * k % levels : ℕ) : K) / levels ≤ 1 := by
    rw [div_le_one hlK]
    exact_mod_cast (Nat.mod_lt _ hl).le
  have e : quantileAt vals levels k = s.getD a 0 + (((s.length - 1) * k % levels : ℕ) : K) / levels *
      (s.getD (min (a + 1) (s.length - 1)) 0 - s.getD a 0) := rfl
  refine ⟨by omega, ?_, ?_, ?_⟩
  · rw [e]
    have := mul_nonneg hr0 (sub_nonneg.2 hmono)
    linarith
  · rw [e]
    have := mul_le_mul_of_nonneg_right hr1 (sub_nonneg.2 hmono)
    linarith
  · intro h0
    rw [e, h0]; simp

theorem quantileAt_mono (vals : List K) (levels k k' : ℕ) (hv : vals ≠ []) (hl : 0 < levels)
    (hkk : k ≤ k') (hk' : k' ≤ levels) : quantileAt vals levels k ≤ quantileAt vals levels k' := by
  obtain ⟨ha, h1, h2, h3⟩ := quantileAt_between vals levels k hv hl (hkk.trans hk')
  obtain ⟨ha', h1', h2', h3'⟩ := quantileAt_between vals levels k' hv hl hk'
  set s := vals.insertionSort (· ≤ ·) with hsdef
  have hs : s.Pairwise (· ≤ ·) := List.pairwise_insertionSort _ _
  have hvv : (s.length - 1) * k ≤ (s.length - 1) * k' := Nat.mul_le_mul_left _ hkk
  have hdd := Nat.div_le_div_right (c := levels) hvv
  rcases eq_or_lt_of_le hdd with e | hlt
  · have hmod : (s.length - 1) * k % levels ≤ (s.length - 1) * k' % levels := by
      have x1 := Nat.div_add_mod ((s.length - 1) * k) levels
      have x2 := Nat.div_add_mod ((s.length - 1) * k') levels
      rw [← e] at x2; omega
    have hn : 0 < s.length := Nat.zero_lt_of_lt ha
    have hlK : (0 : K) < levels := by exact_mod_cast hl
    have hmono : s.getD ((s.length - 1) * k / levels) 0 ≤
        s.getD (min ((s.length - 1) * k / levels + 1) (s.length - 1)) 0 :=
      sorted_getD hs (le_min (Nat.le_succ _) (by omega)) (by omega)
    have hfr : (((s.length - 1) * k % levels : ℕ) : K) / levels ≤
        (((s.length - 1) * k' % levels : ℕ) : K) / levels := by
      apply div_le_div_of_nonneg_right _ hlK.le
      exact_mod_cast hmod
    have hm := mul_le_mul_of_nonneg_right hfr (sub_nonneg.2 hmono)
    show s.getD ((s.length - 1) * k / levels) 0 + (((s.length - 1) * k % levels : ℕ) : K) / levels *
      (s.getD (min ((s.length - 1) * k / levels + 1) (s.length - 1)) 0 -
        s.getD ((s.length - 1) * k / levels) 0) ≤
      s.getD ((s.length - 1) * k' / levels) 0 + (((s.length - 1) * k' % levels : ℕ) : K) / levels *
      (s.getD (min ((s.length - 1) * k' / levels + 1) (s.length - 1)) 0 -
        s.getD ((s.length - 1) * k' / levels) 0)
    rw [← e]
    linarith
  · refine h2.trans (le_trans ?_ h1')
    exact sorted_getD hs ((min_le_left _ _).trans hlt) ha'

/-- Lower bound for a count from a block of positions. -/
theorem countP_take_ge {α : Type} (p : α → Bool) (l : List α) (k : ℕ) (hk : k ≤ l.length)
    (h : ∀ x ∈ l.take k, p x) : k ≤ l.countP p := by
  have h1 : (l.take k).countP p = k := by
    rw [List.countP_eq_length.2 h, List.length_take, min_eq_left hk]
  have := (List.take_sublist k l).countP_le (p := p)
  omega

theorem countP_drop_ge {α : Type} (p : α → Bool) (l : List α) (k : ℕ)
    (h : ∀ x ∈ l.drop k, p x) : l.length - k ≤ l.countP p := by
  have h1 : (l.drop k).countP p = l.length - k := by
    rw [List.countP_eq_length.2 h, List.length_drop]
  have := (List.drop_sublist k l).countP_le (p := p)
  omega

theorem quantileAt_counts (vals : List K) (levels k : ℕ) (hv : vals ≠ []) (hl : 0 < levels)
    (hk : k ≤ levels) :
    (vals.length - 1) * k < levels * vals.countP (fun v => decide (v ≤ quantileAt vals levels k)) ∧
    (vals.length - 1) * (levels - k) <
      levels * vals.countP (fun v => decide (quantileAt vals levels k ≤ v)) := by
  obtain ⟨ha, h1, h2, h3⟩ := quantileAt_between vals levels k hv hl hk
  have hperm : (vals.insertionSort (· ≤ ·)).Perm vals := List.perm_insertionSort _ _
  rw [← hperm.countP_eq, ← hperm.countP_eq, ← hperm.length_eq]
  set s := vals.insertionSort (· ≤ ·) with hsdef
  have hs : s.Pairwise (· ≤ ·) := List.pairwise_insertionSort _ _
  set a := (s.length - 1) * k / levels with hadef
  set q := quantileAt vals levels k
  have hdm := Nat.div_add_mod ((s.length - 1) * k) levels
  rw [← hadef] at hdm
  have hml := Nat.mod_lt ((s.length - 1) * k) hl
  have hn : s.length = s.length - 1 + 1 := (Nat.succ_pred_eq_of_pos (Nat.zero_lt_of_lt ha)).symm
  have hsplit : (s.length - 1) * (levels - k) + (s.length - 1) * k = levels * (s.length - 1) := by
    rw [← Nat.mul_add, Nat.sub_add_cancel hk, Nat.mul_comm]
  constructor
  · have hc := countP_take_ge (fun v => decide (v ≤ q)) s (a + 1) ha (by
      intro x hx
      obtain ⟨i, hi, rfl⟩ := List.mem_iff_getElem.1 hx
      simp only [List.length_take] at hi
      simp only [List.getElem_take, decide_eq_true_eq]
      have := sorted_getD hs (a := i) (b := a) (by omega) ha
      rw [getD_lt (by omega)] at this
      exact this.trans h1)
    have := Nat.mul_le_mul_left levels hc
    rw [Nat.mul_add] at this
    omega
  · by_cases hr : (s.length - 1) * k % levels = 0
    · have hc := countP_drop_ge (fun v => decide (q ≤ v)) s a (by
        intro x hx
        obtain ⟨i, hi, rfl⟩ := List.mem_iff_getElem.1 hx
        simp only [List.length_drop] at hi
        simp only [List.getElem_drop, decide_eq_true_eq]
        have := sorted_getD hs (a := a) (b := a + i) (by omega) (by omega)
        rw [getD_lt (by omega : a + i < s.length)] at this
        rw [h3 hr]; exact this)
      have := Nat.mul_le_mul_left levels hc
      have e : levels * (s.length - a) = levels * (s.length - 1) + levels - levels * a := by
        rw [Nat.mul_sub]
        have : levels * s.length = levels * (s.length - 1) + levels := by
          conv_lhs => rw [hn]
          rw [Nat.mul_add, Nat.mul_one]
        omega
      have := Nat.mul_le_mul_left levels (Nat.le_sub_one_of_lt ha)
      omega
    · have ha1 : a < s.length - 1 := by
        obtain ⟨x1, x2⟩ := quantile_index (n := s.length) hl hk
        rcases eq_or_lt_of_le x1 with e | e
        · exact absurd (x2 e) hr
        · exact e
      have hc := countP_drop_ge (fun v => decide (q ≤ v)) s (a + 1) (by
        intro x hx
        obtain ⟨i, hi, rfl⟩ := List.mem_iff_getElem.1 hx
        simp only [List.length_drop] at hi
        simp only [List.getElem_drop, decide_eq_true_eq]
        rw [min_eq_left (by omega)] at h2
        have := sorted_getD hs (a := a + 1) (b := a + 1 + i) (by omega) (by omega)
        rw [getD_lt (by omega : a + 1 + i < s.length)] at this
        exact h2.trans this)
      have := Nat.mul_le_mul_left levels hc
      have e : levels * (s.length - (a + 1)) = levels * (s.length - 1) - levels * a := by
        rw [show s.length - (a + 1) = s.length - 1 - a by omega, Nat.mul_sub]
      have := Nat.mul_le_mul_left levels (Nat.le_sub_one_of_lt ha)
      omega

end SmoothRF
