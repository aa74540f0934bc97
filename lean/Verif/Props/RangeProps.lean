import Verif.Props.FitProps
import Verif.Props.ExperimentProps
import Verif.Props.AliveProps
import Verif.Props.SmoothAllProps
import Verif.Props.DepthTuneProps
import Verif.Props.CleanProps

/-! # C148: predictions of the changed forests and the range of the training responses -/

set_option linter.unusedSectionVars false

namespace SmoothRF
open SkTree Topo

variable {K : Type} [Field K] [LinearOrder K] [IsStrictOrderedRing K]

/-- Every stored value lies in `[a, b]`. -/
def ValuesIn (a b : K) (t : SkTree K 1) : Prop := ∀ i, a ≤ t.value i 0 ∧ t.value i 0 ≤ b

/-- Every tree is fitted to rows whose responses lie in `[a, b]` and weighs its leaves by rows. -/
def FittedIn (a b : K) (forest : List (SkTree K 1)) : Prop :=
  ∀ t ∈ forest, t.WF ∧ ∃ rows, FitReg t rows ∧ ∀ r ∈ rows, a ≤ r.y ∧ r.y ≤ b

/-- The row reaches a leaf in every tree. -/
def Reaches (forest : List (SkTree K 1)) (row : TestRow K) : Prop :=
  ∀ tt ∈ forest.zipIdx, row.leaf tt.2 < tt.1.nLeaves

/-- The forest's prediction for the row exists and lies in `[lo, hi]`. -/
def PredictsIn (lo hi : K) (forest : List (SkTree K 1)) (row : TestRow K) : Prop :=
  ∃ p, forestPredict .reg forest row = .ok p ∧ lo ≤ p ∧ p ≤ hi

/-- C148: the values stored in a tree fitted to responses in `[a, b]` lie in `[a, b]`. -/
theorem C148_fitted_values {t : SkTree K 1} {rows : List (OobRow t.toTopo K)} (h : FitReg t rows)
    {a b : K} (hy : ∀ r ∈ rows, a ≤ r.y ∧ r.y ≤ b) :
    ValuesIn a b t ∧ ∀ i, 0 < t.nSamp i := by
  have hpos : ∀ i, 0 < t.nSamp i := by
    intro i
    rw [h.count i]
    exact_mod_cast List.length_pos_iff.2 (h.seen i)
  have hsum : ∀ l : List (OobRow t.toTopo K), (∀ r ∈ l, a ≤ r.y ∧ r.y ≤ b) →
      (l.length : K) * a ≤ (l.map fun r => r.y).sum ∧ (l.map fun r => r.y).sum ≤ (l.length : K) * b := by
    intro l
    induction l with
    | nil => intro _; simp
    | cons x l ih =>
      intro hl
      obtain ⟨h1, h2⟩ := ih fun r hr => hl r (by simp [hr])
      obtain ⟨h3, h4⟩ := hl x (by simp)
      simp only [List.map_cons, List.sum_cons, List.length_cons]
      push_cast
      constructor <;> linarith
  refine ⟨fun i => ?_, hpos⟩
  obtain ⟨h1, h2⟩ := hsum (through rows i) fun r hr => hy r (List.mem_of_mem_filter hr)
  rw [← h.count i, ← h.mean i] at h1 h2
  exact ⟨le_of_mul_le_mul_left h1 (hpos i), le_of_mul_le_mul_left h2 (hpos i)⟩

theorem predict_range {forest : List (SkTree K 1)} (hne : forest ≠ []) {lo hi : K} {row : TestRow K}
    (hrow : Reaches forest row)
    (h : ∀ t ∈ forest, ∀ r, lo ≤ t.value (t.leafNode r) 0 ∧ t.value (t.leafNode r) 0 ≤ hi) :
    PredictsIn lo hi forest row := by
  refine ⟨_, forestPredict_reg forest row hrow, ?_⟩
  have hK : (0 : K) < forest.length := by exact_mod_cast List.length_pos_iff.2 hne
  have hl : ∀ x ∈ forest.zipIdx.map fun tt => leafVal tt.1 (row.leaf tt.2) 0, lo ≤ x ∧ x ≤ hi := by
    simp only [List.mem_map]
    rintro x ⟨tt, htt, rfl⟩
    have := hrow tt htt
    rw [leafVal, dif_pos this]
    exact h tt.1 (by
      rw [← List.zipIdx_map_fst 0 forest]; exact List.mem_map_of_mem htt) _
  have hlen : (forest.zipIdx.map fun tt => leafVal tt.1 (row.leaf tt.2) 0).length = forest.length := by
    simp
  unfold meanLeaf
  rw [le_div_iff₀ hK, div_le_iff₀ hK, ← hlen]
  generalize (forest.zipIdx.map fun tt => leafVal tt.1 (row.leaf tt.2) 0) = l at hl
  clear hlen h hrow hne hK
  induction l with
  | nil => simp
  | cons x l ih =>
    obtain ⟨h1, h2⟩ := ih fun r hr => hl r (by simp [hr])
    obtain ⟨h3, h4⟩ := hl x (by simp)
    simp only [List.sum_cons, List.length_cons]
    push_cast
    constructor <;> linarith

/-- The returned forest has the same leaves, so the row reaches one in each of its trees. -/
theorem reaches_of_update {forest rf : List (SkTree K 1)} {P : SkTree K 1 → SkTree K 1 → Prop}
    (h : List.Forall₂ P forest rf) (hP : ∀ t t', P t t' → t'.toTopo = t.toTopo) {row : TestRow K}
    (hrow : Reaches forest row) : Reaches rf row := by
  intro tt htt
  obtain ⟨t', i⟩ := tt
  rw [List.mem_zipIdx_iff_getElem?] at htt
  obtain ⟨hl, hg⟩ := List.forall₂_iff_get.1 h
  obtain ⟨hi, ht'⟩ := List.getElem?_eq_some_iff.1 htt
  have h1 := hg i (by rw [hl]; exact hi) hi
  have h2 := hrow (forest[i]'(by rw [hl]; exact hi), i) (by
    rw [List.mem_zipIdx_iff_getElem?]; exact List.getElem?_eq_getElem _)
  have h3 := hP _ _ h1
  simp only [List.get_eq_getElem] at h3
  simp only at h2 ⊢
  simp only at ht'
  rw [ht'] at h3
  rw [h3]
  exact h2

/-- Common step: if the new leaf values lie in `[lo, hi]`, so do the predictions. -/
theorem predicts_of_update {forest rf : List (SkTree K 1)} (hne : forest ≠ []) {lo hi : K}
    (h : List.Forall₂ (fun t t' => ∃ v, t' = { t with value := v } ∧
      ∀ r : Fin t.nLeaves, lo ≤ v (t.leafNode r) 0 ∧ v (t.leafNode r) 0 ≤ hi) forest rf)
    {row : TestRow K} (hrow : Reaches forest row) : PredictsIn lo hi rf row := by
  refine predict_range ?_ (reaches_of_update h (by rintro t t' ⟨v, rfl, -⟩; rfl) hrow) ?_
  · rintro rfl
    exact hne (List.forall₂_nil_right_iff.1 h)
  · intro t' ht'
    obtain ⟨i, hi, rfl⟩ := List.getElem_of_mem ht'
    obtain ⟨hl, hg⟩ := List.forall₂_iff_get.1 h
    obtain ⟨v, e, hv⟩ := hg i (by rw [hl]; exact hi) hi
    simp only [List.get_eq_getElem] at e hv
    rw [e]
    exact hv

theorem smoothSpec_range {t : SkTree K 1} {a b : K} (hv : ValuesIn a b t) (hn : ∀ i, 0 < t.nSamp i)
    (s : Style) (pa : Bool) {n : ℕ} {lamb : Fin n → K} (hl : ∀ k, 0 ≤ lamb k) (r : Fin t.nLeaves) :
    (smoothDen t s pa lamb r = 0 ∧ smoothSpec .reg t s pa lamb r 0 = 0) ∨
      (a ≤ smoothSpec .reg t s pa lamb r 0 ∧ smoothSpec .reg t s pa lamb r 0 ≤ b) := by
  by_cases hd : smoothDen t s pa lamb r = 0
  · exact Or.inl ⟨hd, by rw [smoothSpec, if_pos hd]⟩
  refine Or.inr ?_
  have hpos : 0 < smoothDen t s pa lamb r :=
    lt_of_le_of_ne (smoothDen_nonneg t _ _ _ hl (fun j => (hn _).le) r) (Ne.symm hd)
  rw [smoothSpec, if_neg hd]
  constructor
  · rw [le_div_iff₀ hpos, mul_comm, smoothDen, Finset.sum_mul]
    refine Finset.sum_le_sum fun q _ => ?_
    rw [mul_right_comm, ← levelSum_smul]
    refine mul_le_mul_of_nonneg_right (levelSum_mono _ _ _ _ (fun l => ?_) _ _) (hl q)
    exact mul_le_mul_of_nonneg_left (hv _).1 (hn _).le
  · rw [div_le_iff₀ hpos, mul_comm, smoothDen, Finset.sum_mul]
    refine Finset.sum_le_sum fun q _ => ?_
    rw [mul_right_comm _ (lamb q), ← levelSum_smul (a := b)]
    refine mul_le_mul_of_nonneg_right (levelSum_mono _ _ _ _ (fun l => ?_) _ _) (hl q)
    exact mul_le_mul_of_nonneg_left (hv _).2 (hn _).le

theorem smoothSpec_box {t : SkTree K 1} {a b : K} (hv : ValuesIn a b t) (hn : ∀ i, 0 < t.nSamp i)
    (s : Style) (pa : Bool) {n : ℕ} {lamb : Fin n → K} (hl : ∀ k, 0 ≤ lamb k) (r : Fin t.nLeaves) :
    min a 0 ≤ smoothSpec .reg t s pa lamb r 0 ∧ smoothSpec .reg t s pa lamb r 0 ≤ max b 0 := by
  rcases smoothSpec_range hv hn s pa hl r with ⟨-, e⟩ | ⟨h1, h2⟩
  · rw [e]; exact ⟨min_le_right _ _, le_max_right _ _⟩
  · exact ⟨(min_le_left _ _).trans h1, h2.trans (le_max_left _ _)⟩

/-- C148 for `smooth`: with non-negative weights (the constraint is on, C35) the first returned forest
predicts within the training range widened to include 0. -/
theorem C148_smooth {a b : K} {forest : List (SkTree K 1)} (hne : forest ≠ [])
    (hf : FittedIn a b forest) {sqrt : K → K}
    {ce : (n : ℕ) → SgdOpts K → K → List (Row K n) → List K → List ℕ →
      Except PyErr ((Fin n → K) × (Fin n → K) × List K)}
    {cfg : SmoothCfg K} {sources : TuneSrc → ℕ → List (TuneRow K 1)}
    {out : SmoothOut K 1 (forestDepth forest + 1)}
    (h : smooth sqrt ce (some .reg) forest cfg sources = .ok out) (hl : ∀ k, 0 ≤ out.lamb1 k)
    {row : TestRow K} (hrow : Reaches forest row) :
    PredictsIn (min a 0) (max b 0) out.rf1 row := by
  refine predicts_of_update hne ?_ hrow
  refine forall2_imp_mem (smooth_forests (by decide) (fun t ht => (hf t ht).1) h).1
    fun t ht t' ⟨v, e, hv, _⟩ => ⟨v, e, fun r => ?_⟩
  obtain ⟨-, rows, hfit, hy⟩ := hf t ht
  obtain ⟨h1, h2⟩ := C148_fitted_values hfit hy
  rw [hv]
  exact smoothSpec_box h1 h2 _ _ hl r

/-- C148 for `smooth` with `parents_all`, the constraint, no Adam and the default or a non-negative
random start: the training range itself. -/
theorem C148_smooth_parents_all {a b : K} {forest : List (SkTree K 1)} (hne : forest ≠ [])
    (hf : FittedIn a b forest) {sqrt : K → K}
    {ce : (n : ℕ) → SgdOpts K → K → List (Row K n) → List K → List ℕ →
      Except PyErr ((Fin n → K) × (Fin n → K) × List K)}
    {cfg : SmoothCfg K} {sources : TuneSrc → ℕ → List (TuneRow K 1)}
    {out : SmoothOut K 1 (forestDepth forest + 1)}
    (h : smooth sqrt ce (some .reg) forest cfg sources = .ok out) (hc : cfg.noConstraint = false)
    (ha : cfg.adam = none) (hs : ∀ u, cfg.seed = some u → ∀ i, 0 ≤ u i) (hpa : cfg.parentsAll = true)
    {row : TestRow K} (hrow : Reaches forest row) : PredictsIn a b out.rf1 row := by
  obtain ⟨hl, -⟩ := smooth_alive h hc ha hs
  refine predicts_of_update hne ?_ hrow
  refine forall2_imp_mem (smooth_forests (by decide) (fun t ht => (hf t ht).1) h).1
    fun t ht t' ⟨v, e, hv, _⟩ => ⟨v, e, fun r => ?_⟩
  obtain ⟨hwf, rows, hfit, hy⟩ := hf t ht
  obtain ⟨h1, h2⟩ := C148_fitted_values hfit hy
  rw [hv]
  rcases smoothSpec_range h1 h2 cfg.style cfg.parentsAll hl.1 r with ⟨hd, -⟩ | h
  · rw [hpa] at hd
    exact absurd hd (smoothDen_alive hwf (fun r => h2 _) _ hl r).ne'
  · exact h

/-- C148 for `smooth_clean` with non-negative weights. -/
theorem C148_clean {a b : K} {forest : List (SkTree K 1)} (hne : forest ≠ [])
    (hf : FittedIn a b forest) {sqrt : K → K} {approxOne : K → Bool} {y : List K}
    {leafOf : ℕ → ℕ → ℕ} {uns : ℕ → List ℕ} {cfg : CleanCfg K} {choices : List (List ℕ)}
    {rf1 : List (SkTree K 1)} {lamb : Fin (forestDepth forest + 1) → K} {c : List K}
    (h : smoothClean sqrt approxOne (some .reg) forest y leafOf uns cfg choices = .ok (rf1, lamb, c))
    (hl : ∀ k, 0 ≤ lamb k) {row : TestRow K} (hrow : Reaches forest row) :
    PredictsIn (min a 0) (max b 0) rf1 row := by
  refine predicts_of_update hne ?_ hrow
  refine forall2_imp_mem (C74_clean_rows (fun t ht => (hf t ht).1) h)
    fun t ht t' ⟨v, e, hv, _⟩ => ⟨v, e, fun r => ?_⟩
  obtain ⟨-, rows, hfit, hy⟩ := hf t ht
  obtain ⟨h1, h2⟩ := C148_fitted_values hfit hy
  rw [hv]
  exact smoothSpec_box h1 h2 _ _ hl r

/-- C148 for `smooth_all` with probability weights (any quadratic-programming routine that respects its
constraints): the training range widened to include 0, and the range itself with `parents_all`. -/
theorem C148_smooth_all {a b : K} {forest : List (SkTree K 1)} (hne : forest ≠ [])
    (hf : FittedIn a b forest) {o : AllOracles K} {fuel : ℕ} {c : AllCfg}
    {sources : TuneSrc → ℕ → List (TuneRow K 1)} {rf : List (SkTree K 1)}
    {lamb : Fin (forestDepth forest + 1) → K}
    (h : smoothAll o fuel forest c sources = .ok (some (rf, lamb)))
    (hl : ∀ k, 0 ≤ lamb k) (hs : ∑ k, lamb k = 1) {row : TestRow K} (hrow : Reaches forest row) :
    PredictsIn (min a 0) (max b 0) rf row ∧ (c.parentsAll = true → PredictsIn a b rf row) := by
  constructor
  · refine predicts_of_update hne ?_ hrow
    refine forall2_imp_mem (C64_values (fun t ht => (hf t ht).1) h)
      fun t ht t' ⟨v, e, hv, _⟩ => ⟨v, e, fun r => ?_⟩
    obtain ⟨-, rows, hfit, hy⟩ := hf t ht
    obtain ⟨h1, h2⟩ := C148_fitted_values hfit hy
    have hq : ∀ q, min a 0 ≤ levelRatio t c.parentsAll r q ∧ levelRatio t c.parentsAll r q ≤ max b 0 := by
      intro q
      unfold levelRatio
      by_cases hd : levelSum c.parentsAll (t.distDepth .standard)
          (fun j => t.nSamp (t.leafNode j)) r q = 0
      · rw [if_pos hd]; exact ⟨min_le_right _ _, le_max_right _ _⟩
      · rw [if_neg hd]
        have hpos := lt_of_le_of_ne (levelSum_nonneg c.parentsAll (t.distDepth .standard)
          (fun j => t.nSamp (t.leafNode j)) (fun j => (h2 _).le) r q) (Ne.symm hd)
        refine ⟨(min_le_left _ _).trans ?_, le_trans ?_ (le_max_left _ _)⟩
        · rw [le_div_iff₀ hpos, mul_comm, ← levelSum_smul]
          exact levelSum_mono _ _ _ _ (fun l => mul_le_mul_of_nonneg_left (h1 _).1 (h2 _).le) _ _
        · rw [div_le_iff₀ hpos, mul_comm b, ← levelSum_smul]
          exact levelSum_mono _ _ _ _ (fun l => mul_le_mul_of_nonneg_left (h1 _).2 (h2 _).le) _ _
    rw [hv]
    constructor
    · calc min a 0 = ∑ q, lamb q * min a 0 := by rw [← Finset.sum_mul, hs, one_mul]
        _ ≤ _ := Finset.sum_le_sum fun q _ => mul_le_mul_of_nonneg_left (hq q).1 (hl q)
    · calc _ ≤ ∑ q, lamb q * max b 0 :=
            Finset.sum_le_sum fun q _ => mul_le_mul_of_nonneg_left (hq q).2 (hl q)
        _ = _ := by rw [← Finset.sum_mul, hs, one_mul]
  · intro hp
    refine predicts_of_update hne ?_ hrow
    refine forall2_imp_mem (C64_range (fun t ht => (hf t ht).1) (fun t ht r => ?_) hp h hl hs)
      fun t ht t' ⟨v, e, hv⟩ => ⟨v, e, fun r => ?_⟩
    · obtain ⟨-, rows, hfit, hy⟩ := hf t ht
      exact (C148_fitted_values hfit hy).2 _
    · obtain ⟨-, rows, hfit, hy⟩ := hf t ht
      obtain ⟨h1, -⟩ := C148_fitted_values hfit hy
      obtain ⟨j, k, h3, h4⟩ := hv r
      exact ⟨(h1 _).1.trans h3, h4.trans (h1 _).2⟩

/-- C148 for `depth_tune`: the training range. -/
theorem C148_depth_tune {a b : K} {forest : List (SkTree K 1)} (hne : forest ≠ [])
    (hf : FittedIn a b forest) {data : DataArgs} {sources : TuneSrc → ℕ → List (LossRow K)}
    {out : List (SkTree K 1)} {losses : List K}
    (h : depthTune (some .reg) forest data sources = .ok (out, losses))
    {row : TestRow K} (hrow : Reaches forest row) : PredictsIn a b out row := by
  unfold depthTune at h
  obtain ⟨src, -, h⟩ := bind_ok h
  obtain ⟨s, -, h⟩ := bind_ok h
  obtain ⟨best, -, h⟩ := bind_ok h
  obtain ⟨out', hm, h⟩ := bind_ok h
  obtain ⟨rfl, -⟩ := Prod.mk.inj (Except.ok.inj h)
  refine predicts_of_update hne ?_ hrow
  obtain ⟨hlen, hget⟩ := mapM_get hm
  refine List.forall₂_iff_get.2 ⟨hlen.symm, fun i h1 h2 => ?_⟩
  obtain ⟨t', ht', hb⟩ := hget i _ (List.getElem?_eq_getElem h1)
  obtain ⟨hi, e⟩ := List.getElem?_eq_some_iff.1 ht'
  simp only [List.get_eq_getElem, e]
  have hmem : forest[i] ∈ forest := List.getElem_mem h1
  generalize forest[i] = t at hmem hb ⊢
  obtain ⟨hwf, rows, hfit, hy⟩ := hf t hmem
  obtain ⟨hv, -⟩ := C148_fitted_values hfit hy
  obtain ⟨pred, hp, hb⟩ := bind_ok hb
  split at hb
  · cases hb
  obtain ⟨vals, hvals, hb⟩ := bind_ok hb
  obtain ⟨L, hL, hLD, hrows⟩ := C50_leaf_predicted_values hwf (isTreeDepth_npMax hwf)
  rw [hL] at hp
  obtain rfl := Except.ok.inj hp
  rename_i hL0
  have hidx : min (L.length - 1) best < L.length := by omega
  obtain ⟨vs, hrow', hvl, hent⟩ := hrows (min (L.length - 1) best) (by rw [← hLD]; exact hidx)
  rw [pyGet_some hrow'] at hvals
  obtain rfl := Except.ok.inj hvals
  obtain ⟨t'', hw, v, rfl, hu, -⟩ := writeLeaves_spec t hwf vs hvl
  rw [hw] at hb
  obtain rfl := Except.ok.inj hb
  refine ⟨v, rfl, fun r => ?_⟩
  obtain ⟨n, -, -, he⟩ := hent r
  rw [hu]
  obtain ⟨h3, h4⟩ := List.getElem?_eq_some_iff.1 he
  show a ≤ vs[r.val] 0 ∧ vs[r.val] 0 ≤ b
  rw [h4]
  exact hv n

/-! ### Instances -/

/-- A stump fitted to the responses 2 and 3. -/
abbrev exFitStump : SkTree ℚ 1 :=
  { toTopo := ⟨2, ![some 1, none, none], ![some 2, none, none]⟩
    value := fun i _ => ![5 / 2, 2, 3] i
    nSamp := ![2, 1, 1]
    impurity := ![1 / 4, 0, 0] }

@[inherit_doc exFitStump]
abbrev exFitStumpRows : List (OobRow exFitStump.toTopo ℚ) :=
  [⟨![true, true, false], 2⟩, ⟨![true, false, true], 3⟩]

theorem exFitStump_fit : FitReg exFitStump exFitStumpRows :=
  ⟨by decide +kernel, by decide +kernel, by decide +kernel, by decide +kernel, by decide +kernel⟩

/-- Both trees are fitted to responses between 1 and 11. -/
theorem exFitted : FittedIn 1 11 [exFitStump, exFit] := by
  intro t ht
  rcases List.mem_cons.1 ht with rfl | ht
  · exact ⟨by decide, exFitStumpRows, exFitStump_fit, by decide +kernel⟩
  · obtain rfl := List.mem_singleton.1 ht
    exact ⟨by decide, exFitRows, exFit_fit, by decide +kernel⟩

/-- Tuning rows: the deep leaves of the second tree see 10, all other leaves see 0. -/
abbrev exRangeTune (i : ℕ) : List (TuneRow ℚ 1) :=
  if i = 0 then [⟨0, fun _ => 0⟩, ⟨1, fun _ => 0⟩]
  else [⟨0, fun _ => 10⟩, ⟨1, fun _ => 10⟩, ⟨2, fun _ => 0⟩]

/-- A row reaching the first leaf of the stump and the third of the deeper tree. -/
abbrev exRangeRow : TestRow ℚ := ⟨fun i => if i = 0 then 0 else 2, 5⟩

/-- A constrained run of `smooth` with one step. -/
abbrev exRangeCfg (pa : Bool) : SmoothCfg ℚ :=
  { exCfg with sanityCheck := false, noConstraint := false, steps := [1], parentsAll := pa }

theorem exReaches : Reaches [exFitStump, exFit] exRangeRow := by
  intro tt htt
  simp only [List.zipIdx_cons, List.zipIdx_nil, List.mem_cons, List.not_mem_nil, or_false] at htt
  rcases htt with rfl | rfl <;> decide

/-- C148: without `parents_all` 0 cannot be left out. After one constrained step the weights sit on the
deepest level, which is empty around shallow leaves: the row is predicted 0, although all training
responses are at least 1. -/
theorem C148_leaves_range : ¬ ∀ (forest : List (SkTree ℚ 1)) (a b : ℚ) (cfg : SmoothCfg ℚ)
    (sources : TuneSrc → ℕ → List (TuneRow ℚ 1)) (out : SmoothOut ℚ 1 (forestDepth forest + 1))
    (row : TestRow ℚ), forest ≠ [] → FittedIn a b forest →
    smooth (fun x => x) noCe (some .reg) forest cfg sources = .ok out →
    cfg.noConstraint = false → cfg.adam = none → cfg.seed = none → (∀ k, 0 ≤ out.lamb1 k) →
    Reaches forest row → PredictsIn a b out.rf1 row := by
  intro hall
  have hrun : (match smooth (fun x : ℚ => x) noCe (some .reg) [exFitStump, exFit] (exRangeCfg false)
      (fun _ => exRangeTune) with
    | .ok out => some (List.ofFn out.lamb1, match forestPredict .reg out.rf1 exRangeRow with
        | .ok p => some p | .error _ => none)
    | .error _ => none) = some ([0, 0, 958 / 3], some 0) := by decide +kernel
  cases h : smooth (fun x : ℚ => x) noCe (some .reg) [exFitStump, exFit] (exRangeCfg false)
      (fun _ => exRangeTune) with
  | error e => rw [h] at hrun; cases hrun
  | ok out =>
    rw [h] at hrun
    simp only [Option.some.injEq, Prod.mk.injEq] at hrun
    obtain ⟨h1, h2⟩ := hrun
    have hl : ∀ k, 0 ≤ out.lamb1 k := by
      intro k
      have : out.lamb1 k ∈ List.ofFn out.lamb1 := List.mem_ofFn.2 ⟨k, rfl⟩
      rw [h1] at this
      simp only [List.mem_cons, List.not_mem_nil, or_false] at this
      rcases this with e | e | e <;> rw [e] <;> norm_num
    obtain ⟨p, hp, h3, -⟩ := hall _ 1 11 _ _ out exRangeRow (by simp) exFitted h rfl rfl rfl hl
      exReaches
    rw [hp] at h2
    obtain rfl := Option.some.inj h2
    norm_num at h3

/-- The same data with `parents_all`: the prediction is back in the range (C148_smooth_parents_all). -/
example : (match smooth (fun x : ℚ => x) noCe (some .reg) [exFitStump, exFit] (exRangeCfg true)
      (fun _ => exRangeTune) with
    | .ok out => some (List.ofFn out.lamb1, match forestPredict .reg out.rf1 exRangeRow with
        | .ok p => some p | .error _ => none)
    | .error _ => none) = some ([0, 0, 1418 / 3], some (9 / 2)) := by decide +kernel

/-- `depth_tune` on the same trees: a row with a far response in a deep leaf. -/
example : (match depthTune (some .reg) [exFitStump, exFit] ⟨false, false, true, true, false⟩
      (fun _ i => if i = 0 then [⟨0, 3⟩, ⟨1, 2⟩] else [⟨0, 4⟩, ⟨1, 1⟩, ⟨2, 3⟩]) with
    | .ok (rf, _) => match forestPredict .reg rf exRangeRow with
        | .ok p => some p | .error _ => none
    | .error _ => none) = some (9 / 2) := by decide +kernel

end SmoothRF
