import Verif.Props.AllDepthProps
import Verif.Props.AllUnitsProps
import Verif.Props.AllSourceProps
import Verif.Props.AliveProps
import Verif.Props.ReturnProps
import Verif.Props.TuneLossProps

/-!
# smooth_all against smooth (C217)
-/

set_option linter.unusedSectionVars false

namespace SmoothRF
open SkTree Topo

variable {K : Type} [Field K] [LinearOrder K] [IsStrictOrderedRing K]

/-- Every leaf of every tree has the same sample weight around it, level by level. -/
def EvenLevels (pa : Bool) (forest : List (SkTree K 1)) (L : ℕ → K) : Prop :=
  ∀ t ∈ forest, ∀ (r : Fin t.nLeaves) (k : ℕ),
    levelSum pa (t.distDepth .standard) (fun j => t.nSamp (t.leafNode j)) r k = L k

/-- With equal level weights, smoothed values are level means mixed with the weights `lamb_k L_k / Σ lamb_j L_j`. -/
theorem smoothSpec_even (t : SkTree K 1) (pa : Bool) {L : ℕ → K} {n : ℕ} (lamb : Fin n → K) (r : Fin t.nLeaves)
    (hL : ∀ k, levelSum pa (t.distDepth .standard) (fun j => t.nSamp (t.leafNode j)) r k = L k)
    (h0 : ∀ k : Fin n, L k ≠ 0) (hd : ∑ k : Fin n, L k * lamb k ≠ 0) (c : Fin 1) :
    smoothSpec .reg t .standard pa lamb r c =
      ∑ k : Fin n, (lamb k * L k / ∑ j : Fin n, L j * lamb j) * levelRatio t pa r k := by
  obtain rfl : c = 0 := Subsingleton.elim _ _
  have hden : smoothDen t .standard pa lamb r = ∑ k : Fin n, L k * lamb k :=
    Finset.sum_congr rfl fun k _ => by rw [hL]
  unfold smoothSpec
  rw [hden, if_neg hd, smoothNum, Finset.sum_div]
  refine Finset.sum_congr rfl fun k _ => ?_
  unfold levelRatio
  rw [hL, if_neg (h0 k)]
  have : levelSum pa (t.distDepth .standard) (fun j => t.mass .reg (t.leafNode j) 0) r k =
      levelSum pa (t.distDepth .standard) (fun j => t.nSamp (t.leafNode j) * t.value (t.leafNode j) 0) r k := rfl
  rw [this]
  field_simp [h0 k]

/-- The weights of the level means that go with the weights of `smooth`. -/
theorem mix_simplex {L : ℕ → K} {n : ℕ} {lamb : Fin n → K} (hl : Alive lamb) (hp : ∀ k : Fin n, 0 < L k) :
    0 < ∑ k : Fin n, L k * lamb k ∧
      InSimplex fun k : Fin n => lamb k * L k / ∑ j : Fin n, L j * lamb j := by
  obtain ⟨h0, j, hj⟩ := hl
  have hs : 0 < ∑ k : Fin n, L k * lamb k :=
    Finset.sum_pos' (fun k _ => mul_nonneg (hp k).le (h0 k)) ⟨j, Finset.mem_univ _, mul_pos (hp j) hj⟩
  refine ⟨hs, fun k => div_nonneg (mul_nonneg (h0 k) (hp k).le) hs.le, ?_⟩
  rw [← Finset.sum_div, div_eq_one_iff_eq hs.ne']
  exact Finset.sum_congr rfl fun k _ => mul_comm _ _

/-- C217: if every leaf has the same positive sample weight around it level by level, then the leaf values `smooth` can
give with non-negative weights, not all zero, are exactly those `smooth_all` can give with weights in the simplex. -/
theorem C217_same_values {pa : Bool} {forest : List (SkTree K 1)} {L : ℕ → K} (hL : EvenLevels pa forest L) {n : ℕ}
    (hp : ∀ k < n, 0 < L k) :
    (∀ lamb : Fin n → K, (∀ k, 0 ≤ lamb k) → (∃ k, lamb k ≠ 0) → ∃ mu : Fin n → K, InSimplex mu ∧
      ∀ t ∈ forest, ∀ (r : Fin t.nLeaves) (c : Fin 1),
        smoothSpec .reg t .standard pa lamb r c = ∑ k, mu k * levelRatio t pa r k) ∧
    (∀ mu : Fin n → K, InSimplex mu → ∃ lamb : Fin n → K, InSimplex lamb ∧
      ∀ t ∈ forest, ∀ (r : Fin t.nLeaves) (c : Fin 1),
        smoothSpec .reg t .standard pa lamb r c = ∑ k, mu k * levelRatio t pa r k) := by
  have hp' : ∀ k : Fin n, 0 < L k := fun k => hp k k.2
  refine ⟨fun lamb h0 ⟨j, hj⟩ => ?_, fun mu hm => ?_⟩
  · have hl : Alive lamb := ⟨h0, j, lt_of_le_of_ne (h0 j) hj.symm⟩
    obtain ⟨hs, hx⟩ := mix_simplex hl hp'
    exact ⟨_, hx, fun t ht r c => smoothSpec_even t pa lamb r (hL t ht r) (fun k => (hp' k).ne') hs.ne' c⟩
  · obtain ⟨h0, h1⟩ := hm
    set s : K := ∑ k : Fin n, mu k / L k with hs
    have hmu : ∃ k, 0 < mu k := by
      by_contra hall
      push Not at hall
      have : ∑ k, mu k ≤ 0 := Finset.sum_nonpos fun k _ => hall k
      rw [h1] at this
      exact absurd this (by norm_num)
    obtain ⟨j, hj⟩ := hmu
    have hs0 : 0 < s := Finset.sum_pos' (fun k _ => div_nonneg (h0 k) (hp' k).le)
      ⟨j, Finset.mem_univ _, div_pos hj (hp' j)⟩
    have hsum : ∑ k : Fin n, L k * (mu k / L k / s) = 1 / s := by
      rw [← h1, Finset.sum_div]
      refine Finset.sum_congr rfl fun k _ => ?_
      have := (hp' k).ne'
      field_simp
    refine ⟨fun k => mu k / L k / s, ⟨fun k => div_nonneg (div_nonneg (h0 k) (hp' k).le) hs0.le, ?_⟩, fun t ht r c => ?_⟩
    · rw [← Finset.sum_div, ← hs, div_self hs0.ne']
    · rw [smoothSpec_even t pa _ r (hL t ht r) (fun k => (hp' k).ne') (by rw [hsum]; exact (one_div_pos.2 hs0).ne') c, hsum]
      refine Finset.sum_congr rfl fun k _ => ?_
      have := (hp' k).ne'
      congr 1
      field_simp

/-- The weights `smooth` keeps with the constraint are non-negative and not all zero, whatever the start, unless it
only checks. -/
theorem smooth_alive_any {C : ℕ} {sqrt : K → K}
    {ce : (n : ℕ) → SgdOpts K → K → List (Row K n) → List K → List ℕ →
      Except PyErr ((Fin n → K) × (Fin n → K) × List K)}
    {forest : List (SkTree K C)} {cfg : SmoothCfg K} {sources : TuneSrc → ℕ → List (TuneRow K C)}
    {out : SmoothOut K C (forestDepth forest + 1)}
    (h : smooth sqrt ce (some .reg) forest cfg sources = .ok out) (hc : cfg.noConstraint = false)
    (ha : cfg.adam = none) (hs : (∀ u, cfg.seed = some u → ∀ i, 0 ≤ u i) ∨ cfg.sanityCheck = false) :
    Alive out.lamb1 := by
  rcases hs with hs | hs
  · exact (smooth_alive h hc ha hs).1
  obtain ⟨kind', src, yw, lamb, h0, -, -, h3, h4, -, -⟩ := smooth_ok h
  cases h0
  unfold smoothOptimise at h4
  rw [if_neg (by rw [hs]; exact Bool.false_ne_true)] at h4
  simp only [true_or, if_true] at h4
  exact (C112_never_zero sqrt _ ha (by simp [hc]) _ _ _ _ _ _ h4).1

variable {o : AllOracles K} {forest : List (SkTree K 1)} {c : AllCfg}
  {sources : TuneSrc → ℕ → List (TuneRow K 1)} {rf : List (SkTree K 1)}
  {lamb : Fin (forestDepth forest + 1) → K} {src : TuneSrc}

/-- C217: the full claim. With exact routines and `parents_all`, whenever no non-zero weights predict 0 at every
tuning row, `smooth_all` has on its tuning rows no larger error than the first forest a constrained run of `smooth`
returns. -/
def C217Claim : Prop :=
  ∀ (o : AllOracles ℝ) (forest : List (SkTree ℝ 1)) (c : AllCfg) (src : TuneSrc)
    (sources : TuneSrc → ℕ → List (TuneRow ℝ 1)) (cfg : SmoothCfg ℝ) (fuel : ℕ) (rf : List (SkTree ℝ 1))
    (lamb : Fin (forestDepth forest + 1) → ℝ) (out : SmoothOut ℝ 1 (forestDepth forest + 1))
    (ce : (n : ℕ) → SgdOpts ℝ → ℝ → List (Row ℝ n) → List ℝ → List ℕ →
      Except PyErr ((Fin n → ℝ) × (Fin n → ℝ) × List ℝ)),
    ExactLib o → (∀ t ∈ forest, t.WF ∧ t.Consistent .reg ∧ ∀ i, 0 < t.nSamp i) →
    AllUses c src → tuneSource cfg.data = .ok src → c.parentsAll = true → cfg.parentsAll = true →
    cfg.style = .standard → c.sanity = .bool false → cfg.sanityCheck = false → cfg.noConstraint = false →
    cfg.adam = none → 2 ≤ fuel →
    (∀ tt ∈ forest.zipIdx, ∀ q ∈ sources src tt.2, q.leaf < tt.1.nLeaves) →
    (∀ x : Fin (forestDepth forest + 1) → ℝ, x ≠ 0 → ∃ tt ∈ forest.zipIdx,
      ∃ q ∈ sources src tt.2, leafPred tt.1 true x q.leaf ≠ 0) →
    smoothAll o fuel forest c sources = .ok (some (rf, lamb)) →
    smooth Real.sqrt ce (some .reg) forest cfg sources = .ok out →
    forestMSE rf (sources src) ≤ forestMSE out.rf1 (sources src)

/-- C217 (what holds): if every leaf has the same sample weight around it level by level, the claim holds, for
constrained and unconstrained `smooth_all`, any exact routines, and whatever the other forest was tuned on. -/
theorem C217_never_worse_partial (ho : ExactLib o) (hwf : ∀ t ∈ forest, t.WF)
    (hn : ∀ t ∈ forest, ∀ r, 0 < t.nSamp (t.leafNode r)) {L : ℕ → K} (hL : EvenLevels true forest L)
    (hsrc : AllUses c src) (hpa : c.parentsAll = true) (hs : c.sanity = .bool false)
    (hr : ∀ tt ∈ forest.zipIdx, ∀ q ∈ sources src tt.2, q.leaf < tt.1.nLeaves)
    (hind : ∀ x : Fin (forestDepth forest + 1) → K, x ≠ 0 → ∃ tt ∈ forest.zipIdx,
      ∃ q ∈ sources src tt.2, leafPred tt.1 true x q.leaf ≠ 0)
    {fuel : ℕ} (hf : 2 ≤ fuel) (h : smoothAll o fuel forest c sources = .ok (some (rf, lamb)))
    {sqrt : K → K} {ce : (n : ℕ) → SgdOpts K → K → List (Row K n) → List K → List ℕ →
      Except PyErr ((Fin n → K) × (Fin n → K) × List K)} {cfg : SmoothCfg K}
    {sources' : TuneSrc → ℕ → List (TuneRow K 1)} (hst : cfg.style = .standard) (hpa' : cfg.parentsAll = true)
    (hc : cfg.noConstraint = false) (ha : cfg.adam = none)
    (hse : (∀ u, cfg.seed = some u → ∀ i, 0 ≤ u i) ∨ cfg.sanityCheck = false)
    {out : SmoothOut K 1 (forestDepth forest + 1)}
    (hsm : smooth sqrt ce (some .reg) forest cfg sources' = .ok out) :
    forestMSE rf (sources src) ≤ forestMSE out.rf1 (sources src) := by
  rw [allUses_iff.1 hsrc] at hr hind ⊢
  rw [← hpa] at hind
  have hl := smooth_alive_any hsm hc ha hse
  by_cases hne : forest = []
  · subst hne
    have h1 := (smooth_forests one_pos hwf hsm).1
    have h2 := C64_values hwf h
    rw [List.forall₂_nil_left_iff] at h1 h2
    rw [h1, h2]
  obtain ⟨t0, ht0⟩ := List.exists_mem_of_ne_nil forest hne
  obtain ⟨r0, -⟩ := exists_leaf_below (hwf t0 ht0) 0
  have hp : ∀ k < forestDepth forest + 1, 0 < L k := by
    intro k _
    rw [← hL t0 ht0 r0 k]
    simp only [levelSum, if_true]
    refine Finset.sum_pos (fun j _ => hn t0 ht0 j) ⟨r0, ?_⟩
    simp only [Finset.mem_filter, Finset.mem_univ, true_and]
    rw [(distDepth_eq_zero (hwf t0 ht0) .standard r0 r0).2 rfl]
    positivity
  obtain ⟨j, hj⟩ := hl.2
  obtain ⟨mu, hmu, hv⟩ := (C217_same_values hL hp).1 out.lamb1 hl.1 ⟨j, hj.ne'⟩
  have hmin := (exact_min ho hwf (tp := none) (by rw [hs]; rfl) hr hind hf h).2 mu fun _ => hmu
  rw [mse_eq c.parentsAll lamb (C64_values hwf h) _ hr,
    mse_eq c.parentsAll mu (forall2_imp_mem (smooth_forests one_pos hwf hsm).1 fun t ht t' hu => ?_) _ hr]
  · linarith
  · obtain ⟨v, e, hv', hi⟩ := hu
    refine ⟨v, e, fun r c' => ?_, hi⟩
    rw [hv' r c', hst, hpa', hpa]
    exact hv t ht r c'

/-! ### what a run of `smooth` keeps, against its start -/

/-- Whatever the start: the trees `smooth` returns first are on the tuning rows at least as good as the trees
smoothed with the starting weights. -/
theorem C217_smooth_start {C : ℕ} (hC : 0 < C) {sqrt : K → K}
    {ce : (n : ℕ) → SgdOpts K → K → List (Row K n) → List K → List ℕ →
      Except PyErr ((Fin n → K) × (Fin n → K) × List K)} {forest : List (SkTree K C)}
    (hwf : ∀ t ∈ forest, t.WF) {cfg : SmoothCfg K} {src : TuneSrc}
    (hsrc : tuneSource cfg.data = .ok src) {sources : TuneSrc → ℕ → List (TuneRow K C)}
    {l0 : Fin (forestDepth forest + 1) → K} (hl0 : initLamb .reg cfg.seed cfg.classEps = .ok l0)
    {out : SmoothOut K C (forestDepth forest + 1)}
    (h : smooth sqrt ce (some .reg) forest cfg sources = .ok out) {rf0 : List (SkTree K C)}
    (h0 : List.Forall₂ (fun t t' => LeafUpdate t t' fun r => smoothSpec .reg t cfg.style cfg.parentsAll l0 r) forest rf0) :
    forestSSE out.rf1 (sources src) ≤ forestSSE rf0 (sources src) := by
  let S : (Fin (forestDepth forest + 1) → K) → K := fun lamb =>
    (forest.zipIdx.map fun tt => ∑ r : Fin tt.1.nLeaves, ∑ c,
      (leafMean (sources src tt.2) r c - smoothSpec .reg tt.1 cfg.style cfg.parentsAll lamb r c) ^ 2 *
        leafWeight (sources src tt.2) r).sum
  let W : K := (forest.zipIdx.map fun tt => withinSS tt.1.nLeaves (sources src tt.2)).sum
  have hnew : ∀ (l : Fin (forestDepth forest + 1) → K) (ts : List (SkTree K C)),
      List.Forall₂ (fun t t' => LeafUpdate t t' fun r => smoothSpec .reg t cfg.style cfg.parentsAll l r) forest ts →
      forestSSE ts (sources src) = W + S l := by
    intro l ts hts
    rw [forestSSE, forall2_zipIdx_sum hts _
      (fun tt => withinSS tt.1.nLeaves (sources src tt.2) + ∑ r : Fin tt.1.nLeaves, ∑ c,
      (leafMean (sources src tt.2) r c - smoothSpec .reg tt.1 cfg.style cfg.parentsAll l r c) ^ 2 *
        leafWeight (sources src tt.2) r)]
    · exact List.sum_map_add
    · rintro t _ i ⟨v, rfl, hv, -⟩
      rw [treeSSE_split]
      congr 1
      refine Finset.sum_congr rfl fun r _ => Finset.sum_congr rfl fun c _ => ?_
      show (_ - v (t.leafNode r) c) ^ 2 * _ = _
      rw [hv r c]
  rw [hnew _ _ (smooth_forests hC hwf h).1, hnew _ _ h0]
  gcongr
  obtain ⟨kind', src', yw, lamb, h0, h1, h2, h3, h4, -, -⟩ := smooth_ok h
  cases h0
  have hs' := (smoothCheck_ok.1 h1).2.1
  rw [hsrc] at hs'
  cases hs'
  rw [hl0] at h3
  cases h3
  rw [tuneSummaries_eq] at h2
  split at h2
  · cases h2
  cases h2
  rw [flatRows_eq .reg forest hwf] at h4
  unfold smoothOptimise at h4
  split_ifs at h4 with hsan hk
  · simp only [Except.ok.injEq, Prod.mk.injEq] at h4
    rw [← h4.1]
  · obtain ⟨l1, vs, hl1, -, -, hf, -, i, v, c, -, -, -, hb, hmin, -⟩ :=
      C27_sgd_returns_best sqrt _ _ _ _ _ _ _ h4
    have hl1 : l1 = l0 := List.ofFn_injective hl1
    obtain ⟨c0, cs, hc0, -, hcs⟩ := List.forall₂_cons_left_iff.1 hf
    have := hmin c0 (by rw [hcs]; exact List.mem_cons_self ..)
    rw [cost_spec hb, cost_spec hc0] at this
    rw [← hl1]
    exact this
  · exact absurd (Or.inl rfl) hk

/-! ### leaves of different weight -/

/-- A stump with leaves of weight 1 and 9. -/
abbrev exOneNine : SkTree ℚ 1 :=
  { toTopo := ⟨2, ![some 1, none, none], ![some 2, none, none]⟩
    value := fun i _ => ![9, 0, 10] i
    nSamp := ![10, 1, 9]
    impurity := ![9, 0, 0] }

theorem realTree_smoothSpec (t : SkTree ℚ 1) (s : Style) (pa : Bool) {n : ℕ} (l : Fin n → ℚ) (r : Fin t.nLeaves)
    (c : Fin 1) : smoothSpec .reg (realTree t) s pa (fun k => ((l k : ℚ) : ℝ)) r c =
      ((smoothSpec .reg t s pa l r c : ℚ) : ℝ) := by
  have hl : ∀ (f : Fin t.nLeaves → ℚ) (k : ℕ), levelSum pa ((realTree t).distDepth s) (fun j => ((f j : ℚ) : ℝ)) r k =
      ((levelSum pa (t.distDepth s) f r k : ℚ) : ℝ) := by
    intro f k
    unfold levelSum
    cases pa
    · simp only [Bool.false_eq_true, if_false]
      push_cast
      rfl
    · simp only [if_true]
      push_cast
      rfl
  have hd : smoothDen (realTree t) s pa (fun k => ((l k : ℚ) : ℝ)) r = ((smoothDen t s pa l r : ℚ) : ℝ) := by
    unfold smoothDen
    push_cast
    exact Finset.sum_congr rfl fun k _ => by rw [← hl]; rfl
  have hm : smoothNum .reg (realTree t) s pa (fun k => ((l k : ℚ) : ℝ)) r c = ((smoothNum .reg t s pa l r c : ℚ) : ℝ) := by
    unfold smoothNum
    push_cast
    refine Finset.sum_congr rfl fun k _ => ?_
    rw [← hl]
    congr 2
    funext j
    simp only [mass, if_true]
    push_cast
    rfl
  unfold smoothSpec
  rw [hd, hm]
  split_ifs with a b b
  · simp
  · exact absurd (by exact_mod_cast a) b
  · exact absurd (by exact_mod_cast b) a
  · push_cast; rfl

/-- The rows `smooth` fits without error at equal weights. -/
noncomputable abbrev exOneNineRows : TuneSrc → ℕ → List (TuneRow ℝ 1) :=
  fun _ _ => [⟨0, fun _ => 90 / 11⟩, ⟨1, fun _ => 180 / 19⟩]

theorem exOneNine_pred (x : Fin 2 → ℝ) :
    leafPred (realTree exOneNine) true x 0 = 9 * x 1 ∧
    leafPred (realTree exOneNine) true x 1 = 10 * x 0 + 9 * x 1 := by
  have hq : ∀ (r : Fin exOneNine.nLeaves) (k : Fin 2), levelRatio exOneNine true r k =
      ![![0, 9], ![10, 9]] (Fin.cast (by decide) r : Fin 2) k := by decide +kernel
  have e : ∀ i (hi : i < exOneNine.nLeaves), leafPred (realTree exOneNine) true x i =
      ∑ k : Fin 2, x k * ((levelRatio exOneNine true ⟨i, hi⟩ k : ℚ) : ℝ) := by
    intro i hi
    unfold leafPred
    rw [dif_pos (show i < (realTree exOneNine).nLeaves from hi)]
    exact Finset.sum_congr rfl fun k _ => by rw [← realTree_ratio]; rfl
  rw [e 0 (by decide), e 1 (by decide)]
  simp only [hq, Fin.sum_univ_two]
  simp [Fin.cast]
  constructor <;> ring

theorem exOneNine_pos (x : Fin 2 → ℝ) (hs : x 0 + x 1 = 1) :
    0 < 2 * tuneLoss [realTree exOneNine] true (exOneNineRows .given) x := by
  unfold tuneLoss
  simp only [List.zipIdx_singleton, List.map_cons, List.map_nil, List.sum_cons, List.sum_nil, List.length_cons,
    List.length_nil, (exOneNine_pred x).1, (exOneNine_pred x).2]
  have q0 := sq_nonneg (9 * x 1 - 90 / 11)
  have q1 := sq_nonneg (10 * x 0 + 9 * x 1 - 180 / 19)
  by_contra hle
  norm_num at hle
  have z0 : 9 * x 1 - 90 / 11 = 0 := pow_eq_zero_iff two_ne_zero |>.1 (by linarith)
  have z1 : 10 * x 0 + 9 * x 1 - 180 / 19 = 0 := pow_eq_zero_iff two_ne_zero |>.1 (by linarith)
  linarith

/-- The settings of `smooth`: all four tuning arguments as in `exCfg`, start at equal weights, `steps` any. -/
noncomputable abbrev exOneNineCfg (steps : List ℕ) (tFix : ℝ) : SmoothCfg ℝ :=
  { data := ⟨false, false, true, true, false⟩, noConstraint := false, sanityCheck := false,
    steps := steps, tFix := tFix, allTrees := false, seed := some fun _ => 1, parentsAll := true,
    style := .standard, classEps := 1 / 10, lossL2 := false, adam := none }

theorem exOneNine_depth : forestDepth [realTree exOneNine] = 1 := by decide +kernel

theorem exOneNine_start : (initLamb .reg (some fun _ : ℕ => (1 : ℝ)) (1 / 10) :
    Except PyErr (Fin (forestDepth [realTree exOneNine] + 1) → ℝ)) = .ok fun _ => ((1 / 2 : ℚ) : ℝ) := by
  unfold initLamb baseLamb normalise
  simp only [Finset.sum_const, Finset.card_univ, Fintype.card_fin, exOneNine_depth]
  norm_num

theorem exOneNine_smooth (l : Fin (forestDepth [realTree exOneNine] + 1) → ℚ) (hl : l = fun _ => 1 / 2) (i : ℕ)
    (hi : i < (realTree exOneNine).nLeaves) (c : Fin 1) :
    smoothSpec .reg (realTree exOneNine) .standard true (fun k => ((l k : ℚ) : ℝ)) ⟨i, hi⟩ c =
      if i = 0 then 90 / 11 else 180 / 19 := by
  subst hl
  have hq : ∀ r : Fin exOneNine.nLeaves, smoothSpec .reg exOneNine .standard true
      (fun _ : Fin (forestDepth [exOneNine] + 1) => (1 / 2 : ℚ)) r 0 = if r.val = 0 then 90 / 11 else 180 / 19 := by
    decide +kernel
  obtain rfl : c = 0 := Subsingleton.elim _ _
  have := realTree_smoothSpec exOneNine .standard true
    (fun _ : Fin (forestDepth [exOneNine] + 1) => (1 / 2 : ℚ)) ⟨i, hi⟩ 0
  rw [hq] at this
  refine Eq.trans this ?_
  show (((if i = 0 then 90 / 11 else 180 / 19 : ℚ) : ℚ) : ℝ) = _
  split_ifs <;> norm_num

/-- On the uneven stump every constrained run of `smooth` from equal weights fits the rows without error, whatever
the step size and the trees drawn. -/
theorem exOneNine_fits {ce : (n : ℕ) → SgdOpts ℝ → ℝ → List (Row ℝ n) → List ℝ → List ℕ →
      Except PyErr ((Fin n → ℝ) × (Fin n → ℝ) × List ℝ)} {steps : List ℕ} {tFix : ℝ}
    {out : SmoothOut ℝ 1 (forestDepth [realTree exOneNine] + 1)}
    (h : smooth Real.sqrt ce (some .reg) [realTree exOneNine] (exOneNineCfg steps tFix) exOneNineRows = .ok out) :
    forestMSE out.rf1 (exOneNineRows .given) = 0 := by
  have hwf : ∀ t ∈ [realTree exOneNine], t.WF := by simp; decide
  let v : (realTree exOneNine).Node → Fin 1 → ℝ := ![fun _ => 9, fun _ => 90 / 11, fun _ => 180 / 19]
  have hleaf : ∀ r : Fin (realTree exOneNine).nLeaves,
      (realTree exOneNine).leafNode r = (![1, 2] (Fin.cast (by decide) r : Fin 2) : Fin 3) := by
    have : ∀ r : Fin exOneNine.nLeaves,
      exOneNine.leafNode r = (![1, 2] (Fin.cast (by decide) r : Fin 2) : Fin 3) := by decide +kernel
    exact this
  have hlt0 : 0 < (realTree exOneNine).nLeaves := by decide
  have hlt1 : 1 < (realTree exOneNine).nLeaves := by decide
  have h0 : List.Forall₂ (fun t t' => LeafUpdate t t' fun r => smoothSpec .reg t (exOneNineCfg steps tFix).style
      (exOneNineCfg steps tFix).parentsAll
      (fun _ : Fin (forestDepth [realTree exOneNine] + 1) => ((1 / 2 : ℚ) : ℝ)) r)
      [realTree exOneNine] [{ realTree exOneNine with value := v }] := by
    refine .cons ⟨v, rfl, fun r c => ?_, fun i c hi => ?_⟩ .nil
    · obtain ⟨i, hi⟩ := r
      refine Eq.trans ?_ (exOneNine_smooth (fun _ => 1 / 2) rfl i hi c).symm
      rw [hleaf]
      have h2 : i < 2 := hi
      interval_cases i <;> rfl
    · have : i = (0 : Fin 3) := by
        have : ∀ i : exOneNine.Node, i ≠ (0 : Fin 3) →
            ∀ c : exOneNine.Node, ¬ (exOneNine.left i = some c ∨ exOneNine.right i = some c) := by decide +kernel
        by_contra h0
        exact hi fun c hc => this i h0 c hc
      subst this
      show (9 : ℝ) = ((9 : ℚ) : ℝ)
      norm_num
  have hle := C217_smooth_start one_pos hwf (src := .given) rfl exOneNine_start h h0
  have hz : forestSSE [{ realTree exOneNine with value := v }] (exOneNineRows .given) = 0 := by
    unfold forestSSE treeSSE
    simp only [List.zipIdx_singleton, List.map_cons, List.map_nil, List.sum_cons, List.sum_nil, Fin.sum_univ_one]
    rw [dif_pos hlt0, dif_pos hlt1]
    show (90 / 11 - v ((realTree exOneNine).leafNode ⟨0, _⟩) 0) ^ 2 +
      ((180 / 19 - v ((realTree exOneNine).leafNode ⟨1, _⟩) 0) ^ 2 + 0) + 0 = 0
    rw [hleaf, hleaf]
    show ((90 / 11 : ℝ) - 90 / 11) ^ 2 + (((180 / 19 : ℝ) - 180 / 19) ^ 2 + 0) + 0 = 0
    norm_num
  rw [hz] at hle
  obtain ⟨t', e⟩ : ∃ t', out.rf1 = [t'] := by
    have := (smooth_forests one_pos hwf h).1
    rcases hx : out.rf1 with _ | ⟨t', _ | ⟨_, _⟩⟩
    · rw [hx] at this; cases this
    · exact ⟨t', rfl⟩
    · rw [hx] at this; cases this with | cons _ h2 => cases h2
  rw [e] at hle ⊢
  have hS : forestSSE [t'] (exOneNineRows .given) = treeSSE t' (exOneNineRows .given 0) := by
    simp [forestSSE]
  have hnn : 0 ≤ treeSSE t' (exOneNineRows .given 0) := by
    unfold treeSSE
    refine List.sum_nonneg fun x hx => ?_
    obtain ⟨q, -, rfl⟩ := List.mem_map.1 hx
    split_ifs
    · exact Finset.sum_nonneg fun _ _ => sq_nonneg _
    · exact le_rfl
  have : treeSSE t' (exOneNineRows .given 0) = 0 := le_antisymm (hS ▸ hle) hnn
  simp [forestMSE, this]

/-- C217 as stated is false when leaves carry different weights: `smooth` fits the rows of the uneven stump without
error, constrained `smooth_all` cannot. -/
theorem C217_refuted : ¬ C217Claim := by
  intro H
  have hwf : ∀ t ∈ [realTree exOneNine], t.WF := by simp; decide
  have hn0 : ∀ i, 0 < (realTree exOneNine).nSamp i := by
    have : ∀ i, 0 < exOneNine.nSamp i := by decide +kernel
    intro i
    show (0 : ℝ) < ((exOneNine.nSamp i : ℚ) : ℝ)
    exact_mod_cast this i
  have hn : ∀ t ∈ [realTree exOneNine], ∀ r, 0 < t.nSamp (t.leafNode r) := by
    intro t ht r
    rw [List.mem_singleton] at ht
    subst ht
    exact hn0 _
  have hr : ∀ tt ∈ [realTree exOneNine].zipIdx, ∀ q ∈ exOneNineRows .given tt.2, q.leaf < tt.1.nLeaves := by
    simp; decide
  have hind : ∀ x : Fin 2 → ℝ, x ≠ 0 → ∃ tt ∈ [realTree exOneNine].zipIdx,
      ∃ q ∈ exOneNineRows .given tt.2, leafPred tt.1 true x q.leaf ≠ 0 := by
    intro x hx
    by_contra hcon
    push Not at hcon
    have h := hcon (realTree exOneNine, 0) (by simp)
    have h0 := (exOneNine_pred x).1.symm.trans (h ⟨0, fun _ => 90 / 11⟩ (by simp))
    have h1 := (exOneNine_pred x).2.symm.trans (h ⟨1, fun _ => 180 / 19⟩ (by simp))
    apply hx
    funext i
    fin_cases i
    · show x 0 = 0
      linarith
    · show x 1 = 0
      linarith
  have hcons : (realTree exOneNine).Consistent .reg := realTree_consistent (by
    intro p l r hl hr
    revert p l r; decide +kernel)
  obtain ⟨rf, lamb, hrun⟩ := C116_returns (c := exAllCfg true (.bool false)) (sources := exOneNineRows) exact_lib hwf hn
    (by decide) rfl (flag := false) (tp := none) rfl (by simp) (by simp) hr
  obtain ⟨out, hsm⟩ := C134_smooth_returns (sqrt := Real.sqrt) (ce := fun _ _ _ _ _ _ => .error .runtimeError)
    (fun x _ => Real.sqrt_nonneg x) one_pos .reg (forest := [realTree exOneNine]) (by simp) hwf hn (exOneNineCfg [0] 1)
    (.inl rfl) (by simp) rfl (by
      intro u hu
      cases hu
      exact ⟨fun _ => zero_le_one, 0, by simp, one_ne_zero⟩) (by norm_num) (src := .given) rfl exOneNineRows (by simp) (by simp)
  have := H exactOracles [realTree exOneNine] (exAllCfg true (.bool false)) .given exOneNineRows (exOneNineCfg [0] 1) 2 rf lamb out
    _ exact_lib (by
      intro t ht
      rw [List.mem_singleton] at ht
      subst ht
      exact ⟨hwf _ (by simp), hcons, hn0⟩) ⟨rfl, rfl, rfl⟩ rfl rfl rfl rfl rfl rfl rfl rfl le_rfl hr hind (hrun 2 le_rfl) hsm
  rw [exOneNine_fits hsm] at this
  have hsimp := (C116_ridge exact_lib hwf (tp := none) rfl hr le_rfl (hrun 2 le_rfl)).1 rfl
  rw [mse_eq true lamb (C64_values hwf (hrun 2 le_rfl)) _ hr] at this
  have key : ∀ x : Fin 2 → ℝ, InSimplex x → 0 < 2 * tuneLoss [realTree exOneNine] true (exOneNineRows .given) x :=
    fun x hx => exOneNine_pos x (by rw [← hx.2, Fin.sum_univ_two])
  exact absurd this (not_le.2 (key lamb hsimp))

/-- The hypotheses of the part that holds, for the stump with two leaves of weight 1: level weights 1 and 2, and
no non-zero weights predict 0 at the rows 2 and 3. A run of `smooth` leaves the error 16/169, the weights (1/3, 2/3) of
`smooth_all` none. -/
example : EvenLevels true [exStump] (fun k => if k = 0 then 1 else 2) ∧ (∀ r, 0 < exStump.nSamp (exStump.leafNode r)) ∧
    (∀ x : Fin 2 → ℚ, x ≠ 0 → ∃ tt ∈ [exStump].zipIdx, ∃ q ∈ exAllRows .given tt.2, leafPred tt.1 true x q.leaf ≠ 0) ∧
    (match smooth (fun x => x) noCe (some .reg) [exStump]
      { exCfg with sanityCheck := false, parentsAll := true, steps := [0], tFix := 1 / 20 } exAllRows with
    | .ok out => some (forestMSE out.rf1 (exAllRows .given)) | .error _ => none) = some (16 / 169) ∧
    forestMSE [{ exStump with value := fun i _ => ![5 / 2, 2, 3] i }] (exAllRows .given) = 0 := by
  refine ⟨?_, by decide +kernel, ?_, by decide +kernel, by decide +kernel⟩
  · intro t ht
    rw [List.mem_singleton] at ht
    subst ht
    have h0 : ∀ r j : Fin exStump.nLeaves, exStump.distDepth .standard r j = if r = j then 0 else 1 := by decide +kernel
    intro r k
    rcases Nat.eq_zero_or_pos k with rfl | hk
    · revert r; decide +kernel
    · have hu : (Finset.univ.filter fun j => exStump.distDepth .standard r j ≤ (k : ℤ)) = Finset.univ :=
        Finset.filter_true_of_mem fun j _ => by rw [h0]; split_ifs <;> omega
      rw [levelSum, if_pos rfl, hu]
      show _ = if k = 0 then _ else _
      rw [if_neg hk.ne']
      decide +kernel
  · intro x hx
    by_contra hcon
    push Not at hcon
    have hq : ∀ (r : Fin exStump.nLeaves) (k : Fin 2), levelRatio exStump true r k =
        ![![1, 5 / 2], ![4, 5 / 2]] (Fin.cast (by decide) r : Fin 2) k := by decide +kernel
    have e : ∀ i (hi : i < exStump.nLeaves), leafPred exStump true x i =
        ∑ k : Fin 2, x k * levelRatio exStump true ⟨i, hi⟩ k := fun i hi => by rw [leafPred, dif_pos hi]
    have h0 := (e 0 (by decide)).symm.trans (hcon (exStump, 0) (by simp) ⟨0, fun _ => 2⟩ (by simp))
    have h1 := (e 1 (by decide)).symm.trans (hcon (exStump, 0) (by simp) ⟨1, fun _ => 3⟩ (by simp))
    simp only [hq, Fin.sum_univ_two] at h0 h1
    simp [Fin.cast] at h0 h1
    apply hx
    funext i
    fin_cases i
    · show x 0 = 0
      linarith
    · show x 1 = 0
      linarith

end SmoothRF
