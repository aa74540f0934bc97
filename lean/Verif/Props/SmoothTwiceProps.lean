import Verif.Props.DepthTwiceProps
import Verif.Props.ReversibleProps

/-!
# C193: tuning a forest that was already smoothed
-/

set_option linter.unusedSectionVars false

namespace SmoothRF
open SkTree Topo

variable {K : Type} [Field K] [LinearOrder K] [IsStrictOrderedRing K] {C : ℕ} {sqrt : K → K}
  {ce : (n : ℕ) → SgdOpts K → K → List (Row K n) → List K → List ℕ →
    Except PyErr ((Fin n → K) × (Fin n → K) × List K)}

/-- `lamb`-weighted total of the leaf quantity `v` over the levels around leaf `r`. -/
def levelTotal (t : Topo) (s : Style) (pa : Bool) {n : ℕ} (lamb : Fin n → K) (v : Fin t.nLeaves → K)
    (r : Fin t.nLeaves) : K :=
  ∑ k : Fin n, levelSum pa (t.distDepth s) v r k * lamb k

theorem forall2_comp {α β γ : Type*} {R : α → β → Prop} {S : β → γ → Prop} : ∀ {a : List α} {b : List β}
    {c : List γ}, List.Forall₂ R a b → List.Forall₂ S b c → List.Forall₂ (fun x z => ∃ y, R x y ∧ S y z) a c
  | _, _, _, .nil, .nil => .nil
  | _, _, _, .cons a b, .cons c d => .cons ⟨_, a, c⟩ (forall2_comp b d)

theorem forall2_topo {R : SkTree K C → SkTree K C → Prop} (hR : ∀ a b, R a b → b.toTopo = a.toTopo) :
    ∀ {f g : List (SkTree K C)}, List.Forall₂ R f g → ∀ (i : ℕ) (t' : SkTree K C), g[i]? = some t' →
      ∃ t, f[i]? = some t ∧ t'.toTopo = t.toTopo
  | _, _, .nil, i, t', h => by simp at h
  | _, _, .cons (a := a) hab hl, i, t', h => by
    cases i with
    | zero =>
      simp only [List.getElem?_cons_zero, Option.some.injEq] at h ⊢
      subst h
      exact ⟨a, rfl, hR _ _ hab⟩
    | succ i =>
      simp only [List.getElem?_cons_succ] at h ⊢
      exact forall2_topo hR hl i t' h

/-- The first forest of a run keeps the shapes. -/
theorem smoothed_topo (hC : 0 < C) {kind : Kind} {forest : List (SkTree K C)} (hwf : ∀ t ∈ forest, t.WF)
    {cfg : SmoothCfg K} {sources : TuneSrc → ℕ → List (TuneRow K C)}
    {out : SmoothOut K C (forestDepth forest + 1)}
    (h : smooth sqrt ce (some kind) forest cfg sources = .ok out) :
    ∀ (i : ℕ) (t' : SkTree K C), out.rf1[i]? = some t' → ∃ t, forest[i]? = some t ∧ t'.toTopo = t.toTopo :=
  forall2_topo (by rintro a b ⟨v, rfl, -⟩; rfl) (C38_first_forest_rows hC hwf h)

theorem smoothed_wf (hC : 0 < C) {kind : Kind} {forest : List (SkTree K C)} (hwf : ∀ t ∈ forest, t.WF)
    {cfg : SmoothCfg K} {sources : TuneSrc → ℕ → List (TuneRow K C)}
    {out : SmoothOut K C (forestDepth forest + 1)}
    (h : smooth sqrt ce (some kind) forest cfg sources = .ok out) : ∀ t ∈ out.rf1, t.WF := by
  intro t' ht'
  obtain ⟨i, hi⟩ := List.mem_iff_getElem?.1 ht'
  obtain ⟨t, ht, e⟩ := smoothed_topo hC hwf h i t' hi
  have := hwf t (List.mem_of_getElem? ht)
  rw [← e] at this
  exact this

/-- Two runs in a row: each tree of the final forest is the original one with leaf values smoothed by the
first weights and then by the second. -/
theorem smooth_smooth (hC : 0 < C) {kind : Kind} {forest : List (SkTree K C)} (hwf : ∀ t ∈ forest, t.WF)
    {cfg cfg2 : SmoothCfg K} {sources sources2 : TuneSrc → ℕ → List (TuneRow K C)}
    {out : SmoothOut K C (forestDepth forest + 1)}
    (h : smooth sqrt ce (some kind) forest cfg sources = .ok out)
    {out2 : SmoothOut K C (forestDepth out.rf1 + 1)}
    (h2 : smooth sqrt ce (some kind) out.rf1 cfg2 sources2 = .ok out2) :
    List.Forall₂ (fun t t2 => ∃ v v2 : t.Node → Fin C → K, t2 = { t with value := v2 } ∧
      (∀ r c, v (t.leafNode r) c = smoothSpec kind t cfg.style cfg.parentsAll out.lamb1 r c) ∧
      (∀ r c, v2 (t.leafNode r) c =
        smoothSpec kind { t with value := v } cfg2.style cfg2.parentsAll out2.lamb1 r c) ∧
      ∀ i c, ¬ t.IsLeaf i → v i c = t.value i c ∧ v2 i c = t.value i c) forest out2.rf1 := by
  refine (forall2_comp (C38_first_forest_rows hC hwf h)
    (C38_first_forest_rows hC (smoothed_wf hC hwf h) h2)).imp ?_
  rintro t t2 ⟨t1, ⟨v, rfl, a1, a2⟩, v2, rfl, b1, b2⟩
  exact ⟨v, v2, rfl, a1, b1, fun i c hi => ⟨a2 i c hi, (b2 i c hi).trans (a2 i c hi)⟩⟩

/-- Non-negative weights keep smoothed regression values inside an interval that holds the leaf values. -/
theorem smoothSpec_reg_mem (t : SkTree K C) (hn : ∀ r, 0 ≤ t.nSamp (t.leafNode r)) (s : Style) (pa : Bool)
    {n : ℕ} (lamb : Fin n → K) (hl : ∀ k, 0 ≤ lamb k) (r : Fin t.nLeaves)
    (hd : smoothDen t s pa lamb r ≠ 0) (c : Fin C) {lo hi : K}
    (hb : ∀ j, lo ≤ t.value (t.leafNode j) c ∧ t.value (t.leafNode j) c ≤ hi) :
    lo ≤ smoothSpec .reg t s pa lamb r c ∧ smoothSpec .reg t s pa lamb r c ≤ hi := by
  have hpos : 0 < smoothDen t s pa lamb r := lt_of_le_of_ne (smoothDen_nonneg t _ _ _ hl hn r) (Ne.symm hd)
  constructor <;> simp only [smoothSpec, if_neg hd]
  · rw [le_div_iff₀ hpos, mul_comm, smoothDen, Finset.sum_mul]
    refine Finset.sum_le_sum fun q _ => ?_
    rw [mul_right_comm, ← levelSum_smul]
    refine mul_le_mul_of_nonneg_right (levelSum_mono _ _ _ _ (fun l => ?_) _ _) (hl q)
    exact mul_le_mul_of_nonneg_left (hb l).1 (hn l)
  · rw [div_le_iff₀ hpos, mul_comm, smoothDen, Finset.sum_mul]
    refine Finset.sum_le_sum fun q _ => ?_
    rw [mul_right_comm _ (lamb q), ← levelSum_smul (a := hi)]
    refine mul_le_mul_of_nonneg_right (levelSum_mono _ _ _ _ (fun l => ?_) _ _) (hl q)
    exact mul_le_mul_of_nonneg_left (hb l).2 (hn l)

/-- C193 (regression): smoothing a smoothed regressor once more is harmless: with non-negative weights and
non-zero denominators the final leaf values lie in every interval that holds the leaf values of the original
tree. -/
theorem C193_regression (hC : 0 < C) {forest : List (SkTree K C)} (hwf : ∀ t ∈ forest, t.WF)
    (hn : ∀ t ∈ forest, ∀ r, 0 ≤ t.nSamp (t.leafNode r))
    {cfg cfg2 : SmoothCfg K} {sources sources2 : TuneSrc → ℕ → List (TuneRow K C)}
    {out : SmoothOut K C (forestDepth forest + 1)}
    (h : smooth sqrt ce (some .reg) forest cfg sources = .ok out)
    {out2 : SmoothOut K C (forestDepth out.rf1 + 1)}
    (h2 : smooth sqrt ce (some .reg) out.rf1 cfg2 sources2 = .ok out2)
    (hl : ∀ k, 0 ≤ out.lamb1 k) (hl2 : ∀ k, 0 ≤ out2.lamb1 k)
    (hd : ∀ t ∈ forest, ∀ r, smoothDen t cfg.style cfg.parentsAll out.lamb1 r ≠ 0)
    (hd2 : ∀ t ∈ forest, ∀ r, smoothDen t cfg2.style cfg2.parentsAll out2.lamb1 r ≠ 0) :
    List.Forall₂ (fun t t2 => ∃ v2, t2 = { t with value := v2 } ∧ ∀ c (lo hi : K),
      (∀ j : Fin t.nLeaves, lo ≤ t.value (t.leafNode j) c ∧ t.value (t.leafNode j) c ≤ hi) →
      ∀ j : Fin t.nLeaves, lo ≤ v2 (t.leafNode j) c ∧ v2 (t.leafNode j) c ≤ hi) forest out2.rf1 := by
  refine forall2_imp_mem (smooth_smooth hC hwf h h2) fun t ht t2 ⟨v, v2, e, e1, e2, _⟩ => ⟨v2, e, ?_⟩
  intro c lo hi hb j
  rw [e2]
  refine smoothSpec_reg_mem { t with value := v } (hn t ht) _ _ _ hl2 j (hd2 t ht j) c fun q => ?_
  show lo ≤ v (t.leafNode q) c ∧ v (t.leafNode q) c ≤ hi
  rw [e1]
  exact smoothSpec_reg_mem t (hn t ht) _ _ _ hl q (hd t ht q) c hb

theorem shares_sum (t : SkTree K C) (hsum : ∀ r, ∑ c, t.value (t.leafNode r) c = t.nSamp (t.leafNode r))
    (s : Style) (pa : Bool) {n : ℕ} (lamb : Fin n → K) {r : Fin t.nLeaves} (hd : smoothDen t s pa lamb r ≠ 0)
    {v : Fin C → K} (hv : ∀ c, v c = smoothSpec .cls t s pa lamb r c) : ∑ c, v c = 1 := by
  have : ∀ c, v c = smoothNum .cls t s pa lamb r c / smoothDen t s pa lamb r := fun c => by
    simp only [hv, smoothSpec, if_neg hd]
  rw [Finset.sum_congr rfl fun c _ => this c, ← Finset.sum_div, div_eq_one_iff_eq hd]
  unfold smoothNum smoothDen
  rw [Finset.sum_comm]
  refine Finset.sum_congr rfl fun q _ => ?_
  rw [← Finset.sum_mul, levelSum_sum]
  simp only [mass, reduceCtorEq, if_false, hsum]

/-- C193 (classification): the second run divides sums of shares, one per leaf, by sums of sample weights.
The class entries of a leaf then add up to the weighted number of leaves over the weighted number of
samples, and after normalisation every leaf counts once, whatever its size. -/
theorem C193_class (hC : 0 < C) {forest : List (SkTree K C)} (hwf : ∀ t ∈ forest, t.WF)
    (hsum : ∀ t ∈ forest, ∀ r, ∑ c, t.value (t.leafNode r) c = t.nSamp (t.leafNode r))
    {cfg cfg2 : SmoothCfg K} {sources sources2 : TuneSrc → ℕ → List (TuneRow K C)}
    {out : SmoothOut K C (forestDepth forest + 1)}
    (h : smooth sqrt ce (some .cls) forest cfg sources = .ok out)
    {out2 : SmoothOut K C (forestDepth out.rf1 + 1)}
    (h2 : smooth sqrt ce (some .cls) out.rf1 cfg2 sources2 = .ok out2)
    (hd : ∀ t ∈ forest, ∀ r, smoothDen t cfg.style cfg.parentsAll out.lamb1 r ≠ 0) :
    List.Forall₂ (fun t t2 => ∃ v v2 : t.Node → Fin C → K, t2 = { t with value := v2 } ∧
      (∀ r c, v (t.leafNode r) c = smoothSpec .cls t cfg.style cfg.parentsAll out.lamb1 r c) ∧
      (∀ r, ∑ c, v (t.leafNode r) c = 1) ∧
      ∀ (r : Fin t.nLeaves) (samples leaves : K) (shares : Fin C → K),
        samples = levelTotal t.toTopo cfg2.style cfg2.parentsAll out2.lamb1 (fun j => t.nSamp (t.leafNode j)) r →
        leaves = levelTotal t.toTopo cfg2.style cfg2.parentsAll out2.lamb1 (fun _ => 1) r →
        (∀ c, shares c = levelTotal t.toTopo cfg2.style cfg2.parentsAll out2.lamb1
          (fun j => v (t.leafNode j) c) r) → samples ≠ 0 →
        (∀ c, v2 (t.leafNode r) c = shares c / samples) ∧
        ∑ c, v2 (t.leafNode r) c = leaves / samples ∧
        ∀ c, v2 (t.leafNode r) c / ∑ c', v2 (t.leafNode r) c' = shares c / leaves) forest out2.rf1 := by
  refine forall2_imp_mem (smooth_smooth hC hwf h h2) fun t ht t2 ⟨v, v2, e, e1, e2, _⟩ =>
    ⟨v, v2, e, e1, ?_, ?_⟩
  · exact fun r => shares_sum t (hsum t ht) _ _ _ (hd t ht r) (e1 r)
  · intro r samples leaves shares hs hlv hsh h0
    have h1 : ∀ q, ∑ c, v (t.leafNode q) c = 1 := fun q =>
      shares_sum t (hsum t ht) _ _ _ (hd t ht q) (e1 q)
    have hv2 : ∀ c, v2 (t.leafNode r) c = shares c / samples := by
      intro c
      have hden : smoothDen { t with value := v } cfg2.style cfg2.parentsAll out2.lamb1 r = samples := hs.symm
      rw [e2, smoothSpec, if_neg (by rw [hden]; exact h0), hden, hsh]
      rfl
    have htot : ∑ c, shares c = leaves := by
      rw [Finset.sum_congr rfl fun c _ => hsh c, hlv]
      unfold levelTotal
      rw [Finset.sum_comm]
      refine Finset.sum_congr rfl fun q _ => ?_
      rw [← Finset.sum_mul, levelSum_sum]
      simp only [h1]
    have hs2 : ∑ c, v2 (t.leafNode r) c = leaves / samples := by
      rw [Finset.sum_congr rfl fun c _ => hv2 c, ← Finset.sum_div, htot]
    refine ⟨hv2, hs2, fun c => ?_⟩
    rw [hv2, hs2, div_div_div_cancel_right₀ h0]

/-- C193: the ratio of leaves to samples. With non-negative weights and leaves of at least `b` samples it is
at most `1 / b`; with leaves of at least one sample it is one only if every leaf that carries weight holds
exactly one sample. -/
theorem C193_ratio (t : SkTree K C) (s : Style) (pa : Bool) {n : ℕ} (lamb : Fin n → K) (hl : ∀ k, 0 ≤ lamb k)
    (r : Fin t.nLeaves) {samples leaves : K}
    (hs : samples = levelTotal t.toTopo s pa lamb (fun j => t.nSamp (t.leafNode j)) r)
    (hlv : leaves = levelTotal t.toTopo s pa lamb (fun _ => 1) r) (h0 : samples ≠ 0) :
    (∀ b : K, 0 < b → (∀ j, b ≤ t.nSamp (t.leafNode j)) → leaves / samples ≤ 1 / b) ∧
    ((∀ j, 1 ≤ t.nSamp (t.leafNode j)) → (leaves / samples = 1 ↔
      ∀ (k : Fin n) (j : Fin t.nLeaves), 0 < lamb k →
        (if pa then t.distDepth s r j ≤ k.val else t.distDepth s r j = k.val) →
        t.nSamp (t.leafNode j) = 1)) := by
  constructor
  · intro b hb hj
    have hpos : 0 < samples := by
      refine lt_of_le_of_ne ?_ (Ne.symm h0)
      rw [hs]
      exact Finset.sum_nonneg fun k _ => mul_nonneg (levelSum_nonneg _ _ _ (fun j => hb.le.trans (hj j)) _ _) (hl k)
    rw [div_le_div_iff₀ hpos hb, one_mul, hs, hlv, levelTotal, levelTotal, Finset.sum_mul]
    refine Finset.sum_le_sum fun k _ => ?_
    rw [mul_right_comm]
    refine mul_le_mul_of_nonneg_right ?_ (hl k)
    rw [← levelSum_smul]
    refine levelSum_mono _ _ _ _ (fun j => ?_) _ _
    simpa using hj j
  · intro hj
    have key : samples - leaves = ∑ k : Fin n, levelSum pa (t.distDepth s)
        (fun j => t.nSamp (t.leafNode j) - 1) r k * lamb k := by
      rw [hs, hlv, levelTotal, levelTotal, ← Finset.sum_sub_distrib]
      refine Finset.sum_congr rfl fun k _ => ?_
      rw [← sub_mul]
      congr 1
      unfold levelSum
      split <;> rw [← Finset.sum_sub_distrib]
    have hnn : ∀ j, 0 ≤ t.nSamp (t.leafNode j) - 1 := fun j => sub_nonneg.2 (hj j)
    rw [div_eq_one_iff_eq h0, eq_comm, ← sub_eq_zero, key,
      Finset.sum_eq_zero_iff_of_nonneg fun k _ => mul_nonneg (levelSum_nonneg _ _ _ hnn _ _) (hl k)]
    constructor
    · intro hz k j hk hD
      rcases mul_eq_zero.1 (hz k (Finset.mem_univ _)) with hz | hz
      · unfold levelSum at hz
        cases pa
        · simp only [Bool.false_eq_true, if_false] at hz hD
          have := (Finset.sum_eq_zero_iff_of_nonneg fun j _ => hnn j).1 hz j (by simp [hD])
          linarith
        · simp only [if_true] at hz hD
          have := (Finset.sum_eq_zero_iff_of_nonneg fun j _ => hnn j).1 hz j (by simp [hD])
          linarith
      · exact absurd hz hk.ne'
    · intro hz k _
      rcases (hl k).eq_or_lt with hk | hk
      · rw [← hk, mul_zero]
      · have : levelSum pa (t.distDepth s) (fun j => t.nSamp (t.leafNode j) - 1) r k = 0 := by
          unfold levelSum
          cases pa
          · simp only [Bool.false_eq_true, if_false] at hz ⊢
            exact Finset.sum_eq_zero fun j hj => by rw [hz k j hk (by simpa using hj), sub_self]
          · simp only [if_true] at hz ⊢
            exact Finset.sum_eq_zero fun j hj => by rw [hz k j hk (by simpa using hj), sub_self]
        rw [this, zero_mul]

/-- C193: a sanity check on a smoothed classifier (`class_eps` 0) divides its shares by the leaf sizes once
more. -/
theorem C193_sanity (hC : 0 < C) {forest : List (SkTree K C)} (hwf : ∀ t ∈ forest, t.WF)
    {cfg cfg2 : SmoothCfg K} {sources sources2 : TuneSrc → ℕ → List (TuneRow K C)}
    {out : SmoothOut K C (forestDepth forest + 1)}
    (h : smooth sqrt ce (some .cls) forest cfg sources = .ok out)
    {out2 : SmoothOut K C (forestDepth out.rf1 + 1)}
    (h2 : smooth sqrt ce (some .cls) out.rf1 cfg2 sources2 = .ok out2)
    (hs : cfg2.sanityCheck = true) (hseed : cfg2.seed = none) (he : cfg2.classEps = 0) :
    List.Forall₂ (fun t t' => LeafUpdate t t' fun r c =>
      t.value (t.leafNode r) c / t.nSamp (t.leafNode r)) out.rf1 out2.rf1 :=
  (C41_sanity_class_partial hC (smoothed_wf hC hwf h) hs hseed (by rw [he]; simp) h2).2.2 he

/-- The claim that smoothing a smoothed classifier again gives shares. -/
def C193Claim : Prop :=
  ∀ (forest : List (SkTree ℚ 2)), (∀ t ∈ forest, t.WF) →
    (∀ t ∈ forest, ∀ r, 0 < t.nSamp (t.leafNode r) ∧ (∀ c, 0 ≤ t.value (t.leafNode r) c) ∧
      ∑ c, t.value (t.leafNode r) c = t.nSamp (t.leafNode r)) →
    ∀ (cfg : SmoothCfg ℚ) (sources : TuneSrc → ℕ → List (TuneRow ℚ 2))
      (out : SmoothOut ℚ 2 (forestDepth forest + 1)) (out2 : SmoothOut ℚ 2 (forestDepth out.rf1 + 1)),
      smooth (fun x => x) noCe (some .cls) forest cfg sources = .ok out →
      smooth (fun x => x) noCe (some .cls) out.rf1 cfg sources = .ok out2 →
      (∀ k, 0 < out.lamb1 k) → (∀ k, 0 < out2.lamb1 k) →
      ∀ t ∈ out2.rf1, ∀ r, ∑ c, t.value (t.leafNode r) c = 1

/-- The values of two runs in a row. -/
def twiceValues (forest : List (SkTree ℚ 2)) (cfg : SmoothCfg ℚ)
    (sources : TuneSrc → ℕ → List (TuneRow ℚ 2)) : Option (List (List (List ℚ)) × List ℚ) :=
  match smooth (fun x => x) noCe (some .cls) forest cfg sources with
  | .ok out =>
    match smooth (fun x => x) noCe (some .cls) out.rf1 cfg sources with
    | .ok out2 => some (valuesOf out2.rf1, List.ofFn out2.lamb1)
    | .error _ => none
  | .error _ => none

/-- C193 (refuted): on the two-class stump with leaf sizes 4 and 2, already the sanity check run twice. -/
theorem C193_refuted : ¬ C193Claim := by
  intro hall
  have key : (match smooth (fun x => x) noCe (some .cls) [exClsStump] exCfg (fun _ => exClsTune) with
      | .ok out =>
        (match smooth (fun x => x) noCe (some .cls) out.rf1 exCfg (fun _ => exClsTune) with
        | .ok out2 => decide ((∀ k, 0 < out.lamb1 k) ∧ (∀ k, 0 < out2.lamb1 k) ∧
            ¬ ∀ t ∈ out2.rf1, ∀ r, ∑ c, t.value (t.leafNode r) c = 1)
        | .error _ => false)
      | .error _ => false) = true := by decide +kernel
  have h := hall [exClsStump] (by simp; decide) (by
    intro t ht
    rw [List.mem_singleton] at ht
    subst ht
    decide +kernel) exCfg (fun _ => exClsTune)
  split at key
  · rename_i out e
    split at key
    · rename_i out2 e2
      obtain ⟨k1, k2, k3⟩ := of_decide_eq_true key
      exact k3 (h out out2 e e2 k1 k2)
    · cases key
  · cases key

/-- The values after two runs: the entries of the first leaf add up to 22/86 (one leaf in 86/22 samples). -/
example : twiceValues [exClsStump] exCfg (fun _ => exClsTune) =
    some ([[[3, 3], [15279 / 85054, 6479 / 85054], [2079 / 45494, 19679 / 45494]]], [21 / 22, 1 / 22]) := by
  decide +kernel

example : levelTotal exClsStump.toTopo .standard false ![21 / 22, 1 / 22] (fun _ => (1 : ℚ)) ⟨0, by decide⟩ /
    levelTotal exClsStump.toTopo .standard false ![21 / 22, 1 / 22]
      (fun j => exClsStump.nSamp (exClsStump.leafNode j)) ⟨0, by decide⟩ = 22 / 86 ∧
    (15279 / 85054 + 6479 / 85054 : ℚ) = 22 / 86 := by
  decide +kernel

/-- Two runs on a regression forest: the hypotheses of `C193_regression` hold and the values move twice. -/
example : (match smooth (fun x => x) noCe (some .reg) [exStump, exTree]
      { exCfg with seed := some fun i => if i = 0 then 2 else 1 } (fun _ => exTune) with
    | .ok out =>
      (match smooth (fun x => x) noCe (some .reg) out.rf1
          { exCfg with seed := some fun i => if i = 0 then 2 else 1 } (fun _ => exTune) with
      | .ok out2 => decide ((∀ k, 0 ≤ out.lamb1 k) ∧ (∀ k, 0 ≤ out2.lamb1 k) ∧
          (∀ t ∈ [exStump, exTree], ∀ r, smoothDen t .standard false out.lamb1 r ≠ 0 ∧
            smoothDen t .standard false out2.lamb1 r ≠ 0) ∧ valuesOf out.rf1 ≠ valuesOf [exStump, exTree] ∧
          valuesOf out2.rf1 ≠ valuesOf out.rf1)
      | .error _ => false)
    | .error _ => false) = true := by decide +kernel

/-- C193 (depth): `depth_tune` on a smoothed forest. A leaf deeper than the depth its tree is cut at gets the
stored value of an ancestor, which smoothing has not touched; this always happens to the deepest leaves. The
other leaves keep their smoothed values. -/
theorem C193_depth [NeZero C] {kind : Kind} {forest : List (SkTree K C)}
    {cfg : SmoothCfg K} {sources : TuneSrc → ℕ → List (TuneRow K C)} {data : DataArgs} {src : TuneSrc}
    (hsrc : tuneSource data = .ok src) {rows : TuneSrc → ℕ → List (LossRow K)} (ht : Tunable forest (rows src))
    {out : SmoothOut K C (forestDepth forest + 1)}
    (h : smooth sqrt ce (some kind) forest cfg sources = .ok out) :
    ∃ out2 L best, depthTune (some kind) out.rf1 data rows = .ok (out2, L) ∧ FirstMin L best ∧
      List.Forall₂ (fun t t2 => ∃ f, LeafUpdate t t2 f ∧ ∀ r d D, t.DepthIs (t.leafNode r) d →
        t.IsTreeDepth D →
        (d ≤ min best (D - 1) → f r = smoothSpec kind t cfg.style cfg.parentsAll out.lamb1 r) ∧
        (min best (D - 1) < d → ∃ a, t.Anc a (t.leafNode r) ∧ t.DepthIs a (min best (D - 1)) ∧
          f r = t.value a) ∧ (d = D → min best (D - 1) < d)) forest out2 := by
  have hC : 0 < C := NeZero.pos C
  have ht2 : Tunable out.rf1 (rows src) := by
    have hm : ∀ t' ∈ out.rf1, ∃ t ∈ forest, t'.toTopo = t.toTopo := fun t' ht' => by
      obtain ⟨i, hi⟩ := List.mem_iff_getElem?.1 ht'
      obtain ⟨t, h1, e⟩ := smoothed_topo hC ht.wf h i t' hi
      exact ⟨t, List.mem_of_getElem? h1, e⟩
    refine ⟨?_, smoothed_wf hC ht.wf h, fun t' ht' => ?_, fun i t' hi => ?_⟩
    · intro e
      have := (C38_first_forest_rows hC ht.wf h).length_eq
      rw [e] at this
      exact ht.ne (List.length_eq_zero_iff.1 this)
    · obtain ⟨t, h1, e⟩ := hm t' ht'
      have := ht.deep t h1
      rw [← e] at this
      exact this
    · obtain ⟨t, h1, e⟩ := smoothed_topo hC ht.wf h i t' hi
      have := ht.rows i t h1
      rw [← e] at this
      exact this
  obtain ⟨out2, best, D, e1, -, -, -, hmin, hcut⟩ := tunable_run (kind := kind) hsrc ht2
  refine ⟨out2, _, best, e1, hmin, ?_⟩
  refine forall2_imp_mem (forall2_comp (C38_first_forest_rows hC ht.wf h) hcut) ?_
  rintro t htm t2 ⟨t1, ⟨v, rfl, a1, a2⟩, v2, rfl, b1, b2⟩
  have hw := ht.wf t htm
  refine ⟨fun r c => v2 (t.leafNode r) c, ⟨v2, rfl, fun r c => rfl, fun i c hi => (b2 i c hi).trans (a2 i c hi)⟩, ?_⟩
  intro r d D' hd hD'
  have hE : npMax t.depthPerNode = D' := isTreeDepth_unique (isTreeDepth_npMax hw) hD'
  subst hE
  have hpos : 0 < npMax t.depthPerNode := ht.pos htm
  have hb : ∀ c, v2 (t.leafNode r) c =
      v (deepestOf t.toTopo (min best (npMax t.depthPerNode - 1)) (t.leafNode r)) c := fun c => b1 r c
  have hdd : t.depthPerNode (t.leafNode r) = d := (depthIs_iff hw _ _).1 hd
  refine ⟨fun hle => ?_, fun hlt => ?_, fun hdD => by omega⟩
  · have : t.Deepest (min best (npMax t.depthPerNode - 1)) (t.leafNode r) (t.leafNode r) :=
      ⟨.refl _, ⟨d, hle, hd⟩, fun x _ hx _ _ => hx⟩
    funext c
    show v2 (t.leafNode r) c = _
    rw [hb, deepest_unique hw (deepestOf_spec hw _ _) this, a1]
  · obtain ⟨a, ha⟩ := exists_upBy hw (t.leafNode r)
      (t.depthPerNode (t.leafNode r) - min best (npMax t.depthPerNode - 1)) (by omega)
    obtain ⟨u1, u2⟩ := upBy_depth hw ha
    refine ⟨a, u2, (depthIs_iff hw _ _).2 (by omega), ?_⟩
    funext c
    show v2 (t.leafNode r) c = _
    rw [hb, deepest_unique hw (deepestOf_spec hw _ _) (deepest_of_upBy hw ha)]
    refine a2 a c fun hleaf => ?_
    have := leaf_anc_eq hw hleaf u2
    rw [this] at u1
    omega

/-- Smoothing with seeded weights and cutting afterwards: the shallow leaf of the second tree keeps its smoothed
value, the deep leaves get the stored value 3 of their parent. -/
example : (match smooth (fun x => x) noCe (some .reg) [exStump, exTree]
      { exCfg with seed := some fun i => if i = 0 then 2 else 1 } (fun _ => exTune) with
    | .ok out =>
      (match depthTune (some .reg) out.rf1 exData (fun _ _ => [⟨0, 3⟩, ⟨1, 3⟩]) with
      | .ok out2 => some (valuesOf out.rf1, valuesOf out2.1, out2.2)
      | .error _ => none)
    | .error _ => none) =
      some ([[[5 / 2], [2], [3]], [[13 / 2], [3], [40 / 7], [47 / 8], [23 / 3]]],
        [[[5 / 2], [5 / 2], [5 / 2]], [[13 / 2], [3], [3], [3], [23 / 3]]], [25, 1 / 2]) := by
  decide +kernel

end SmoothRF
