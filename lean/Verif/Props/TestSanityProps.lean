import Verif.Props.UpdateCloseProps

/-!
# C160: the sanity check of the classifier tests (tests/test_smooth_base.py 1563-1676)

`test_smooth_classifier` and `test_smooth_classifier_impurity` smooth a classifier with `sanity_check=True` (and
the default `class_eps = 1e-4`) and assert that no predicted class changes.
-/

set_option linter.unusedSectionVars false

namespace SmoothRF
open Topo SkTree

section generic

variable {K : Type} [Field K] [LinearOrder K] [IsStrictOrderedRing K] {C : ℕ}

/-- The sum of the class entries stored in leaf `j` (with bootstrap weights this is not `n_node_samples`). -/
def leafTotal (t : SkTree K C) (j : Fin t.nLeaves) : K := ∑ c, t.value (t.leafNode j) c

/-- The tree with `n_node_samples` replaced by the sums of the class entries. -/
def byWeight (t : SkTree K C) : SkTree K C := { t with nSamp := fun i => ∑ c, t.value i c }

theorem num_sum (t : SkTree K C) (s : Style) (pa : Bool) {n : ℕ} (lamb : Fin n → K) (r : Fin t.nLeaves) :
    ∑ c, smoothNum .cls t s pa lamb r c = smoothDen (byWeight t) s pa lamb r := by
  unfold smoothNum smoothDen
  rw [Finset.sum_comm]
  refine Finset.sum_congr rfl fun k _ => ?_
  rw [← Finset.sum_mul]
  congr 1
  unfold levelSum
  split_ifs <;> rw [Finset.sum_comm] <;> rfl

/-- After smoothing, the share of a class in a leaf is the quotient of the numerators: the numbers of
observations cancel. -/
theorem leafShare_smooth {t t' : SkTree K C} {s : Style} {pa : Bool} {n : ℕ} {lamb : Fin n → K}
    (h : LeafUpdate t t' fun r => smoothSpec .cls t s pa lamb r) (r : Fin t.nLeaves)
    (hd : smoothDen t s pa lamb r ≠ 0) (hw : smoothDen (byWeight t) s pa lamb r ≠ 0) (c : Fin C) :
    leafShare t' r c = smoothNum .cls t s pa lamb r c / smoothDen (byWeight t) s pa lamb r := by
  have e : ∀ c, leafVal t' r c = smoothNum .cls t s pa lamb r c / smoothDen t s pa lamb r := fun c => by
    rw [(leafVal_update h _ c).2, dif_pos r.isLt, smoothSpec, if_neg hd]
  have hs : ∑ c, leafVal t' r c = smoothDen (byWeight t) s pa lamb r / smoothDen t s pa lamb r := by
    simp only [e]
    rw [← Finset.sum_div, num_sum]
  rw [leafShare_of_sum hs (div_ne_zero hw hd), e, div_div_div_cancel_right₀ hd]

/-- The distance between the class shares of a leaf before and after smoothing. -/
theorem share_close {t t' : SkTree K C} (hwf : t.WF) {s : Style} {pa : Bool} {n : ℕ} {lamb : Fin (n + 1) → K}
    (hl : ∀ k, 0 ≤ lamb k) (h0 : 0 < lamb 0) (hn : ∀ j, 0 < t.nSamp (t.leafNode j))
    (hv : ∀ j c, 0 ≤ t.value (t.leafNode j) c) (hW : ∀ j, 0 < leafTotal t j)
    (h : LeafUpdate t t' fun r => smoothSpec .cls t s pa lamb r) (r : Fin t.nLeaves) (c : Fin C) :
    |leafShare t' r c - leafShare t r c| ≤
      (∑ j, leafTotal t j) * (∑ k : Fin n, lamb k.succ) / (leafTotal t r * lamb 0) := by
  have hd : 0 < smoothDen t s pa lamb r :=
    lt_of_lt_of_le (mul_pos (hn r) h0) (smoothDen_ge hwf _ _ _ hl hn r)
  have hd' : 0 < smoothDen (byWeight t) s pa lamb r :=
    lt_of_lt_of_le (mul_pos (hW r) h0) (smoothDen_ge (t := byWeight t) hwf _ _ _ hl hW r)
  have hb : ∀ j, 0 ≤ leafRate .cls (byWeight t) j c ∧ leafRate .cls (byWeight t) j c ≤ 1 := by
    intro j
    refine ⟨div_nonneg (hv j c) (hW j).le, (div_le_one (hW j)).2 ?_⟩
    exact Finset.single_le_sum (f := fun c => t.value (t.leafNode j) c) (fun c _ => hv j c) (Finset.mem_univ c)
  have key := smooth_close .cls (t := byWeight t) hwf s pa lamb hl h0 hW r c hb
  rw [sub_zero, one_mul] at key
  have e : leafShare t r c = leafRate .cls (byWeight t) r c := by
    have es : ∑ c', leafVal t r c' = leafTotal t r := Finset.sum_congr rfl fun c' _ => by simp [leafVal]
    rw [leafShare_of_sum es (hW r).ne']
    simp [leafVal, leafRate, byWeight, leafTotal]
  rw [leafShare_smooth h r hd.ne' hd'.ne', e]
  exact key

/-- C160: with `sanity_check=True` the class shares of a leaf change by at most `class_eps` times the size of the
tree relative to that of the leaf, for every distance style, with or without `parents_all`, bootstrapped or
not. -/
theorem C160_share_change (hC : 0 < C) {sqrt : K → K}
    {ce : (n : ℕ) → SgdOpts K → K → List (Row K n) → List K → List ℕ →
      Except PyErr ((Fin n → K) × (Fin n → K) × List K)} {forest : List (SkTree K C)}
    (hwf : ∀ t ∈ forest, t.WF) (hn : ∀ t ∈ forest, ∀ j, 0 < t.nSamp (t.leafNode j))
    (hv : ∀ t ∈ forest, ∀ j c, 0 ≤ t.value (t.leafNode j) c) (hW : ∀ t ∈ forest, ∀ j, 0 < leafTotal t j)
    {cfg : SmoothCfg K} (hs : cfg.sanityCheck = true) (hseed : cfg.seed = none) (he : 0 ≤ cfg.classEps)
    {sources : TuneSrc → ℕ → List (TuneRow K C)} {out : SmoothOut K C (forestDepth forest + 1)}
    (h : smooth sqrt ce (some .cls) forest cfg sources = .ok out) :
    List.Forall₂ (fun t t' => t ∈ forest ∧ t'.nLeaves = t.nLeaves ∧ ∀ (r : Fin t.nLeaves) c,
      |leafShare t' r c - leafShare t r c| ≤ cfg.classEps * ((∑ j, leafTotal t j) / leafTotal t r))
      forest out.rf1 := by
  have h1 : 0 < 1 + cfg.classEps := by linarith
  obtain ⟨-, hl, -⟩ := C41_sanity_class_partial hC hwf hs hseed h1.ne' h
  have hq : (0 : K) < ((forestDepth forest + 1 : ℕ) : K) := by positivity
  refine forall2_imp_mem (smooth_forests hC hwf h).1 fun t ht t' hu => ⟨ht, (leafVal_update hu 0 ⟨0, hC⟩).1,
    fun r c => ?_⟩
  have hp0 : 0 < out.lamb1 0 := by
    rw [hl, if_pos rfl]
    have := div_nonneg he hq.le
    exact div_pos (by linarith) h1
  have hp : ∀ k, 0 ≤ out.lamb1 k := fun k => by
    rw [hl]
    refine div_nonneg (add_nonneg (by split_ifs <;> simp) (div_nonneg he hq.le)) h1.le
  refine (share_close (hwf t ht) hp hp0 (hn t ht) (hv t ht) (hW t ht) hu r c).trans ?_
  have hS : 0 ≤ ∑ j, leafTotal t j := Finset.sum_nonneg fun j _ => (hW t ht j).le
  have e : (∑ k : Fin (forestDepth forest), out.lamb1 k.succ) ≤ cfg.classEps * out.lamb1 0 := by
    simp only [hl, Fin.succ_ne_zero, if_false, if_true, zero_add, Finset.sum_const, Finset.card_univ,
      Fintype.card_fin, nsmul_eq_mul]
    rw [← mul_div_assoc (forestDepth forest : K) (cfg.classEps / _), ← mul_div_assoc cfg.classEps]
    refine div_le_div_of_nonneg_right ?_ h1.le
    have hx : (forestDepth forest : K) * (cfg.classEps / ((forestDepth forest + 1 : ℕ) : K)) ≤ cfg.classEps := by
      rw [← mul_div_assoc, div_le_iff₀ hq, mul_comm]
      refine mul_le_mul_of_nonneg_left ?_ he
      push_cast
      linarith
    have hy : 0 ≤ cfg.classEps * (cfg.classEps / ((forestDepth forest + 1 : ℕ) : K)) :=
      mul_nonneg he (div_nonneg he hq.le)
    linarith
  rw [div_le_iff₀ (mul_pos (hW t ht r) hp0)]
  have e2 : cfg.classEps * ((∑ j, leafTotal t j) / leafTotal t r) * (leafTotal t r * out.lamb1 0) =
      (∑ j, leafTotal t j) * (cfg.classEps * out.lamb1 0) := by
    have := (hW t ht r).ne'
    field_simp
  rw [e2]
  exact mul_le_mul_of_nonneg_left e hS

/-- Class shares that are close give the same predicted class when one class leads by enough. -/
theorem predict_same_of_close (hC : 0 < C) {forest rf' : List (SkTree K C)} {r : TestRow K} {B : K}
    (hr : ∀ tt ∈ forest.zipIdx, r.leaf tt.2 < tt.1.nLeaves)
    (hr' : ∀ tt ∈ rf'.zipIdx, r.leaf tt.2 < tt.1.nLeaves)
    (hcl : ∀ c, |meanShare rf' r c - meanShare forest r c| ≤ B) {c : Fin C}
    (hlead : ∀ c', c' ≠ c → meanShare forest r c' + 2 * B < meanShare forest r c) :
    forestPredict .cls forest r = .ok (c.val : K) ∧ forestPredict .cls rf' r = .ok (c.val : K) := by
  obtain ⟨c1, p1, m1, -⟩ := C127_predict_class hC forest r hr
  obtain ⟨c2, p2, m2, -⟩ := C127_predict_class hC rf' r hr'
  have hB : 0 ≤ B := (abs_nonneg _).trans (hcl c)
  have g1 : c1 = c := by
    by_contra hne'
    have a1 : meanShare forest r c ≤ meanShare forest r c1 := m1 c
    have a2 := hlead c1 hne'
    linarith
  have g2 : c2 = c := by
    by_contra hne'
    have a1 : meanShare rf' r c ≤ meanShare rf' r c2 := m2 c
    have a2 := hlead c2 hne'
    have a3 := (abs_le.1 (hcl c)).1
    have a4 := (abs_le.1 (hcl c2)).2
    linarith
  rw [g1] at p1
  rw [g2] at p2
  exact ⟨p1, p2⟩

/-- C160: class probabilities after the sanity check differ from those of the forest by at most `class_eps * N`,
`N` bounding the size of the trees and every leaf having weight at least 1. A class leading by more than
twice that stays the predicted class. -/
theorem C160_class_same (hC : 0 < C) {sqrt : K → K}
    {ce : (n : ℕ) → SgdOpts K → K → List (Row K n) → List K → List ℕ →
      Except PyErr ((Fin n → K) × (Fin n → K) × List K)} {forest : List (SkTree K C)} (hne : forest ≠ [])
    (hwf : ∀ t ∈ forest, t.WF) (hn : ∀ t ∈ forest, ∀ j, 0 < t.nSamp (t.leafNode j))
    (hv : ∀ t ∈ forest, ∀ j c, 0 ≤ t.value (t.leafNode j) c) (hW : ∀ t ∈ forest, ∀ j, 1 ≤ leafTotal t j) {N : K}
    (hN : ∀ t ∈ forest, ∑ j, leafTotal t j ≤ N)
    {cfg : SmoothCfg K} (hs : cfg.sanityCheck = true) (hseed : cfg.seed = none) (he : 0 ≤ cfg.classEps)
    {sources : TuneSrc → ℕ → List (TuneRow K C)} {out : SmoothOut K C (forestDepth forest + 1)}
    (h : smooth sqrt ce (some .cls) forest cfg sources = .ok out) (r : TestRow K)
    (hr : ∀ tt ∈ forest.zipIdx, r.leaf tt.2 < tt.1.nLeaves) :
    (∀ c, |meanShare out.rf1 r c - meanShare forest r c| ≤ cfg.classEps * N) ∧
    ∀ c, (∀ c', c' ≠ c → meanShare forest r c' + 2 * (cfg.classEps * N) < meanShare forest r c) →
      forestPredict .cls forest r = .ok (c.val : K) ∧ forestPredict .cls out.rf1 r = .ok (c.val : K) := by
  have hW' : ∀ t ∈ forest, ∀ j, 0 < leafTotal t j := fun t ht j => lt_of_lt_of_le one_pos (hW t ht j)
  have hc := C160_share_change hC hwf hn hv hW' hs hseed he h
  have hlen := hc.length_eq
  have hr' := forall2_leaf_bound hc (fun t t' hh => hh.2.1) 0 hr
  have hpos : (0 : K) < forest.length := by
    have := List.length_pos_iff.2 hne
    exact_mod_cast this
  have hS : ∀ t ∈ forest, 0 ≤ ∑ j, leafTotal t j := fun t hm => Finset.sum_nonneg fun j _ => (hW' t hm j).le
  have hcl : ∀ c, |meanShare out.rf1 r c - meanShare forest r c| ≤ cfg.classEps * N := by
    intro c
    have key := zipIdx_sum_close (fun (t : SkTree K C) i => leafShare t (r.leaf i) c) (B := cfg.classEps * N)
      (fun t t' i hh => by
        obtain ⟨hm, hnl, hd⟩ := hh
        by_cases hl : r.leaf i < t.nLeaves
        · refine (hd ⟨_, hl⟩ c).trans (mul_le_mul_of_nonneg_left ?_ he)
          exact (div_le_self (hS t hm) (hW t hm _)).trans (hN t hm)
        · have e : ∀ c', leafVal t' (r.leaf i) c' = 0 := fun c' => dif_neg (by rw [hnl]; exact hl)
          have e' : ∀ c', leafVal t (r.leaf i) c' = 0 := fun c' => dif_neg hl
          simp only [leafShare, e, e', Finset.sum_const_zero, if_true, sub_self, abs_zero]
          exact mul_nonneg he ((hS t hm).trans (hN t hm))) hc 0
    unfold meanShare
    rw [← hlen, ← sub_div, abs_div, abs_of_pos hpos, div_le_iff₀ hpos, mul_comm _ (forest.length : K)]
    exact key
  exact ⟨hcl, fun c hlead => predict_same_of_close hC hr hr' hcl hlead⟩

/-- C160: with `class_eps = 0` every predicted class and every class probability is exactly the forest's. -/
theorem C160_zero_eps (hC : 0 < C) {sqrt : K → K}
    {ce : (n : ℕ) → SgdOpts K → K → List (Row K n) → List K → List ℕ →
      Except PyErr ((Fin n → K) × (Fin n → K) × List K)} {forest : List (SkTree K C)}
    (hwf : ∀ t ∈ forest, t.WF) (hn : ∀ t ∈ forest, ∀ j, 0 < t.nSamp (t.leafNode j))
    (hv : ∀ t ∈ forest, ∀ j c, 0 ≤ t.value (t.leafNode j) c) (hW : ∀ t ∈ forest, ∀ j, 0 < leafTotal t j)
    {cfg : SmoothCfg K} (hs : cfg.sanityCheck = true) (hseed : cfg.seed = none) (he : cfg.classEps = 0)
    {sources : TuneSrc → ℕ → List (TuneRow K C)} {out : SmoothOut K C (forestDepth forest + 1)}
    (h : smooth sqrt ce (some .cls) forest cfg sources = .ok out) (r : TestRow K)
    (hr : ∀ tt ∈ forest.zipIdx, r.leaf tt.2 < tt.1.nLeaves) :
    (∀ c, meanShare out.rf1 r c = meanShare forest r c) ∧
    forestPredict .cls out.rf1 r = forestPredict .cls forest r := by
  have hc := C160_share_change hC hwf hn hv hW hs hseed he.ge h
  have hr' := forall2_leaf_bound hc (fun t t' hh => hh.2.1) 0 hr
  have hcl : ∀ c, meanShare out.rf1 r c = meanShare forest r c := by
    intro c
    have key := zipIdx_sum_close (fun (t : SkTree K C) i => leafShare t (r.leaf i) c) (B := 0)
      (fun t t' i hh => by
        obtain ⟨hm, hnl, hd⟩ := hh
        by_cases hl : r.leaf i < t.nLeaves
        · refine (hd ⟨_, hl⟩ c).trans (le_of_eq ?_)
          rw [he, zero_mul]
        · have e : ∀ c', leafVal t' (r.leaf i) c' = 0 := fun c' => dif_neg (by rw [hnl]; exact hl)
          have e' : ∀ c', leafVal t (r.leaf i) c' = 0 := fun c' => dif_neg hl
          simp only [leafShare, e, e', Finset.sum_const_zero, if_true, sub_self, abs_zero, le_refl]) hc 0
    rw [mul_zero] at key
    unfold meanShare
    rw [hc.length_eq, sub_eq_zero.1 (abs_eq_zero.1 (le_antisymm key (abs_nonneg _)))]
  refine ⟨hcl, ?_⟩
  obtain ⟨c1, p1, m1, s1⟩ := C127_predict_class hC forest r hr
  obtain ⟨c2, p2, m2, s2⟩ := C127_predict_class hC out.rf1 r hr'
  change ∀ c', meanShare forest r c' ≤ meanShare forest r c1 at m1
  change ∀ c' < c1, meanShare forest r c' < meanShare forest r c1 at s1
  change ∀ c', meanShare out.rf1 r c' ≤ meanShare out.rf1 r c2 at m2
  change ∀ c' < c2, meanShare out.rf1 r c' < meanShare out.rf1 r c2 at s2
  simp only [hcl] at m2 s2
  have : c1 = c2 := by
    rcases lt_trichotomy c1 c2 with hlt | heq | hlt
    · exact absurd (s2 c1 hlt) (not_lt.2 (m1 c2))
    · exact heq
    · exact absurd (s1 c2 hlt) (not_lt.2 (m2 c1))
  rw [p1, p2, this]

end generic

section test

variable {K : Type} [Field K] [LinearOrder K] [IsStrictOrderedRing K]

/-- In trees whose leaves hold one class each, the two class shares add up to the number of trees and are whole
numbers. -/
theorem pure_votes {forest : List (SkTree K 2)} (hW : ∀ t ∈ forest, ∀ j, 0 < leafTotal t j)
    (hpure : ∀ t ∈ forest, ∀ j, ∃ c, t.value (t.leafNode j) c = 0) {q : ℕ → ℕ} : ∀ k,
    (∀ tt ∈ forest.zipIdx k, q tt.2 < tt.1.nLeaves) → ∃ a b : ℕ, a + b = forest.length ∧
      ((forest.zipIdx k).map fun tt => leafShare tt.1 (q tt.2) 0).sum = a ∧
      ((forest.zipIdx k).map fun tt => leafShare tt.1 (q tt.2) 1).sum = b := by
  induction forest with
  | nil => exact fun k _ => ⟨0, 0, rfl, by simp, by simp⟩
  | cons t ts ih =>
    intro k hk
    obtain ⟨a, b, h1, h2, h3⟩ := ih (fun t' ht' => hW t' (by simp [ht'])) (fun t' ht' => hpure t' (by simp [ht']))
      (k + 1) (fun tt htt => hk tt (by simp [htt]))
    have hl : q k < t.nLeaves := hk (t, k) (by simp)
    have hw := hW t (by simp) ⟨_, hl⟩
    have es : ∑ c', leafVal t (q k) c' = leafTotal t ⟨_, hl⟩ :=
      Finset.sum_congr rfl fun c' _ => by simp [leafVal, hl]
    have e : ∀ c, leafShare t (q k) c = t.value (t.leafNode ⟨_, hl⟩) c / leafTotal t ⟨_, hl⟩ := fun c => by
      rw [leafShare_of_sum es hw.ne']
      simp [leafVal, hl]
    have ew : leafTotal t ⟨_, hl⟩ = t.value (t.leafNode ⟨_, hl⟩) 0 + t.value (t.leafNode ⟨_, hl⟩) 1 := by
      unfold leafTotal
      rw [Fin.sum_univ_two]
    simp only [List.zipIdx_cons, List.map_cons, List.sum_cons, List.length_cons, e, h2, h3]
    obtain ⟨c, hc⟩ := hpure t (by simp) ⟨_, hl⟩
    have hcase : c = 0 ∨ c = 1 := by omega
    rcases hcase with rfl | rfl
    · refine ⟨a, b + 1, by omega, by rw [hc]; simp, ?_⟩
      rw [ew, hc, zero_add] at hw ⊢
      rw [div_self hw.ne']
      push_cast; ring
    · refine ⟨a + 1, b, by omega, ?_, by rw [hc]; simp⟩
      rw [ew, hc, add_zero] at hw ⊢
      rw [div_self hw.ne']
      push_cast; ring

/-- C160: the assertion of the tests for all inputs of their form: two classes, leaves holding one class each
(trees grown until pure), an odd number `T` of trees of size at most `N`, and `2 * class_eps * N * T < 1`. No
row changes its predicted class, whatever the tuning data. -/
theorem C160_test {sqrt : K → K}
    {ce : (n : ℕ) → SgdOpts K → K → List (Row K n) → List K → List ℕ →
      Except PyErr ((Fin n → K) × (Fin n → K) × List K)} {forest : List (SkTree K 2)}
    (hodd : Odd forest.length)
    (hwf : ∀ t ∈ forest, t.WF) (hn : ∀ t ∈ forest, ∀ j, 0 < t.nSamp (t.leafNode j))
    (hv : ∀ t ∈ forest, ∀ j c, 0 ≤ t.value (t.leafNode j) c) (hW : ∀ t ∈ forest, ∀ j, 1 ≤ leafTotal t j)
    (hpure : ∀ t ∈ forest, ∀ j, ∃ c, t.value (t.leafNode j) c = 0) {N : K}
    (hN : ∀ t ∈ forest, ∑ j, leafTotal t j ≤ N)
    {cfg : SmoothCfg K} (hs : cfg.sanityCheck = true) (hseed : cfg.seed = none) (he : 0 ≤ cfg.classEps)
    (hsmall : 2 * cfg.classEps * N * (forest.length : K) < 1)
    {sources : TuneSrc → ℕ → List (TuneRow K 2)} {out : SmoothOut K 2 (forestDepth forest + 1)}
    (h : smooth sqrt ce (some .cls) forest cfg sources = .ok out) (r : TestRow K)
    (hr : ∀ tt ∈ forest.zipIdx, r.leaf tt.2 < tt.1.nLeaves) :
    forestPredict .cls out.rf1 r = forestPredict .cls forest r := by
  have hne : forest ≠ [] := by
    rintro rfl
    simp at hodd
  have hpos : (0 : K) < forest.length := by
    have := List.length_pos_iff.2 hne
    exact_mod_cast this
  obtain ⟨-, hsame⟩ := C160_class_same (by decide) hne hwf hn hv hW hN hs hseed he h r hr
  obtain ⟨a, b, hab, ea, eb⟩ := pure_votes (fun t ht j => lt_of_lt_of_le one_pos (hW t ht j)) hpure 0 hr
  have e0 : meanShare forest r 0 = a / forest.length := by unfold meanShare; rw [ea]
  have e1 : meanShare forest r 1 = b / forest.length := by unfold meanShare; rw [eb]
  have lead : ∀ x y : ℕ, y < x → (y : K) / forest.length + 2 * (cfg.classEps * N) < x / forest.length := by
    intro x y hxy
    have hxy' : (y : K) + 1 ≤ x := by exact_mod_cast hxy
    rw [← sub_pos, show (x : K) / forest.length - (y / forest.length + 2 * (cfg.classEps * N)) =
      (x - y - 2 * cfg.classEps * N * forest.length) / forest.length by field_simp; ring]
    exact div_pos (by linarith) hpos
  have hneq : a ≠ b := by
    rintro rfl
    rw [← hab] at hodd
    exact absurd hodd (by simp)
  rcases lt_or_gt_of_ne hneq with hlt | hlt
  · obtain ⟨p, p'⟩ := hsame 1 fun c' hc' => by
      have : c' = 0 := by omega
      rw [this, e0, e1]
      exact lead b a hlt
    rw [p, p']
  · obtain ⟨p, p'⟩ := hsame 0 fun c' hc' => by
      have : c' = 1 := by omega
      rw [this, e0, e1]
      exact lead a b hlt
    rw [p, p']

/-- The settings of the tests: 5 trees of weight 200, `class_eps = 1e-4`. -/
example : 2 * (1 / 10 ^ 4 : ℚ) * 200 * (5 : ℕ) < 1 := by norm_num

/-- The settings of one run: the sanity check with `class_eps = 1e-4`. -/
abbrev exTieCfg : SmoothCfg ℚ := { exCfg with classEps := 1 / 10 ^ 4 }

/-- The forest `[A, B, A]` meets the hypotheses of `C160_test`: three pure trees of weight at most 4. -/
example : Odd [exTieA ℚ, exTieB ℚ, exTieA ℚ].length ∧
    (∀ t ∈ [exTieA ℚ, exTieB ℚ, exTieA ℚ], t.WF ∧ (∀ j, 0 < t.nSamp (t.leafNode j)) ∧
      (∀ j c, 0 ≤ t.value (t.leafNode j) c) ∧ (∀ j, 1 ≤ leafTotal t j) ∧
      (∀ j, ∃ c, t.value (t.leafNode j) c = 0) ∧ ∑ j, leafTotal t j ≤ 4) ∧
    2 * exTieCfg.classEps * 4 * ([exTieA ℚ, exTieB ℚ, exTieA ℚ].length : ℚ) < 1 ∧
    (match smooth (fun x => x) noCe (some .cls) [exTieA ℚ, exTieB ℚ, exTieA ℚ] exTieCfg
        (fun _ _ => [⟨0, ![1, 0]⟩, ⟨1, ![0, 1]⟩]) with
      | .ok out => some (forestPredict .cls out.rf1 ⟨fun _ => 0, 0⟩)
      | .error _ => none) = some (.ok 0) := by
  refine ⟨by decide, ?_, by norm_num, by decide +kernel⟩
  intro t ht
  simp only [List.mem_cons, List.not_mem_nil, or_false] at ht
  rcases ht with rfl | rfl | rfl <;> decide +kernel

/-- For an even number of trees the assertion can fail, in exact arithmetic and however the tests' other
conditions are met: two pure stumps that vote differently, `class_eps = 1e-4`. The tie is decided for the
first class before and for the second class after the sanity check. -/
theorem C160_refuted_even :
    ¬ ∀ (forest : List (SkTree ℚ 2)), forest ≠ [] → (∀ t ∈ forest, t.WF) →
      (∀ t ∈ forest, ∀ j, 0 < t.nSamp (t.leafNode j)) → (∀ t ∈ forest, ∀ j c, 0 ≤ t.value (t.leafNode j) c) →
      (∀ t ∈ forest, ∀ j, 1 ≤ leafTotal t j) →
      (∀ t ∈ forest, ∀ j, ∃ c, t.value (t.leafNode j) c = 0) → (∀ t ∈ forest, ∑ j, leafTotal t j ≤ 4) →
      ∀ (cfg : SmoothCfg ℚ), cfg.sanityCheck = true → cfg.seed = none → cfg.classEps = 1 / 10 ^ 4 →
      ∀ (sources : TuneSrc → ℕ → List (TuneRow ℚ 2)) (out : SmoothOut ℚ 2 (forestDepth forest + 1)),
      smooth (fun x => x) noCe (some .cls) forest cfg sources = .ok out → ∀ r : TestRow ℚ,
      (∀ tt ∈ forest.zipIdx, r.leaf tt.2 < tt.1.nLeaves) →
      forestPredict .cls out.rf1 r = forestPredict .cls forest r := by
  intro hall
  have hm : ∀ t ∈ [exTieA ℚ, exTieB ℚ], t.WF ∧ (∀ j, 0 < t.nSamp (t.leafNode j)) ∧
      (∀ j c, 0 ≤ t.value (t.leafNode j) c) ∧ (∀ j, 1 ≤ leafTotal t j) ∧
      (∀ j, ∃ c, t.value (t.leafNode j) c = 0) ∧ ∑ j, leafTotal t j ≤ 4 := by
    intro t ht
    simp only [List.mem_cons, List.not_mem_nil, or_false] at ht
    rcases ht with rfl | rfl <;> decide +kernel
  have h := hall [exTieA ℚ, exTieB ℚ] (by simp) (fun t ht => (hm t ht).1) (fun t ht => (hm t ht).2.1)
    (fun t ht => (hm t ht).2.2.1) (fun t ht => (hm t ht).2.2.2.1) (fun t ht => (hm t ht).2.2.2.2.1)
    (fun t ht => (hm t ht).2.2.2.2.2) exTieCfg rfl rfl rfl (fun _ _ => [⟨0, ![1, 0]⟩, ⟨1, ![0, 1]⟩])
  have key : (match smooth (fun x => x) noCe (some .cls) [exTieA ℚ, exTieB ℚ] exTieCfg
        (fun _ _ => [⟨0, ![1, 0]⟩, ⟨1, ![0, 1]⟩]) with
      | .ok out => some (forestPredict .cls out.rf1 ⟨fun _ => 0, 0⟩)
      | .error _ => none) = some (.ok 1) ∧
      forestPredict .cls [exTieA ℚ, exTieB ℚ] ⟨fun _ => 0, 0⟩ = .ok 0 := by decide +kernel
  generalize smooth (fun x => x) noCe (some .cls) [exTieA ℚ, exTieB ℚ] exTieCfg
    (fun _ _ => [⟨0, ![1, 0]⟩, ⟨1, ![0, 1]⟩]) = o at key h
  rcases o with e | out
  · exact absurd key.1 (by simp)
  · have h := h out rfl ⟨fun _ => 0, 0⟩ (by
      intro tt htt
      exact nLeaves_pos (hm _ (List.fst_mem_of_mem_zipIdx htt)).1)
    have k1 := Option.some.inj key.1
    rw [k1, key.2] at h
    cases h

end test

end SmoothRF
