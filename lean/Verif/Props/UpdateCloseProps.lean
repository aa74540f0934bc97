import Verif.Props.TorchRunProps
import Verif.Props.ExperimentProps
import Mathlib.Analysis.SpecialFunctions.Exp
import Mathlib.Analysis.Complex.ExponentialBounds

/-!
# C158: update_rf with an untrained network (tests/test_smooth_pytorch.py 453-565)

The test builds the network with `init = 100`, calls `update_rf` without training it, and asserts that the
predictions are close to those of the original forest, but not equal.
-/

set_option linter.unusedSectionVars false

namespace SmoothRF
open Topo SkTree

section generic

variable {K : Type} [Field K] [LinearOrder K] [IsStrictOrderedRing K] {C : ℕ}

/-- What leaf `r` contributes to predictions: its value, or the share of class `c`. -/
def leafRate (kind : Kind) (t : SkTree K C) (r : Fin t.nLeaves) (c : Fin C) : K :=
  match kind with
  | .reg => t.value (t.leafNode r) c
  | .cls => t.value (t.leafNode r) c / t.nSamp (t.leafNode r)

theorem mass_rate (kind : Kind) (t : SkTree K C) (r : Fin t.nLeaves) (c : Fin C)
    (hn : t.nSamp (t.leafNode r) ≠ 0) :
    t.mass kind (t.leafNode r) c = t.nSamp (t.leafNode r) * leafRate kind t r c := by
  cases kind
  · simp [SkTree.mass, leafRate]
  · simp only [SkTree.mass, leafRate, reduceCtorEq, if_false]
    field_simp

theorem smooth_diff (kind : Kind) (t : SkTree K C) (s : Style) (pa : Bool) {n : ℕ} (lamb : Fin n → K)
    (hn : ∀ j, 0 < t.nSamp (t.leafNode j)) (r : Fin t.nLeaves) (c : Fin C) (x : K) :
    smoothNum kind t s pa lamb r c - x * smoothDen t s pa lamb r =
      ∑ k : Fin n, levelSum pa (t.distDepth s)
        (fun j => t.nSamp (t.leafNode j) * (leafRate kind t j c - x)) r k * lamb k := by
  unfold smoothNum smoothDen
  rw [Finset.mul_sum, ← Finset.sum_sub_distrib]
  refine Finset.sum_congr rfl fun k _ => ?_
  rw [← mul_assoc, ← sub_mul]
  congr 1
  have e : ∀ j, t.mass kind (t.leafNode j) c =
      t.nSamp (t.leafNode j) * (leafRate kind t j c - x) + t.nSamp (t.leafNode j) * x := by
    intro j
    rw [mass_rate kind t j c (hn j).ne']
    ring
  unfold levelSum
  simp only [e]
  split_ifs <;> rw [Finset.sum_add_distrib, ← Finset.sum_mul] <;> ring

theorem smoothDen_ge {t : SkTree K C} (h : t.WF) (s : Style) (pa : Bool) {n : ℕ} (lamb : Fin (n + 1) → K)
    (hl : ∀ k, 0 ≤ lamb k) (hn : ∀ j, 0 < t.nSamp (t.leafNode j)) (r : Fin t.nLeaves) :
    t.nSamp (t.leafNode r) * lamb 0 ≤ smoothDen t s pa lamb r := by
  unfold smoothDen
  rw [Fin.sum_univ_succ]
  have e : levelSum pa (t.distDepth s) (fun j => t.nSamp (t.leafNode j)) r ((0 : Fin (n + 1)).val) =
      t.nSamp (t.leafNode r) := levelSum_zero h s pa _ r
  rw [e]
  exact le_add_of_nonneg_right (Finset.sum_nonneg fun k _ =>
    mul_nonneg (levelSum_nonneg _ _ _ (fun j => (hn j).le) _ _) (hl _))

/-- The distance between a smoothed leaf value and the leaf's own. -/
theorem smooth_close (kind : Kind) {t : SkTree K C} (h : t.WF) (s : Style) (pa : Bool) {n : ℕ}
    (lamb : Fin (n + 1) → K) (hl : ∀ k, 0 ≤ lamb k) (h0 : 0 < lamb 0)
    (hn : ∀ j, 0 < t.nSamp (t.leafNode j)) (r : Fin t.nLeaves) (c : Fin C) {lo hi : K}
    (hb : ∀ j, lo ≤ leafRate kind t j c ∧ leafRate kind t j c ≤ hi) :
    |smoothNum kind t s pa lamb r c / smoothDen t s pa lamb r - leafRate kind t r c| ≤
      (hi - lo) * (∑ j, t.nSamp (t.leafNode j)) * (∑ k : Fin n, lamb k.succ) /
        (t.nSamp (t.leafNode r) * lamb 0) := by
  have hge := smoothDen_ge h s pa lamb hl hn r
  have hp : 0 < t.nSamp (t.leafNode r) * lamb 0 := mul_pos (hn r) h0
  have hD : 0 < smoothDen t s pa lamb r := lt_of_lt_of_le hp hge
  have hw : 0 ≤ hi - lo := sub_nonneg.2 ((hb r).1.trans (hb r).2)
  have hN : 0 ≤ ∑ j, t.nSamp (t.leafNode j) := Finset.sum_nonneg fun j _ => (hn j).le
  have hL : 0 ≤ ∑ k : Fin n, lamb k.succ := Finset.sum_nonneg fun k _ => hl _
  have e : smoothNum kind t s pa lamb r c / smoothDen t s pa lamb r - leafRate kind t r c =
      (smoothNum kind t s pa lamb r c - leafRate kind t r c * smoothDen t s pa lamb r) /
        smoothDen t s pa lamb r := by
    field_simp
  have hlev : ∀ k : ℕ, |levelSum pa (t.distDepth s)
      (fun j => t.nSamp (t.leafNode j) * (leafRate kind t j c - leafRate kind t r c)) r k| ≤
      (hi - lo) * ∑ j, t.nSamp (t.leafNode j) := by
    intro k
    have key : ∀ S : Finset (Fin t.nLeaves), |∑ j ∈ S, t.nSamp (t.leafNode j) *
        (leafRate kind t j c - leafRate kind t r c)| ≤ (hi - lo) * ∑ j, t.nSamp (t.leafNode j) := by
      intro S
      refine (Finset.abs_sum_le_sum_abs _ _).trans ?_
      rw [Finset.mul_sum]
      refine (Finset.sum_le_sum_of_subset_of_nonneg (Finset.subset_univ S) fun j _ _ => abs_nonneg _).trans ?_
      refine Finset.sum_le_sum fun j _ => ?_
      rw [abs_mul, abs_of_pos (hn j), mul_comm]
      refine mul_le_mul_of_nonneg_right ?_ (hn j).le
      rw [abs_le]
      obtain ⟨a1, a2⟩ := hb j
      obtain ⟨b1, b2⟩ := hb r
      constructor <;> linarith
    unfold levelSum
    split_ifs <;> exact key _
  have hnum : |smoothNum kind t s pa lamb r c - leafRate kind t r c * smoothDen t s pa lamb r| ≤
      (hi - lo) * (∑ j, t.nSamp (t.leafNode j)) * ∑ k : Fin n, lamb k.succ := by
    rw [smooth_diff kind t s pa lamb hn, Fin.sum_univ_succ]
    have e0 : levelSum pa (t.distDepth s) (fun j => t.nSamp (t.leafNode j) *
        (leafRate kind t j c - leafRate kind t r c)) r ((0 : Fin (n + 1)).val) = 0 := by
      refine (levelSum_zero h s pa _ r).trans ?_
      simp
    rw [e0, zero_mul, zero_add, Finset.mul_sum]
    refine (Finset.abs_sum_le_sum_abs _ _).trans (Finset.sum_le_sum fun k _ => ?_)
    rw [abs_mul, abs_of_nonneg (hl _)]
    exact mul_le_mul_of_nonneg_right (hlev _) (hl _)
  rw [e, abs_div, abs_of_pos hD]
  exact div_le_div₀ (mul_nonneg (mul_nonneg hw hN) hL) hnum hp hge

/-- With positive weights on all levels some leaf changes unless all leaves agree. -/
theorem smooth_unchanged_iff (kind : Kind) {t : SkTree K C} (h : t.WF) (pa : Bool) {n : ℕ}
    (lamb : Fin t.nLeaves → Fin (n + 1) → K) (hl : ∀ r k, 0 < lamb r k)
    (hn : ∀ j, 0 < t.nSamp (t.leafNode j)) (hd : npMax t.depthPerNode ≤ n) (c : Fin C) :
    (∀ r, smoothNum kind t .standard pa (lamb r) r c / smoothDen t .standard pa (lamb r) r =
      leafRate kind t r c) ↔ ∀ r r', leafRate kind t r c = leafRate kind t r' c := by
  have hD : ∀ r, 0 < smoothDen t .standard pa (lamb r) r := fun r =>
    lt_of_lt_of_le (mul_pos (hn r) (hl r 0)) (smoothDen_ge h _ _ _ (fun k => (hl r k).le) hn r)
  constructor
  · intro hu
    by_contra hc
    push Not at hc
    obtain ⟨r1, r2, h12⟩ := hc
    have : Nonempty (Fin t.nLeaves) := ⟨r1⟩
    obtain ⟨r, -, hr⟩ := Finset.exists_min_image Finset.univ (fun j => leafRate kind t j c) Finset.univ_nonempty
    obtain ⟨j, hj⟩ : ∃ j, leafRate kind t r c < leafRate kind t j c := by
      by_contra hcc
      push Not at hcc
      exact h12 ((le_antisymm (hcc r1) (hr r1 (Finset.mem_univ _))).trans
        (le_antisymm (hcc r2) (hr r2 (Finset.mem_univ _))).symm)
    have e : smoothNum kind t .standard pa (lamb r) r c -
        leafRate kind t r c * smoothDen t .standard pa (lamb r) r = 0 := by
      have := hu r
      rw [div_eq_iff (hD r).ne'] at this
      rw [this, sub_self]
    rw [smooth_diff kind t .standard pa _ hn] at e
    have hnn : ∀ k : Fin (n + 1), 0 ≤ levelSum pa (t.distDepth .standard)
        (fun j => t.nSamp (t.leafNode j) * (leafRate kind t j c - leafRate kind t r c)) r k * lamb r k :=
      fun k => mul_nonneg (levelSum_nonneg _ _ _ (fun q => mul_nonneg (hn q).le
        (sub_nonneg.2 (hr q (Finset.mem_univ _)))) _ _) (hl r k).le
    have hdist : t.distDepth .standard r j ≤ n := by
      have h1 : t.distStandard r j ≤ t.depthPerNode (t.leafNode r) := distStandard_le h r j
      have h2 := (npMax_spec t.depthPerNode).1 (t.leafNode r)
      show t.distStandard r j ≤ n
      omega
    have hdist0 := distDepth_nonneg h .standard r j
    obtain ⟨m, hm⟩ := Int.eq_ofNat_of_zero_le hdist0
    have hmn : m < n + 1 := by omega
    have h0 := (Finset.sum_eq_zero_iff_of_nonneg fun k _ => hnn k).1 e ⟨m, hmn⟩ (Finset.mem_univ _)
    rcases mul_eq_zero.1 h0 with h0 | h0
    · have hpos : 0 < t.nSamp (t.leafNode j) * (leafRate kind t j c - leafRate kind t r c) :=
        mul_pos (hn j) (sub_pos.2 hj)
      have hall : ∀ q, 0 ≤ t.nSamp (t.leafNode q) * (leafRate kind t q c - leafRate kind t r c) := fun q =>
        mul_nonneg (hn q).le (sub_nonneg.2 (hr q (Finset.mem_univ _)))
      unfold levelSum at h0
      have : ∀ S : Finset (Fin t.nLeaves), j ∈ S → ∑ q ∈ S, t.nSamp (t.leafNode q) *
          (leafRate kind t q c - leafRate kind t r c) ≠ 0 := fun S hS =>
        (Finset.sum_pos' (fun q _ => hall q) ⟨j, hS, hpos⟩).ne'
      split_ifs at h0 with hpa
      · exact this _ (by simp [hm]) h0
      · exact this _ (by simp [hm]) h0
    · exact (hl r _).ne' h0
  · intro heq r
    rw [div_eq_iff (hD r).ne', ← sub_eq_zero, smooth_diff kind t .standard pa _ hn]
    refine Finset.sum_eq_zero fun k _ => ?_
    have : (fun j => t.nSamp (t.leafNode j) * (leafRate kind t j c - leafRate kind t r c)) = fun _ => 0 := by
      funext j
      rw [heq j r, sub_self, mul_zero]
    rw [this]
    unfold levelSum
    simp

/-- C158: whatever the network, `update_rf` (standard distance, leaf weights positive) leaves all leaf
values (class shares) of a tree as they were exactly if all leaves of the tree have the same value
(share); so the assertion that something changes fails exactly for forests of such trees. -/
theorem C158_changes (hC : 0 < C) {exp : K → K} (hexp : ∀ x, 0 < exp x) {net : Net K} {kind : Kind}
    {forest : List (SkTree K C)} (hwf : ∀ t ∈ forest, t.WF) (hn : ∀ t ∈ forest, ∀ j, 0 < t.nSamp (t.leafNode j))
    {pa : Bool} {a : DataArgs} {sources : PSrc → ℕ → List (TuneRow K C)} {rf' : List (SkTree K C)}
    (h : updateRf exp net (some kind) forest .standard pa a sources = .ok rf') :
    List.Forall₂ (fun t t' => ∃ v, LeafUpdate t t' v ∧
      ∀ c, (∀ r, v r c = leafRate kind t r c) ↔ ∀ r r', leafRate kind t r c = leafRate kind t r' c)
      forest rf' := by
  have hu := C89_update_rf hC hwf h
  rw [List.forall₂_iff_get] at hu ⊢
  refine ⟨hu.1, fun i hi hi' => ?_⟩
  obtain ⟨F, l, -, h2, -, h4⟩ := hu.2 i hi hi'
  have hm : forest.get ⟨i, hi⟩ ∈ forest := List.get_mem _ _
  refine ⟨_, h4, fun c => smooth_unchanged_iff kind (hwf _ hm) pa l (fun r k => ?_) (hn _ hm)
    (forestDepth_ge forest _ hm) c⟩
  rw [h2]
  exact div_pos (hexp _) (Finset.sum_pos (fun j _ => hexp _) ⟨0, Finset.mem_univ _⟩)

/-- The level weights of an untrained network built with `init = b`. -/
theorem init_weights {exp : K → K} {net : Net K} {V : ℕ} {b : K} {rnd : Params K}
    (hnet : initNet V (some b) rnd = .ok net) {n : ℕ} (x : ℕ → ℕ → K) (k : Fin (n + 1)) :
    softSpec exp (linSpec net.params net.numVars x) k =
      (if k = 0 then exp b else exp 0) / ∑ j : Fin (n + 1), if j = 0 then exp b else exp 0 := by
  simp only [initNet] at hnet
  split_ifs at hnet with hb
  cases hnet
  have e : ∀ j : Fin (n + 1), exp (linSpec (⟨fun _ _ => 0, fun k => if k = 0 then b else 0⟩ : Params K) V x j) =
      if j = 0 then exp b else exp 0 := by
    intro j
    simp only [linSpec, zero_mul, Finset.sum_const_zero, zero_add, Fin.val_eq_zero_iff]
    split_ifs <;> rfl
  unfold softSpec
  simp only [e]

/-- C158: an untrained network built with `init = b` moves the value (class share) of a leaf by at most the
range of the tree's leaf values times `depth * exp(-b)`, times the tree's size relative to the leaf's. -/
theorem C158_leaf_change (hC : 0 < C) {exp : K → K} (hexp : ∀ x, 0 < exp x) {net : Net K} {V : ℕ} {b : K}
    {rnd : Params K} (hnet : initNet V (some b) rnd = .ok net) {kind : Kind}
    {forest : List (SkTree K C)} (hwf : ∀ t ∈ forest, t.WF) (hn : ∀ t ∈ forest, ∀ j, 0 < t.nSamp (t.leafNode j))
    {pa : Bool} {a : DataArgs} {sources : PSrc → ℕ → List (TuneRow K C)} {rf' : List (SkTree K C)}
    (h : updateRf exp net (some kind) forest .standard pa a sources = .ok rf') :
    List.Forall₂ (fun t t' => t ∈ forest ∧ ∃ v, LeafUpdate t t' v ∧
      ∀ c lo hi, (∀ j, lo ≤ leafRate kind t j c ∧ leafRate kind t j c ≤ hi) → ∀ r,
        |v r c - leafRate kind t r c| ≤ (hi - lo) * (forestDepth forest * (exp 0 / exp b)) *
          ((∑ j, t.nSamp (t.leafNode j)) / t.nSamp (t.leafNode r))) forest rf' := by
  have hu := C89_update_rf hC hwf h
  rw [List.forall₂_iff_get] at hu ⊢
  refine ⟨hu.1, fun i hi hi' => ?_⟩
  obtain ⟨F, l, -, h2, -, h4⟩ := hu.2 i hi hi'
  have hm : forest.get ⟨i, hi⟩ ∈ forest := List.get_mem _ _
  refine ⟨hm, _, h4, fun c lo hi hb r => ?_⟩
  have hS : 0 < ∑ j : Fin (forestDepth forest + 1), if j = 0 then exp b else exp 0 :=
    Finset.sum_pos (fun j _ => by split_ifs <;> exact hexp _) ⟨0, Finset.mem_univ _⟩
  have e : ∀ k, l r k = (if k = 0 then exp b else exp 0) /
      ∑ j : Fin (forestDepth forest + 1), if j = 0 then exp b else exp 0 := fun k => by
    rw [h2, init_weights hnet]
  have hp : ∀ k, 0 < l r k := fun k => by
    rw [e]
    exact div_pos (by split_ifs <;> exact hexp _) hS
  refine (smooth_close kind (hwf _ hm) .standard pa (l r) (fun k => (hp k).le) (hp 0) (hn _ hm) r c hb).trans
    (le_of_eq ?_)
  have e1 : (∑ k : Fin (forestDepth forest), l r k.succ) / l r 0 =
      forestDepth forest * (exp 0 / exp b) := by
    simp only [e, Fin.succ_ne_zero, if_false, if_true, Finset.sum_const, Finset.card_univ, Fintype.card_fin,
      nsmul_eq_mul]
    have := (hexp b).ne'
    have := hS.ne'
    field_simp
  rw [← e1]
  have := (hn _ hm r).ne'
  have := (hp 0).ne'
  field_simp

theorem zipIdx_sum_close {T : Type} (f : T → ℕ → K) {B : K} {R : T → T → Prop}
    (hR : ∀ t t' i, R t t' → |f t' i - f t i| ≤ B) : ∀ {l l' : List T}, List.Forall₂ R l l' → ∀ k,
    |((l'.zipIdx k).map fun tt => f tt.1 tt.2).sum - ((l.zipIdx k).map fun tt => f tt.1 tt.2).sum| ≤
      (l.length : K) * B
  | _, _, .nil, k => by simp
  | _, _, .cons (a := t) (b := t') (l₁ := l) (l₂ := l') h0 hl, k => by
    have h1 := hR t t' k h0
    have h2 := zipIdx_sum_close f hR hl (k + 1)
    simp only [List.zipIdx_cons, List.map_cons, List.sum_cons, List.length_cons, Nat.cast_add, Nat.cast_one]
    rw [abs_le] at h1 h2 ⊢
    constructor <;> linarith [h1.1, h1.2, h2.1, h2.2]

theorem leafVal_update {t t' : SkTree K C} {v : Fin t.nLeaves → Fin C → K} (h : LeafUpdate t t' v) (l : ℕ)
    (c : Fin C) : t'.nLeaves = t.nLeaves ∧ leafVal t' l c = if hl : l < t.nLeaves then v ⟨l, hl⟩ c else 0 := by
  obtain ⟨w, rfl, h1, -⟩ := h
  refine ⟨rfl, ?_⟩
  unfold leafVal
  by_cases hl : l < t.nLeaves
  · have hl' : l < ({ t with value := w } : SkTree K C).nLeaves := hl
    rw [dif_pos hl, dif_pos hl']
    exact h1 ⟨l, hl⟩ c
  · have hl' : ¬ l < ({ t with value := w } : SkTree K C).nLeaves := hl
    rw [dif_neg hl, dif_neg hl']

theorem forall2_leaf_bound {rf rf' : List (SkTree K C)} {R : SkTree K C → SkTree K C → Prop}
    (h : List.Forall₂ R rf rf') (hR : ∀ t t', R t t' → t'.nLeaves = t.nLeaves) {q : ℕ → ℕ} :
    ∀ k, (∀ tt ∈ rf.zipIdx k, q tt.2 < tt.1.nLeaves) → ∀ tt ∈ rf'.zipIdx k, q tt.2 < tt.1.nLeaves := by
  induction h with
  | nil => simp
  | @cons t t' _ _ h0 _ ih =>
    intro k hk tt htt
    rw [List.zipIdx_cons, List.mem_cons] at htt
    rcases htt with rfl | htt
    · have := hk (t, k) (by simp)
      simpa [hR _ _ h0] using this
    · exact ih (k + 1) (fun x hx => hk x (by simp [hx])) tt htt

/-- C158: regression: predictions with an untrained network differ from those of the original forest by at
most `(hi - lo) * depth * exp(-b) * N`, where all leaf values lie in `[lo, hi]` and trees have at most `N`
observations, at least 1 per leaf. -/
theorem C158_regression_close {exp : K → K} (hexp : ∀ x, 0 < exp x) {net : Net K} {V : ℕ} {b : K}
    {rnd : Params K} (hnet : initNet V (some b) rnd = .ok net) {forest : List (SkTree K 1)} (hne : forest ≠ [])
    (hwf : ∀ t ∈ forest, t.WF) (hn : ∀ t ∈ forest, ∀ j, 1 ≤ t.nSamp (t.leafNode j)) {N lo hi : K}
    (hN : ∀ t ∈ forest, ∑ j, t.nSamp (t.leafNode j) ≤ N)
    (hb : ∀ t ∈ forest, ∀ j, lo ≤ t.value (t.leafNode j) 0 ∧ t.value (t.leafNode j) 0 ≤ hi) {pa : Bool}
    {a : DataArgs} {sources : PSrc → ℕ → List (TuneRow K 1)} {rf' : List (SkTree K 1)}
    (h : updateRf exp net (some .reg) forest .standard pa a sources = .ok rf') (r : TestRow K)
    (hr : ∀ tt ∈ forest.zipIdx, r.leaf tt.2 < tt.1.nLeaves) :
    ∃ p p', forestPredict .reg forest r = .ok p ∧ forestPredict .reg rf' r = .ok p' ∧
      |p' - p| ≤ (hi - lo) * (forestDepth forest * (exp 0 / exp b)) * N := by
  have hc := C158_leaf_change Nat.one_pos hexp hnet hwf (fun t ht j => lt_of_lt_of_le one_pos (hn t ht j)) h
  have hlen := hc.length_eq
  have hr' := forall2_leaf_bound hc (fun t t' hh => by
    obtain ⟨-, v, hv, -⟩ := hh
    exact (leafVal_update hv 0 0).1) 0 hr
  refine ⟨_, _, forestPredict_reg forest r hr, forestPredict_reg rf' r hr', ?_⟩
  have hpos : (0 : K) < forest.length := by
    have := List.length_pos_iff.2 hne
    exact_mod_cast this
  have key := zipIdx_sum_close (fun (t : SkTree K 1) i => leafVal t (r.leaf i) 0)
    (B := (hi - lo) * (forestDepth forest * (exp 0 / exp b)) * N) (fun t t' i hh => by
      obtain ⟨hm, v, hv, hd⟩ := hh
      have hx : 0 ≤ (forestDepth forest : K) * (exp 0 / exp b) :=
        mul_nonneg (Nat.cast_nonneg _) (div_pos (hexp _) (hexp _)).le
      have hS : 0 ≤ ∑ j, t.nSamp (t.leafNode j) :=
        Finset.sum_nonneg fun j _ => zero_le_one.trans (hn t hm j)
      rw [(leafVal_update hv (r.leaf i) 0).2]
      unfold leafVal
      by_cases hl : r.leaf i < t.nLeaves
      · rw [dif_pos hl, dif_pos hl]
        have hw : 0 ≤ hi - lo := sub_nonneg.2 ((hb t hm ⟨_, hl⟩).1.trans (hb t hm ⟨_, hl⟩).2)
        refine (hd 0 lo hi (fun j => hb t hm j) ⟨_, hl⟩).trans
          (mul_le_mul_of_nonneg_left ?_ (mul_nonneg hw hx))
        exact (div_le_self hS (hn t hm _)).trans (hN t hm)
      · rw [dif_neg hl, dif_neg hl, sub_self, abs_zero]
        have h0 : 0 < t.nLeaves := nLeaves_pos (hwf t hm)
        have hw : 0 ≤ hi - lo := sub_nonneg.2 ((hb t hm ⟨0, h0⟩).1.trans (hb t hm ⟨0, h0⟩).2)
        exact mul_nonneg (mul_nonneg hw hx) (hS.trans (hN t hm))) hc 0
  unfold meanLeaf
  rw [← hlen, ← sub_div, abs_div, abs_of_pos hpos, div_le_iff₀ hpos, mul_comm _ (forest.length : K)]
  exact key

theorem smooth_sum_one {t : SkTree K C} {s : Style} {pa : Bool} {n : ℕ} {lamb : Fin n → K} {r : Fin t.nLeaves}
    (hv : ∀ j, ∑ c, t.value (t.leafNode j) c = t.nSamp (t.leafNode j)) (hd : smoothDen t s pa lamb r ≠ 0) :
    ∑ c, smoothNum .cls t s pa lamb r c / smoothDen t s pa lamb r = 1 := by
  rw [← Finset.sum_div, div_eq_one_iff_eq hd]
  unfold smoothNum smoothDen
  rw [Finset.sum_comm]
  refine Finset.sum_congr rfl fun k _ => ?_
  rw [← Finset.sum_mul]
  congr 1
  unfold levelSum
  split_ifs <;> rw [Finset.sum_comm] <;> exact Finset.sum_congr rfl fun j _ => by
    simpa [SkTree.mass] using hv j

/-- Mean over the trees of the share of class `c` in the leaf reached: one entry of `predict_proba`. -/
def meanShare (forest : List (SkTree K C)) (r : TestRow K) (c : Fin C) : K :=
  (forest.zipIdx.map fun tt => leafShare tt.1 (r.leaf tt.2) c).sum / (forest.length : K)

/-- C158: classification: class probabilities with an untrained network differ from those of the original
forest by at most `depth * exp(-b) * N`; so a class that leads by more than twice that is still the
predicted one. -/
theorem C158_class_same (hC : 0 < C) {exp : K → K} (hexp : ∀ x, 0 < exp x) {net : Net K} {V : ℕ} {b : K}
    {rnd : Params K} (hnet : initNet V (some b) rnd = .ok net) {forest : List (SkTree K C)} (hne : forest ≠ [])
    (hwf : ∀ t ∈ forest, t.WF) (hn : ∀ t ∈ forest, ∀ j, 1 ≤ t.nSamp (t.leafNode j)) {N : K}
    (hN : ∀ t ∈ forest, ∑ j, t.nSamp (t.leafNode j) ≤ N)
    (hv0 : ∀ t ∈ forest, ∀ j c, 0 ≤ t.value (t.leafNode j) c)
    (hv : ∀ t ∈ forest, ∀ j, ∑ c, t.value (t.leafNode j) c = t.nSamp (t.leafNode j)) {pa : Bool}
    {a : DataArgs} {sources : PSrc → ℕ → List (TuneRow K C)} {rf' : List (SkTree K C)}
    (h : updateRf exp net (some .cls) forest .standard pa a sources = .ok rf') (r : TestRow K)
    (hr : ∀ tt ∈ forest.zipIdx, r.leaf tt.2 < tt.1.nLeaves) :
    (∀ c, |meanShare rf' r c - meanShare forest r c| ≤ forestDepth forest * (exp 0 / exp b) * N) ∧
    ∀ c, (∀ c', c' ≠ c → meanShare forest r c' + 2 * (forestDepth forest * (exp 0 / exp b) * N) <
        meanShare forest r c) →
      forestPredict .cls forest r = .ok (c.val : K) ∧ forestPredict .cls rf' r = .ok (c.val : K) := by
  have hpn : ∀ t ∈ forest, ∀ j, 0 < t.nSamp (t.leafNode j) := fun t ht j => lt_of_lt_of_le one_pos (hn t ht j)
  have hc := C158_leaf_change hC hexp hnet hwf hpn h
  have hu := C89_update_rf hC hwf h
  have hlen := hc.length_eq
  have hr' := forall2_leaf_bound hc (fun t t' hh => by
    obtain ⟨-, v, hv, -⟩ := hh
    exact (leafVal_update hv 0 ⟨0, hC⟩).1) 0 hr
  have hpos : (0 : K) < forest.length := by
    have := List.length_pos_iff.2 hne
    exact_mod_cast this
  have hx : 0 ≤ (forestDepth forest : K) * (exp 0 / exp b) :=
    mul_nonneg (Nat.cast_nonneg _) (div_pos (hexp _) (hexp _)).le
  have hS : ∀ t ∈ forest, 0 ≤ ∑ j, t.nSamp (t.leafNode j) := fun t hm =>
    Finset.sum_nonneg fun j _ => (hpn t hm j).le
  have hb : ∀ t ∈ forest, ∀ j c, 0 ≤ leafRate .cls t j c ∧ leafRate .cls t j c ≤ 1 := by
    intro t hm j c
    refine ⟨div_nonneg (hv0 t hm j c) (hpn t hm j).le, (div_le_one (hpn t hm j)).2 ?_⟩
    rw [← hv t hm j]
    exact Finset.single_le_sum (f := fun c => t.value (t.leafNode j) c) (fun c _ => hv0 t hm j c)
      (Finset.mem_univ c)
  have hboth : List.Forall₂ (fun t t' => t ∈ forest ∧ ∃ v, LeafUpdate t t' v ∧ (∀ r, ∑ c, v r c = 1) ∧
      ∀ c r, |v r c - leafRate .cls t r c| ≤ forestDepth forest * (exp 0 / exp b) * N) forest rf' := by
    rw [List.forall₂_iff_get] at hc hu ⊢
    refine ⟨hc.1, fun i hi hi' => ?_⟩
    obtain ⟨hm, v, h1, h2⟩ := hc.2 i hi hi'
    obtain ⟨F, l, -, -, g3, g4⟩ := hu.2 i hi hi'
    refine ⟨hm, v, h1, fun q => ?_, fun c q => ?_⟩
    · obtain ⟨w, e, e1, -⟩ := h1
      obtain ⟨w', e', e1', -⟩ := g4
      have hw : w = w' := by
        have := e.symm.trans e'
        exact eq_of_heq (SkTree.mk.inj this).2.1
      subst hw
      rw [← smooth_sum_one (hv _ hm) (g3 q)]
      exact Finset.sum_congr rfl fun c _ => (e1 q c).symm.trans (e1' q c)
    · refine (h2 c 0 1 (fun j => hb _ hm j c) q).trans ?_
      rw [sub_zero, one_mul]
      exact mul_le_mul_of_nonneg_left ((div_le_self (hS _ hm) (hn _ hm _)).trans (hN _ hm)) hx
  have hcl : ∀ c, |meanShare rf' r c - meanShare forest r c| ≤ forestDepth forest * (exp 0 / exp b) * N := by
    intro c
    have key := zipIdx_sum_close (fun (t : SkTree K C) i => leafShare t (r.leaf i) c)
      (B := forestDepth forest * (exp 0 / exp b) * N) (fun t t' i hh => by
        obtain ⟨hm, v, hu, h1, hd⟩ := hh
        by_cases hl : r.leaf i < t.nLeaves
        · have e1 : leafShare t (r.leaf i) c = leafRate .cls t ⟨_, hl⟩ c := by
            have e : ∑ c', leafVal t (r.leaf i) c' = t.nSamp (t.leafNode ⟨_, hl⟩) := by
              rw [← hv t hm]
              exact Finset.sum_congr rfl fun c' _ => by simp [leafVal, hl]
            unfold leafShare
            rw [e, if_neg (hpn t hm _).ne']
            simp [leafVal, hl, leafRate]
          have e2 : leafShare t' (r.leaf i) c = v ⟨_, hl⟩ c := by
            have e : ∑ c', leafVal t' (r.leaf i) c' = 1 := by
              rw [← h1 ⟨_, hl⟩]
              exact Finset.sum_congr rfl fun c' _ => by rw [(leafVal_update hu _ c').2, dif_pos hl]
            unfold leafShare
            rw [e, if_neg one_ne_zero, div_one, (leafVal_update hu _ c).2, dif_pos hl]
          rw [e1, e2]
          exact hd c _
        · have e : ∀ c', leafVal t' (r.leaf i) c' = 0 := fun c' => by
            rw [(leafVal_update hu _ c').2, dif_neg hl]
          have e' : ∀ c', leafVal t (r.leaf i) c' = 0 := fun c' => dif_neg hl
          simp only [leafShare, e, e', Finset.sum_const_zero, if_true, sub_self, abs_zero]
          exact mul_nonneg hx ((hS t hm).trans (hN t hm))) hboth 0
    unfold meanShare
    rw [← hlen, ← sub_div, abs_div, abs_of_pos hpos, div_le_iff₀ hpos, mul_comm _ (forest.length : K)]
    exact key
  refine ⟨hcl, fun c hlead => ?_⟩
  obtain ⟨c1, p1, m1, -⟩ := C127_predict_class hC forest r hr
  obtain ⟨c2, p2, m2, -⟩ := C127_predict_class hC rf' r hr'
  have hB : 0 ≤ (forestDepth forest : K) * (exp 0 / exp b) * N := (abs_nonneg _).trans (hcl c)
  have g1 : c1 = c := by
    by_contra hne'
    have a1 : meanShare forest r c ≤ meanShare forest r c1 := m1 c
    have a2 := hlead c1 hne'
    linarith
  have g2 : c2 = c := by
    by_contra hne'
    have a1 : meanShare rf' r c ≤ meanShare rf' r c2 := m2 c
    have a2 := hlead c2 hne'
    have a3 := (abs_le.1 (hcl c)).1
    have a4 := (abs_le.1 (hcl c2)).2
    linarith
  rw [g1] at p1
  rw [g2] at p2
  exact ⟨p1, p2⟩

end generic

/-! ### the test's settings -/

theorem exp_neg_100 : Real.exp 0 / Real.exp 100 ≤ 1 / 10 ^ 43 := by
  rw [Real.exp_zero]
  refine one_div_le_one_div_of_le (by positivity) ?_
  have h1 : (2.7 : ℝ) ≤ Real.exp 1 := by
    have := Real.exp_one_gt_d9
    linarith
  have h2 : Real.exp 100 = Real.exp 1 ^ 100 := by
    rw [← Real.exp_nat_mul]
    norm_num
  rw [h2]
  refine le_trans ?_ (pow_le_pow_left₀ (by norm_num) h1 100)
  norm_num

/-- C158: with `init = 100`, as in the test, regression predictions satisfy numpy's `allclose` (they differ
by at most `1e-8`) whenever depth, observations and range of the responses multiply to at most `1e35`. -/
theorem C158_allclose {net : Net ℝ} {V : ℕ} {rnd : Params ℝ} (hnet : initNet V (some 100) rnd = .ok net)
    {forest : List (SkTree ℝ 1)} (hne : forest ≠ [])
    (hwf : ∀ t ∈ forest, t.WF) (hn : ∀ t ∈ forest, ∀ j, 1 ≤ t.nSamp (t.leafNode j)) {N lo hi : ℝ}
    (hN : ∀ t ∈ forest, ∑ j, t.nSamp (t.leafNode j) ≤ N)
    (hb : ∀ t ∈ forest, ∀ j, lo ≤ t.value (t.leafNode j) 0 ∧ t.value (t.leafNode j) 0 ≤ hi)
    (hsize : (hi - lo) * forestDepth forest * N ≤ 10 ^ 35) {pa : Bool}
    {a : DataArgs} {sources : PSrc → ℕ → List (TuneRow ℝ 1)} {rf' : List (SkTree ℝ 1)}
    (h : updateRf Real.exp net (some .reg) forest .standard pa a sources = .ok rf') (r : TestRow ℝ)
    (hr : ∀ tt ∈ forest.zipIdx, r.leaf tt.2 < tt.1.nLeaves) :
    ∃ p p', forestPredict .reg forest r = .ok p ∧ forestPredict .reg rf' r = .ok p' ∧
      |p - p'| ≤ 1 / 10 ^ 8 := by
  obtain ⟨p, p', h1, h2, h3⟩ := C158_regression_close Real.exp_pos hnet hne hwf hn hN hb h r hr
  refine ⟨p, p', h1, h2, ?_⟩
  rw [abs_sub_comm]
  refine h3.trans ?_
  have e : (hi - lo) * (forestDepth forest * (Real.exp 0 / Real.exp 100)) * N =
      (hi - lo) * forestDepth forest * N * (Real.exp 0 / Real.exp 100) := by ring
  rw [e]
  calc (hi - lo) * forestDepth forest * N * (Real.exp 0 / Real.exp 100)
      ≤ 10 ^ 35 * (Real.exp 0 / Real.exp 100) :=
        mul_le_mul_of_nonneg_right hsize (div_pos (Real.exp_pos _) (Real.exp_pos _)).le
    _ ≤ 10 ^ 35 * (1 / 10 ^ 43) := mul_le_mul_of_nonneg_left exp_neg_100 (by positivity)
    _ = 1 / 10 ^ 8 := by norm_num

theorem levelSum_two {K : Type} [AddCommMonoid K] (pa : Bool) {D : Fin 2 → Fin 2 → ℤ} (h0 : D 0 0 = 0)
    (h1 : D 0 1 = 1) (w : Fin 2 → K) :
    levelSum pa D w 0 0 = w 0 ∧ levelSum pa D w 0 1 = if pa then w 0 + w 1 else w 1 := by
  unfold levelSum
  simp only [Finset.sum_filter, Fin.sum_univ_two, h0, h1]
  cases pa <;> simp

abbrev exStumpTopo : Topo := ⟨2, ![some 1, none, none], ![some 2, none, none]⟩

/-- Two stumps; their first leaves hold one observation of class 0 and three of class 1. -/
abbrev exTieA (K : Type) [Field K] : SkTree K 2 :=
  { toTopo := exStumpTopo
    value := fun i c => ![![1, 1], ![1, 0], ![0, 1]] i c
    nSamp := ![2, 1, 1]
    impurity := ![1 / 2, 0, 0] }

abbrev exTieB (K : Type) [Field K] : SkTree K 2 :=
  { toTopo := exStumpTopo
    value := fun i c => ![![1, 3], ![0, 3], ![1, 0]] i c
    nSamp := ![4, 3, 1]
    impurity := ![3 / 8, 0, 0] }

section refuted

variable {K : Type} [Field K] [LinearOrder K] [IsStrictOrderedRing K]

theorem stump_smooth (val : Fin 3 → Fin 2 → K) (n im : Fin 3 → K) (pa : Bool) (l : Fin 2 → K) (c : Fin 2) :
    let t : SkTree K 2 := { toTopo := exStumpTopo, value := val, nSamp := n, impurity := im }
    smoothNum .cls t .standard pa l (0 : Fin 2) c =
      val 1 c * l 0 + (if pa then val 1 c + val 2 c else val 2 c) * l 1 ∧
    smoothDen t .standard pa l (0 : Fin 2) = n 1 * l 0 + (if pa then n 1 + n 2 else n 2) * l 1 := by
  intro t
  have h0 : (exStumpTopo.distDepth .standard : Fin 2 → Fin 2 → ℤ) (0 : Fin 2) (0 : Fin 2) = 0 := by decide +kernel
  have h1 : (exStumpTopo.distDepth .standard : Fin 2 → Fin 2 → ℤ) (0 : Fin 2) (1 : Fin 2) = 1 := by decide +kernel
  constructor
  · obtain ⟨e0, e1⟩ := levelSum_two pa h0 h1 (fun j : Fin 2 => t.mass .cls (t.leafNode j) c)
    unfold smoothNum
    rw [Fin.sum_univ_two]
    refine Eq.trans (congrArg₂ (· + ·) (congrArg (· * l 0) e0) (congrArg (· * l 1) e1)) ?_
    rfl
  · obtain ⟨e0, e1⟩ := levelSum_two pa h0 h1 (fun j : Fin 2 => t.nSamp (t.leafNode j))
    unfold smoothDen
    rw [Fin.sum_univ_two]
    refine Eq.trans (congrArg₂ (· + ·) (congrArg (· * l 0) e0) (congrArg (· * l 1) e1)) ?_
    rfl

/-- What leaf 0 of the stumps gets. -/
theorem tie_smooth (pa : Bool) (w : Fin 2 → K) (c : Fin 2) :
    smoothNum .cls (exTieA K) .standard pa w (0 : Fin 2) c / smoothDen (exTieA K) .standard pa w (0 : Fin 2) =
      (![1, 0] c * w 0 + (if pa then 1 else ![0, 1] c) * w 1) / (w 0 + (if pa then 2 else 1) * w 1) ∧
    smoothNum .cls (exTieB K) .standard pa w (0 : Fin 2) c / smoothDen (exTieB K) .standard pa w (0 : Fin 2) =
      (![0, 3] c * w 0 + (if pa then ![1, 3] c else ![1, 0] c) * w 1) /
        (3 * w 0 + (if pa then 4 else 1) * w 1) := by
  have a := stump_smooth (exTieA K).value (exTieA K).nSamp (exTieA K).impurity pa w c
  have b := stump_smooth (exTieB K).value (exTieB K).nSamp (exTieB K).impurity pa w c
  constructor
  · rw [a.1, a.2]
    fin_cases c <;> cases pa <;> simp <;> norm_num
  · rw [b.1, b.2]
    fin_cases c <;> cases pa <;> simp <;> norm_num

theorem tie_flip (pa : Bool) {w : Fin 2 → K} (hw : ∀ k, 0 < w k) {s s' : Fin 2 → K}
    (hs : ∀ c, s c = (![1, 0] c * w 0 + (if pa then 1 else ![0, 1] c) * w 1) / (w 0 + (if pa then 2 else 1) * w 1))
    (hs' : ∀ c, s' c = (![0, 3] c * w 0 + (if pa then ![1, 3] c else ![1, 0] c) * w 1) /
        (3 * w 0 + (if pa then 4 else 1) * w 1)) : s 0 + s' 0 < s 1 + s' 1 := by
  have h0 := hw 0
  have h1 := hw 1
  rw [← sub_pos, hs, hs, hs', hs']
  cases pa
  · have e : w 1 / (w 0 + w 1) + 3 * w 0 / (3 * w 0 + w 1) - (w 0 / (w 0 + w 1) + w 1 / (3 * w 0 + w 1)) =
        4 * w 0 * w 1 / ((w 0 + w 1) * (3 * w 0 + w 1)) := by
      field_simp
      ring
    simp
    rw [← sub_pos, e]
    positivity
  · have e : w 1 / (w 0 + 2 * w 1) + (3 * w 0 + 3 * w 1) / (3 * w 0 + 4 * w 1) -
        ((w 0 + w 1) / (w 0 + 2 * w 1) + w 1 / (3 * w 0 + 4 * w 1)) =
        4 * (w 0 * w 1 + w 1 * w 1) / ((w 0 + 2 * w 1) * (3 * w 0 + 4 * w 1)) := by
      field_simp
      ring
    simp
    rw [← sub_pos, e]
    positivity

theorem tie_predict {forest : List (SkTree K 2)} {r : TestRow K}
    (hr : ∀ tt ∈ forest.zipIdx, r.leaf tt.2 < tt.1.nLeaves) :
    (meanShare forest r 1 ≤ meanShare forest r 0 → forestPredict .cls forest r = .ok 0) ∧
    (meanShare forest r 0 < meanShare forest r 1 → forestPredict .cls forest r = .ok 1) := by
  obtain ⟨c, h1, h2, h3⟩ := C127_predict_class (by decide) forest r hr
  change ∀ c', meanShare forest r c' ≤ meanShare forest r c at h2
  change ∀ c' < c, meanShare forest r c' < meanShare forest r c at h3
  constructor
  · intro h
    have : c = 0 := by
      by_contra hc
      have e : c = 1 := by omega
      subst e
      exact absurd (h3 0 (by decide)) (not_lt.2 h)
    subst this
    simpa using h1
  · intro h
    have : c = 1 := by
      by_contra hc
      have e : c = 0 := by omega
      subst e
      exact absurd (h2 1) (not_le.2 h)
    subst this
    simpa using h1

theorem leafShare_of_sum {C : ℕ} {t : SkTree K C} {l : ℕ} {s : K} (h : ∑ c, leafVal t l c = s) (hs : s ≠ 0)
    (c : Fin C) : leafShare t l c = leafVal t l c / s := by
  unfold leafShare
  rw [h, if_neg hs]

theorem leafShare_update {C : ℕ} {t t' : SkTree K C} {v : Fin t.nLeaves → Fin C → K} (h : LeafUpdate t t' v)
    (hs : ∀ r, ∑ c, v r c = 1) (r : Fin t.nLeaves) (c : Fin C) : leafShare t' r c = v r c := by
  have e : ∀ c, leafVal t' r c = v r c := fun c => by rw [(leafVal_update h _ c).2, dif_pos r.isLt]
  rw [leafShare_of_sum (s := 1) (by simp only [e]; exact hs r) one_ne_zero, div_one, e]

/-- The assertion that predicted classes are the same is false in exact arithmetic, however large `init` and
whatever the (positive) exponential: a row whose leaves vote for different classes changes its class. -/
theorem C158_class_refuted {exp : K → K} (hexp : ∀ x, 0 < exp x) {b : K} (hb : 0 < b) (rnd : Params K) (pa : Bool) :
    ∃ net rf', initNet 5 (some b) rnd = .ok net ∧
      updateRf exp net (some .cls) [exTieA K, exTieB K] .standard pa ⟨true, true, false, false, false⟩
        (fun _ _ => [⟨0, ![1, 0]⟩, ⟨1, ![0, 1]⟩]) = .ok rf' ∧
      forestPredict .cls [exTieA K, exTieB K] ⟨fun _ => 0, 0⟩ = .ok 0 ∧
      forestPredict .cls rf' ⟨fun _ => 0, 0⟩ = .ok 1 := by
  have hA : exStumpTopo.WF := by decide
  have hwf : ∀ t ∈ [exTieA K, exTieB K], t.WF := by
    intro t ht
    simp only [List.mem_cons, List.not_mem_nil, or_false] at ht
    rcases ht with rfl | rfl <;> exact hA
  have hposA : ∀ j : Fin 2, 0 < (exTieA K).nSamp ((exTieA K).leafNode j) := by
    intro j
    fin_cases j
    · exact one_pos
    · exact one_pos
  have hposB : ∀ j : Fin 2, 0 < (exTieB K).nSamp ((exTieB K).leafNode j) := by
    intro j
    fin_cases j
    · exact three_pos
    · exact one_pos
  have hn : ∀ t ∈ [exTieA K, exTieB K], ∀ j, 0 < t.nSamp (t.leafNode j) := by
    intro t ht
    simp only [List.mem_cons, List.not_mem_nil, or_false] at ht
    rcases ht with rfl | rfl
    · exact hposA
    · exact hposB
  have hsumA : ∀ j : Fin 2, ∑ c, (exTieA K).value ((exTieA K).leafNode j) c =
      (exTieA K).nSamp ((exTieA K).leafNode j) := by
    intro j
    rw [Fin.sum_univ_two]
    fin_cases j
    · exact add_zero 1
    · exact zero_add 1
  have hsumB : ∀ j : Fin 2, ∑ c, (exTieB K).value ((exTieB K).leafNode j) c =
      (exTieB K).nSamp ((exTieB K).leafNode j) := by
    intro j
    rw [Fin.sum_univ_two]
    fin_cases j
    · exact zero_add 3
    · exact add_zero 1
  obtain ⟨net, hnet⟩ : ∃ net, initNet 5 (some b) rnd = .ok net := ⟨_, if_neg (not_le.2 hb)⟩
  have hV : net.numVars = 5 := by
    simp only [initNet, if_neg (not_le.2 hb)] at hnet
    cases hnet
    rfl
  obtain ⟨rf', hrf⟩ := C89_returns (C := 2) (by decide) hexp (net := net) (by omega) (by omega) (kind := .cls) hwf hn pa
    (a := ⟨true, true, false, false, false⟩) ⟨rfl, rfl⟩
    (sources := fun _ _ => [⟨0, ![1, 0]⟩, ⟨1, ![0, 1]⟩]) (fun i _ => by simp) (fun _ i _ c => by
      fin_cases c
      · exact ⟨⟨0, ![1, 0]⟩, by simp, by simp⟩
      · exact ⟨⟨1, ![0, 1]⟩, by simp, by simp⟩)
  have hr : ∀ tt ∈ ([exTieA K, exTieB K]).zipIdx, (0 : ℕ) < tt.1.nLeaves := by
    intro tt htt
    exact nLeaves_pos (hwf _ (List.fst_mem_of_mem_zipIdx htt))
  have hu := C89_update_rf (by decide) hwf hrf
  have hr' : ∀ tt ∈ rf'.zipIdx, (0 : ℕ) < tt.1.nLeaves := forall2_leaf_bound hu (fun t t' hh => by
    obtain ⟨_, _, _, _, _, hv⟩ := hh
    exact (leafVal_update hv 0 0).1) (q := fun _ => 0) 0 hr
  refine ⟨net, rf', hnet, hrf, (tie_predict hr).1 ?_, (tie_predict hr').2 ?_⟩
  · have hAv : ∀ c, leafVal (exTieA K) 0 c = ![1, 0] c := fun c => rfl
    have hBv : ∀ c, leafVal (exTieB K) 0 c = ![0, 3] c := fun c => rfl
    have eA := leafShare_of_sum (t := exTieA K) (l := 0) (s := 1) (by simp [hAv, Fin.sum_univ_two]) one_ne_zero
    have eB := leafShare_of_sum (t := exTieB K) (l := 0) (s := 3) (by simp [hBv, Fin.sum_univ_two]) three_ne_zero
    simp only [meanShare, List.zipIdx_cons, List.zipIdx_nil, List.map_cons, List.map_nil, List.sum_cons,
      List.sum_nil, eA, eB, hAv, hBv]
    simp
  · cases hu with
    | cons hua hu =>
      cases hu with
      | cons hub hu =>
        cases hu
        rename_i A' B'
        obtain ⟨FA, lA, -, wA, dA, uA⟩ := hua
        obtain ⟨FB, lB, -, wB, dB, uB⟩ := hub
        have sA := leafShare_update uA fun q => smooth_sum_one hsumA (dA q)
        have sB := leafShare_update uB fun q => smooth_sum_one hsumB (dB q)
        have hz : ∀ k : Fin 2, 0 < if k = 0 then exp b else exp 0 := fun k => by split_ifs <;> exact hexp _
        have hw : ∃ w : Fin 2 → K, (∀ k, 0 < w k) ∧ lA (0 : Fin 2) = w ∧ lB (0 : Fin 2) = w :=
          ⟨fun k : Fin 2 => (if k = 0 then exp b else exp 0) / ∑ j : Fin 2, if j = 0 then exp b else exp 0,
            fun k => div_pos (hz k) (Finset.sum_pos (fun j _ => hz j) ⟨0, Finset.mem_univ _⟩),
            funext fun k => (wA _ k).trans (init_weights hnet _ k),
            funext fun k => (wB _ k).trans (init_weights hnet _ k)⟩
        obtain ⟨w, hw, hwA, hwB⟩ := hw
        have tA : ∀ c, leafShare A' 0 c = _ := fun c => sA (0 : Fin 2) c
        have tB : ∀ c, leafShare B' 0 c = _ := fun c => sB (0 : Fin 2) c
        rw [hwA] at tA
        rw [hwB] at tB
        have key := tie_flip pa hw (fun c => (tA c).trans (tie_smooth pa w c).1)
          (fun c => (tB c).trans (tie_smooth pa w c).2)
        simp only [meanShare, List.zipIdx_cons, List.zipIdx_nil, List.map_cons, List.map_nil, List.sum_cons,
          List.sum_nil, add_zero]
        exact div_lt_div_of_pos_right key (by simp)

end refuted

/-- A positive stand-in for the exponential. -/
abbrev exStepExp : ℚ → ℚ := fun x => if x = 0 then 1 else 10

theorem exStepExp_pos (x : ℚ) : 0 < exStepExp x := by
  unfold exStepExp
  split_ifs <;> norm_num

abbrev exInitNet : Net ℚ := ⟨5, ⟨fun _ _ => 0, fun k => if k = 0 then 1 else 0⟩⟩

example : initNet 5 (some (1 : ℚ)) exInitNet.params = .ok exInitNet := by
  simp [initNet]

/-- Instance of C158_changes, C158_leaf_change and C158_regression_close: leaf values 2 and 6 become 7/3 and
17/3 for `parents_all = True`; the bound is `4 * (1 * (1 / 10)) * 2`. -/
example : (match updateRf exStepExp exInitNet (some .reg) [exStump26] .standard true exTorchData
      (fun _ => exTrain) with
    | .ok rf => some (valuesOf rf, rf.map fun t => (forestPredict .reg [t] ⟨fun _ => 1, 0⟩).toOption)
    | .error _ => none) = some ([[[4], [7 / 3], [17 / 3]]], [some (17 / 3)]) ∧
    (forestPredict .reg [exStump26] ⟨fun _ => 1, 0⟩).toOption = some 6 ∧
    |(17 / 3 : ℚ) - 6| ≤ (6 - 2) * ((forestDepth [exStump26] : ℕ) * (exStepExp 0 / exStepExp 1)) * 2 := by
  decide +kernel

/-- Instance of C158_class_same: class 1 holds all of leaf 1. -/
example : (match updateRf exStepExp exInitNet (some .cls) [exClsStump] .standard true exTorchData
      (fun _ => exClsTune) with
    | .ok rf => some (valuesOf rf, (forestPredict .cls rf ⟨fun _ => 1, 0⟩).toOption)
    | .error _ => none) = some ([[[3, 3], [33 / 46, 13 / 46], [3 / 26, 23 / 26]]], some 1) ∧
    (forestPredict .cls [exClsStump] ⟨fun _ => 1, 0⟩).toOption = some 1 := by
  decide +kernel

/-- A regression stump over the reals. -/
noncomputable abbrev exRealStump : SkTree ℝ 1 :=
  { toTopo := exStumpTopo
    value := fun i _ => ![4, 2, 6] i
    nSamp := ![2, 1, 1]
    impurity := ![4, 0, 0] }

/-- Instance of C158_allclose: the update returns, and moves the predictions by at most `1e-8`. -/
example (pa : Bool) (rnd : Params ℝ) : ∃ net rf' p p', initNet 5 (some 100) rnd = .ok net ∧
    updateRf Real.exp net (some .reg) [exRealStump] .standard pa ⟨true, true, false, false, false⟩
      (fun _ _ => [⟨0, fun _ => 2⟩, ⟨1, fun _ => 6⟩]) = .ok rf' ∧
    forestPredict .reg [exRealStump] ⟨fun _ => 0, 0⟩ = .ok p ∧ forestPredict .reg rf' ⟨fun _ => 0, 0⟩ = .ok p' ∧
    |p - p'| ≤ 1 / 10 ^ 8 := by
  have hwf : ∀ t ∈ [exRealStump], t.WF := by
    intro t ht
    rw [List.mem_singleton] at ht
    subst ht
    exact (by decide : exStumpTopo.WF)
  have h1 : ∀ j : Fin 2, (1 : ℝ) = exRealStump.nSamp (exRealStump.leafNode j) := by
    intro j
    fin_cases j <;> rfl
  have hv : ∀ j : Fin 2, exRealStump.value (exRealStump.leafNode j) 0 = ![2, 6] j := by
    intro j
    fin_cases j <;> rfl
  have hn : ∀ t ∈ [exRealStump], ∀ j, 1 ≤ t.nSamp (t.leafNode j) := by
    intro t ht
    rw [List.mem_singleton] at ht
    subst ht
    exact fun j => (h1 j).le
  obtain ⟨net, hnet⟩ : ∃ net, initNet 5 (some (100 : ℝ)) rnd = .ok net := ⟨_, if_neg (by norm_num)⟩
  have hV : net.numVars = 5 := by
    simp only [initNet, if_neg (by norm_num : ¬ (100 : ℝ) ≤ 0)] at hnet
    cases hnet
    rfl
  obtain ⟨rf', hrf⟩ := C89_returns Nat.one_pos Real.exp_pos (net := net) (by omega) (by omega) (kind := .reg) hwf
    (fun t ht j => lt_of_lt_of_le one_pos (hn t ht j)) pa (a := ⟨true, true, false, false, false⟩) ⟨rfl, rfl⟩
    (sources := fun _ _ => [⟨0, fun _ => 2⟩, ⟨1, fun _ => 6⟩]) (fun i _ => by simp) (fun h => by cases h)
  obtain ⟨p, p', k1, k2, k3⟩ := C158_allclose hnet (by simp) hwf hn (N := 2) (lo := 2) (hi := 6) (by
      intro t ht
      rw [List.mem_singleton] at ht
      subst ht
      have e : ∑ j : Fin 2, exRealStump.nSamp (exRealStump.leafNode j) = 2 := by
        rw [Fin.sum_univ_two, ← h1, ← h1]
        norm_num
      exact le_of_eq e) (by
      intro t ht
      rw [List.mem_singleton] at ht
      subst ht
      intro j
      have e := hv j
      change exRealStump.value (exRealStump.leafNode j) 0 = _ at e
      rw [e]
      revert j
      show ∀ j : Fin 2, _
      intro j _
      fin_cases j <;> norm_num) (by
      have e : forestDepth [exRealStump] = 1 := rfl
      rw [e]
      norm_num) hrf ⟨fun _ => 0, 0⟩ (fun tt htt => nLeaves_pos (hwf _ (List.fst_mem_of_mem_zipIdx htt)))
  exact ⟨net, rf', p, p', hnet, hrf, k1, k2, k3⟩

end SmoothRF
