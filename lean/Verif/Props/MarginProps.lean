import Verif.Props.ReversibleProps

/-! How far smoothing moves a leaf, and which class decisions it cannot change (C181). -/

set_option linter.unusedSectionVars false

namespace SmoothRF
open SkTree Topo

variable {K : Type} [Field K] [LinearOrder K] [IsStrictOrderedRing K] {C : ℕ}

/-- The part of the denominator of leaf `r` that is its own: its sample weight times the level weights that reach it,
`lamb[0]`, or all of them with `parents_all`. -/
def ownDen (t : SkTree K C) (pa : Bool) {n : ℕ} (lamb : Fin n → K) (r : Fin t.nLeaves) : K :=
  t.nSamp (t.leafNode r) * ∑ k : Fin n, if pa = true ∨ k.val = 0 then lamb k else 0

/-- Smoothed values as sums over leaves, with the leaf's own term known. -/
theorem exists_leaf_weight {n : ℕ} (pa : Bool) (lamb : Fin n → K) (hl : ∀ k, 0 ≤ lamb k)
    (t : SkTree K C) (h : t.WF) (s : Style) (hn : ∀ j, 0 < t.nSamp (t.leafNode j)) (r : Fin t.nLeaves) :
    ∃ w : Fin t.nLeaves → K, (∀ j, 0 ≤ w j) ∧ w r = ownDen t pa lamb r ∧ smoothDen t s pa lamb r = ∑ j, w j ∧
      ∀ (kind : Kind) (c : Fin C), smoothNum kind t s pa lamb r c = ∑ j, w j * nodeRate kind t (t.leafNode j) c := by
  have hz : t.distDepth s r r = 0 := by
    have h8 := C08_distance_max_min t.toTopo h r r
    cases s
    · exact (distStandard_eq_zero h r r).2 rfl
    · exact h8.2.2.2.2.1.2 rfl
    · exact h8.2.2.2.2.2.1.2 rfl
  cases pa
  · have hw : ∀ l, n ≤ l → (fun l => if h : l < n then lamb ⟨l, h⟩ else 0) l = 0 := fun l hl => by
      simp [not_lt.mpr hl]
    have e : ∀ k : Fin n, (fun l => if h : l < n then lamb ⟨l, h⟩ else 0) k.val = lamb k := fun k => by simp
    refine ⟨fun j => t.nSamp (t.leafNode j) *
      (fun l => if h : l < n then lamb ⟨l, h⟩ else 0) (t.distDepth s r j).toNat, fun j => mul_nonneg (hn j).le ?_,
      ?_, ?_, fun kind c => ?_⟩
    · dsimp only
      split
      · exact hl _
      · exact le_rfl
    · unfold ownDen
      dsimp only
      rw [hz]
      congr 1
      rcases Nat.eq_zero_or_pos n with hn0 | hn0
      · subst hn0; simp
      · rw [Finset.sum_eq_single (⟨0, hn0⟩ : Fin n)]
        · simp [hn0]
        · intro k _ hk
          have : k.val ≠ 0 := fun h0 => hk (Fin.ext h0)
          simp [this]
        · intro hk; exact absurd (Finset.mem_univ _) hk
    · rw [← sum_levelSum_false t h s _ hw]
      unfold smoothDen
      exact Finset.sum_congr rfl fun k _ => by rw [← e k]
    · have : smoothNum kind t s false lamb r c = ∑ j, t.mass kind (t.leafNode j) c *
          (fun l => if h : l < n then lamb ⟨l, h⟩ else 0) (t.distDepth s r j).toNat := by
        rw [← sum_levelSum_false t h s _ hw]
        unfold smoothNum
        exact Finset.sum_congr rfl fun k _ => by rw [← e k]
      rw [this]
      refine Finset.sum_congr rfl fun j _ => ?_
      rw [mass_eq_rate kind t (hn j)]
      ring
  · refine ⟨fun j => t.nSamp (t.leafNode j) * tailSum lamb (t.distDepth s r j).toNat,
      fun j => mul_nonneg (hn j).le (Finset.sum_nonneg fun k _ => ?_), ?_, ?_, fun kind c => ?_⟩
    · split
      · exact hl _
      · exact le_rfl
    · unfold ownDen
      dsimp only
      rw [hz]
      simp [tailSum]
    · exact sum_levelSum_true t h s lamb _ r
    · have : smoothNum kind t s true lamb r c = ∑ j, t.mass kind (t.leafNode j) c *
          tailSum lamb (t.distDepth s r j).toNat := sum_levelSum_true t h s lamb _ r
      rw [this]
      refine Finset.sum_congr rfl fun j _ => ?_
      rw [mass_eq_rate kind t (hn j)]
      ring

/-- C181: a smoothed value differs from the leaf's own by at most the range of the tree's leaf values times the share of
the denominator that belongs to other leaves. -/
theorem C181_move (kind : Kind) (t : SkTree K C) (h : t.WF) (hn : ∀ j, 0 < t.nSamp (t.leafNode j))
    (s : Style) (pa : Bool) {n : ℕ} (lamb : Fin n → K) (hl : ∀ k, 0 ≤ lamb k) (c : Fin C) {lo hi : K}
    (hb : ∀ j, lo ≤ nodeRate kind t (t.leafNode j) c ∧ nodeRate kind t (t.leafNode j) c ≤ hi)
    (r : Fin t.nLeaves) (hd : smoothDen t s pa lamb r ≠ 0) :
    0 ≤ ownDen t pa lamb r / smoothDen t s pa lamb r ∧ ownDen t pa lamb r / smoothDen t s pa lamb r ≤ 1 ∧
    |smoothSpec kind t s pa lamb r c - nodeRate kind t (t.leafNode r) c| ≤
      (1 - ownDen t pa lamb r / smoothDen t s pa lamb r) * (hi - lo) := by
  obtain ⟨w, hw, hr, e1, e2⟩ := exists_leaf_weight pa lamb hl t h s hn r
  have hp : 0 < smoothDen t s pa lamb r :=
    lt_of_le_of_ne (by rw [e1]; exact Finset.sum_nonneg fun j _ => hw j) (Ne.symm hd)
  have split : ∀ f : Fin t.nLeaves → K, ∑ j, f j = f r + ∑ j ∈ Finset.univ.erase r, f j := fun f =>
    (Finset.add_sum_erase _ f (Finset.mem_univ r)).symm
  have hrest : ∑ j ∈ Finset.univ.erase r, w j = smoothDen t s pa lamb r - ownDen t pa lamb r := by
    rw [e1, split w, hr]; ring
  have hle : ownDen t pa lamb r ≤ smoothDen t s pa lamb r := by
    have := Finset.sum_nonneg (s := Finset.univ.erase r) fun j _ => hw j
    rw [hrest] at this
    linarith
  refine ⟨div_nonneg (hr ▸ hw r) hp.le, (div_le_one hp).2 hle, ?_⟩
  have hrange : 0 ≤ hi - lo := by linarith [(hb r).1, (hb r).2]
  have e3 : smoothSpec kind t s pa lamb r c - nodeRate kind t (t.leafNode r) c =
      (∑ j ∈ Finset.univ.erase r, w j * (nodeRate kind t (t.leafNode j) c - nodeRate kind t (t.leafNode r) c)) /
        smoothDen t s pa lamb r := by
    rw [eq_div_iff hd, sub_mul, mul_comm (smoothSpec _ _ _ _ _ _ _), den_mul_smoothSpec kind t h hn s pa lamb hl,
      e2 kind c, e1]
    have : ∑ j ∈ Finset.univ.erase r, w j * (nodeRate kind t (t.leafNode j) c - nodeRate kind t (t.leafNode r) c) =
        ∑ j, w j * (nodeRate kind t (t.leafNode j) c - nodeRate kind t (t.leafNode r) c) := by
      rw [split]; ring
    rw [this, Finset.mul_sum, ← Finset.sum_sub_distrib]
    exact Finset.sum_congr rfl fun j _ => by ring
  have e4 : (1 - ownDen t pa lamb r / smoothDen t s pa lamb r) * (hi - lo) =
      ((smoothDen t s pa lamb r - ownDen t pa lamb r) * (hi - lo)) / smoothDen t s pa lamb r := by
    field_simp
  rw [e3, e4, abs_div, abs_of_pos hp, ← hrest, Finset.sum_mul]
  refine div_le_div_of_nonneg_right ?_ hp.le
  refine (Finset.abs_sum_le_sum_abs _ _).trans (Finset.sum_le_sum fun j _ => ?_)
  rw [abs_mul, abs_of_nonneg (hw j)]
  refine mul_le_mul_of_nonneg_left ?_ (hw j)
  rw [abs_le]
  constructor <;> linarith [(hb r).1, (hb r).2, (hb j).1, (hb j).2]

/-- C181: the difference between two smoothed class shares of a leaf is at least `q (1 + p_a - p_b) - 1`, where `q` is the
leaf's own share of the denominator. -/
theorem C181_margin (t : SkTree K C) (h : t.WF) (hn : ∀ j, 0 < t.nSamp (t.leafNode j))
    (hv : ∀ j c, 0 ≤ t.value (t.leafNode j) c) (hsum : ∀ j, ∑ c, t.value (t.leafNode j) c = t.nSamp (t.leafNode j))
    (s : Style) (pa : Bool) {n : ℕ} (lamb : Fin n → K) (hl : ∀ k, 0 ≤ lamb k)
    (r : Fin t.nLeaves) (hd : smoothDen t s pa lamb r ≠ 0) (a b : Fin C) :
    ownDen t pa lamb r / smoothDen t s pa lamb r *
        (1 + t.value (t.leafNode r) a / t.nSamp (t.leafNode r) - t.value (t.leafNode r) b / t.nSamp (t.leafNode r)) - 1 ≤
      smoothSpec .cls t s pa lamb r a - smoothSpec .cls t s pa lamb r b := by
  obtain ⟨w, hw, hr, e1, e2⟩ := exists_leaf_weight pa lamb hl t h s hn r
  have hp : 0 < smoothDen t s pa lamb r :=
    lt_of_le_of_ne (by rw [e1]; exact Finset.sum_nonneg fun j _ => hw j) (Ne.symm hd)
  have split : ∀ f : Fin t.nLeaves → K, ∑ j, f j = f r + ∑ j ∈ Finset.univ.erase r, f j := fun f =>
    (Finset.add_sum_erase _ f (Finset.mem_univ r)).symm
  have hrest : ∑ j ∈ Finset.univ.erase r, w j = smoothDen t s pa lamb r - ownDen t pa lamb r := by
    rw [e1, split w, hr]; ring
  have h0 : ∀ j c, 0 ≤ nodeRate .cls t (t.leafNode j) c := fun j c => div_nonneg (hv j c) (hn j).le
  have h1 : ∀ j c, nodeRate .cls t (t.leafNode j) c ≤ 1 := fun j c => by
    show t.value _ c / _ ≤ 1
    rw [div_le_one (hn j), ← hsum j]
    exact Finset.single_le_sum (f := fun c => t.value (t.leafNode j) c) (fun c _ => hv j c) (Finset.mem_univ c)
  have e3 : smoothSpec .cls t s pa lamb r a - smoothSpec .cls t s pa lamb r b =
      (w r * (nodeRate .cls t (t.leafNode r) a - nodeRate .cls t (t.leafNode r) b) +
        ∑ j ∈ Finset.univ.erase r, w j * (nodeRate .cls t (t.leafNode j) a - nodeRate .cls t (t.leafNode j) b)) /
        smoothDen t s pa lamb r := by
    rw [eq_div_iff hd, sub_mul, mul_comm (smoothSpec _ _ _ _ _ _ _), mul_comm (smoothSpec _ _ _ _ _ _ b),
      den_mul_smoothSpec .cls t h hn s pa lamb hl, den_mul_smoothSpec .cls t h hn s pa lamb hl, e2, e2,
      ← split fun j => w j * (nodeRate .cls t (t.leafNode j) a - nodeRate .cls t (t.leafNode j) b),
      ← Finset.sum_sub_distrib]
    exact Finset.sum_congr rfl fun j _ => by ring
  have e4 : ownDen t pa lamb r / smoothDen t s pa lamb r *
        (1 + t.value (t.leafNode r) a / t.nSamp (t.leafNode r) - t.value (t.leafNode r) b / t.nSamp (t.leafNode r)) - 1 =
      (w r * (nodeRate .cls t (t.leafNode r) a - nodeRate .cls t (t.leafNode r) b) +
        -∑ j ∈ Finset.univ.erase r, w j) / smoothDen t s pa lamb r := by
    rw [hrest, hr]
    show _ = (_ * (t.value (t.leafNode r) a / t.nSamp (t.leafNode r) -
      t.value (t.leafNode r) b / t.nSamp (t.leafNode r)) + _) / _
    rw [eq_div_iff hd, sub_mul, mul_right_comm, div_mul_cancel₀ _ hd]
    ring
  rw [e3, e4]
  refine div_le_div_of_nonneg_right (add_le_add_right ?_ _) hp.le
  rw [← Finset.sum_neg_distrib]
  refine Finset.sum_le_sum fun j _ => ?_
  have := mul_le_mul_of_nonneg_left
    (show -1 ≤ nodeRate .cls t (t.leafNode j) a - nodeRate .cls t (t.leafNode j) b by
      linarith [h0 j a, h1 j b]) (hw j)
  linarith

/-- C181: if a leaf's own share `q` of the denominator satisfies `1 < q (1 + p_a - p_b)`, class `a` stays ahead of
class `b`. In a pure leaf the class is kept when more than half of the denominator is its own. -/
theorem C181_class (t : SkTree K C) (h : t.WF) (hn : ∀ j, 0 < t.nSamp (t.leafNode j))
    (hv : ∀ j c, 0 ≤ t.value (t.leafNode j) c) (hsum : ∀ j, ∑ c, t.value (t.leafNode j) c = t.nSamp (t.leafNode j))
    (s : Style) (pa : Bool) {n : ℕ} (lamb : Fin n → K) (hl : ∀ k, 0 ≤ lamb k) (r : Fin t.nLeaves) (a b : Fin C)
    (hq : smoothDen t s pa lamb r < ownDen t pa lamb r *
      (1 + t.value (t.leafNode r) a / t.nSamp (t.leafNode r) - t.value (t.leafNode r) b / t.nSamp (t.leafNode r))) :
    smoothSpec .cls t s pa lamb r b < smoothSpec .cls t s pa lamb r a := by
  obtain ⟨w, hw, hr, e1, -⟩ := exists_leaf_weight pa lamb hl t h s hn r
  have h0 : 0 ≤ smoothDen t s pa lamb r := by rw [e1]; exact Finset.sum_nonneg fun j _ => hw j
  have hd : smoothDen t s pa lamb r ≠ 0 := by
    intro hz
    have hz' := e1.symm.trans hz
    have := (Finset.sum_eq_zero_iff_of_nonneg fun j _ => hw j).1 hz' r (Finset.mem_univ r)
    rw [← hr, this, zero_mul, hz] at hq
    exact lt_irrefl _ hq
  have hp := lt_of_le_of_ne h0 (Ne.symm hd)
  have := C181_margin t h hn hv hsum s pa lamb hl r hd a b
  have h2 : 1 < ownDen t pa lamb r / smoothDen t s pa lamb r *
      (1 + t.value (t.leafNode r) a / t.nSamp (t.leafNode r) - t.value (t.leafNode r) b / t.nSamp (t.leafNode r)) := by
    rw [div_mul_eq_mul_div, lt_div_iff₀ hp, one_mul]
    exact hq
  linarith

/-- C181 for the whole procedure: the first forest `smooth` returns, with constrained weights. -/
theorem C181_smooth {sqrt : K → K}
    {ce : (n : ℕ) → SgdOpts K → K → List (Row K n) → List K → List ℕ →
      Except PyErr ((Fin n → K) × (Fin n → K) × List K)} (hC : 0 < C)
    {kind : Kind} {forest : List (SkTree K C)}
    (hwf : ∀ t ∈ forest, t.WF) (hn : ∀ t ∈ forest, ∀ j, 0 < t.nSamp (t.leafNode j))
    {cfg : SmoothCfg K} {sources : TuneSrc → ℕ → List (TuneRow K C)}
    {out : SmoothOut K C (forestDepth forest + 1)}
    (h : smooth sqrt ce (some kind) forest cfg sources = .ok out)
    (hc : cfg.noConstraint = false)
    (hk : kind = .reg ∨ cfg.lossL2 = true ∨ cfg.sanityCheck = true)
    (hs : ∀ u, cfg.seed = some u → ∀ i, 0 ≤ u i) (he : 0 ≤ cfg.classEps) :
    List.Forall₂ (fun t t' => ∃ (v : t.Node → Fin C → K) (q : Fin t.nLeaves → K),
      t' = { t with value := v } ∧
      ∀ r, smoothDen t cfg.style cfg.parentsAll out.lamb1 r ≠ 0 →
        q r * smoothDen t cfg.style cfg.parentsAll out.lamb1 r = ownDen t cfg.parentsAll out.lamb1 r ∧
        0 ≤ q r ∧ q r ≤ 1 ∧
        (∀ c lo hi, (∀ j, lo ≤ nodeRate kind t (t.leafNode j) c ∧ nodeRate kind t (t.leafNode j) c ≤ hi) →
          |v (t.leafNode r) c - nodeRate kind t (t.leafNode r) c| ≤ (1 - q r) * (hi - lo)) ∧
        (kind = .cls → (∀ j c, 0 ≤ t.value (t.leafNode j) c) →
          (∀ j, ∑ c, t.value (t.leafNode j) c = t.nSamp (t.leafNode j)) →
          ∀ a b, 1 < q r * (1 + nodeRate kind t (t.leafNode r) a - nodeRate kind t (t.leafNode r) b) →
            v (t.leafNode r) b < v (t.leafNode r) a)) forest out.rf1 := by
  have hl := (C35_constrained_lamb_nonneg h hc hk hs he).1
  refine forall2_imp_mem (C38_first_forest_rows hC hwf h) fun t ht t' hu => ?_
  obtain ⟨v, e, hv, -⟩ := hu
  refine ⟨v, fun r => ownDen t cfg.parentsAll out.lamb1 r / smoothDen t cfg.style cfg.parentsAll out.lamb1 r, e,
    fun r hd => ⟨div_mul_cancel₀ _ hd, ?_⟩⟩
  obtain ⟨w, hw, hr, e1, -⟩ := exists_leaf_weight cfg.parentsAll out.lamb1 hl t (hwf t ht) cfg.style (hn t ht) r
  have hp : 0 < smoothDen t cfg.style cfg.parentsAll out.lamb1 r :=
    lt_of_le_of_ne (by rw [e1]; exact Finset.sum_nonneg fun j _ => hw j) (Ne.symm hd)
  have hle : ownDen t cfg.parentsAll out.lamb1 r ≤ smoothDen t cfg.style cfg.parentsAll out.lamb1 r := by
    rw [e1, ← hr]
    exact Finset.single_le_sum (fun j _ => hw j) (Finset.mem_univ r)
  refine ⟨div_nonneg (hr ▸ hw r) hp.le, (div_le_one hp).2 hle, fun c lo hi hb => ?_, ?_⟩
  · rw [hv]
    exact (C181_move kind t (hwf t ht) (hn t ht) cfg.style cfg.parentsAll out.lamb1 hl c hb r hd).2.2
  · rintro rfl hv0 hsum a b hq
    rw [hv, hv]
    refine C181_class t (hwf t ht) (hn t ht) hv0 hsum cfg.style cfg.parentsAll out.lamb1 hl r a b ?_
    rw [div_mul_eq_mul_div, lt_div_iff₀ hp, one_mul] at hq
    exact hq

/-- The example of C175_smooth: the first leaf of the second tree has denominator 7/4, of which 1/2 is its own, and
moves from 1 to 40/7. -/
example : ownDen exTree false ![1/2, 1/4, 1/4] ⟨0, by decide⟩ = 1/2 ∧
    smoothDen exTree .max false ![1/2, 1/4, 1/4] ⟨0, by decide⟩ = 7/4 ∧
    |(40/7 : ℚ) - 1| ≤ (1 - (1/2) / (7/4)) * (10 - 1) := by
  decide +kernel

/-- Two leaves of one observation each, of different classes. -/
abbrev exTwoPure : SkTree ℚ 2 :=
  { toTopo := ⟨2, ![some 1, none, none], ![some 2, none, none]⟩
    value := fun i c => ![![1, 1], ![1, 0], ![0, 1]] i c
    nSamp := ![2, 1, 1]
    impurity := ![1 / 2, 0, 0] }

/-- Both bounds are attained: with weights (1, 1) the value moves by exactly half the range, and with half of the
denominator its own a pure leaf loses its class. -/
theorem C181_sharp :
    (exStump.WF ∧ ownDen exStump false ![1, 1] ⟨0, by decide⟩ / smoothDen exStump .standard false ![1, 1] ⟨0, by decide⟩ =
        1 / 2 ∧
      |smoothSpec .reg exStump .standard false ![1, 1] ⟨0, by decide⟩ 0 - 1| = (1 - 1 / 2) * (4 - 1)) ∧
    (exTwoPure.WF ∧ smoothDen exTwoPure .standard false ![1, 1] ⟨0, by decide⟩ =
        ownDen exTwoPure false ![1, 1] ⟨0, by decide⟩ * (1 + 1 - 0) ∧
      smoothSpec .cls exTwoPure .standard false ![1, 1] ⟨0, by decide⟩ 0 =
        smoothSpec .cls exTwoPure .standard false ![1, 1] ⟨0, by decide⟩ 1) := by
  decide +kernel

/-- Weights (2, 1): two thirds are the leaf's own and the class is kept. -/
example : smoothDen exTwoPure .standard false ![2, 1] ⟨0, by decide⟩ <
      ownDen exTwoPure false ![2, 1] ⟨0, by decide⟩ * (1 + 1 - 0) ∧
    smoothSpec .cls exTwoPure .standard false ![2, 1] ⟨0, by decide⟩ 0 = 2 / 3 := by
  decide +kernel

end SmoothRF
