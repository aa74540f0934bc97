import Verif.Props.MarginProps
import Verif.Props.RangeProps
import Verif.Props.UpdateCloseProps

/-! How far smoothing moves the predictions of a forest, and which predicted classes it cannot change (C185). -/

set_option linter.unusedSectionVars false

namespace SmoothRF
open SkTree Topo

variable {K : Type} [Field K] [LinearOrder K] [IsStrictOrderedRing K] {C : ℕ}

/-- The share of the denominator of leaf number `l` that is the leaf's own. -/
def ownPart (t : SkTree K C) (s : Style) (pa : Bool) {n : ℕ} (lamb : Fin n → K) (l : ℕ) : K :=
  if h : l < t.nLeaves then ownDen t pa lamb ⟨l, h⟩ / smoothDen t s pa lamb ⟨l, h⟩ else 1

/-- The row reaches, in every tree, a leaf whose smoothed value is a quotient with non-zero denominator. -/
def ReachesAlive (forest : List (SkTree K C)) (s : Style) (pa : Bool) {n : ℕ} (lamb : Fin n → K) (row : TestRow K) :
    Prop :=
  ∀ tt ∈ forest.zipIdx, ∃ h : row.leaf tt.2 < tt.1.nLeaves, smoothDen tt.1 s pa lamb ⟨row.leaf tt.2, h⟩ ≠ 0

/-- Mean over the trees of the share that does not come from the leaf the row reaches. -/
def meanForeign (forest : List (SkTree K C)) (s : Style) (pa : Bool) {n : ℕ} (lamb : Fin n → K) (row : TestRow K) : K :=
  (forest.zipIdx.map fun tt => 1 - ownPart tt.1 s pa lamb (row.leaf tt.2)).sum / (forest.length : K)

theorem zipIdx_sum_within {T : Type} {R : T → T → Prop} {f B : T → ℕ → K} :
    ∀ {l l' : List T}, List.Forall₂ R l l' → ∀ k,
      (∀ tt ∈ l.zipIdx k, ∀ t', R tt.1 t' → |f t' tt.2 - f tt.1 tt.2| ≤ B tt.1 tt.2) →
      |((l'.zipIdx k).map fun tt => f tt.1 tt.2).sum - ((l.zipIdx k).map fun tt => f tt.1 tt.2).sum| ≤
        ((l.zipIdx k).map fun tt => B tt.1 tt.2).sum
  | _, _, .nil, k, _ => by simp
  | _, _, .cons (a := t) (b := t') (l₁ := l) (l₂ := l') h0 hl, k, h => by
    have h1 := h (t, k) (by simp) t' h0
    have h2 := zipIdx_sum_within (f := f) (B := B) hl (k + 1) fun tt htt => h tt (by simp [htt])
    simp only [List.zipIdx_cons, List.map_cons, List.sum_cons] at h1 ⊢
    rw [abs_le] at h1 h2 ⊢
    constructor <;> linarith [h1.1, h1.2, h2.1, h2.2]

theorem zipIdx_sum_lower {T : Type} {R : T → T → Prop} {f B : T → ℕ → K} :
    ∀ {l l' : List T}, List.Forall₂ R l l' → ∀ k,
      (∀ tt ∈ l.zipIdx k, ∀ t', R tt.1 t' → B tt.1 tt.2 ≤ f t' tt.2) →
      ((l.zipIdx k).map fun tt => B tt.1 tt.2).sum ≤ ((l'.zipIdx k).map fun tt => f tt.1 tt.2).sum
  | _, _, .nil, k, _ => by simp
  | _, _, .cons (a := t) (b := t') (l₁ := l) (l₂ := l') h0 hl, k, h => by
    have h1 := h (t, k) (by simp) t' h0
    have h2 := zipIdx_sum_lower (f := f) (B := B) hl (k + 1) fun tt htt => h tt (by simp [htt])
    simp only [List.zipIdx_cons, List.map_cons, List.sum_cons] at h1 ⊢
    linarith

theorem sum_map_sub' {α : Type} (f g : α → K) (l : List α) :
    (l.map fun a => f a - g a).sum = (l.map f).sum - (l.map g).sum := by
  induction l with
  | nil => simp
  | cons a l ih => rw [List.map_cons, List.map_cons, List.map_cons, List.sum_cons, List.sum_cons, List.sum_cons, ih]; ring

theorem reaches_smoothed {kind : Kind} {forest rf' : List (SkTree K C)} (hC : 0 < C) {s : Style} {pa : Bool} {n : ℕ}
    {lamb : Fin n → K} (h : List.Forall₂ (fun t t' => LeafUpdate t t' fun r => smoothSpec kind t s pa lamb r) forest rf')
    {row : TestRow K} (hrow : ReachesAlive forest s pa lamb row) :
    (∀ tt ∈ forest.zipIdx, row.leaf tt.2 < tt.1.nLeaves) ∧ ∀ tt ∈ rf'.zipIdx, row.leaf tt.2 < tt.1.nLeaves :=
  ⟨fun tt htt => (hrow tt htt).1,
    forall2_leaf_bound h (fun _ _ hu => (leafVal_update hu 0 ⟨0, hC⟩).1) 0 fun tt htt => (hrow tt htt).1⟩

/-- C185: regression. If all leaf values of the forest lie in `[lo, hi]`, the prediction for a row moves by at most
`hi - lo` times the mean share that is not the leaf's own. -/
theorem C185_regression {forest rf' : List (SkTree K 1)} (hne : forest ≠ []) (hwf : ∀ t ∈ forest, t.WF)
    (hn : ∀ t ∈ forest, ∀ j, 0 < t.nSamp (t.leafNode j)) {s : Style} {pa : Bool} {n : ℕ} {lamb : Fin n → K}
    (hl : ∀ k, 0 ≤ lamb k)
    (h : List.Forall₂ (fun t t' => LeafUpdate t t' fun r => smoothSpec .reg t s pa lamb r) forest rf') {lo hi : K}
    (hb : ∀ t ∈ forest, ∀ j, lo ≤ t.value (t.leafNode j) 0 ∧ t.value (t.leafNode j) 0 ≤ hi) {row : TestRow K}
    (hrow : ReachesAlive forest s pa lamb row) :
    ∃ p p', forestPredict .reg forest row = .ok p ∧ forestPredict .reg rf' row = .ok p' ∧
      |p' - p| ≤ (hi - lo) * meanForeign forest s pa lamb row := by
  obtain ⟨hr, hr'⟩ := reaches_smoothed Nat.one_pos h hrow
  refine ⟨_, _, forestPredict_reg forest row hr, forestPredict_reg rf' row hr', ?_⟩
  have hpos : (0 : K) < forest.length := by exact_mod_cast List.length_pos_iff.2 hne
  have key := zipIdx_sum_within (f := fun (t : SkTree K 1) i => leafVal t (row.leaf i) 0)
    (B := fun t i => (1 - ownPart t s pa lamb (row.leaf i)) * (hi - lo)) h 0 fun tt htt t' hu => by
      obtain ⟨hlt, hd⟩ := hrow tt htt
      have hm := List.fst_mem_of_mem_zipIdx htt
      rw [(leafVal_update hu _ 0).2, dif_pos hlt, leafVal, dif_pos hlt, ownPart, dif_pos hlt]
      exact (C181_move .reg tt.1 (hwf _ hm) (hn _ hm) s pa lamb hl 0 (hb _ hm) ⟨_, hlt⟩ hd).2.2
  unfold meanLeaf meanForeign
  rw [← h.length_eq, ← sub_div, abs_div, abs_of_pos hpos, ← mul_div_assoc, div_le_div_iff_of_pos_right hpos]
  refine key.trans (le_of_eq ?_)
  rw [← List.sum_map_mul_left]
  simp only [mul_comm]

theorem leafShare_smoothed {t t' : SkTree K C} {s : Style} {pa : Bool} {n : ℕ} {lamb : Fin n → K}
    (hu : LeafUpdate t t' fun r => smoothSpec .cls t s pa lamb r)
    (hv : ∀ j, ∑ c, t.value (t.leafNode j) c = t.nSamp (t.leafNode j)) {l : ℕ} (hl : l < t.nLeaves)
    (hd : smoothDen t s pa lamb ⟨l, hl⟩ ≠ 0) (c : Fin C) :
    leafShare t' l c = smoothSpec .cls t s pa lamb ⟨l, hl⟩ c := by
  have e : ∑ c', leafVal t' l c' = 1 := by
    rw [← smooth_sum_one hv hd]
    exact Finset.sum_congr rfl fun c' _ => by
      rw [(leafVal_update hu _ c').2, dif_pos hl, smoothSpec, if_neg hd]
  unfold leafShare
  rw [e, if_neg one_ne_zero, div_one, (leafVal_update hu _ c).2, dif_pos hl]

theorem leafShare_original {t : SkTree K C} (hn : ∀ j, 0 < t.nSamp (t.leafNode j))
    (hv : ∀ j, ∑ c, t.value (t.leafNode j) c = t.nSamp (t.leafNode j)) {l : ℕ} (hl : l < t.nLeaves) (c : Fin C) :
    leafShare t l c = t.value (t.leafNode ⟨l, hl⟩) c / t.nSamp (t.leafNode ⟨l, hl⟩) := by
  have e : ∑ c', leafVal t l c' = t.nSamp (t.leafNode ⟨l, hl⟩) := by
    rw [← hv]
    exact Finset.sum_congr rfl fun c' _ => by simp [leafVal, hl]
  unfold leafShare
  rw [e, if_neg (hn _).ne']
  simp [leafVal, hl]

theorem ownPart_mem {t : SkTree K C} (hwf : t.WF) (hn : ∀ j, 0 < t.nSamp (t.leafNode j)) (s : Style) (pa : Bool) {n : ℕ}
    {lamb : Fin n → K} (hl : ∀ k, 0 ≤ lamb k) {l : ℕ} (hlt : l < t.nLeaves)
    (hd : smoothDen t s pa lamb ⟨l, hlt⟩ ≠ 0) : 0 ≤ ownPart t s pa lamb l ∧ ownPart t s pa lamb l ≤ 1 := by
  obtain ⟨w, hw, hr, e1, -⟩ := exists_leaf_weight pa lamb hl t hwf s hn ⟨l, hlt⟩
  have hp : 0 < smoothDen t s pa lamb ⟨l, hlt⟩ :=
    lt_of_le_of_ne (by rw [e1]; exact Finset.sum_nonneg fun j _ => hw j) (Ne.symm hd)
  rw [ownPart, dif_pos hlt]
  refine ⟨div_nonneg (hr ▸ hw _) hp.le, (div_le_one hp).2 ?_⟩
  rw [e1, ← hr]
  exact Finset.single_le_sum (fun j _ => hw j) (Finset.mem_univ _)

/-- C185: classification. Every predicted probability moves by at most the mean share that is not the leaf's own. -/
theorem C185_proba {forest rf' : List (SkTree K C)} (hne : forest ≠ []) (hwf : ∀ t ∈ forest, t.WF)
    (hn : ∀ t ∈ forest, ∀ j, 0 < t.nSamp (t.leafNode j)) (hv0 : ∀ t ∈ forest, ∀ j c, 0 ≤ t.value (t.leafNode j) c)
    (hv : ∀ t ∈ forest, ∀ j, ∑ c, t.value (t.leafNode j) c = t.nSamp (t.leafNode j)) {s : Style} {pa : Bool} {n : ℕ}
    {lamb : Fin n → K} (hl : ∀ k, 0 ≤ lamb k)
    (h : List.Forall₂ (fun t t' => LeafUpdate t t' fun r => smoothSpec .cls t s pa lamb r) forest rf') {row : TestRow K}
    (hrow : ReachesAlive forest s pa lamb row) (c : Fin C) :
    |meanShare rf' row c - meanShare forest row c| ≤ meanForeign forest s pa lamb row := by
  have hpos : (0 : K) < forest.length := by exact_mod_cast List.length_pos_iff.2 hne
  have key := zipIdx_sum_within (f := fun (t : SkTree K C) i => leafShare t (row.leaf i) c)
    (B := fun t i => 1 - ownPart t s pa lamb (row.leaf i)) h 0 fun tt htt t' hu => by
      obtain ⟨hlt, hd⟩ := hrow tt htt
      have hm := List.fst_mem_of_mem_zipIdx htt
      rw [leafShare_smoothed hu (hv _ hm) hlt hd, leafShare_original (hn _ hm) (hv _ hm) hlt, ownPart, dif_pos hlt]
      have := (C181_move .cls tt.1 (hwf _ hm) (hn _ hm) s pa lamb hl c (lo := 0) (hi := 1) (fun j =>
        ⟨div_nonneg (hv0 _ hm j c) (hn _ hm j).le, (div_le_one (hn _ hm j)).2 (by
          rw [← hv _ hm j]
          exact Finset.single_le_sum (f := fun c => tt.1.value (tt.1.leafNode j) c) (fun c _ => hv0 _ hm j c)
            (Finset.mem_univ c))⟩) ⟨_, hlt⟩ hd).2.2
      rw [sub_zero, mul_one] at this
      exact this
  unfold meanShare meanForeign
  rw [← h.length_eq, ← sub_div, abs_div, abs_of_pos hpos, div_le_div_iff_of_pos_right hpos]
  exact key

/-- C185: classification. If for every other class `b` the leaves reached satisfy `Σ own (1 + pₐ - p_b) > number of
trees`, the forest predicts `a` before and after smoothing. -/
theorem C185_class (hC : 0 < C) {forest rf' : List (SkTree K C)} (hwf : ∀ t ∈ forest, t.WF)
    (hn : ∀ t ∈ forest, ∀ j, 0 < t.nSamp (t.leafNode j)) (hv0 : ∀ t ∈ forest, ∀ j c, 0 ≤ t.value (t.leafNode j) c)
    (hv : ∀ t ∈ forest, ∀ j, ∑ c, t.value (t.leafNode j) c = t.nSamp (t.leafNode j)) {s : Style} {pa : Bool} {n : ℕ}
    {lamb : Fin n → K} (hl : ∀ k, 0 ≤ lamb k)
    (h : List.Forall₂ (fun t t' => LeafUpdate t t' fun r => smoothSpec .cls t s pa lamb r) forest rf') {row : TestRow K}
    (hrow : ReachesAlive forest s pa lamb row) (a : Fin C)
    (hq : ∀ b, b ≠ a → (forest.length : K) < (forest.zipIdx.map fun tt => ownPart tt.1 s pa lamb (row.leaf tt.2) *
      (1 + leafShare tt.1 (row.leaf tt.2) a - leafShare tt.1 (row.leaf tt.2) b)).sum) :
    forestPredict .cls forest row = .ok (a.val : K) ∧ forestPredict .cls rf' row = .ok (a.val : K) := by
  obtain ⟨hr, hr'⟩ := reaches_smoothed hC h hrow
  have hsub : ∀ (l : List (SkTree K C)) (b : Fin C), (l.zipIdx.map fun tt =>
      leafShare tt.1 (row.leaf tt.2) a - leafShare tt.1 (row.leaf tt.2) b).sum =
      (l.zipIdx.map fun tt => leafShare tt.1 (row.leaf tt.2) a).sum -
        (l.zipIdx.map fun tt => leafShare tt.1 (row.leaf tt.2) b).sum := fun l b => sum_map_sub' _ _ _
  have hone : (forest.zipIdx.map fun tt => ownPart tt.1 s pa lamb (row.leaf tt.2) * 0 + (1 : K)).sum =
      forest.length := by simp
  have hshare : ∀ t ∈ forest, ∀ l, l < t.nLeaves → ∀ c, 0 ≤ leafShare t l c ∧ leafShare t l c ≤ 1 := by
    intro t hm l hlt c
    rw [leafShare_original (hn _ hm) (hv _ hm) hlt]
    refine ⟨div_nonneg (hv0 _ hm _ c) (hn _ hm _).le, (div_le_one (hn _ hm _)).2 ?_⟩
    rw [← hv _ hm]
    exact Finset.single_le_sum (f := fun c => t.value (t.leafNode ⟨l, hlt⟩) c) (fun c _ => hv0 _ hm _ c)
      (Finset.mem_univ c)
  have hne : ∀ b, b ≠ a → forest ≠ [] := by
    rintro b hb rfl
    simpa using hq b hb
  have hB : ∀ b, (forest.zipIdx.map fun tt => ownPart tt.1 s pa lamb (row.leaf tt.2) *
      (1 + leafShare tt.1 (row.leaf tt.2) a - leafShare tt.1 (row.leaf tt.2) b) - 1).sum =
      (forest.zipIdx.map fun tt => ownPart tt.1 s pa lamb (row.leaf tt.2) *
      (1 + leafShare tt.1 (row.leaf tt.2) a - leafShare tt.1 (row.leaf tt.2) b)).sum - forest.length := by
    intro b
    rw [sum_map_sub']
    simp
  have lead : ∀ b, b ≠ a → meanShare forest row b < meanShare forest row a := by
    intro b hb
    have hpos : (0 : K) < forest.length := by exact_mod_cast List.length_pos_iff.2 (hne b hb)
    unfold meanShare
    rw [div_lt_div_iff_of_pos_right hpos, ← sub_pos, ← hsub]
    refine lt_of_lt_of_le (sub_pos.2 (hq b hb)) ?_
    rw [← hB]
    refine List.sum_le_sum fun tt htt => ?_
    obtain ⟨hlt, hd⟩ := hrow tt htt
    have hm := List.fst_mem_of_mem_zipIdx htt
    obtain ⟨h0, h1⟩ := ownPart_mem (hwf _ hm) (hn _ hm) s pa hl hlt hd
    have h2 : 0 ≤ 1 + leafShare tt.1 (row.leaf tt.2) a - leafShare tt.1 (row.leaf tt.2) b := by
      linarith [(hshare _ hm _ hlt a).1, (hshare _ hm _ hlt b).2]
    nlinarith [mul_le_of_le_one_left h2 h1]
  have lead' : ∀ b, b ≠ a → meanShare rf' row b < meanShare rf' row a := by
    intro b hb
    have hpos : (0 : K) < rf'.length := by
      rw [← h.length_eq]; exact_mod_cast List.length_pos_iff.2 (hne b hb)
    unfold meanShare
    rw [div_lt_div_iff_of_pos_right hpos, ← sub_pos, ← hsub]
    refine lt_of_lt_of_le (sub_pos.2 (hq b hb)) ?_
    rw [← hB]
    refine zipIdx_sum_lower (f := fun (t : SkTree K C) i => leafShare t (row.leaf i) a - leafShare t (row.leaf i) b)
      (B := fun t i => ownPart t s pa lamb (row.leaf i) *
        (1 + leafShare t (row.leaf i) a - leafShare t (row.leaf i) b) - 1) h 0 fun tt htt t' hu => ?_
    obtain ⟨hlt, hd⟩ := hrow tt htt
    have hm := List.fst_mem_of_mem_zipIdx htt
    rw [leafShare_smoothed hu (hv _ hm) hlt hd, leafShare_smoothed hu (hv _ hm) hlt hd,
      leafShare_original (hn _ hm) (hv _ hm) hlt, leafShare_original (hn _ hm) (hv _ hm) hlt, ownPart, dif_pos hlt]
    exact C181_margin tt.1 (hwf _ hm) (hn _ hm) (hv0 _ hm) (hv _ hm) s pa lamb hl ⟨_, hlt⟩ hd a b
  obtain ⟨c1, p1, m1, -⟩ := C127_predict_class hC forest row hr
  obtain ⟨c2, p2, m2, -⟩ := C127_predict_class hC rf' row hr'
  have g1 : c1 = a := by
    by_contra hc
    exact absurd (lead c1 hc) (not_lt.2 (m1 a))
  have g2 : c2 = a := by
    by_contra hc
    exact absurd (lead' c2 hc) (not_lt.2 (m2 a))
  rw [g1] at p1
  rw [g2] at p2
  exact ⟨p1, p2⟩

/-- C185 for the whole procedure: the first forest `smooth` returns with constrained weights, for a regressor and for
a classifier (with the squared error; the default loss raises, C31). -/
theorem C185_smooth {sqrt : K → K}
    {ce : (n : ℕ) → SgdOpts K → K → List (Row K n) → List K → List ℕ →
      Except PyErr ((Fin n → K) × (Fin n → K) × List K)} {cfg : SmoothCfg K} (hc : cfg.noConstraint = false)
    (hs : ∀ u, cfg.seed = some u → ∀ i, 0 ≤ u i) (he : 0 ≤ cfg.classEps) :
    (∀ {forest : List (SkTree K 1)} {sources : TuneSrc → ℕ → List (TuneRow K 1)}
      {out : SmoothOut K 1 (forestDepth forest + 1)} {row : TestRow K} {lo hi : K}, forest ≠ [] →
      (∀ t ∈ forest, t.WF) → (∀ t ∈ forest, ∀ j, 0 < t.nSamp (t.leafNode j)) →
      smooth sqrt ce (some .reg) forest cfg sources = .ok out →
      (∀ t ∈ forest, ∀ j, lo ≤ t.value (t.leafNode j) 0 ∧ t.value (t.leafNode j) 0 ≤ hi) →
      ReachesAlive forest cfg.style cfg.parentsAll out.lamb1 row →
      ∃ p p', forestPredict .reg forest row = .ok p ∧ forestPredict .reg out.rf1 row = .ok p' ∧
        |p' - p| ≤ (hi - lo) * meanForeign forest cfg.style cfg.parentsAll out.lamb1 row) ∧
    ∀ {forest : List (SkTree K C)} {sources : TuneSrc → ℕ → List (TuneRow K C)}
      {out : SmoothOut K C (forestDepth forest + 1)} {row : TestRow K} {a : Fin C},
      (∀ t ∈ forest, t.WF) → (∀ t ∈ forest, ∀ j, 0 < t.nSamp (t.leafNode j)) →
      (∀ t ∈ forest, ∀ j c, 0 ≤ t.value (t.leafNode j) c) →
      (∀ t ∈ forest, ∀ j, ∑ c, t.value (t.leafNode j) c = t.nSamp (t.leafNode j)) →
      smooth sqrt ce (some .cls) forest cfg sources = .ok out → (cfg.lossL2 = true ∨ cfg.sanityCheck = true) →
      ReachesAlive forest cfg.style cfg.parentsAll out.lamb1 row →
      (∀ b, b ≠ a → (forest.length : K) < (forest.zipIdx.map fun tt =>
        ownPart tt.1 cfg.style cfg.parentsAll out.lamb1 (row.leaf tt.2) *
          (1 + leafShare tt.1 (row.leaf tt.2) a - leafShare tt.1 (row.leaf tt.2) b)).sum) →
      forestPredict .cls forest row = .ok (a.val : K) ∧ forestPredict .cls out.rf1 row = .ok (a.val : K) :=
  ⟨fun hne hwf hn h hb hrow => C185_regression hne hwf hn (C35_constrained_lamb_nonneg h hc (Or.inl rfl) hs he).1
      (C38_first_forest_rows Nat.one_pos hwf h) hb hrow,
    fun {_ _ _ _ a} hwf hn hv0 hv h hk hrow hq => C185_class a.pos hwf hn hv0 hv
      (C35_constrained_lamb_nonneg h hc (Or.inr hk) hs he).1 (C38_first_forest_rows a.pos hwf h) hrow a hq⟩

/-- C185 for `smooth_clean` with non-negative weights. -/
theorem C185_clean {forest : List (SkTree K 1)} (hne : forest ≠ []) (hwf : ∀ t ∈ forest, t.WF)
    (hn : ∀ t ∈ forest, ∀ j, 0 < t.nSamp (t.leafNode j)) {sqrt : K → K} {approxOne : K → Bool} {y : List K}
    {leafOf : ℕ → ℕ → ℕ} {uns : ℕ → List ℕ} {cfg : CleanCfg K} {choices : List (List ℕ)}
    {rf1 : List (SkTree K 1)} {lamb : Fin (forestDepth forest + 1) → K} {c : List K}
    (h : smoothClean sqrt approxOne (some .reg) forest y leafOf uns cfg choices = .ok (rf1, lamb, c))
    (hl : ∀ k, 0 ≤ lamb k) {lo hi : K}
    (hb : ∀ t ∈ forest, ∀ j, lo ≤ t.value (t.leafNode j) 0 ∧ t.value (t.leafNode j) 0 ≤ hi) {row : TestRow K}
    (hrow : ReachesAlive forest cfg.style cfg.parentsAll lamb row) :
    ∃ p p', forestPredict .reg forest row = .ok p ∧ forestPredict .reg rf1 row = .ok p' ∧
      |p' - p| ≤ (hi - lo) * meanForeign forest cfg.style cfg.parentsAll lamb row :=
  C185_regression hne hwf hn hl (C74_clean_rows hwf h) hb hrow

/-- Two leaves of one observation each, with responses 1 and 4. -/
abbrev exTwoVal : SkTree ℚ 1 :=
  { toTopo := ⟨2, ![some 1, none, none], ![some 2, none, none]⟩
    value := fun i _ => ![5 / 2, 1, 4] i
    nSamp := ![2, 1, 1]
    impurity := ![9 / 4, 0, 0] }

/-- C185: both bounds are attained by runs of `smooth` with starting weights (1/2, 1/2). Regression: a prediction moves
from 1 to 5/2, half the range 3. Classification: `Σ own (1 + pₐ - p_b)` equals the number of trees and the predicted
class changes from 1 to 0. -/
theorem C185_sharp :
    (match smooth (fun x => x) noCe (some .reg) [exTwoVal] { exCfg with seed := some fun _ => 1 } (fun _ _ => [⟨0, ![0]⟩]) with
      | .ok out => some (List.ofFn out.lamb1, (forestPredict .reg out.rf1 ⟨fun _ => 0, 0⟩).toOption)
      | .error _ => none) = some ([1/2, 1/2], some (5/2)) ∧
    (forestPredict .reg [exTwoVal] ⟨fun _ => 0, 0⟩).toOption = some 1 ∧
    (4 - 1) * meanForeign [exTwoVal] .standard false ![1/2, 1/2] ⟨fun _ => 0, 0⟩ = 5/2 - 1 ∧
    (match smooth (fun x => x) noCe (some .cls) [exTwoPure] { exCfg with seed := some fun _ => 1 }
        (fun _ _ => [⟨0, ![1, 0]⟩, ⟨1, ![0, 1]⟩]) with
      | .ok out => some (List.ofFn out.lamb1, (forestPredict .cls out.rf1 ⟨fun _ => 1, 0⟩).toOption)
      | .error _ => none) = some ([1/2, 1/2], some 0) ∧
    (forestPredict .cls [exTwoPure] ⟨fun _ => 1, 0⟩).toOption = some 1 ∧
    ownPart exTwoPure .standard false ![1/2, 1/2] 1 * (1 + leafShare exTwoPure 1 1 - leafShare exTwoPure 1 0) = 1 := by
  decide +kernel

/-- Starting weights (2, 1) become (43/66, 23/66); the condition holds and the class is kept. -/
example : ownPart exTwoPure .standard false ![43/66, 23/66] 1 *
      (1 + leafShare exTwoPure 1 1 - leafShare exTwoPure 1 0) = 43/33 ∧
    (match smooth (fun x => x) noCe (some .cls) [exTwoPure] { exCfg with seed := some fun i => if i = 0 then 2 else 1 }
        (fun _ _ => [⟨0, ![1, 0]⟩, ⟨1, ![0, 1]⟩]) with
      | .ok out => some (List.ofFn out.lamb1, (forestPredict .cls out.rf1 ⟨fun _ => 1, 0⟩).toOption)
      | .error _ => none) = some ([43/66, 23/66], some 1) := by
  decide +kernel

end SmoothRF
