import Verif.Proofs.Smooth
import Mathlib.Algebra.BigOperators.Field

set_option linter.unusedSectionVars false

namespace SmoothRF
open SkTree Topo

variable {K : Type} [Field K] [LinearOrder K] {C : ℕ}

/-! ### tuning summaries -/

/-- One tree's block of summaries. -/
def summaryBlock (tune : ℕ → List (TuneRow K C)) (tt : SkTree K C × ℕ) : List ((Fin C → K) × K) :=
  (List.range tt.1.nLeaves).map fun i =>
    ((fun c => leafMean (tune tt.2) i c), leafWeight (tune tt.2) i)

theorem tuneFold (d : Bool) (tune : ℕ → List (TuneRow K C)) (l : List (SkTree K C × ℕ))
    (acc : List ((Fin C → K) × K)) :
    l.foldlM (fun acc tt =>
      let rows := tune tt.2
      if rows.isEmpty || (d && decide (∃ c, ∀ r ∈ rows, r.y c = 0)) then
        (.error .valueError : Except PyErr _)
      else pure (acc ++ (List.range tt.1.nLeaves).map fun i =>
        ((fun c => leafMean rows i c), leafWeight rows i))) acc =
    if (∃ tt ∈ l, tune tt.2 = []) ∨ (d = true ∧ ∃ tt ∈ l, ∃ c, ∀ r ∈ tune tt.2, r.y c = 0) then
      .error .valueError
    else .ok (acc ++ l.flatMap (summaryBlock tune)) := by
  induction l generalizing acc with
  | nil => simp; rfl
  | cons tt l ih =>
    rw [List.foldlM_cons]
    by_cases h : tune tt.2 = [] ∨ (d = true ∧ ∃ c, ∀ r ∈ tune tt.2, r.y c = 0)
    · have hc : (∃ tt' ∈ tt :: l, tune tt'.2 = []) ∨
          (d = true ∧ ∃ tt' ∈ tt :: l, ∃ c, ∀ r ∈ tune tt'.2, r.y c = 0) := by
        rcases h with h | h
        · exact Or.inl ⟨tt, by simp, h⟩
        · exact Or.inr ⟨h.1, tt, by simp, h.2⟩
      have : ((tune tt.2).isEmpty || (d && decide (∃ c, ∀ r ∈ tune tt.2, r.y c = 0))) = true := by
        rcases h with h | h
        · simp [h]
        · simp [h.1, h.2]
      simp only [this, if_true, if_pos hc]
      rfl
    · rw [not_or] at h
      have : ((tune tt.2).isEmpty || (d && decide (∃ c, ∀ r ∈ tune tt.2, r.y c = 0))) = false := by
        rw [Bool.or_eq_false_iff, Bool.and_eq_false_iff, decide_eq_false_iff_not]
        refine ⟨by simpa using h.1, ?_⟩
        by_cases hd : d = true
        · exact Or.inr fun hc => h.2 ⟨hd, hc⟩
        · exact Or.inl (by simpa using hd)
      simp only [this, Bool.false_eq_true, if_false]
      show (l.foldlM _ _) = _
      rw [ih]
      have e : ((∃ tt' ∈ tt :: l, tune tt'.2 = []) ∨
            (d = true ∧ ∃ tt' ∈ tt :: l, ∃ c, ∀ r ∈ tune tt'.2, r.y c = 0)) ↔
          ((∃ tt ∈ l, tune tt.2 = []) ∨ (d = true ∧ ∃ tt ∈ l, ∃ c, ∀ r ∈ tune tt.2, r.y c = 0)) := by
        constructor
        · rintro (⟨x, hx, hc⟩ | ⟨hd, x, hx, hc⟩)
          · rcases List.mem_cons.1 hx with rfl | hx
            · exact absurd hc h.1
            · exact Or.inl ⟨x, hx, hc⟩
          · rcases List.mem_cons.1 hx with rfl | hx
            · exact absurd ⟨hd, hc⟩ h.2
            · exact Or.inr ⟨hd, x, hx, hc⟩
        · rintro (⟨x, hx, hc⟩ | ⟨hd, x, hx, hc⟩)
          · exact Or.inl ⟨x, by simp [hx], hc⟩
          · exact Or.inr ⟨hd, x, by simp [hx], hc⟩
      simp only [e, List.flatMap_cons, List.append_assoc]
      rfl

theorem tuneSummaries_eq (d : Bool) (forest : List (SkTree K C)) (tune : ℕ → List (TuneRow K C)) :
    tuneSummaries d forest tune =
      if (∃ tt ∈ forest.zipIdx, tune tt.2 = []) ∨
          (d = true ∧ ∃ tt ∈ forest.zipIdx, ∃ c, ∀ r ∈ tune tt.2, r.y c = 0) then .error .valueError
      else .ok (forest.zipIdx.flatMap (summaryBlock tune)) := by
  have := tuneFold d tune forest.zipIdx []
  rw [List.nil_append] at this
  exact this

theorem sum_leafWeight (rows : List (TuneRow K C)) (n : ℕ) (h : ∀ r ∈ rows, r.leaf < n) :
    ((List.range n).map (leafWeight rows)).sum = (rows.length : K) := by
  rw [sum_map_range]
  induction rows with
  | nil => simp [leafWeight]
  | cons r rows ih =>
    have h1 := ih fun r' hr' => h r' (by simp [hr'])
    have h2 : ∀ i, leafWeight (r :: rows) i = (if i = r.leaf then 1 else 0) + leafWeight rows i := by
      intro i
      unfold leafWeight
      rw [List.filter_cons]
      by_cases hi : i = r.leaf
      · simp [hi, add_comm]
      · have : (r.leaf == i) = false := by simpa using fun e => hi e.symm
        simp [this, hi]
    rw [Finset.sum_congr rfl fun i _ => h2 i, Finset.sum_add_distrib, h1,
      Finset.sum_ite_eq' (Finset.range n) r.leaf]
    rw [if_pos (Finset.mem_range.2 (h r (by simp)))]
    simp [add_comm]

/-! ### the optimisation rows -/

/-- All leaves with their tree number. -/
def leafListI (forest : List (SkTree K C)) : List (((t : SkTree K C) × Fin t.nLeaves) × ℕ) :=
  forest.zipIdx.flatMap fun tt => (List.finRange tt.1.nLeaves).map fun r => (⟨tt.1, r⟩, tt.2)

theorem leafListI_fst (forest : List (SkTree K C)) :
    (leafListI forest).map Prod.fst = leafList forest := by
  unfold leafListI leafList
  generalize 0 = k
  induction forest generalizing k with
  | nil => rfl
  | cons t ts ih =>
    rw [List.zipIdx_cons, List.flatMap_cons, List.map_append, ih, List.flatMap_cons, List.map_map]
    rfl

theorem leafListI_map {β : Type} (forest : List (SkTree K C))
    (f : SkTree K C × ℕ → List β) (g : ((t : SkTree K C) × Fin t.nLeaves) × ℕ → β)
    (h : ∀ tt ∈ forest.zipIdx, f tt =
      (List.finRange tt.1.nLeaves).map fun r => g (⟨tt.1, r⟩, tt.2)) :
    forest.zipIdx.flatMap f = (leafListI forest).map g := by
  unfold leafListI
  rw [List.map_flatMap]
  apply List.flatMap_congr
  intro tt htt
  rw [h tt htt, List.map_map]
  rfl

/-- One optimisation row, read off the specification. -/
def specRow (kind : Kind) (s : Style) (pa allTrees : Bool) (tune : ℕ → List (TuneRow K C)) (n : ℕ)
    (c : Fin C) (q : ((t : SkTree K C) × Fin t.nLeaves) × ℕ) : Row K n :=
  { y := leafMean (tune q.2) q.1.2 c
    w := leafWeight (tune q.2) q.1.2
    gam := fun k => levelSum pa (q.1.1.distDepth s) (fun j => q.1.1.mass kind (q.1.1.leafNode j) c) q.1.2 k
    eta := fun k => levelSum pa (q.1.1.distDepth s) (fun j => q.1.1.nSamp (q.1.1.leafNode j)) q.1.2 k
    tree := if allTrees then 0 else q.2 }

theorem finRange_map_val (n : ℕ) : (List.finRange n).map (fun r : Fin n => r.val) = List.range n := by
  apply List.ext_getElem <;> simp

theorem flatRows_eq (kind : Kind) (forest : List (SkTree K C)) (hwf : ∀ t ∈ forest, t.WF)
    (s : Style) (pa allTrees : Bool) (tune : ℕ → List (TuneRow K C)) :
    flatRows (forestDepth forest + 1) allTrees (gammaEtaForest kind forest s pa)
        (forest.zipIdx.flatMap (summaryBlock tune)) =
      (List.finRange C).flatMap fun c => (leafListI forest).map
        (specRow kind s pa allTrees tune (forestDepth forest + 1) c) := by
  obtain ⟨h1, h2, h3⟩ := C16_forest_stacking kind forest hwf s pa
  have h4 : forest.zipIdx.flatMap (summaryBlock tune) = (leafListI forest).map fun q =>
      ((fun c => leafMean (tune q.2) q.1.2 c), leafWeight (tune q.2) q.1.2) := by
    apply leafListI_map
    intro tt _
    unfold summaryBlock
    rw [← finRange_map_val, List.map_map]
    rfl
  have h5 : (gammaEtaForest kind forest s pa).tIdx = (leafListI forest).map fun q => q.2 := by
    rw [h3]
    apply leafListI_map
    intro tt _
    simp [List.map_const']
  rw [flatRows]
  congr 1
  funext c
  have e1 := h1 c
  rw [← leafList_map, ← leafListI_fst, List.map_map] at e1 h2
  rw [h2, List.length_map, h4, h5]
  refine range_map_getD _ _ _ fun i hi => ?_
  have hrow : ∀ (v : ℕ → K),
      toVec (forestDepth forest + 1) ((List.range (forestDepth forest + 1)).map v) =
        fun j : Fin (forestDepth forest + 1) => v j.val := by
    intro v
    funext j
    simp [toVec, List.getD_eq_getElem?_getD, List.getElem?_map, List.getElem?_range j.2]
  simp only [e1, List.getD_eq_getElem?_getD, List.getElem?_map, List.getElem?_eq_getElem hi,
    Option.map_some, Option.getD_some, Option.elim_some, specRow, Function.comp_apply]
  unfold forestDepth at hrow ⊢
  simp only [hrow]

/-! ### starting weights -/

theorem normalise_ok {n : ℕ} {l x : Fin n → K} (h : normalise l = .ok x) :
    ∑ i, l i ≠ 0 ∧ (∀ i, x i = l i / ∑ j, l j) ∧ ∑ i, x i = 1 := by
  unfold normalise at h
  split_ifs at h with h0
  cases h
  refine ⟨h0, fun _ => rfl, ?_⟩
  rw [← Finset.sum_div, div_self h0]

theorem initLamb_feasible [IsStrictOrderedRing K] (kind : Kind) {n : ℕ} (seed : Option (ℕ → K))
    (classEps : K) (hs : ∀ u, seed = some u → ∀ i, 0 ≤ u i) (he : 0 ≤ classEps)
    {l : Fin (n + 1) → K} (h : initLamb kind seed classEps = .ok l) :
    ∑ i, l i = 1 ∧ ∀ i, 0 ≤ l i := by
  unfold initLamb at h
  obtain ⟨l0, h0, h⟩ := bind_ok h
  have f0 : ∑ i, l0 i = 1 ∧ ∀ i, 0 ≤ l0 i := by
    cases seed with
    | none =>
      cases h0
      refine ⟨by simp, fun i => ?_⟩
      show (0 : K) ≤ if i = 0 then 1 else 0
      split_ifs
      · exact zero_le_one
      · exact le_rfl
    | some u =>
      obtain ⟨-, e, s⟩ := normalise_ok h0
      refine ⟨s, fun i => ?_⟩
      rw [e]
      exact div_nonneg (hs u rfl _) (Finset.sum_nonneg fun j _ => hs u rfl _)
  cases kind with
  | reg => cases h; exact f0
  | cls =>
    obtain ⟨l1, h1, h2⟩ := bind_ok h
    obtain ⟨-, e1, s1⟩ := normalise_ok h1
    obtain ⟨-, e2, s2⟩ := normalise_ok h2
    have g : ∀ i : Fin (n + 1), 0 ≤ l0 i + 1 * classEps / ((n + 1 : ℕ) : K) := fun i =>
      add_nonneg (f0.2 i) (div_nonneg (by rw [one_mul]; exact he) (Nat.cast_nonneg _))
    have g1 : ∀ i, 0 ≤ l1 i := fun i => by
      rw [e1]; exact div_nonneg (g i) (Finset.sum_nonneg fun j _ => g j)
    refine ⟨s2, fun i => ?_⟩
    rw [e2]; exact div_nonneg (g1 i) (Finset.sum_nonneg fun j _ => g1 j)

theorem initLamb_cls_none [IsStrictOrderedRing K] {n : ℕ} (classEps : K) (he : 1 + classEps ≠ 0) :
    initLamb .cls (n := n) none classEps = .ok fun i =>
      ((if i = 0 then 1 else 0) + classEps / ((n + 1 : ℕ) : K)) / (1 + classEps) := by
  have hn : ((n + 1 : ℕ) : K) ≠ 0 := Nat.cast_ne_zero.2 (by omega)
  have s0 : ∑ i : Fin (n + 1), ((if i = 0 then (1 : K) else 0) + 1 * classEps / ((n + 1 : ℕ) : K)) =
      1 + classEps := by
    rw [Finset.sum_add_distrib]
    simp only [Finset.sum_ite_eq', Finset.mem_univ, if_true, Finset.sum_const, Finset.card_univ,
      Fintype.card_fin, one_mul, nsmul_eq_mul]
    rw [mul_div_cancel₀ _ hn]
  have e1 : normalise (fun i : Fin (n + 1) =>
      (if i = 0 then (1 : K) else 0) + 1 * classEps / ((n + 1 : ℕ) : K)) =
      .ok fun i => ((if i = 0 then 1 else 0) + classEps / ((n + 1 : ℕ) : K)) / (1 + classEps) := by
    unfold normalise
    rw [if_neg (by rw [s0]; exact he), s0]
    simp only [one_mul]
  have s1 := (normalise_ok e1).2.2
  have e2 : normalise (fun i : Fin (n + 1) =>
      ((if i = 0 then (1 : K) else 0) + classEps / ((n + 1 : ℕ) : K)) / (1 + classEps)) =
      .ok fun i => ((if i = 0 then 1 else 0) + classEps / ((n + 1 : ℕ) : K)) / (1 + classEps) := by
    unfold normalise
    rw [if_neg (by rw [s1]; exact one_ne_zero), s1]
    simp only [div_one]
  unfold initLamb
  show (normalise (fun i : Fin (n + 1) =>
      (if i = 0 then (1 : K) else 0) + 1 * classEps / ((n + 1 : ℕ) : K)) >>= normalise) = _
  rw [e1]
  exact e2

/-! ### a run that returns -/

theorem smooth_returns (hC : 0 < C) {sqrt : K → K}
    {ce : (n : ℕ) → SgdOpts K → K → List (Row K n) → List K → List ℕ →
      Except PyErr ((Fin n → K) × (Fin n → K) × List K)}
    {kind : Kind} {forest : List (SkTree K C)} (hwf : ∀ t ∈ forest, t.WF) {cfg : SmoothCfg K}
    {sources : TuneSrc → ℕ → List (TuneRow K C)} {src : TuneSrc} {yw : List ((Fin C → K) × K)}
    {lamb l1 l2 : Fin (forestDepth forest + 1) → K} {cs : List K}
    (h1 : smoothCheck (some kind) cfg.data cfg.noConstraint = .ok (kind, src))
    (h2 : tuneSummaries (decide (kind = .cls) && decide (src ≠ .given)) forest (sources src) = .ok yw)
    (h3 : initLamb kind cfg.seed cfg.classEps = .ok lamb)
    (h4 : smoothOptimise sqrt (ce _) kind cfg
        (flatRows (forestDepth forest + 1) cfg.allTrees
          (gammaEtaForest kind forest cfg.style cfg.parentsAll) yw) lamb = .ok (l1, l2, cs)) :
    ∃ out, smooth sqrt ce (some kind) forest cfg sources = .ok out ∧
      out.lamb1 = l1 ∧ out.lamb2 = l2 ∧ out.costs = cs := by
  obtain ⟨rf1, h5, -⟩ := writeBack1_spec
    (fun p : (t : SkTree K C) × Fin t.nLeaves =>
      smoothSpec kind p.1 cfg.style cfg.parentsAll l1 p.2) forest hwf []
  obtain ⟨rf2, h6, -⟩ := writeBack2_spec ((leafList forest).map
    fun p : (t : SkTree K C) × Fin t.nLeaves =>
      smoothSpec kind p.1 cfg.style cfg.parentsAll l2 p.2) forest hwf
    (fun t ht => by simpa using nLeaves_le_leafList ht)
  rw [List.nil_append, List.length_nil, ← reshapeF_flat hC (leafList forest),
    ← flatRows_values kind forest hwf cfg.style cfg.parentsAll cfg.allTrees yw] at h5
  rw [← reshapeF_flat hC (leafList forest),
    ← flatRows_values kind forest hwf cfg.style cfg.parentsAll cfg.allTrees yw] at h6
  refine ⟨⟨rf1, l1, rf2, l2, cs⟩, ?_, rfl, rfl, rfl⟩
  unfold smooth
  simp only [h1, h2, h3, h4, h5, h6, bind, Except.bind, pure, Except.pure]

theorem smoothCheck_ok {kind kind' : Kind} {a : DataArgs} {nc : Bool} {src : TuneSrc} :
    smoothCheck (some kind) a nc = .ok (kind', src) ↔
      kind' = kind ∧ tuneSource a = .ok src ∧ ¬ (kind = .cls ∧ nc = true) := by
  unfold smoothCheck
  cases h : tuneSource a with
  | error e => simp [bind, Except.bind]
  | ok s =>
    simp only [bind, Except.bind, pure, Except.pure]
    split_ifs with hc
    · simp [hc]
    · simp only [Except.ok.injEq, Prod.mk.injEq, hc, not_false_iff, and_true]
      exact and_congr_left' eq_comm

/-! ### values -/

theorem distDepth_eq_zero {t : Topo} (h : t.WF) (s : Style) (i j : Fin t.nLeaves) :
    t.distDepth s i j = 0 ↔ i = j := by
  obtain ⟨-, -, -, -, h1, h2, -⟩ := C08_distance_max_min t h i j
  cases s
  · exact distStandard_eq_zero h i j
  · exact h1
  · exact h2

theorem levelSum_zero {t : Topo} (h : t.WF) (s : Style) (pa : Bool) (v : Fin t.nLeaves → K)
    (i : Fin t.nLeaves) : levelSum pa (t.distDepth s) v i 0 = v i := by
  have e : ∀ j, t.distDepth s i j ≤ ((0 : ℕ) : ℤ) ↔ i = j := by
    intro j
    have := distDepth_nonneg h s i j
    rw [← distDepth_eq_zero h s]
    constructor <;> intro h <;> simp at * <;> omega
  have e' : ∀ j, t.distDepth s i j = ((0 : ℕ) : ℤ) ↔ i = j := fun j => by
    rw [Nat.cast_zero, distDepth_eq_zero h s]
  unfold levelSum
  split_ifs <;> simp only [e, e'] <;> rw [Finset.sum_filter, Finset.sum_ite_eq] <;> simp

theorem smoothDen_e0 {t : SkTree K C} (h : t.WF) (s : Style) (pa : Bool) {n : ℕ}
    (r : Fin t.nLeaves) (lamb : Fin (n + 1) → K) (hl : ∀ i, lamb i = if i = 0 then 1 else 0) :
    smoothDen t s pa lamb r = t.nSamp (t.leafNode r) := by
  unfold smoothDen
  simp only [hl, mul_ite, mul_one, mul_zero, Finset.sum_ite_eq', Finset.mem_univ, if_true]
  exact levelSum_zero h s pa _ r

theorem smoothNum_e0 (kind : Kind) {t : SkTree K C} (h : t.WF) (s : Style) (pa : Bool) {n : ℕ}
    (r : Fin t.nLeaves) (c : Fin C) (lamb : Fin (n + 1) → K)
    (hl : ∀ i, lamb i = if i = 0 then 1 else 0) :
    smoothNum kind t s pa lamb r c = t.mass kind (t.leafNode r) c := by
  unfold smoothNum
  simp only [hl, mul_ite, mul_one, mul_zero, Finset.sum_ite_eq', Finset.mem_univ, if_true]
  exact levelSum_zero h s pa _ r

/-- An update that writes the present values is no update. -/
theorem leafUpdate_same {t t' : SkTree K C} (h : t.WF) {f : Fin t.nLeaves → Fin C → K}
    (hu : LeafUpdate t t' f) (hf : ∀ r c, f r c = t.value (t.leafNode r) c) : t' = t := by
  obtain ⟨v, e, hv, hw⟩ := hu
  have : v = t.value := by
    funext i c
    by_cases hi : t.IsLeaf i
    · obtain ⟨r, rfl⟩ := exists_leafNode ((isLeaf_iff h).1 hi)
      rw [hv, hf]
    · exact hw i c hi
  rw [e, this]

theorem forall2_eq {α : Type} {l m : List α} (h : List.Forall₂ (fun a b => b = a) l m) : m = l := by
  induction h with
  | nil => rfl
  | cons h _ ih => rw [h, ih]

theorem levelSum_nonneg [IsStrictOrderedRing K] (pa : Bool) {n : ℕ} (D : Fin n → Fin n → ℤ)
    (v : Fin n → K) (hv : ∀ j, 0 ≤ v j) (i : Fin n) (k : ℕ) : 0 ≤ levelSum pa D v i k := by
  unfold levelSum
  split_ifs <;> exact Finset.sum_nonneg fun j _ => hv j

theorem levelSum_mono [IsStrictOrderedRing K] (pa : Bool) {n : ℕ} (D : Fin n → Fin n → ℤ)
    (v w : Fin n → K) (h : ∀ j, v j ≤ w j) (i : Fin n) (k : ℕ) :
    levelSum pa D v i k ≤ levelSum pa D w i k := by
  unfold levelSum
  split_ifs <;> exact Finset.sum_le_sum fun j _ => h j

theorem levelSum_smul (pa : Bool) {n : ℕ} (D : Fin n → Fin n → ℤ)
    (v : Fin n → K) (a : K) (i : Fin n) (k : ℕ) :
    levelSum pa D (fun j => v j * a) i k = levelSum pa D v i k * a := by
  unfold levelSum
  split_ifs <;> rw [Finset.sum_mul]

theorem levelSum_sum (pa : Bool) {n : ℕ} (D : Fin n → Fin n → ℤ)
    (v : Fin C → Fin n → K) (i : Fin n) (k : ℕ) :
    ∑ c, levelSum pa D (v c) i k = levelSum pa D (fun j => ∑ c, v c j) i k := by
  unfold levelSum
  split_ifs <;> rw [Finset.sum_comm]

theorem smoothDen_nonneg [IsStrictOrderedRing K] (t : SkTree K C) (s : Style) (pa : Bool) {n : ℕ}
    (lamb : Fin n → K) (hl : ∀ k, 0 ≤ lamb k) (hn : ∀ j, 0 ≤ t.nSamp (t.leafNode j))
    (r : Fin t.nLeaves) : 0 ≤ smoothDen t s pa lamb r :=
  Finset.sum_nonneg fun k _ => mul_nonneg (levelSum_nonneg _ _ _ hn _ _) (hl k)

end SmoothRF
