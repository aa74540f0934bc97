import Verif.Model.SmoothImp
import Verif.Spec.SmoothImp
import Verif.Proofs.Smooth2
import Verif.Proofs.Clean2
import Verif.Props.ImpurityProps

set_option linter.unusedSectionVars false

namespace SmoothRF
open SkTree Topo

variable {K : Type} [Field K] [LinearOrder K] {C : ℕ}

theorem smooth_from (sqrt : K → K)
    (ce : (n : ℕ) → SgdOpts K → K → List (Row K n) → List K → List ℕ →
      Except PyErr ((Fin n → K) × (Fin n → K) × List K))
    (rf : Option Kind) (forest : List (SkTree K C)) (cfg : SmoothCfg K)
    (sources : TuneSrc → ℕ → List (TuneRow K C)) :
    smooth sqrt ce rf forest cfg sources = (do
      let (kind, src) ← smoothCheck rf cfg.data cfg.noConstraint
      smoothFrom (n := forestDepth forest) sqrt (ce _) kind src
        (gammaEtaForest kind forest cfg.style cfg.parentsAll) forest cfg sources) := rfl

/-- The matrices are the stacked level sums of the leaf distances `D`. -/
structure StackedBy (kind : Kind) (forest : List (SkTree K C)) (pa : Bool) (n : ℕ)
    (D : (t : SkTree K C) → Fin t.nLeaves → Fin t.nLeaves → ℤ) (ge : GE K C) : Prop where
  gamma : ∀ c, ge.gamma c = forest.flatMap fun t => (List.finRange t.nLeaves).map fun i =>
    (List.range n).map (levelSum pa (D t) (fun j => t.mass kind (t.leafNode j) c) i)
  eta : ge.eta = forest.flatMap fun t => (List.finRange t.nLeaves).map fun i =>
    (List.range n).map (levelSum pa (D t) (fun j => t.nSamp (t.leafNode j)) i)
  tIdx : ge.tIdx = forest.zipIdx.flatMap fun tt => List.replicate tt.1.nLeaves tt.2

variable {kind : Kind} {forest : List (SkTree K C)} {pa : Bool} {n : ℕ}
  {D : (t : SkTree K C) → Fin t.nLeaves → Fin t.nLeaves → ℤ} {ge : GE K C}

/-- One optimisation row. -/
def specRowBy (kind : Kind) (D : (t : SkTree K C) → Fin t.nLeaves → Fin t.nLeaves → ℤ)
    (pa allTrees : Bool) (yw : List ((Fin C → K) × K)) (n : ℕ)
    (c : Fin C) (i : ℕ) (q : ((t : SkTree K C) × Fin t.nLeaves) × ℕ) : Row K n :=
  { y := (yw[i]?).elim 0 fun p => p.1 c
    w := (yw[i]?).elim 0 fun p => p.2
    gam := fun k => levelSum pa (D q.1.1) (fun j => q.1.1.mass kind (q.1.1.leafNode j) c) q.1.2 k
    eta := fun k => levelSum pa (D q.1.1) (fun j => q.1.1.nSamp (q.1.1.leafNode j)) q.1.2 k
    tree := if allTrees then 0 else q.2 }

theorem flatRowsBy (S : StackedBy kind forest pa n D ge) (allTrees : Bool)
    (yw : List ((Fin C → K) × K)) :
    flatRows n allTrees ge yw = (List.finRange C).flatMap fun c =>
      (leafListI forest).zipIdx.map fun q => specRowBy kind D pa allTrees yw n c q.2 q.1 := by
  have h5 : ge.tIdx = (leafListI forest).map fun q => q.2 := by
    rw [S.tIdx]
    apply leafListI_map
    intro tt _
    simp [List.map_const']
  rw [flatRows]
  congr 1
  funext c
  have e1 := S.gamma c
  have h2 := S.eta
  rw [← leafList_map, ← leafListI_fst, List.map_map] at e1 h2
  rw [h2, List.length_map, h5]
  have hz : (leafListI forest).length = (leafListI forest).zipIdx.length := by simp
  conv_lhs => rw [hz]
  refine range_map_getD _ _ _ fun i hi => ?_
  have hi' : i < (leafListI forest).length := by simpa using hi
  have hzi : (leafListI forest).zipIdx[i] = ((leafListI forest)[i], i) := by simp
  rw [hzi]
  simp only [e1, List.getD_eq_getElem?_getD, List.getElem?_map, List.getElem?_eq_getElem hi',
    Option.map_some, Option.getD_some, specRowBy, Function.comp_apply, toVec_range]

theorem flatRowsBy_values (S : StackedBy kind forest pa n D ge) (allTrees : Bool)
    (yw : List ((Fin C → K) × K)) (lamb : Fin n → K) :
    (flatRows n allTrees ge yw).map (fun r => smoothValue r lamb) =
      (List.finRange C).flatMap fun c =>
        (leafList forest).map fun p => valueBy kind p.1 (D p.1) pa lamb p.2 c := by
  rw [flatRowsBy S, List.map_flatMap]
  congr 1
  funext c
  rw [← leafListI_fst, List.map_map, List.map_map]
  conv_rhs => rw [← List.zipIdx_map_fst 0 (leafListI forest), List.map_map]
  refine List.map_congr_left fun q _ => ?_
  show smoothValue (specRowBy kind D pa allTrees yw n c q.2 q.1) lamb =
    valueBy kind q.1.1.1 (D q.1.1.1) pa lamb q.1.1.2 c
  have hden : dot (specRowBy kind D pa allTrees yw n c q.2 q.1).eta lamb =
      denBy q.1.1.1 (D q.1.1.1) pa lamb q.1.1.2 := rfl
  have hnum : dot (specRowBy kind D pa allTrees yw n c q.2 q.1).gam lamb =
      numBy kind q.1.1.1 (D q.1.1.1) pa lamb q.1.1.2 c := rfl
  unfold smoothValue valueBy etaFill
  rw [hden, hnum]
  split_ifs <;> rfl

/-- One optimisation row, tuning data included. -/
def tuneRowBy (kind : Kind) (D : (t : SkTree K C) → Fin t.nLeaves → Fin t.nLeaves → ℤ)
    (pa allTrees : Bool) (tune : ℕ → List (TuneRow K C)) (n : ℕ)
    (c : Fin C) (q : ((t : SkTree K C) × Fin t.nLeaves) × ℕ) : Row K n :=
  { y := leafMean (tune q.2) q.1.2 c
    w := leafWeight (tune q.2) q.1.2
    gam := fun k => levelSum pa (D q.1.1) (fun j => q.1.1.mass kind (q.1.1.leafNode j) c) q.1.2 k
    eta := fun k => levelSum pa (D q.1.1) (fun j => q.1.1.nSamp (q.1.1.leafNode j)) q.1.2 k
    tree := if allTrees then 0 else q.2 }

theorem flatRowsBy_eq (S : StackedBy kind forest pa n D ge) (allTrees : Bool)
    (tune : ℕ → List (TuneRow K C)) :
    flatRows n allTrees ge (forest.zipIdx.flatMap (summaryBlock tune)) =
      (List.finRange C).flatMap fun c => (leafListI forest).map
        (tuneRowBy kind D pa allTrees tune n c) := by
  have h4 : forest.zipIdx.flatMap (summaryBlock tune) = (leafListI forest).map fun q =>
      ((fun c => leafMean (tune q.2) q.1.2 c), leafWeight (tune q.2) q.1.2) := by
    apply leafListI_map
    intro tt _
    unfold summaryBlock
    rw [← finRange_map_val, List.map_map]
    rfl
  rw [flatRowsBy S]
  congr 1
  funext c
  refine List.ext_getElem (by simp) fun i h1 h2 => ?_
  have hi : i < (leafListI forest).length := by simpa using h2
  rw [List.getElem_map, List.getElem_map]
  have hzi : (leafListI forest).zipIdx[i]'(by simpa using hi) = ((leafListI forest)[i], i) := by simp
  rw [hzi]
  simp only [specRowBy, tuneRowBy, h4, List.getElem?_map, List.getElem?_eq_getElem hi, Option.map_some,
    Option.elim_some]

variable {sqrt : K → K}
  {ce : SgdOpts K → K → List (Row K (n + 1)) → List K → List ℕ →
    Except PyErr ((Fin (n + 1) → K) × (Fin (n + 1) → K) × List K)}
  {src : TuneSrc} {cfg : SmoothCfg K} {sources : TuneSrc → ℕ → List (TuneRow K C)}

/-- Inversion of `smoothFrom`. -/
theorem smoothFrom_ok {out : SmoothOut K C (n + 1)}
    (h : smoothFrom sqrt ce kind src ge forest cfg sources = .ok out) :
    ∃ yw lamb,
      tuneSummaries (decide (kind = .cls) && decide (src ≠ .given)) forest (sources src) = .ok yw ∧
      initLamb kind cfg.seed cfg.classEps = .ok lamb ∧
      smoothOptimise sqrt ce kind cfg (flatRows (n + 1) cfg.allTrees ge yw) lamb =
        .ok (out.lamb1, out.lamb2, out.costs) ∧
      writeBack1 (reshapeF C ((flatRows (n + 1) cfg.allTrees ge yw).map
          fun r => smoothValue r out.lamb1)) 0 forest = .ok out.rf1 ∧
      writeBack2 (reshapeF C ((flatRows (n + 1) cfg.allTrees ge yw).map
          fun r => smoothValue r out.lamb2)) 0 forest = .ok out.rf2 := by
  unfold smoothFrom at h
  obtain ⟨yw, h2, h⟩ := bind_ok h
  obtain ⟨lamb, h3, h⟩ := bind_ok h
  obtain ⟨⟨l1, l2, cs⟩, h4, h⟩ := bind_ok h
  obtain ⟨rf1, h5, h⟩ := bind_ok h
  obtain ⟨rf2, h6, h⟩ := bind_ok h
  cases h
  exact ⟨yw, lamb, h2, h3, h4, h5, h6⟩

/-- Both forests. -/
theorem smoothFrom_forests (hC : 0 < C) (hwf : ∀ t ∈ forest, t.WF)
    (S : StackedBy kind forest pa (n + 1) D ge) {out : SmoothOut K C (n + 1)}
    (h : smoothFrom sqrt ce kind src ge forest cfg sources = .ok out) :
    List.Forall₂ (fun t t' => LeafUpdate t t' fun r => valueBy kind t (D t) pa out.lamb1 r)
      forest out.rf1 ∧
    List.Forall₂ (fun t t' => LeafUpdate t t' fun r c =>
      (((leafList forest)[r.val]?).elim 0 fun p =>
        valueBy kind p.1 (D p.1) pa out.lamb2 p.2 c)) forest out.rf2 := by
  obtain ⟨yw, lamb, -, -, -, h5, h6⟩ := smoothFrom_ok h
  rw [flatRowsBy_values S, reshapeF_flat hC (leafList forest)] at h5 h6
  obtain ⟨ts', h7, h8⟩ := writeBack1_spec
    (fun p => valueBy kind p.1 (D p.1) pa out.lamb1 p.2) forest hwf []
  rw [List.nil_append, List.length_nil, h5] at h7
  cases h7
  obtain ⟨ts', h9, h10⟩ := writeBack2_spec ((leafList forest).map
    fun p : (t : SkTree K C) × Fin t.nLeaves => valueBy kind p.1 (D p.1) pa out.lamb2 p.2) forest hwf
    (fun t ht => by simpa using nLeaves_le_leafList ht)
  rw [h6] at h9
  cases h9
  refine ⟨h8, forall2_imp_mem h10 fun t ht t' hu => ?_⟩
  obtain ⟨v, e, hv, hw⟩ := hu
  refine ⟨v, e, fun r c => ?_, hw⟩
  rw [hv]
  simp only [List.getElem?_map]
  cases (leafList forest)[r.val]? <;> rfl

theorem smoothFrom_returns (hC : 0 < C) (hwf : ∀ t ∈ forest, t.WF)
    (S : StackedBy kind forest pa (n + 1) D ge) {yw : List ((Fin C → K) × K)}
    {lamb l1 l2 : Fin (n + 1) → K} {cs : List K}
    (h2 : tuneSummaries (decide (kind = .cls) && decide (src ≠ .given)) forest (sources src) = .ok yw)
    (h3 : initLamb kind cfg.seed cfg.classEps = .ok lamb)
    (h4 : smoothOptimise sqrt ce kind cfg (flatRows (n + 1) cfg.allTrees ge yw) lamb =
      .ok (l1, l2, cs)) :
    ∃ out, smoothFrom sqrt ce kind src ge forest cfg sources = .ok out ∧
      out.lamb1 = l1 ∧ out.lamb2 = l2 ∧ out.costs = cs := by
  obtain ⟨rf1, h5, -⟩ := writeBack1_spec
    (fun p : (t : SkTree K C) × Fin t.nLeaves => valueBy kind p.1 (D p.1) pa l1 p.2) forest hwf []
  obtain ⟨rf2, h6, -⟩ := writeBack2_spec ((leafList forest).map
    fun p : (t : SkTree K C) × Fin t.nLeaves => valueBy kind p.1 (D p.1) pa l2 p.2) forest hwf
    (fun t ht => by simpa using nLeaves_le_leafList ht)
  rw [List.nil_append, List.length_nil, ← reshapeF_flat hC (leafList forest),
    ← flatRowsBy_values S cfg.allTrees yw] at h5
  rw [← reshapeF_flat hC (leafList forest), ← flatRowsBy_values S cfg.allTrees yw] at h6
  refine ⟨⟨rf1, l1, rf2, l2, cs⟩, ?_, rfl, rfl, rfl⟩
  unfold smoothFrom
  simp only [h2, h3, h4, h5, h6, bind, Except.bind, pure, Except.pure]

/-! ### impurity matrices -/

theorem imp_stacked {s : Style} {levels : Option (Levels K)} [IsStrictOrderedRing K]
    (hwf : ∀ t ∈ forest, t.WF)
    (h : gammaEtaForestImp kind forest s pa levels = .ok ge) :
    ∃ lev : (t : SkTree K C) → Fin t.nLeaves → Fin t.nLeaves → ℕ,
      ImpBy forest s levels (lastLevel ge + 1) lev ∧
      StackedBy kind forest pa (lastLevel ge + 1) (fun t i j => (lev t i j : ℤ)) ge := by
  obtain ⟨lv, L, lev, h1, h2, h3, h4, h5, h6, h7, -⟩ := C94_impurity_matrices kind forest s pa levels ge h
  have hL : lastLevel ge + 1 = L := by
    obtain ⟨t0, ht0, -⟩ := h2
    rcases forest with _ | ⟨t, ts⟩
    · cases ht0
    have hpos : 0 < t.nLeaves := nLeaves_pos (hwf t (by simp))
    have hlt := h4 t (by simp) ⟨0, hpos⟩ ⟨0, hpos⟩
    obtain ⟨m, hm⟩ : ∃ m, t.nLeaves = m + 1 := ⟨t.nLeaves - 1, by omega⟩
    have : (ge.eta.headD []).length = L := by
      rw [h6, List.flatMap_cons]
      have e : ∀ f : Fin t.nLeaves → List K, (∀ i, (f i).length = L) → ∀ l,
          (((List.finRange t.nLeaves).map f ++ l).headD []).length = L := by
        rw [hm]
        intro f hf l
        rw [List.finRange_succ]
        exact hf 0
      exact e _ (fun i => by simp) _
    rw [lastLevel, this]
    omega
  rw [← hL] at h2 h4 h5 h6
  exact ⟨lev, ⟨⟨lv, h1, h2, h3⟩, h4⟩, ⟨h5, h6, h7⟩⟩

theorem smoothImp_ok {rf : Option Kind} {levels : Option (Levels K)}
    {ce : (n : ℕ) → SgdOpts K → K → List (Row K n) → List K → List ℕ →
      Except PyErr ((Fin n → K) × (Fin n → K) × List K)}
    {out : (n : ℕ) × SmoothOut K C (n + 1)}
    (h : smoothImp sqrt ce rf forest levels cfg sources = .ok out) :
    ∃ kind src ge, rf = some kind ∧ smoothCheck rf cfg.data cfg.noConstraint = .ok (kind, src) ∧
      gammaEtaForestImp kind forest cfg.style cfg.parentsAll levels = .ok ge ∧
      out.1 = lastLevel ge ∧
      smoothFrom sqrt (ce _) kind src ge forest cfg sources = .ok out.2 := by
  unfold smoothImp at h
  obtain ⟨⟨kind, src⟩, h1, h⟩ := bind_ok h
  obtain ⟨ge, h2, h⟩ := bind_ok h
  obtain ⟨o, h3, h⟩ := bind_ok h
  cases h
  refine ⟨kind, src, ge, ?_, h1, h2, rfl, h3⟩
  cases rf with
  | none => cases h1
  | some k =>
    unfold smoothCheck at h1
    obtain ⟨s, -, h1⟩ := bind_ok h1
    split_ifs at h1
    cases h1; rfl

/-! ### values -/

theorem denBy_nonneg [IsStrictOrderedRing K] (t : SkTree K C) (D : Fin t.nLeaves → Fin t.nLeaves → ℤ)
    (pa : Bool) {n : ℕ} (lamb : Fin n → K) (hl : ∀ k, 0 ≤ lamb k)
    (hn : ∀ j, 0 ≤ t.nSamp (t.leafNode j)) (r : Fin t.nLeaves) : 0 ≤ denBy t D pa lamb r :=
  Finset.sum_nonneg fun k _ => mul_nonneg (levelSum_nonneg _ _ _ hn _ _) (hl k)

theorem valueBy_between [IsStrictOrderedRing K] (t : SkTree K C)
    (D : Fin t.nLeaves → Fin t.nLeaves → ℤ) (pa : Bool) {n : ℕ} (lamb : Fin n → K)
    (hl : ∀ k, 0 ≤ lamb k) (hn : ∀ j, 0 ≤ t.nSamp (t.leafNode j)) (r : Fin t.nLeaves)
    (hd : denBy t D pa lamb r ≠ 0) (c : Fin C) :
    ∃ j k : Fin t.nLeaves, t.value (t.leafNode j) c ≤ valueBy .reg t D pa lamb r c ∧
      valueBy .reg t D pa lamb r c ≤ t.value (t.leafNode k) c := by
  have : Nonempty (Fin t.nLeaves) := ⟨r⟩
  obtain ⟨j, -, hj⟩ := Finset.exists_min_image Finset.univ (fun j => t.value (t.leafNode j) c)
    Finset.univ_nonempty
  obtain ⟨k, -, hk⟩ := Finset.exists_max_image Finset.univ (fun j => t.value (t.leafNode j) c)
    Finset.univ_nonempty
  have hpos : 0 < denBy t D pa lamb r :=
    lt_of_le_of_ne (denBy_nonneg t _ _ _ hl hn r) (Ne.symm hd)
  refine ⟨j, k, ?_, ?_⟩ <;> simp only [valueBy, if_neg hd]
  · rw [le_div_iff₀ hpos, mul_comm, denBy, Finset.sum_mul]
    refine Finset.sum_le_sum fun q _ => ?_
    rw [mul_right_comm, ← levelSum_smul]
    refine mul_le_mul_of_nonneg_right (levelSum_mono _ _ _ _ (fun l => ?_) _ _) (hl q)
    exact mul_le_mul_of_nonneg_left (hj l (Finset.mem_univ _)) (hn l)
  · rw [div_le_iff₀ hpos, mul_comm, denBy, Finset.sum_mul]
    refine Finset.sum_le_sum fun q _ => ?_
    rw [mul_right_comm _ (lamb q), ← levelSum_smul (a := t.value (t.leafNode k) c)]
    refine mul_le_mul_of_nonneg_right (levelSum_mono _ _ _ _ (fun l => ?_) _ _) (hl q)
    exact mul_le_mul_of_nonneg_left (hk l (Finset.mem_univ _)) (hn l)

theorem valueBy_prob [IsStrictOrderedRing K] (t : SkTree K C)
    (D : Fin t.nLeaves → Fin t.nLeaves → ℤ) (pa : Bool) {n : ℕ} (lamb : Fin n → K)
    (hl : ∀ k, 0 ≤ lamb k) (hv0 : ∀ r c, 0 ≤ t.value (t.leafNode r) c)
    (hsum : ∀ r, ∑ c, t.value (t.leafNode r) c = t.nSamp (t.leafNode r)) (r : Fin t.nLeaves)
    (hd : denBy t D pa lamb r ≠ 0) :
    (∀ c, 0 ≤ valueBy .cls t D pa lamb r c) ∧ ∑ c, valueBy .cls t D pa lamb r c = 1 := by
  have hn : ∀ r, 0 ≤ t.nSamp (t.leafNode r) := fun r => by
    rw [← hsum]; exact Finset.sum_nonneg fun c _ => hv0 r c
  have hpos : 0 < denBy t D pa lamb r :=
    lt_of_le_of_ne (denBy_nonneg t _ _ _ hl hn r) (Ne.symm hd)
  constructor
  · intro c
    simp only [valueBy, if_neg hd]
    exact div_nonneg (Finset.sum_nonneg fun q _ =>
      mul_nonneg (levelSum_nonneg _ _ _ (fun j => hv0 j c) _ _) (hl q)) hpos.le
  · simp only [valueBy, if_neg hd]
    rw [← Finset.sum_div, div_eq_one_iff_eq hd]
    unfold numBy denBy
    rw [Finset.sum_comm]
    refine Finset.sum_congr rfl fun q _ => ?_
    rw [← Finset.sum_mul, levelSum_sum]
    simp only [mass, reduceCtorEq, if_false, hsum]

/-- Weights `(1, 0, …, 0)`: level 0 alone. -/
theorem denBy_e0 (t : SkTree K C) (D : Fin t.nLeaves → Fin t.nLeaves → ℤ) (pa : Bool) {n : ℕ}
    (r : Fin t.nLeaves) (lamb : Fin (n + 1) → K) (hl : ∀ i, lamb i = if i = 0 then 1 else 0) :
    denBy t D pa lamb r = levelSum pa D (fun j => t.nSamp (t.leafNode j)) r 0 := by
  unfold denBy
  simp only [hl, mul_ite, mul_one, mul_zero, Finset.sum_ite_eq', Finset.mem_univ, if_true]
  rfl

theorem numBy_e0 (kind : Kind) (t : SkTree K C) (D : Fin t.nLeaves → Fin t.nLeaves → ℤ) (pa : Bool)
    {n : ℕ} (r : Fin t.nLeaves) (c : Fin C) (lamb : Fin (n + 1) → K)
    (hl : ∀ i, lamb i = if i = 0 then 1 else 0) :
    numBy kind t D pa lamb r c = levelSum pa D (fun j => t.mass kind (t.leafNode j) c) r 0 := by
  unfold numBy
  simp only [hl, mul_ite, mul_one, mul_zero, Finset.sum_ite_eq', Finset.mem_univ, if_true]
  rfl

/-! ### smooth_clean -/

section clean

variable {forest : List (SkTree K 1)} {pa : Bool} {n : ℕ}
  {D : (t : SkTree K 1) → Fin t.nLeaves → Fin t.nLeaves → ℤ} {ge : GE K 1}
  {sqrt : K → K} {approxOne : K → Bool} {y : List K}

theorem smoothClean_from (sqrt : K → K) (approxOne : K → Bool) (forest : List (SkTree K 1))
    (y : List K) (leafOf : ℕ → ℕ → ℕ) (uns : ℕ → List ℕ) (cfg : CleanCfg K)
    (choices : List (List ℕ)) :
    smoothClean sqrt approxOne (some .reg) forest y leafOf uns cfg choices =
      smoothCleanFrom (forestDepth forest) sqrt approxOne
        (gammaEtaForest .reg forest cfg.style cfg.parentsAll) forest y leafOf uns cfg choices := rfl

def gVecBy (D : (t : SkTree K 1) → Fin t.nLeaves → Fin t.nLeaves → ℤ) (pa : Bool) (n : ℕ)
    (t : SkTree K 1) (r : Fin t.nLeaves) : Fin n → K :=
  fun k => levelSum pa (D t) (fun j => t.mass .reg (t.leafNode j) 0) r k

def hVecBy (D : (t : SkTree K 1) → Fin t.nLeaves → Fin t.nLeaves → ℤ) (pa : Bool) (n : ℕ)
    (t : SkTree K 1) (r : Fin t.nLeaves) : Fin n → K :=
  fun k => levelSum pa (D t) (fun j => t.nSamp (t.leafNode j)) r k

theorem cleanDataFrom_gam (S : StackedBy .reg forest pa (n + 1) D ge)
    (nObs : ℕ) (leafOf : ℕ → ℕ → ℕ) (uns : ℕ → List ℕ) :
    (cleanDataFrom n ge forest nObs leafOf uns).gam =
      forest.flatMap fun t => (List.finRange t.nLeaves).map (gVecBy D pa (n + 1) t) := by
  show (ge.gamma 0).map (toVec _) = _
  rw [S.gamma 0, List.map_flatMap]
  simp only [List.map_map]
  apply List.flatMap_congr
  intro t _
  exact List.map_congr_left fun i _ => toVec_range _

theorem cleanDataFrom_eta (S : StackedBy .reg forest pa (n + 1) D ge)
    (nObs : ℕ) (leafOf : ℕ → ℕ → ℕ) (uns : ℕ → List ℕ) :
    (cleanDataFrom n ge forest nObs leafOf uns).eta =
      forest.flatMap fun t => (List.finRange t.nLeaves).map (hVecBy D pa (n + 1) t) := by
  show ge.eta.map (toVec _) = _
  rw [S.eta, List.map_flatMap]
  simp only [List.map_map]
  apply List.flatMap_congr
  intro t _
  exact List.map_congr_left fun i _ => toVec_range _

theorem cleanViewBy [IsStrictOrderedRing K] (S : StackedBy .reg forest pa (n + 1) D ge)
    (nObs : ℕ) (leafOf : ℕ → ℕ → ℕ) (uns : ℕ → List ℕ)
    (hl : ∀ t tr, forest[t]? = some tr → ∀ i < nObs, leafOf t i < tr.nLeaves) :
    CleanView (cleanDataFrom n ge forest nObs leafOf uns) nObs
      (fun i t => leafAt forest 0 (gVecBy D pa _) t (leafOf t i))
      (fun i t => leafAt forest 0 (hVecBy D pa _) t (leafOf t i))
      (fun i t => if i ∈ uns t then 1 / ((oobTrees forest.length uns i).card : K) else 0) where
  len := by simp [cleanDataFrom, oobIdxMat]
  rows i hi := by
    refine ⟨_, oobIdxMat_entry forest nObs leafOf i hi, by simp [cleanDataFrom], fun t ht => ?_⟩
    have ht' : t < forest.length := ht
    have htr : forest[t]? = some forest[t] := List.getElem?_eq_getElem ht'
    have hlt := hl t _ htr i hi
    refine ⟨leafOf t i + ((forest.take t).map fun t => t.nLeaves).sum, ?_, ?_, ?_⟩
    · rw [List.getElem?_map, List.getElem?_zipIdx, htr]
      simp only [Option.map_some, zero_add, Option.some.injEq]
      rw [sum_pick _ _ hlt]
    · rw [cleanDataFrom_gam S, stack_getElem? _ htr hlt, leafAt_pos htr hlt]
    · rw [cleanDataFrom_eta S, stack_getElem? _ htr hlt, leafAt_pos htr hlt]
  wts i hi t ht := oobWeights_get forest.length nObs uns hi ht

theorem smoothCleanFrom_ok (hwf : ∀ t ∈ forest, t.WF) (S : StackedBy .reg forest pa (n + 1) D ge)
    {leafOf : ℕ → ℕ → ℕ} {uns : ℕ → List ℕ} {cfg : CleanCfg K} {choices : List (List ℕ)}
    {rf1 : List (SkTree K 1)} {lamb : Fin (n + 1) → K} {c : List K}
    (h : smoothCleanFrom n sqrt approxOne ge forest y leafOf uns cfg choices = .ok (rf1, lamb, c)) :
    cleanLamb sqrt approxOne (cleanDataFrom n ge forest y.length leafOf uns) y cfg
      choices = .ok (lamb, c) ∧
    List.Forall₂ (fun t t' => LeafUpdate t t' fun r => valueBy .reg t (D t) pa lamb r)
      forest rf1 := by
  unfold smoothCleanFrom at h
  obtain ⟨p, h1, h⟩ := bind_ok h
  obtain ⟨rf', h2, h⟩ := bind_ok h
  cases h
  refine ⟨h1, ?_⟩
  rw [cleanDataFrom_gam S, cleanDataFrom_eta S, ← leafList_map, ← leafList_map,
    List.zipWith_map, List.zipWith_self, List.map_map] at h2
  obtain ⟨ts', h7, h8⟩ := writeBack1_spec
    (fun p' => valueBy .reg p'.1 (D p'.1) pa p.1 p'.2) forest hwf []
  rw [List.nil_append, List.length_nil] at h7
  have e : (leafList forest).map (((fun v _ => v) : K → Fin 1 → K) ∘ fun p' =>
      if dot (hVecBy D pa _ p'.1 p'.2) p.1 = 0 then 0 else
        dot (gVecBy D pa _ p'.1 p'.2) p.1 /
        (if dot (hVecBy D pa _ p'.1 p'.2) p.1 = 0 then 1 else dot (hVecBy D pa _ p'.1 p'.2) p.1)) =
      (leafList forest).map fun p' => valueBy .reg p'.1 (D p'.1) pa p.1 p'.2 := by
    refine List.map_congr_left fun p' _ => ?_
    funext c
    have hc : c = 0 := Subsingleton.elim _ _
    subst hc
    show (if denBy p'.1 (D p'.1) pa p.1 p'.2 = 0 then (0 : K) else
      numBy .reg p'.1 (D p'.1) pa p.1 p'.2 0 /
        (if denBy p'.1 (D p'.1) pa p.1 p'.2 = 0 then 1 else denBy p'.1 (D p'.1) pa p.1 p'.2)) = _
    unfold valueBy
    split_ifs <;> rfl
  rw [e, h7] at h2
  cases h2
  exact h8

theorem smoothCleanFrom_returns (hwf : ∀ t ∈ forest, t.WF) (S : StackedBy .reg forest pa (n + 1) D ge)
    {leafOf : ℕ → ℕ → ℕ} {uns : ℕ → List ℕ} {cfg : CleanCfg K} {choices : List (List ℕ)}
    {lamb : Fin (n + 1) → K} {c : List K}
    (h : cleanLamb sqrt approxOne (cleanDataFrom n ge forest y.length leafOf uns) y cfg
      choices = .ok (lamb, c)) :
    ∃ rf1, smoothCleanFrom n sqrt approxOne ge forest y leafOf uns cfg choices =
      .ok (rf1, lamb, c) := by
  obtain ⟨ts', h7, -⟩ := writeBack1_spec (fun p' _ =>
      if dot (hVecBy D pa _ p'.1 p'.2) lamb = 0 then 0 else
        dot (gVecBy D pa _ p'.1 p'.2) lamb /
        (if dot (hVecBy D pa _ p'.1 p'.2) lamb = 0 then 1 else
          dot (hVecBy D pa _ p'.1 p'.2) lamb)) forest hwf []
  rw [List.nil_append, List.length_nil] at h7
  refine ⟨ts', ?_⟩
  unfold smoothCleanFrom
  simp only
  rw [h, cleanDataFrom_gam S, cleanDataFrom_eta S, ← leafList_map, ← leafList_map]
  simp only [bind, Except.bind, pure, Except.pure, List.map_map, List.zipWith_map, List.zipWith_self]
  erw [h7]

theorem smoothCleanImp_ok {rf : Option Kind} {levels : Option (Levels K)}
    {leafOf : ℕ → ℕ → ℕ} {uns : ℕ → List ℕ} {cfg : CleanCfg K} {choices : List (List ℕ)}
    {out : CleanOut K}
    (h : smoothCleanImp sqrt approxOne rf forest levels y leafOf uns cfg choices = .ok out) :
    rf = some .reg ∧ ∃ ge, gammaEtaForestImp .reg forest cfg.style cfg.parentsAll levels = .ok ge ∧
      out.n = lastLevel ge ∧
      smoothCleanFrom out.n sqrt approxOne ge forest y leafOf uns cfg choices =
        .ok (out.rf1, out.lamb, out.costs) := by
  unfold smoothCleanImp at h
  split at h
  · obtain ⟨ge, h2, h⟩ := bind_ok h
    obtain ⟨o, h3, h⟩ := bind_ok h
    cases h
    exact ⟨rfl, ge, h2, rfl, h3⟩
  · cases h

end clean

end SmoothRF
