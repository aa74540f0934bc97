import Verif.Spec.SmoothAll
import Verif.Proofs.Level
import Verif.Proofs.Clean2
import Verif.Proofs.Smooth2
import Mathlib.Algebra.BigOperators.Field

set_option linter.unusedSectionVars false

namespace SmoothRF
open SkTree Topo

variable {K : Type} [Field K] [LinearOrder K]

/-! ### the matrices -/

/-- `(weight, mean)` of the leaves of one tree. -/
def allBlock (tune : ℕ → List (TuneRow K 1)) (tt : SkTree K 1 × ℕ) : List (K × K) :=
  (List.range tt.1.nLeaves).map fun i =>
    (if leafWeight (tune tt.2) i / ((List.range tt.1.nLeaves).map (leafWeight (tune tt.2))).sum = 0 then -1
      else leafWeight (tune tt.2) i / ((List.range tt.1.nLeaves).map (leafWeight (tune tt.2))).sum,
      leafMean (tune tt.2) i 0)

theorem allFold (tune : ℕ → List (TuneRow K 1)) (l : List (SkTree K 1 × ℕ)) (acc : List (K × K)) :
    l.foldlM (fun acc tt => do
      let l ← processTuning tt.1.nLeaves (-1) (tune tt.2)
      (pure (acc ++ l) : Except PyErr _)) acc =
    if ∃ tt ∈ l, tune tt.2 = [] then .error .valueError
    else .ok (acc ++ l.flatMap (allBlock tune)) := by
  induction l generalizing acc with
  | nil => simp; rfl
  | cons tt l ih =>
    rw [List.foldlM_cons]
    by_cases h : tune tt.2 = []
    · rw [if_pos ⟨tt, by simp, h⟩]
      unfold processTuning
      rw [if_pos h]
      rfl
    · have e : processTuning tt.1.nLeaves (-1) (tune tt.2) = .ok (allBlock tune tt) := by
        unfold processTuning
        rw [if_neg h]
        rfl
      rw [e]
      show (l.foldlM _ _) = _
      rw [ih]
      have e : (∃ tt' ∈ tt :: l, tune tt'.2 = []) ↔ ∃ tt ∈ l, tune tt.2 = [] := by
        constructor
        · rintro ⟨x, hx, hc⟩
          rcases List.mem_cons.1 hx with rfl | hx
          · exact absurd hc h
          · exact ⟨x, hx, hc⟩
        · rintro ⟨x, hx, hc⟩
          exact ⟨x, by simp [hx], hc⟩
      simp only [e, List.flatMap_cons, List.append_assoc]

theorem allTune_eq (forest : List (SkTree K 1)) (tune : ℕ → List (TuneRow K 1)) :
    allTune forest tune = if ∃ tt ∈ forest.zipIdx, tune tt.2 = [] then .error .valueError
      else .ok (forest.zipIdx.flatMap (allBlock tune)) := by
  have := allFold tune forest.zipIdx []
  rw [List.nil_append] at this
  exact this

/-- The rows of `Gamma_all_store`. -/
def ratioVec (pa : Bool) (n : ℕ) (t : SkTree K 1) (r : Fin t.nLeaves) : Fin n → K :=
  fun k => levelRatio t pa r k

theorem gaRows (forest : List (SkTree K 1)) (hwf : ∀ t ∈ forest, t.WF) (pa : Bool) :
    ((gammaEtaForest .reg forest .standard pa).gamma 0).map (toVec (forestDepth forest + 1)) =
      (leafList forest).map fun p => gVec .standard pa _ p.1 p.2 := by
  rw [leafList_map]
  exact cleanData_gam forest hwf .standard pa 0 (fun _ _ => 0) (fun _ => [])

theorem etRows (forest : List (SkTree K 1)) (hwf : ∀ t ∈ forest, t.WF) (pa : Bool) :
    ((gammaEtaForest .reg forest .standard pa).eta).map (toVec (forestDepth forest + 1)) =
      (leafList forest).map fun p => hVec .standard pa _ p.1 p.2 := by
  rw [leafList_map]
  exact cleanData_eta forest hwf .standard pa 0 (fun _ _ => 0) (fun _ => [])

theorem ratioOk_map {α : Type} {n : ℕ} (l : List α) (g e : α → Fin n → K) :
    ratioOk (l.map g) (l.map e) = true ↔ ∀ p ∈ l, ∀ k, e p k = 0 → g p k = 0 := by
  unfold ratioOk
  rw [List.zipWith_map, List.zipWith_self, List.all_map, List.all_eq_true]
  simp

theorem ratioRows_map {α : Type} {n : ℕ} (eps : K) (l : List α) (g e : α → Fin n → K)
    (h : ratioOk (l.map g) (l.map e) = true) :
    ratioRows eps (l.map g) (l.map e) = l.map fun p k => if e p k = 0 then 0 else g p k / e p k := by
  rw [ratioOk_map] at h
  unfold ratioRows
  rw [List.zipWith_map, List.zipWith_self]
  refine List.map_congr_left fun p hp => ?_
  funext k
  by_cases h0 : e p k = 0
  · rw [if_pos h0, if_pos h0, h p hp k h0, zero_div]
  · rw [if_neg h0, if_neg h0]

/-- The optimisation rows in specification terms. -/
def specRows (forest : List (SkTree K 1)) (pa : Bool) (n : ℕ) (tune : ℕ → List (TuneRow K 1)) :
    List (QRow K n) :=
  keptRows ((leafList forest).map fun p => ratioVec pa n p.1 p.2) (forest.zipIdx.flatMap (allBlock tune))

theorem allPrepare_ok {forest : List (SkTree K 1)} (hwf : ∀ t ∈ forest, t.WF) {c : AllCfg}
    {sources : TuneSrc → ℕ → List (TuneRow K 1)} {p : AllPrep K (forestDepth forest + 1)}
    (h : allPrepare forest c sources = .ok p) :
    c.nTrained ≠ 0 ∧ c.yLen = c.nTrained ∧ readSanity c.sanity = .ok (p.flag, p.tolPow) ∧
    (∀ tt ∈ forest.zipIdx, sources (allSource c) tt.2 ≠ []) ∧
    p.store = (leafList forest).map (fun q => ratioVec c.parentsAll _ q.1 q.2) ∧
    p.rows = specRows forest c.parentsAll _ (sources (allSource c)) := by
  unfold allPrepare at h
  by_cases h1 : c.nTrained = 0
  · rw [if_pos h1] at h; cases h
  rw [if_neg h1] at h
  by_cases h2 : c.yLen ≠ c.nTrained
  · rw [if_pos h2] at h; cases h
  rw [if_neg h2] at h
  obtain ⟨⟨flag, tp⟩, h3, h⟩ := bind_ok h
  obtain ⟨wy, h4, h⟩ := bind_ok h
  rw [allTune_eq] at h4
  by_cases h5 : ∃ tt ∈ forest.zipIdx, sources (allSource c) tt.2 = []
  · rw [if_pos h5] at h4; cases h4
  rw [if_neg h5] at h4
  cases h4
  simp only [gaRows forest hwf, etRows forest hwf] at h
  by_cases h6 : ratioOk ((leafList forest).map fun p => gVec .standard c.parentsAll (forestDepth forest + 1) p.1 p.2)
      ((leafList forest).map fun p => hVec .standard c.parentsAll (forestDepth forest + 1) p.1 p.2) = false
  · rw [if_pos h6] at h; cases h
  rw [if_neg h6] at h
  have h6' := Bool.eq_true_of_not_eq_false h6
  rw [ratioRows_map _ _ _ _ h6'] at h
  cases h
  exact ⟨h1, not_not.1 h2, h3, fun tt ht e => h5 ⟨tt, ht, e⟩, rfl, rfl⟩

theorem allPrepare_returns {forest : List (SkTree K 1)} [IsStrictOrderedRing K] (hwf : ∀ t ∈ forest, t.WF)
    (hn : ∀ t ∈ forest, ∀ r, 0 < t.nSamp (t.leafNode r)) {c : AllCfg}
    {sources : TuneSrc → ℕ → List (TuneRow K 1)} (h1 : c.nTrained ≠ 0) (h2 : c.yLen = c.nTrained)
    {flag : Bool} {tp : Option ℤ} (h3 : readSanity c.sanity = .ok (flag, tp))
    (h4 : ∀ tt ∈ forest.zipIdx, sources (allSource c) tt.2 ≠ []) :
    allPrepare forest c sources = .ok
      ⟨(leafList forest).map (fun q => ratioVec c.parentsAll _ q.1 q.2),
        specRows forest c.parentsAll _ (sources (allSource c)), flag, tp⟩ := by
  unfold allPrepare
  rw [if_neg h1, if_neg (not_not.2 h2), h3, allTune_eq,
    if_neg (by rintro ⟨tt, ht, e⟩; exact h4 tt ht e)]
  simp only [bind, Except.bind, gaRows forest hwf, etRows forest hwf]
  have h6 : ratioOk ((leafList forest).map fun p => gVec .standard c.parentsAll (forestDepth forest + 1) p.1 p.2)
      ((leafList forest).map fun p => hVec .standard c.parentsAll (forestDepth forest + 1) p.1 p.2) = true := by
    rw [ratioOk_map]
    intro p hp k hk
    have hp' : p.1 ∈ forest := by
      unfold leafList at hp
      obtain ⟨t, ht, hp⟩ := List.mem_flatMap.1 hp
      obtain ⟨r, -, rfl⟩ := List.mem_map.1 hp
      exact ht
    have key : ∀ (q : Fin p.1.nLeaves → Prop) [DecidablePred q],
        ∑ j ∈ Finset.univ.filter q, p.1.nSamp (p.1.leafNode j) = 0 →
        ∑ j ∈ Finset.univ.filter q, p.1.mass .reg (p.1.leafNode j) 0 = 0 := by
      intro q _ h0
      rw [Finset.sum_eq_zero_iff_of_nonneg fun j _ => (hn _ hp' j).le] at h0
      exact Finset.sum_eq_zero fun j hj => absurd (h0 j hj) (hn _ hp' j).ne'
    unfold hVec levelSum at hk
    unfold gVec levelSum
    split_ifs at hk ⊢
    · exact key _ hk
    · exact key _ hk
  rw [if_neg (by simp [h6]), ratioRows_map _ _ _ _ h6]
  rfl

/-- Inversion of `smoothAll`. -/
theorem smoothAll_ok {o : AllOracles K} {fuel : ℕ} {forest : List (SkTree K 1)} (hwf : ∀ t ∈ forest, t.WF)
    {c : AllCfg} {sources : TuneSrc → ℕ → List (TuneRow K 1)} {rf : List (SkTree K 1)}
    {lamb : Fin (forestDepth forest + 1) → K}
    (h : smoothAll o fuel forest c sources = .ok (some (rf, lamb))) :
    ∃ flag tp g l, readSanity c.sanity = .ok (flag, tp) ∧
      (∀ tt ∈ forest.zipIdx, sources (allSource c) tt.2 ≠ []) ∧
      allSolve o fuel c.noConstraint (specRows forest c.parentsAll _ (sources (allSource c))) =
        .ok (some (g, l)) ∧
      allAssess o c.innerAssess tp g (quadA (specRows forest c.parentsAll _ (sources (allSource c)))) l =
        .ok () ∧
      lamb = (if flag then lambBase else l) ∧
      List.Forall₂ (fun t t' => LeafUpdate t t'
        fun r _ => ∑ k, lamb k * levelRatio t c.parentsAll r k) forest rf := by
  unfold smoothAll at h
  obtain ⟨p, h1, h⟩ := bind_ok h
  obtain ⟨-, -, a3, a4, a5, a6⟩ := allPrepare_ok hwf h1
  obtain ⟨r, h2, h⟩ := bind_ok h
  match r, h2, h with
  | none, _, h => cases h
  | some (g, l), h2, h =>
    simp only at h
    obtain ⟨⟨⟩, h3, h⟩ := bind_ok h
    obtain ⟨rf', h4, h⟩ := bind_ok h
    cases h
    rw [a6] at h2 h3
    refine ⟨p.flag, p.tolPow, g, l, a3, a4, h2, h3, rfl, ?_⟩
    obtain ⟨ts', h7, h8⟩ := writeBack1_spec
      (fun p' _ => ∑ k : Fin (forestDepth forest + 1), (if p.flag then lambBase else l) k *
        levelRatio p'.1 c.parentsAll p'.2 k) forest hwf []
    rw [List.nil_append, List.length_nil] at h7
    have e : (p.store.map fun row => dot row (if p.flag then lambBase else l)).map
        (fun v (_ : Fin 1) => v) = (leafList forest).map
        (fun p' _ => ∑ k : Fin (forestDepth forest + 1), (if p.flag then lambBase else l) k *
          levelRatio p'.1 c.parentsAll p'.2 k) := by
      rw [a5, List.map_map, List.map_map]
      refine List.map_congr_left fun q _ => ?_
      funext _
      simp only [Function.comp_apply, dot, ratioVec]
      exact Finset.sum_congr rfl fun k _ => mul_comm _ _
    rw [e, h7] at h4
    cases h4
    exact h8

theorem smoothAll_returns [IsStrictOrderedRing K] {o : AllOracles K} {fuel : ℕ}
    {forest : List (SkTree K 1)} (hwf : ∀ t ∈ forest, t.WF)
    (hn : ∀ t ∈ forest, ∀ r, 0 < t.nSamp (t.leafNode r)) {c : AllCfg}
    {sources : TuneSrc → ℕ → List (TuneRow K 1)} (h1 : c.nTrained ≠ 0) (h2 : c.yLen = c.nTrained)
    {flag : Bool} {tp : Option ℤ} (h3 : readSanity c.sanity = .ok (flag, tp))
    (h4 : ∀ tt ∈ forest.zipIdx, sources (allSource c) tt.2 ≠ [])
    {g : SqMat K (forestDepth forest + 1)} {l : Fin (forestDepth forest + 1) → K}
    (h5 : allSolve o fuel c.noConstraint (specRows forest c.parentsAll _ (sources (allSource c))) =
      .ok (some (g, l)))
    (h6 : allAssess o c.innerAssess tp g
      (quadA (specRows forest c.parentsAll _ (sources (allSource c)))) l = .ok ()) :
    ∃ rf, smoothAll o fuel forest c sources = .ok (some (rf, if flag then lambBase else l)) := by
  obtain ⟨ts', h7, h8⟩ := writeBack1_spec
    (fun p' _ => ∑ k : Fin (forestDepth forest + 1), (if flag then lambBase else l) k *
      levelRatio p'.1 c.parentsAll p'.2 k) forest hwf []
  rw [List.nil_append, List.length_nil] at h7
  refine ⟨ts', ?_⟩
  unfold smoothAll
  rw [allPrepare_returns hwf hn h1 h2 h3 h4]
  simp only [bind, Except.bind]
  rw [h5]
  simp only
  rw [h6]
  simp only
  have e : (((leafList forest).map fun q => ratioVec c.parentsAll (forestDepth forest + 1) q.1 q.2).map
      fun row => dot row (if flag then lambBase else l)).map
      (fun v (_ : Fin 1) => v) = (leafList forest).map
      (fun p' _ => ∑ k : Fin (forestDepth forest + 1), (if flag then lambBase else l) k *
        levelRatio p'.1 c.parentsAll p'.2 k) := by
    rw [List.map_map, List.map_map]
    refine List.map_congr_left fun q _ => ?_
    funext _
    simp only [Function.comp_apply, dot, ratioVec]
    exact Finset.sum_congr rfl fun k _ => mul_comm _ _
  rw [e, h7]
  rfl

/-! ### the quadratic form -/

theorem quadCost_eq {n : ℕ} (g : SqMat K n) (a l : Fin n → K) : quadCost g a l = qpObj g a l := by
  unfold quadCost qpObj
  congr 2
  rw [Finset.sum_congr rfl fun i _ => Finset.sum_mul _ _ _, Finset.sum_comm]

theorem qpObj_shift [CharZero K] {n : ℕ} (g : SqMat K n) (w : K) (a l : Fin n → K) :
    qpObj (shiftMat g w) a l = qpObj g a l + w / 2 * ∑ i, l i ^ 2 := by
  unfold qpObj shiftMat
  have : ∀ i, ∑ j, l i * (g i j + if i = j then w else 0) * l j =
      (∑ j, l i * g i j * l j) + w * l i ^ 2 := by
    intro i
    rw [Finset.sum_congr rfl fun j _ => by rw [mul_add, add_mul], Finset.sum_add_distrib]
    congr 1
    simp only [mul_ite, mul_zero, ite_mul, zero_mul, Finset.sum_ite_eq, Finset.mem_univ, if_true]
    ring
  rw [Finset.sum_congr rfl fun i _ => this i, Finset.sum_add_distrib, ← Finset.mul_sum]
  ring

theorem quadG_symm {n : ℕ} (rows : List (QRow K n)) (i j : Fin n) : quadG rows i j = quadG rows j i := by
  unfold quadG
  congr 1
  refine List.map_congr_left fun r _ => ?_
  ring

theorem symm_quadG [CharZero K] {n : ℕ} (rows : List (QRow K n)) : symm (quadG rows) = quadG rows := by
  funext i j
  unfold symm
  rw [quadG_symm rows j i]
  ring

theorem qpObj_rows {n : ℕ} (rows : List (QRow K n)) (l : Fin n → K) :
    qpObj (quadG rows) (quadA rows) l =
      (rows.map fun r => 1 / 2 * (r.w * (dot r.gam l) ^ 2) - r.w * r.y * dot r.gam l).sum := by
  induction rows with
  | nil => simp [qpObj, quadG, quadA]
  | cons r rows ih =>
    rw [List.map_cons, List.sum_cons, ← ih]
    have e1 : ∀ i j, quadG (r :: rows) i j = r.gam i * r.w * r.gam j + quadG rows i j := fun i j => by
      simp [quadG]
    have e2 : ∀ i, quadA (r :: rows) i = r.gam i * r.w * r.y + quadA rows i := fun i => by simp [quadA]
    unfold qpObj
    have s1 : ∑ i, ∑ j, l i * quadG (r :: rows) i j * l j =
        r.w * (dot r.gam l) ^ 2 + ∑ i, ∑ j, l i * quadG rows i j * l j := by
      rw [pow_two, dot, Finset.sum_mul_sum, Finset.mul_sum, ← Finset.sum_add_distrib]
      refine Finset.sum_congr rfl fun i _ => ?_
      rw [Finset.mul_sum, ← Finset.sum_add_distrib]
      refine Finset.sum_congr rfl fun j _ => ?_
      rw [e1]; ring
    have s2 : ∑ i, quadA (r :: rows) i * l i = r.w * r.y * dot r.gam l + ∑ i, quadA rows i * l i := by
      rw [dot, Finset.mul_sum, ← Finset.sum_add_distrib]
      refine Finset.sum_congr rfl fun i _ => ?_
      rw [e2]; ring
    rw [s1, s2]
    ring

/-! ### the retry loop -/

theorem solveLoop_spec [IsStrictOrderedRing K] (o : AllOracles K) {n : ℕ} (nc : Bool) (a : Fin n → K) (g : SqMat K n) (fuel k : ℕ)
    (hk : ∀ j < k, trySolve o nc (shiftMat g (psdShift o.unit j)) a = none) {r : SqMat K n × (Fin n → K)}
    (h : solveLoop o nc a fuel k (shiftMat g (psdShift o.unit k)) = some r) :
    ∃ q, r.1 = shiftMat g (psdShift o.unit q) ∧ trySolve o nc r.1 a = some r.2 ∧
      ∀ j < q, trySolve o nc (shiftMat g (psdShift o.unit j)) a = none := by
  induction fuel generalizing k with
  | zero => simp [solveLoop] at h
  | succ fuel ih =>
    unfold solveLoop at h
    cases hs : trySolve o nc (shiftMat g (psdShift o.unit k)) a with
    | some l =>
      rw [hs] at h
      cases h
      exact ⟨k, rfl, hs, hk⟩
    | none =>
      rw [hs] at h
      simp only at h
      have e : (fun i j => shiftMat g (psdShift o.unit k) i j +
          if i = j then (if k = 0 then o.unit else o.unit * (2 ^ k - 2 ^ (k - 1))) else 0) =
          shiftMat g (psdShift o.unit (k + 1)) := by
        funext i j
        rw [← psdShift_succ]
        unfold shiftMat
        by_cases hij : i = j <;> simp [hij, add_assoc]
      rw [e] at h
      refine ih (k + 1) (fun j hj => ?_) h
      rcases Nat.lt_or_ge j k with h' | h'
      · exact hk j h'
      · have : j = k := by omega
        subst this
        exact hs

theorem shiftMat_shiftMat {n : ℕ} (g : SqMat K n) (v w : K) :
    shiftMat (shiftMat g v) w = shiftMat g (v + w) := by
  funext i j
  unfold shiftMat
  by_cases hij : i = j <;> simp [hij, add_assoc]

theorem shiftMat_zero {n : ℕ} (g : SqMat K n) : shiftMat g 0 = g := by
  funext i j; simp [shiftMat]

/-- What the two loops return. -/
theorem allSolve_ok [IsStrictOrderedRing K] {o : AllOracles K} {fuel : ℕ} {n : ℕ} {nc : Bool} {rows : List (QRow K n)}
    {g : SqMat K n} {l : Fin n → K} (h : allSolve o fuel nc rows = .ok (some (g, l))) :
    ∃ p q, g = shiftMat (quadG rows) (psdShift o.unit p + psdShift o.unit q) ∧
      o.pd (shiftMat (quadG rows) (psdShift o.unit p)) = true ∧
      (∀ j < p, o.pd (shiftMat (quadG rows) (psdShift o.unit j)) = false) ∧
      trySolve o nc g (quadA rows) = some l ∧
      ∀ j < q, trySolve o nc (shiftMat (quadG rows) (psdShift o.unit p + psdShift o.unit j))
        (quadA rows) = none := by
  unfold allSolve at h
  obtain ⟨r, h1, h⟩ := bind_ok h
  rw [symm_quadG] at h1
  unfold updateTilPsd at h1
  rw [if_pos (quadG_symm rows)] at h1
  have h1 := Except.ok.inj h1
  match r, h1, h with
  | none, _, h => cases h
  | some g0, h1, h =>
    simp only at h
    have h := Except.ok.inj h
    have e0 : shiftMat (quadG rows) (psdShift o.unit 0) = quadG rows := by
      simp [psdShift, shiftMat_zero]
    obtain ⟨p, e1, e2, e3⟩ := (psdLoop_spec o.pd o.unit (quadG rows) fuel 0
      (fun j hj => absurd hj (Nat.not_lt_zero j))).2 g0 (by rw [e0]; exact h1)
    have e00 : shiftMat g0 (psdShift o.unit 0) = g0 := by
      simp [psdShift, shiftMat_zero]
    obtain ⟨q, f1, f2, f3⟩ := solveLoop_spec o nc (quadA rows) g0 fuel 0
      (fun j hj => absurd hj (Nat.not_lt_zero j)) (by rw [e00]; exact h)
    simp only [e1, shiftMat_shiftMat] at f1 f2 f3 e2
    exact ⟨p, q, f1, e2, e3, f2, f3⟩

theorem consC_feasible {n : ℕ} (x : Fin n → K) :
    qpFeasible (consC n) (consB n) 1 x ↔ InSimplex x := by
  have h0 : ∀ j : Fin (n + 1), j.val = 0 → ∑ i, consC (K := K) n i j * x i = ∑ i, x i := by
    intro j hj
    refine Finset.sum_congr rfl fun i _ => ?_
    simp [consC, hj]
  have hs : ∀ (i : Fin n) (j : Fin (n + 1)), j.val = i.val + 1 →
      ∑ i, consC (K := K) n i j * x i = x i := by
    intro i j hj
    rw [Finset.sum_eq_single i]
    · simp [consC, hj]
    · intro b _ hb
      have : j.val ≠ b.val + 1 := fun e => hb (Fin.ext (by omega))
      have hj0 : j.val ≠ 0 := by omega
      simp [consC, this, hj0]
    · simp
  constructor
  · intro h
    refine ⟨fun i => ?_, ?_⟩
    · have := (h i.succ).1
      rw [hs i i.succ rfl] at this
      simpa [consB] using this
    · have := (h 0).2 (by simp)
      rw [h0 0 rfl] at this
      simpa [consB] using this
  · rintro ⟨h1, h2⟩ j
    by_cases hj : j.val = 0
    · rw [h0 j hj, h2]
      simp [consB, hj]
    · have hlt : j.val - 1 < n := by omega
      rw [hs ⟨j.val - 1, hlt⟩ j (by simp; omega)]
      refine ⟨by simpa [consB, hj] using h1 _, fun h => absurd h (by omega)⟩

theorem lambBase_simplex [IsStrictOrderedRing K] {n : ℕ} : InSimplex (lambBase : Fin (n + 1) → K) := by
  constructor
  · intro i
    unfold lambBase
    split_ifs <;> simp
  · rw [Fin.sum_univ_succ]
    simp [lambBase]

/-! ### the tuning loss -/

theorem sum_by_leaf (rows : List (TuneRow K 1)) (n : ℕ) (h : ∀ r ∈ rows, r.leaf < n) (f : TuneRow K 1 → K) :
    (rows.map f).sum = ((List.range n).map fun i => ((rows.filter fun r => r.leaf == i).map f).sum).sum := by
  rw [sum_map_range]
  induction rows with
  | nil => simp
  | cons r rows ih =>
    have h1 := ih fun r' hr' => h r' (by simp [hr'])
    have h2 : ∀ i, (((r :: rows).filter fun r => r.leaf == i).map f).sum =
        (if i = r.leaf then f r else 0) + ((rows.filter fun r => r.leaf == i).map f).sum := by
      intro i
      rw [List.filter_cons]
      by_cases hi : i = r.leaf
      · simp [hi]
      · have : (r.leaf == i) = false := by simpa using fun e => hi e.symm
        simp [this, hi]
    rw [Finset.sum_congr rfl fun i _ => h2 i, Finset.sum_add_distrib, ← h1,
      Finset.sum_ite_eq' (Finset.range n) r.leaf, if_pos (Finset.mem_range.2 (h r (by simp)))]
    simp

theorem leaf_square (rows : List (TuneRow K 1)) (i : ℕ) (p : K) (hp : (leafWeight rows i : K) ≠ 0 ∨ (rows.filter fun r => r.leaf == i) = []) :
    ((rows.filter fun r => r.leaf == i).map fun r => (p - r.y 0) ^ 2).sum =
      leafWeight rows i * p ^ 2 - 2 * (leafWeight rows i * leafMean rows i 0 * p) +
      ((rows.filter fun r => r.leaf == i).map fun r => (r.y 0) ^ 2).sum := by
  have hm : leafWeight rows i * leafMean rows i 0 = ((rows.filter fun r => r.leaf == i).map fun r => r.y 0).sum := by
    unfold leafMean
    rcases hp with h | h
    · rw [if_neg h, mul_div_cancel₀ _ h]
    · simp [leafWeight, h]
  rw [hm]
  unfold leafWeight
  generalize rows.filter (fun r => r.leaf == i) = l
  induction l with
  | nil => simp
  | cons r l ih =>
    simp only [List.map_cons, List.sum_cons, List.length_cons, ih]
    push_cast
    ring

theorem specRows_eq (forest : List (SkTree K 1)) (pa : Bool) (n : ℕ) (tune : ℕ → List (TuneRow K 1)) :
    specRows forest pa n tune = ((leafListI forest).map fun p =>
      (⟨ratioVec pa n p.1.1 p.1.2,
        if leafWeight (tune p.2) p.1.2 / ((List.range p.1.1.nLeaves).map (leafWeight (tune p.2))).sum = 0
          then -1
        else leafWeight (tune p.2) p.1.2 / ((List.range p.1.1.nLeaves).map (leafWeight (tune p.2))).sum,
        leafMean (tune p.2) p.1.2 0⟩ : QRow K n)).filter fun r => decide (r.w ≠ -1) := by
  unfold specRows keptRows
  have e1 : (leafList forest).map (fun p => ratioVec pa n p.1 p.2) =
      (leafListI forest).map fun p => ratioVec pa n p.1.1 p.1.2 := by
    rw [← leafListI_fst, List.map_map]; rfl
  have e2 : forest.zipIdx.flatMap (allBlock tune) = (leafListI forest).map fun p =>
      (if leafWeight (tune p.2) p.1.2 / ((List.range p.1.1.nLeaves).map (leafWeight (tune p.2))).sum = 0
          then -1
        else leafWeight (tune p.2) p.1.2 / ((List.range p.1.1.nLeaves).map (leafWeight (tune p.2))).sum,
        leafMean (tune p.2) p.1.2 0) := by
    refine leafListI_map forest _ _ fun tt _ => ?_
    unfold allBlock
    generalize hw : ((List.range tt.1.nLeaves).map (leafWeight (tune tt.2))).sum = W
    rw [← finRange_map_val, List.map_map]
    refine List.map_congr_left fun r _ => ?_
    simp only [Function.comp_apply, hw]
  rw [e1, e2, List.zipWith_map, List.zipWith_self]

theorem sum_filter_zero {α : Type} (l : List α) (p : α → Bool) (f : α → K)
    (h : ∀ a ∈ l, p a = false → f a = 0) : ((l.filter p).map f).sum = (l.map f).sum := by
  induction l with
  | nil => rfl
  | cons a l ih =>
    have := ih fun b hb => h b (by simp [hb])
    rw [List.filter_cons]
    by_cases hp : p a = true
    · simp [hp, this]
    · have hp' : p a = false := by simpa using hp
      simp [hp', this, h a (by simp) hp']

theorem sum_flatMap' {α β : Type} (l : List α) (f : α → List β) (g : β → K) :
    ((l.flatMap f).map g).sum = (l.map fun a => ((f a).map g).sum).sum := by
  induction l with
  | nil => rfl
  | cons a l ih => simp [ih]

theorem tree_loss [IsStrictOrderedRing K] (t : SkTree K 1) (pa : Bool) (rows : List (TuneRow K 1))
    (hr : ∀ q ∈ rows, q.leaf < t.nLeaves) {n : ℕ} (l : Fin n → K) :
    1 / 2 * ((rows.map fun q => (leafPred t pa l q.leaf - q.y 0) ^ 2).sum / (rows.length : K)) =
      ((List.finRange t.nLeaves).map fun i : Fin t.nLeaves =>
        1 / 2 * (leafWeight rows i.val / (rows.length : K) * (dot (ratioVec pa n t i) l) ^ 2) -
          leafWeight rows i.val / (rows.length : K) * leafMean rows i.val 0 * dot (ratioVec pa n t i) l).sum +
      1 / 2 * ((rows.map fun q => (q.y 0) ^ 2).sum / (rows.length : K)) := by
  have hpred : ∀ i : Fin t.nLeaves, leafPred t pa l i.val = dot (ratioVec pa n t i) l := by
    intro i
    unfold leafPred
    rw [dif_pos i.2]
    exact Finset.sum_congr rfl fun k _ => mul_comm _ _
  rw [sum_by_leaf rows _ hr, sum_by_leaf rows _ hr fun q => (q.y 0) ^ 2]
  have hin : ∀ i ∈ List.range t.nLeaves,
      ((rows.filter fun r => r.leaf == i).map fun q => (leafPred t pa l q.leaf - q.y 0) ^ 2).sum =
      leafWeight rows i * (leafPred t pa l i) ^ 2 -
        2 * (leafWeight rows i * leafMean rows i 0 * leafPred t pa l i) +
      ((rows.filter fun r => r.leaf == i).map fun r => (r.y 0) ^ 2).sum := by
    intro i _
    rw [← leaf_square]
    · congr 1
      refine List.map_congr_left fun q hq => ?_
      have : q.leaf = i := by simpa using (List.mem_filter.1 hq).2
      rw [this]
    · by_cases h : (rows.filter fun r => r.leaf == i) = []
      · exact Or.inr h
      · left
        unfold leafWeight
        exact Nat.cast_ne_zero.2 (fun e => h (List.length_eq_zero_iff.1 e))
  rw [List.map_congr_left hin, ← finRange_map_val, List.map_map, List.map_map]
  generalize List.finRange t.nLeaves = L
  induction L with
  | nil => simp
  | cons i L ih =>
    simp only [List.map_cons, List.sum_cons, Function.comp_apply] at ih ⊢
    rw [hpred i]
    have hd : ∀ a b : K, 1 / 2 * ((a + b) / (rows.length : K)) =
        1 / 2 * (a / (rows.length : K)) + 1 / 2 * (b / (rows.length : K)) := by
      intro a b; rw [add_div, mul_add]
    rw [hd, ih, hd]
    ring

/-- The quadratic objective is the tuning loss up to a constant. -/
theorem tuneLoss_eq [IsStrictOrderedRing K] (forest : List (SkTree K 1)) (pa : Bool)
    (tune : ℕ → List (TuneRow K 1)) (hne : ∀ tt ∈ forest.zipIdx, tune tt.2 ≠ [])
    (hr : ∀ tt ∈ forest.zipIdx, ∀ q ∈ tune tt.2, q.leaf < tt.1.nLeaves) (n : ℕ) :
    ∃ const : K, ∀ l : Fin n → K, tuneLoss forest pa tune l =
      qpObj (quadG (specRows forest pa n tune)) (quadA (specRows forest pa n tune)) l + const := by
  refine ⟨(forest.zipIdx.map fun tt =>
    1 / 2 * (((tune tt.2).map fun q => (q.y 0) ^ 2).sum / ((tune tt.2).length : K))).sum, fun l => ?_⟩
  rw [qpObj_rows, specRows_eq]
  have hw : ∀ tt ∈ forest.zipIdx, ((List.range tt.1.nLeaves).map (leafWeight (tune tt.2))).sum =
      ((tune tt.2).length : K) := fun tt ht => sum_leafWeight _ _ (hr tt ht)
  have hpos : ∀ tt ∈ forest.zipIdx, (0 : K) < ((tune tt.2).length : K) := fun tt ht =>
    Nat.cast_pos.2 (List.length_pos_iff.2 (hne tt ht))
  have hmem : ∀ a ∈ leafListI forest, (a.1.1, a.2) ∈ forest.zipIdx := by
    intro a ha
    unfold leafListI at ha
    obtain ⟨tt, ht, ha⟩ := List.mem_flatMap.1 ha
    obtain ⟨r, -, rfl⟩ := List.mem_map.1 ha
    exact ht
  rw [List.filter_map, List.map_map]
  have hx : ∀ a ∈ leafListI forest, 0 ≤ leafWeight (tune a.2) a.1.2.val / ((tune a.2).length : K) :=
    fun a ha => div_nonneg (Nat.cast_nonneg _) (hpos _ (hmem a ha)).le
  rw [List.map_congr_left (g := fun a : ((t : SkTree K 1) × Fin t.nLeaves) × ℕ =>
      1 / 2 * (leafWeight (tune a.2) a.1.2.val / ((tune a.2).length : K) *
        (dot (ratioVec pa n a.1.1 a.1.2) l) ^ 2) -
      leafWeight (tune a.2) a.1.2.val / ((tune a.2).length : K) * leafMean (tune a.2) a.1.2.val 0 *
        dot (ratioVec pa n a.1.1 a.1.2) l) ?_, sum_filter_zero]
  · unfold leafListI
    rw [sum_flatMap']
    unfold tuneLoss
    rw [← List.sum_map_mul_left, ← List.sum_map_add]
    congr 1
    refine List.map_congr_left fun tt ht => ?_
    rw [tree_loss tt.1 pa (tune tt.2) (hr tt ht) l, List.map_map]
    rfl
  · intro a ha hd
    simp only [Function.comp_apply, hw _ (hmem a ha)] at hd
    have h0 : leafWeight (tune a.2) a.1.2.val / ((tune a.2).length : K) = 0 := by
      by_contra h
      rw [if_neg h] at hd
      have : leafWeight (tune a.2) a.1.2.val / ((tune a.2).length : K) = -1 := by simpa using hd
      have := hx a ha
      linarith
    rw [h0]; ring
  · intro a ha
    obtain ⟨ha, hd⟩ := List.mem_filter.1 ha
    simp only [Function.comp_apply, hw _ (hmem a ha)] at hd ⊢
    by_cases h : leafWeight (tune a.2) a.1.2.val / ((tune a.2).length : K) = 0
    · rw [if_pos h] at hd; simp at hd
    · rw [if_neg h]

end SmoothRF
