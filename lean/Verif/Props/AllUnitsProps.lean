import Verif.Props.AffineProps
import Verif.Props.AllExactProps

/-!
# Change of units of the response in smooth_all (C209)
-/

set_option linter.unusedSectionVars false

namespace SmoothRF
open SkTree Topo

variable {K : Type} [Field K] [LinearOrder K] [IsStrictOrderedRing K]

theorem levelSum_lin (pa : Bool) {n : ℕ} (D : Fin n → Fin n → ℤ) (u v : Fin n → K) (a b : K) (i : Fin n) (k : ℕ) :
    levelSum pa D (fun j => u j * (a * v j + b)) i k =
      a * levelSum pa D (fun j => u j * v j) i k + b * levelSum pa D u i k := by
  unfold levelSum
  split_ifs
  · rw [Finset.mul_sum, Finset.mul_sum, ← Finset.sum_add_distrib]
    exact Finset.sum_congr rfl fun j _ => by ring
  · rw [Finset.mul_sum, Finset.mul_sum, ← Finset.sum_add_distrib]
    exact Finset.sum_congr rfl fun j _ => by ring

/-- A level with samples has its mean in the new units, one without keeps 0. -/
theorem levelRatio_aff (a b : K) (t : SkTree K 1) (pa : Bool) (r : Fin t.nLeaves) (k : ℕ) :
    levelRatio (affTree a b t) pa r k =
      if levelSum pa (t.distDepth .standard) (fun j => t.nSamp (t.leafNode j)) r k = 0 then 0
      else a * levelRatio t pa r k + b := by
  have e := levelSum_lin pa (t.distDepth .standard) (fun j => t.nSamp (t.leafNode j))
    (fun j => t.value (t.leafNode j) 0) a b r k
  show (if levelSum pa (t.distDepth .standard) (fun j => t.nSamp (t.leafNode j)) r k = 0 then 0
    else levelSum pa (t.distDepth .standard) (fun j => t.nSamp (t.leafNode j) * (a * t.value (t.leafNode j) 0 + b)) r k /
      levelSum pa (t.distDepth .standard) (fun j => t.nSamp (t.leafNode j)) r k) = _
  rw [e]
  unfold levelRatio
  split_ifs with h
  · rfl
  · field_simp

theorem levelRatio_unit (a : K) (t : SkTree K 1) (pa : Bool) (r : Fin t.nLeaves) (k : ℕ) :
    levelRatio (affTree a 0 t) pa r k = a * levelRatio t pa r k := by
  rw [levelRatio_aff, add_zero]
  split_ifs with h
  · unfold levelRatio
    rw [if_pos h, mul_zero]
  · rfl

theorem leafPred_unit (a : K) (t : SkTree K 1) (pa : Bool) {n : ℕ} (l : Fin n → K) (i : ℕ) :
    leafPred (affTree a 0 t) pa l i = a * leafPred t pa l i := by
  unfold leafPred
  by_cases h : i < t.nLeaves
  · rw [dif_pos h]
    refine (dif_pos h).trans ?_
    rw [Finset.mul_sum]
    refine Finset.sum_congr rfl fun k _ => ?_
    have := levelRatio_unit a t pa ⟨i, h⟩ k
    change levelRatio (affTree a 0 t) pa _ _ = _ at this
    refine (congrArg (l k * ·) this).trans ?_
    ring
  · rw [dif_neg h, mul_zero]
    exact dif_neg h

/-- With `parents_all` every level contains the leaf itself. -/
theorem levelSum_all_pos {t : SkTree K 1} (h : t.WF) (hn : ∀ r, 0 < t.nSamp (t.leafNode r)) (r : Fin t.nLeaves) (k : ℕ) :
    0 < levelSum true (t.distDepth .standard) (fun j => t.nSamp (t.leafNode j)) r k := by
  unfold levelSum
  rw [if_pos rfl]
  refine Finset.sum_pos (fun j _ => hn j) ⟨r, ?_⟩
  rw [Finset.mem_filter]
  refine ⟨Finset.mem_univ r, ?_⟩
  rw [(distDepth_eq_zero h .standard r r).2 rfl]
  exact Int.natCast_nonneg k

theorem leafPred_affine {a b : K} {t : SkTree K 1} (h : t.WF) (hn : ∀ r, 0 < t.nSamp (t.leafNode r)) {n : ℕ} {l : Fin n → K}
    (hl : ∑ k, l k = 1) {i : ℕ} (hi : i < t.nLeaves) :
    leafPred (affTree a b t) true l i = a * leafPred t true l i + b := by
  unfold leafPred
  rw [dif_pos hi]
  refine (dif_pos hi).trans ?_
  have : b = ∑ k, l k * b := by rw [← Finset.sum_mul, hl, one_mul]
  conv_rhs => rw [this]
  rw [Finset.mul_sum, ← Finset.sum_add_distrib]
  refine Finset.sum_congr rfl fun k _ => ?_
  have e := levelRatio_aff a b t true ⟨i, hi⟩ k
  rw [if_neg (levelSum_all_pos h hn _ _).ne'] at e
  refine (congrArg (l k * ·) e).trans ?_
  ring

/-- Tuning rows in the new units. -/
def affTune (a b : K) (tune : ℕ → List (TuneRow K 1)) : ℕ → List (TuneRow K 1) := fun k => (tune k).map (affRow a b)

theorem tuneLoss_map {a b : K} {forest : List (SkTree K 1)} {pa : Bool} {tune : ℕ → List (TuneRow K 1)} {n : ℕ} {l : Fin n → K}
    (h : ∀ tt ∈ forest.zipIdx, ∀ q ∈ tune tt.2, leafPred (affTree a b tt.1) pa l q.leaf = a * leafPred tt.1 pa l q.leaf + b) :
    tuneLoss (forest.map (affTree a b)) pa (affTune a b tune) l = a ^ 2 * tuneLoss forest pa tune l := by
  have ez : (forest.map (affTree a b)).zipIdx = forest.zipIdx.map fun tt => (affTree a b tt.1, tt.2) := by
    rw [List.zipIdx_map]
    rfl
  unfold tuneLoss
  rw [ez, List.map_map]
  have : (forest.zipIdx.map ((fun tt : SkTree K 1 × ℕ =>
        ((affTune a b tune tt.2).map fun q => (leafPred tt.1 pa l q.leaf - q.y 0) ^ 2).sum / ((affTune a b tune tt.2).length : K)) ∘
        fun tt => (affTree a b tt.1, tt.2))) = forest.zipIdx.map fun tt => a ^ 2 *
      (((tune tt.2).map fun q => (leafPred tt.1 pa l q.leaf - q.y 0) ^ 2).sum / ((tune tt.2).length : K)) := by
    refine List.map_congr_left fun tt ht => ?_
    show ((affTune a b tune tt.2).map fun q => (leafPred (affTree a b tt.1) pa l q.leaf - q.y 0) ^ 2).sum /
      ((affTune a b tune tt.2).length : K) = _
    unfold affTune
    rw [List.map_map, List.length_map, ← mul_div_assoc, ← List.sum_map_mul_left]
    congr 2
    refine List.map_congr_left fun q hq => ?_
    show (leafPred (affTree a b tt.1) pa l q.leaf - (a * q.y 0 + b)) ^ 2 = _
    rw [h tt ht q hq]
    ring
  rw [this, List.sum_map_mul_left]
  ring

/-- C209, the loss: multiplying all responses by `a` multiplies the loss of any weights by `a²`. -/
theorem C209_loss (a : K) (forest : List (SkTree K 1)) (pa : Bool) (tune : ℕ → List (TuneRow K 1)) {n : ℕ} (l : Fin n → K) :
    tuneLoss (forest.map (affTree a 0)) pa (affTune a 0 tune) l = a ^ 2 * tuneLoss forest pa tune l :=
  tuneLoss_map fun tt _ q _ => by rw [leafPred_unit, add_zero]

/-- C209, the loss with `parents_all`: for weights of sum one the origin of the responses does not matter. -/
theorem C209_loss_origin (a b : K) {forest : List (SkTree K 1)} (hwf : ∀ t ∈ forest, t.WF)
    (hn : ∀ t ∈ forest, ∀ r, 0 < t.nSamp (t.leafNode r)) {tune : ℕ → List (TuneRow K 1)}
    (hr : ∀ tt ∈ forest.zipIdx, ∀ q ∈ tune tt.2, q.leaf < tt.1.nLeaves) {n : ℕ} {l : Fin n → K} (hl : ∑ k, l k = 1) :
    tuneLoss (forest.map (affTree a b)) true (affTune a b tune) l = a ^ 2 * tuneLoss forest true tune l :=
  tuneLoss_map fun tt ht q hq => leafPred_affine (hwf _ (List.fst_mem_of_mem_zipIdx ht)) (hn _ (List.fst_mem_of_mem_zipIdx ht)) hl
    (hr tt ht q hq)

/-! ### one minimum -/

theorem form_mid {n : ℕ} (g : SqMat K n) (x y : Fin n → K) :
    ∑ i, ∑ j, ((x i + y i) / 2) * g i j * ((x j + y j) / 2) =
      1 / 2 * (∑ i, ∑ j, x i * g i j * x j) + 1 / 2 * (∑ i, ∑ j, y i * g i j * y j) -
        1 / 4 * ∑ i, ∑ j, (x i - y i) * g i j * (x j - y j) := by
  rw [Finset.mul_sum, Finset.mul_sum, Finset.mul_sum, ← Finset.sum_add_distrib, ← Finset.sum_sub_distrib]
  refine Finset.sum_congr rfl fun i _ => ?_
  rw [Finset.mul_sum, Finset.mul_sum, Finset.mul_sum, ← Finset.sum_add_distrib, ← Finset.sum_sub_distrib]
  refine Finset.sum_congr rfl fun j _ => ?_
  ring

theorem qpObj_mid {n : ℕ} (g : SqMat K n) (a x y : Fin n → K) :
    qpObj g a (fun i => (x i + y i) / 2) = 1 / 2 * qpObj g a x + 1 / 2 * qpObj g a y -
      1 / 8 * ∑ i, ∑ j, (x i - y i) * g i j * (x j - y j) := by
  unfold qpObj
  rw [form_mid]
  have : ∑ i, a i * ((x i + y i) / 2) = 1 / 2 * (∑ i, a i * x i) + 1 / 2 * ∑ i, a i * y i := by
    rw [Finset.mul_sum, Finset.mul_sum, ← Finset.sum_add_distrib]
    exact Finset.sum_congr rfl fun i _ => by ring
  rw [this]
  ring

theorem simplex_mid {n : ℕ} {x y : Fin n → K} (hx : InSimplex x) (hy : InSimplex y) : InSimplex fun i => (x i + y i) / 2 := by
  refine ⟨fun i => div_nonneg (add_nonneg (hx.1 i) (hy.1 i)) (by norm_num), ?_⟩
  rw [← Finset.sum_div, Finset.sum_add_distrib, hx.2, hy.2]
  norm_num

/-- Where no non-zero weights predict 0 at every tuning row the loss has one minimum. -/
theorem tuneLoss_unique {forest : List (SkTree K 1)} {pa nc : Bool} {tune : ℕ → List (TuneRow K 1)}
    (hne : ∀ tt ∈ forest.zipIdx, tune tt.2 ≠ []) (hr : ∀ tt ∈ forest.zipIdx, ∀ q ∈ tune tt.2, q.leaf < tt.1.nLeaves) {n : ℕ}
    (hind : ∀ x : Fin n → K, x ≠ 0 → ∃ tt ∈ forest.zipIdx, ∃ q ∈ tune tt.2, leafPred tt.1 pa x q.leaf ≠ 0)
    {x y : Fin n → K} (hx : nc = false → InSimplex x) (hy : nc = false → InSimplex y)
    (mx : ∀ z : Fin n → K, (nc = false → InSimplex z) → tuneLoss forest pa tune x ≤ tuneLoss forest pa tune z)
    (my : ∀ z : Fin n → K, (nc = false → InSimplex z) → tuneLoss forest pa tune y ≤ tuneLoss forest pa tune z) : x = y := by
  by_contra hc
  obtain ⟨const, he⟩ := tuneLoss_eq forest pa tune hne hr n
  have hp := loss_posDef pa tune hne hr hind (fun i => x i - y i) fun e => hc (by
    funext i
    have := congrFun e i
    simp only [Pi.zero_apply] at this
    linarith)
  have h1 := mx (fun i => (x i + y i) / 2) fun e => simplex_mid (hx e) (hy e)
  have h2 := my (fun i => (x i + y i) / 2) fun e => simplex_mid (hx e) (hy e)
  rw [he, he, qpObj_mid] at h1 h2
  linarith

/-! ### the weights -/

section
variable {o : AllOracles K} {forest : List (SkTree K 1)} {c : AllCfg} {sources : TuneSrc → ℕ → List (TuneRow K 1)}

/-- All sources of tuning rows in the new units. -/
def affSources (a b : K) (sources : TuneSrc → ℕ → List (TuneRow K 1)) : TuneSrc → ℕ → List (TuneRow K 1) :=
  fun s => affTune a b (sources s)

theorem zipIdx_aff (a b : K) (forest : List (SkTree K 1)) :
    (forest.map (affTree a b)).zipIdx = forest.zipIdx.map fun tt => (affTree a b tt.1, tt.2) := by
  rw [List.zipIdx_map]
  rfl

theorem rows_aff {a b : K} {tune : ℕ → List (TuneRow K 1)} {P : SkTree K 1 × ℕ → ℕ → Prop}
    (h : ∀ tt ∈ forest.zipIdx, ∀ q ∈ tune tt.2, P (affTree a b tt.1, tt.2) q.leaf) :
    ∀ tt ∈ (forest.map (affTree a b)).zipIdx, ∀ q ∈ affTune a b tune tt.2, P tt q.leaf := by
  rw [zipIdx_aff]
  intro tt ht q hq
  obtain ⟨tt', ht', rfl⟩ := List.mem_map.1 ht
  obtain ⟨q', hq', rfl⟩ := List.mem_map.1 hq
  exact h tt' ht' q' hq'

theorem wf_aff {a b : K} (hwf : ∀ t ∈ forest, t.WF) : ∀ t ∈ forest.map (affTree a b), t.WF := by
  intro t ht
  obtain ⟨t', ht', rfl⟩ := List.mem_map.1 ht
  exact hwf t' ht'

/-- Forests with the same weights. -/
theorem rf_aff {a b : K} {pa : Bool} {n n' : ℕ} {l : Fin n → K} {l' : Fin n' → K} (e : List.ofFn l' = List.ofFn l)
    {rf rf' : List (SkTree K 1)}
    (hv : ∀ t ∈ forest, ∀ r : Fin t.nLeaves, ∑ k, l k * levelRatio (affTree a b t) pa r k = a * (∑ k, l k * levelRatio t pa r k) + b)
    (h : List.Forall₂ (fun t t' => LeafUpdate t t' fun r _ => ∑ k, l k * levelRatio t pa r k) forest rf)
    (h' : List.Forall₂ (fun t t' => LeafUpdate t t' fun r _ => ∑ k, l' k * levelRatio t pa r k) (forest.map (affTree a b)) rf') :
    rf' = rf.map (affTree a b) := by
  have en : n' = n := by
    have := congrArg List.length e
    rwa [List.length_ofFn, List.length_ofFn] at this
  subst en
  have el : l' = l := List.ofFn_injective e
  subst el
  clear e
  induction h generalizing rf' with
  | nil =>
    cases h'
    rfl
  | @cons t t1 ts rs h1 _ ih =>
    rw [List.map_cons] at h'
    cases h' with
    | cons g1 g2 =>
      rw [List.map_cons, ih g2 (fun t ht => hv t (List.mem_cons_of_mem _ ht))]
      congr 1
      exact leafUpdate_aff a b h1 g1 fun r _ => hv t List.mem_cons_self r

/-- The two problems have the same solution if their losses are proportional. -/
theorem weights_same {a b : K} (ha : a ≠ 0) {pa nc : Bool} {tune : ℕ → List (TuneRow K 1)} {n n' : ℕ} (e : n' = n)
    (hne : ∀ tt ∈ forest.zipIdx, tune tt.2 ≠ []) (hr : ∀ tt ∈ forest.zipIdx, ∀ q ∈ tune tt.2, q.leaf < tt.1.nLeaves)
    (hind : ∀ x : Fin n → K, x ≠ 0 → ∃ tt ∈ forest.zipIdx, ∃ q ∈ tune tt.2, leafPred tt.1 pa x q.leaf ≠ 0)
    (hl : ∀ z : Fin n → K, (nc = false → InSimplex z) →
      tuneLoss (forest.map (affTree a b)) pa (affTune a b tune) z = a ^ 2 * tuneLoss forest pa tune z)
    {x : Fin n → K} {y : Fin n' → K} (hx : nc = false → InSimplex x) (hy : nc = false → InSimplex y)
    (mx : ∀ z : Fin n → K, (nc = false → InSimplex z) → tuneLoss forest pa tune x ≤ tuneLoss forest pa tune z)
    (my : ∀ z : Fin n' → K, (nc = false → InSimplex z) → tuneLoss (forest.map (affTree a b)) pa (affTune a b tune) y ≤
      tuneLoss (forest.map (affTree a b)) pa (affTune a b tune) z) : List.ofFn y = List.ofFn x := by
  subst e
  congr 1
  refine tuneLoss_unique (nc := nc) hne hr hind hy hx (fun z hz => ?_) mx
  have := my z hz
  rw [hl z hz, hl y hy] at this
  exact le_of_mul_le_mul_left this (by positivity)

theorem ind_unit {a : K} (ha : a ≠ 0) {pa : Bool} {tune : ℕ → List (TuneRow K 1)} {n n' : ℕ} (e : n' = n)
    (hind : ∀ x : Fin n → K, x ≠ 0 → ∃ tt ∈ forest.zipIdx, ∃ q ∈ tune tt.2, leafPred tt.1 pa x q.leaf ≠ 0) :
    ∀ x : Fin n' → K, x ≠ 0 → ∃ tt ∈ (forest.map (affTree a 0)).zipIdx, ∃ q ∈ affTune a 0 tune tt.2,
      leafPred tt.1 pa x q.leaf ≠ 0 := by
  subst e
  intro x hx
  obtain ⟨tt, ht, q, hq, hne⟩ := hind x hx
  refine ⟨(affTree a 0 tt.1, tt.2), ?_, affRow a 0 q, List.mem_map.2 ⟨q, hq, rfl⟩, ?_⟩
  · rw [zipIdx_aff]
    exact List.mem_map.2 ⟨tt, ht, rfl⟩
  · show leafPred (affTree a 0 tt.1) pa x q.leaf ≠ 0
    rw [leafPred_unit]
    exact mul_ne_zero ha hne

/-- With exact routines and a positive definite problem the weights minimise the loss. -/
theorem exact_min (ho : ExactLib o) (hwf : ∀ t ∈ forest, t.WF) {tp : Option ℤ} (hs : readSanity c.sanity = .ok (false, tp))
    (hr : ∀ tt ∈ forest.zipIdx, ∀ q ∈ sources (allSource c) tt.2, q.leaf < tt.1.nLeaves)
    (hind : ∀ x : Fin (forestDepth forest + 1) → K, x ≠ 0 → ∃ tt ∈ forest.zipIdx,
      ∃ q ∈ sources (allSource c) tt.2, leafPred tt.1 c.parentsAll x q.leaf ≠ 0) {rf : List (SkTree K 1)}
    {lamb : Fin (forestDepth forest + 1) → K}
    {fuel : ℕ} (hf : 2 ≤ fuel) (h : smoothAll o fuel forest c sources = .ok (some (rf, lamb))) :
    (c.noConstraint = false → InSimplex lamb) ∧
      ∀ l : Fin (forestDepth forest + 1) → K, (c.noConstraint = false → InSimplex l) →
        tuneLoss forest c.parentsAll (sources (allSource c)) lamb ≤ tuneLoss forest c.parentsAll (sources (allSource c)) l := by
  obtain ⟨m1, w, hw, hmin⟩ := C116_ridge ho hwf hs hr hf h
  refine ⟨m1, fun l hl => ?_⟩
  rcases hw with ⟨rfl, -⟩ | ⟨-, x, hx, hz⟩
  · have := hmin l hl
    linarith
  · obtain ⟨tt, ht, q, hq, hne⟩ := hind x hx
    exact absurd (hz tt ht q hq) hne

/-- C209, units: where no non-zero weights predict 0 at every tuning row, `smooth_all` with exact routines finds the same
weights when all responses are multiplied by `a`, and returns the same forest in the new unit. -/
theorem C209_units_partial (ho : ExactLib o) (hwf : ∀ t ∈ forest, t.WF) {tp : Option ℤ} (hs : readSanity c.sanity = .ok (false, tp))
    (hr : ∀ tt ∈ forest.zipIdx, ∀ q ∈ sources (allSource c) tt.2, q.leaf < tt.1.nLeaves)
    (hind : ∀ x : Fin (forestDepth forest + 1) → K, x ≠ 0 → ∃ tt ∈ forest.zipIdx,
      ∃ q ∈ sources (allSource c) tt.2, leafPred tt.1 c.parentsAll x q.leaf ≠ 0) {a : K} (ha : a ≠ 0)
    {rf rf' : List (SkTree K 1)} {lamb : Fin (forestDepth forest + 1) → K}
    {lamb' : Fin (forestDepth (forest.map (affTree a 0)) + 1) → K} {fuel : ℕ} (hf : 2 ≤ fuel)
    (h : smoothAll o fuel forest c sources = .ok (some (rf, lamb)))
    (h' : smoothAll o fuel (forest.map (affTree a 0)) c (affSources a 0 sources) = .ok (some (rf', lamb'))) :
    List.ofFn lamb' = List.ofFn lamb ∧ rf' = rf.map (affTree a 0) := by
  obtain ⟨_, _, _, _, -, h4, -, -, -, -⟩ := smoothAll_ok hwf h
  obtain ⟨s1, m1⟩ := exact_min ho hwf hs hr hind hf h
  obtain ⟨s2, m2⟩ := exact_min ho (wf_aff hwf) hs (rows_aff (P := fun tt i => i < tt.1.nLeaves) fun tt ht q hq => hr tt ht q hq)
    (ind_unit ha (by rw [forestDepth_aff]) hind) hf h'
  have e := weights_same ha (by rw [forestDepth_aff]) h4 hr hind (fun z _ => C209_loss a forest c.parentsAll _ z) s1 s2 m1 m2
  refine ⟨e, rf_aff e (fun t _ r => ?_) (C64_values hwf h) (C64_values (wf_aff hwf) h')⟩
  rw [add_zero, Finset.mul_sum]
  refine Finset.sum_congr rfl fun k _ => ?_
  rw [levelRatio_unit]
  ring

/-- C209, origin: the same for `y ↦ a * y + b` with `parents_all` and constrained weights. -/
theorem C209_origin_partial (ho : ExactLib o) (hwf : ∀ t ∈ forest, t.WF) (hn : ∀ t ∈ forest, ∀ r, 0 < t.nSamp (t.leafNode r))
    {tp : Option ℤ} (hs : readSanity c.sanity = .ok (false, tp)) (hp : c.parentsAll = true) (hc : c.noConstraint = false)
    (hr : ∀ tt ∈ forest.zipIdx, ∀ q ∈ sources (allSource c) tt.2, q.leaf < tt.1.nLeaves) {a : K} (ha : a ≠ 0) (b : K)
    (hind : ∀ x : Fin (forestDepth forest + 1) → K, x ≠ 0 → ∃ tt ∈ forest.zipIdx,
      ∃ q ∈ sources (allSource c) tt.2, leafPred tt.1 c.parentsAll x q.leaf ≠ 0)
    (hind' : ∀ x : Fin (forestDepth (forest.map (affTree a b)) + 1) → K, x ≠ 0 → ∃ tt ∈ (forest.map (affTree a b)).zipIdx,
      ∃ q ∈ affSources a b sources (allSource c) tt.2, leafPred tt.1 c.parentsAll x q.leaf ≠ 0)
    {rf rf' : List (SkTree K 1)} {lamb : Fin (forestDepth forest + 1) → K}
    {lamb' : Fin (forestDepth (forest.map (affTree a b)) + 1) → K} {fuel : ℕ} (hf : 2 ≤ fuel)
    (h : smoothAll o fuel forest c sources = .ok (some (rf, lamb)))
    (h' : smoothAll o fuel (forest.map (affTree a b)) c (affSources a b sources) = .ok (some (rf', lamb'))) :
    List.ofFn lamb' = List.ofFn lamb ∧ rf' = rf.map (affTree a b) := by
  obtain ⟨_, _, _, _, -, h4, -, -, -, -⟩ := smoothAll_ok hwf h
  obtain ⟨s1, m1⟩ := exact_min ho hwf hs hr hind hf h
  obtain ⟨s2, m2⟩ := exact_min ho (wf_aff hwf) hs (rows_aff (P := fun tt i => i < tt.1.nLeaves) fun tt ht q hq => hr tt ht q hq)
    hind' hf h'
  rw [hp] at m1 m2 hind
  have e := weights_same ha (by rw [forestDepth_aff]) h4 hr hind
    (fun z hz => C209_loss_origin a b hwf hn hr (hz hc).2) s1 s2 m1 m2
  refine ⟨e, rf_aff e (fun t ht r => ?_) (C64_values hwf h) (C64_values (wf_aff hwf) h')⟩
  have := leafPred_affine (a := a) (b := b) (hwf t ht) (hn t ht) (s1 hc).2 r.isLt
  unfold leafPred at this
  rw [dif_pos r.isLt] at this
  rw [hp]
  exact (dif_pos (c := r.val < (affTree a b t).nLeaves) r.isLt).symm.trans this

/-- C209, in general: in the unit `a` the weights solve the problem of the original unit with the diagonal update divided by
`a²`. -/
theorem C209_ridge (ho : ExactLib o) (hwf : ∀ t ∈ forest, t.WF) {tp : Option ℤ} (hs : readSanity c.sanity = .ok (false, tp))
    (hr : ∀ tt ∈ forest.zipIdx, ∀ q ∈ sources (allSource c) tt.2, q.leaf < tt.1.nLeaves) {a : K} (ha : a ≠ 0)
    {rf' : List (SkTree K 1)} {lamb' : Fin (forestDepth (forest.map (affTree a 0)) + 1) → K} {fuel : ℕ} (hf : 2 ≤ fuel)
    (h' : smoothAll o fuel (forest.map (affTree a 0)) c (affSources a 0 sources) = .ok (some (rf', lamb'))) :
    ∃ w, (w = 0 ∨ w = o.unit) ∧ ∀ l : Fin (forestDepth (forest.map (affTree a 0)) + 1) → K, (c.noConstraint = false → InSimplex l) →
      tuneLoss forest c.parentsAll (sources (allSource c)) lamb' + w / a ^ 2 / 2 * ∑ i, lamb' i ^ 2 ≤
      tuneLoss forest c.parentsAll (sources (allSource c)) l + w / a ^ 2 / 2 * ∑ i, l i ^ 2 := by
  obtain ⟨m1, w, hw, hmin⟩ := C116_ridge ho (wf_aff hwf) hs
    (rows_aff (P := fun tt i => i < tt.1.nLeaves) fun tt ht q hq => hr tt ht q hq) hf h'
  refine ⟨w, hw.imp And.left And.left, fun l hl => ?_⟩
  have := hmin l hl
  have e := fun l : Fin (forestDepth (forest.map (affTree a 0)) + 1) → K =>
    C209_loss a forest c.parentsAll (sources (allSource c)) l
  have ea : ∀ l : Fin (forestDepth (forest.map (affTree a 0)) + 1) → K,
      tuneLoss (forest.map (affTree a 0)) c.parentsAll (affSources a 0 sources (allSource c)) l + w / 2 * ∑ i, l i ^ 2 =
      a ^ 2 * (tuneLoss forest c.parentsAll (sources (allSource c)) l + w / a ^ 2 / 2 * ∑ i, l i ^ 2) := by
    intro l
    have := e l
    change tuneLoss (forest.map (affTree a 0)) c.parentsAll (affSources a 0 sources (allSource c)) l = _ at this
    rw [this, mul_add]
    field_simp
  rw [ea, ea] at this
  exact le_of_mul_le_mul_left this (by positivity)

end

/-! ### cases -/

theorem exStumpR_samples (r : Fin exStumpR.nLeaves) : 0 < exStumpR.nSamp (exStumpR.leafNode r) := by
  generalize exStumpR.leafNode r = i
  revert i
  show ∀ i : Fin 3, (0 : ℝ) < ![2, 1, 1] i
  intro i
  fin_cases i <;> norm_num

theorem exStumpR_ratio_all (r : Fin exStumpR.nLeaves) (k : Fin 2) :
    levelRatio exStumpR true r k = if k.val = 0 then (if r.val = 0 then 1 else 4) else 5 / 2 := by
  have hD : ∀ (r : Fin exStumpR.nLeaves) (k : Fin 2),
      (Finset.univ.filter fun j => exStumpR.distDepth .standard r j ≤ (k.val : ℤ)) =
        if k.val = 0 then {r} else {⟨0, by decide⟩, ⟨1, by decide⟩} := by decide
  have hl : exStumpR.leafNode ⟨0, by decide⟩ = 1 ∧ exStumpR.leafNode ⟨1, by decide⟩ = 2 := by decide
  have hne : (⟨0, by decide⟩ : Fin exStumpR.nLeaves) ≠ ⟨1, by decide⟩ := by decide
  unfold levelRatio levelSum
  simp only [if_true]
  rw [hD]
  by_cases hk : k.val = 0
  · rw [if_pos hk, if_pos hk, Finset.sum_singleton, Finset.sum_singleton, if_neg (exStumpR_samples r).ne',
      mul_div_cancel_left₀ _ (exStumpR_samples r).ne']
    obtain ⟨i, hi⟩ := r
    have : i = 0 ∨ i = 1 := by
      have : exStumpR.nLeaves = 2 := by decide
      omega
    rcases this with rfl | rfl
    · rw [hl.1]; rfl
    · rw [hl.2]; rfl
  · rw [if_neg hk, if_neg hk, Finset.sum_pair hne, Finset.sum_pair hne, hl.1, hl.2]
    show (if (1 : ℝ) + 1 = 0 then (0 : ℝ) else ((1 : ℝ) * 1 + 1 * 4) / (1 + 1)) = _
    norm_num

theorem exStumpR_pred_all (x : Fin 2 → ℝ) :
    leafPred exStumpR true x 0 = x 0 + 5 / 2 * x 1 ∧ leafPred exStumpR true x 1 = 4 * x 0 + 5 / 2 * x 1 := by
  have h0 : (0 : ℕ) < exStumpR.nLeaves := by decide
  have h1 : (1 : ℕ) < exStumpR.nLeaves := by decide
  unfold leafPred
  rw [dif_pos h0, dif_pos h1, Fin.sum_univ_two, Fin.sum_univ_two]
  simp only [exStumpR_ratio_all]
  norm_num
  constructor <;> ring

/-- A tree that is one leaf, with value 5. -/
noncomputable abbrev exDotR : SkTree ℝ 1 :=
  { toTopo := ⟨0, ![none], ![none]⟩
    value := fun _ _ => 5
    nSamp := ![1]
    impurity := ![0] }

theorem exDotR_ratio (r : Fin exDotR.nLeaves) (k : Fin 2) :
    levelSum false (exDotR.distDepth .standard) (fun j => exDotR.nSamp (exDotR.leafNode j)) r k = (if k.val = 0 then 1 else 0) ∧
      levelRatio exDotR false r k = if k.val = 0 then 5 else 0 := by
  have hD : ∀ (r : Fin exDotR.nLeaves) (k : Fin 2),
      (Finset.univ.filter fun j => exDotR.distDepth .standard r j = (k.val : ℤ)) = if k.val = 0 then {r} else ∅ := by decide
  have hs : ∀ r, exDotR.nSamp (exDotR.leafNode r) = 1 := by
    intro r
    generalize exDotR.leafNode r = i
    revert i
    show ∀ i : Fin 1, (![1] : Fin 1 → ℝ) i = 1
    intro i
    fin_cases i
    rfl
  have e : levelSum false (exDotR.distDepth .standard) (fun j => exDotR.nSamp (exDotR.leafNode j)) r k =
      if k.val = 0 then 1 else 0 := by
    unfold levelSum
    simp only [Bool.false_eq_true, if_false]
    rw [hD]
    split_ifs
    · rw [Finset.sum_singleton]
      exact hs r
    · rw [Finset.sum_empty]
  refine ⟨e, ?_⟩
  unfold levelRatio
  rw [e]
  split_ifs with h1 h2 h2
  · exact absurd h2 one_ne_zero
  · unfold levelSum
    simp only [Bool.false_eq_true, if_false]
    rw [hD, if_pos h1, Finset.sum_singleton]
    exact (congrArg (fun z : ℝ => z * 5 / 1) (hs r)).trans (by norm_num)
  · rfl
  · exact absurd rfl h2

theorem exDotR_pred (b : ℝ) (x : Fin 2 → ℝ) : leafPred (affTree 1 b exDotR) false x 0 = (5 + b) * x 0 := by
  have h0 : (0 : ℕ) < exDotR.nLeaves := by decide
  unfold leafPred
  refine (dif_pos h0).trans ?_
  rw [Fin.sum_univ_two]
  have e0 := levelRatio_aff 1 b exDotR false ⟨0, h0⟩ (0 : Fin 2).val
  have e1 := levelRatio_aff 1 b exDotR false ⟨0, h0⟩ (1 : Fin 2).val
  rw [(exDotR_ratio _ _).1, (exDotR_ratio _ _).2] at e0 e1
  norm_num at e0 e1
  refine (congrArg₂ (fun u v => x 0 * u + x 1 * v) e0 e1).trans ?_
  ring

theorem exStumpR_pred_shift (b : ℝ) (x : Fin 2 → ℝ) :
    leafPred (affTree 1 b exStumpR) false x 0 = (1 + b) * x 0 + (4 + b) * x 1 ∧
      leafPred (affTree 1 b exStumpR) false x 1 = (4 + b) * x 0 + (1 + b) * x 1 := by
  have h0 : (0 : ℕ) < exStumpR.nLeaves := by decide
  have h1 : (1 : ℕ) < exStumpR.nLeaves := by decide
  have hpos : ∀ (r : Fin exStumpR.nLeaves) (k : Fin 2),
      levelSum false (exStumpR.distDepth .standard) (fun j => exStumpR.nSamp (exStumpR.leafNode j)) r k ≠ 0 := by
    intro r k
    have hD : ∀ (r : Fin exStumpR.nLeaves) (k : Fin 2),
      (Finset.univ.filter fun j => exStumpR.distDepth .standard r j = (k.val : ℤ)) =
        {if r.val = k.val then ⟨0, by decide⟩ else ⟨1, by decide⟩} := by decide
    unfold levelSum
    simp only [Bool.false_eq_true, if_false]
    rw [hD, Finset.sum_singleton]
    exact (exStumpR_samples _).ne'
  have e : ∀ (r : Fin exStumpR.nLeaves) (k : Fin 2), levelRatio (affTree 1 b exStumpR) false r k =
      (if r.val = k.val then 1 else 4) + b := by
    intro r k
    have := levelRatio_aff 1 b exStumpR false r k
    rw [if_neg (hpos r k), exStumpR_ratio, one_mul] at this
    exact this
  unfold leafPred
  constructor
  · refine (dif_pos h0).trans ?_
    rw [Fin.sum_univ_two]
    refine (congrArg₂ (fun u v => x 0 * u + x 1 * v) (e ⟨0, h0⟩ 0) (e ⟨0, h0⟩ 1)).trans ?_
    norm_num
    ring
  · refine (dif_pos h1).trans ?_
    rw [Fin.sum_univ_two]
    refine (congrArg₂ (fun u v => x 0 * u + x 1 * v) (e ⟨1, h1⟩ 0) (e ⟨1, h1⟩ 1)).trans ?_
    norm_num
    ring

theorem exDotR_samples (r : Fin exDotR.nLeaves) : 0 < exDotR.nSamp (exDotR.leafNode r) := by
  generalize exDotR.leafNode r = i
  revert i
  show ∀ i : Fin 1, (0 : ℝ) < ![1] i
  intro i
  fin_cases i
  norm_num

/-- The run of the stump on one row, in the unit `a`. -/
theorem exUnit_run {o : AllOracles ℝ} (ho : ExactLib o) {a : ℝ} (ha : a ≠ 0) : ∃ rf lamb, (∀ fuel, 2 ≤ fuel →
      smoothAll o fuel ([exStumpR].map (affTree a 0)) (exAllCfg false (.bool false)) (affSources a 0 exRowOne) =
        .ok (some (rf, lamb))) ∧
    List.ofFn lamb = [1 - o.unit / (2 * o.unit + 9 * a ^ 2), o.unit / (2 * o.unit + 9 * a ^ 2)] := by
  have hwf : ∀ t ∈ [exStumpR], t.WF := by simp; decide
  have hn : ∀ t ∈ [exStumpR].map (affTree a 0), ∀ r, 0 < t.nSamp (t.leafNode r) := by
    intro t ht r
    obtain ⟨t', ht', rfl⟩ := List.mem_map.1 ht
    rw [List.mem_singleton] at ht'
    subst ht'
    exact exStumpR_samples r
  have hr : ∀ tt ∈ [exStumpR].zipIdx, ∀ q ∈ exRowOne .given tt.2, q.leaf < tt.1.nLeaves := by
    simp; decide
  have hr' := rows_aff (a := a) (b := 0) (P := fun tt i => i < tt.1.nLeaves) fun tt ht q hq => hr tt ht q hq
  obtain ⟨rf, lamb, hrun⟩ := C116_returns (c := exAllCfg false (.bool false)) (sources := affSources a 0 exRowOne) ho
    (wf_aff hwf) hn (by decide) rfl (flag := false) (tp := none) rfl (by simp) (by
      intro tt _ h
      cases h) hr'
  refine ⟨rf, lamb, hrun, ?_⟩
  obtain ⟨hsx, w, hw, hmin⟩ := C116_ridge ho (wf_aff hwf) (tp := none) rfl hr' le_rfl (hrun 2 le_rfl)
  have hsx := hsx rfl
  have hwu : w = o.unit := by
    rcases hw with ⟨-, h⟩ | ⟨e, -⟩
    · have hx : (![4, -1] : Fin 2 → ℝ) ≠ 0 := fun e => by
        have := congrFun e 0
        simp at this
      obtain ⟨tt, ht, q, hq, hne⟩ := h (![4, -1] : Fin 2 → ℝ) hx
      exfalso
      apply hne
      rw [zipIdx_aff] at ht
      obtain ⟨tt', ht', rfl⟩ := List.mem_map.1 ht
      obtain ⟨q', hq', rfl⟩ := List.mem_map.1 hq
      simp only [List.zipIdx_singleton, List.mem_singleton] at ht' hq'
      subst ht'
      subst hq'
      refine (leafPred_unit a exStumpR false (![4, -1] : Fin 2 → ℝ) 0).trans ?_
      rw [(exStumpR_pred ![4, -1]).1]
      simp
    · exact e
  subst hwu
  have hloss : ∀ x : Fin 2 → ℝ, tuneLoss ([exStumpR].map (affTree a 0)) false (affTune a 0 (exRowOne .given)) x =
      a ^ 2 * (1 / 2 * (x 0 + 4 * x 1 - 1) ^ 2) := by
    intro x
    rw [C209_loss, exRowOne_loss]
  have hu := ho.unit
  have hd : 0 < 2 * o.unit + 9 * a ^ 2 := by positivity
  obtain ⟨s, hs⟩ : ∃ s, s = o.unit / (2 * o.unit + 9 * a ^ 2) := ⟨_, rfl⟩
  have hs1 : (2 * o.unit + 9 * a ^ 2) * s = o.unit := by
    rw [hs]
    field_simp
  have hs0 : 0 < s := by rw [hs]; positivity
  have hs2 : s ≤ 1 := by
    rw [hs, div_le_one hd]
    have : 0 ≤ a ^ 2 := sq_nonneg a
    linarith
  have key : ∀ l : Fin 2 → ℝ, InSimplex l → (∀ z : Fin 2 → ℝ, InSimplex z →
      a ^ 2 * (1 / 2 * (l 0 + 4 * l 1 - 1) ^ 2) + o.unit / 2 * ∑ i, l i ^ 2 ≤
        a ^ 2 * (1 / 2 * (z 0 + 4 * z 1 - 1) ^ 2) + o.unit / 2 * ∑ i, z i ^ 2) → l 0 = 1 - s ∧ l 1 = s := by
    intro l hl hm
    have h1 := hl.2
    rw [Fin.sum_univ_two] at h1
    have h2 := hm ![1 - s, s] ⟨fun i => by fin_cases i <;> simp <;> linarith, by rw [Fin.sum_univ_two]; simp⟩
    rw [Fin.sum_univ_two, Fin.sum_univ_two] at h2
    have e0 : (![1 - s, s] : Fin 2 → ℝ) 0 = 1 - s := rfl
    have e1 : (![1 - s, s] : Fin 2 → ℝ) 1 = s := rfl
    rw [e0, e1, show l 0 = 1 - l 1 by linarith] at h2
    have h3 : (2 * o.unit + 9 * a ^ 2) * (l 1 - s) ^ 2 ≤ 0 := by
      have : (2 * o.unit + 9 * a ^ 2) * (l 1 - s) ^ 2 = 2 * (a ^ 2 * (1 / 2 * (1 - l 1 + 4 * l 1 - 1) ^ 2) +
          o.unit / 2 * ((1 - l 1) ^ 2 + l 1 ^ 2) - (a ^ 2 * (1 / 2 * (1 - s + 4 * s - 1) ^ 2) +
          o.unit / 2 * ((1 - s) ^ 2 + s ^ 2))) - 2 * (l 1 - s) * ((2 * o.unit + 9 * a ^ 2) * s - o.unit) := by ring
      rw [this, hs1]
      linarith
    have h4 : (l 1 - s) ^ 2 = 0 := by
      have := sq_nonneg (l 1 - s)
      by_contra hc
      have : 0 < (l 1 - s) ^ 2 := lt_of_le_of_ne this (Ne.symm hc)
      have := mul_pos hd this
      linarith
    have h5 : l 1 = s := by
      have := pow_eq_zero_iff two_ne_zero |>.1 h4
      linarith
    exact ⟨by linarith, h5⟩
  have := key lamb hsx fun z hz => by
    have := hmin z fun _ => hz
    have e1 := hloss lamb
    have e2 := hloss z
    change tuneLoss ([exStumpR].map (affTree a 0)) false (affSources a 0 exRowOne .given) lamb = _ at e1
    change tuneLoss ([exStumpR].map (affTree a 0)) false (affSources a 0 exRowOne .given) z = _ at e2
    refine (congrArg (· + o.unit / 2 * ∑ i, lamb i ^ 2) e1).symm.le.trans ?_
    refine le_trans ?_ (congrArg (· + o.unit / 2 * ∑ i, z i ^ 2) e2).le
    exact this
  rw [← hs]
  have e2 : ∀ l : Fin 2 → ℝ, List.ofFn l = [l 0, l 1] := fun l => by
    rw [List.ofFn_succ, List.ofFn_succ, List.ofFn_zero]
    rfl
  exact (e2 lamb).trans (congrArg₂ (fun u v => [u, v]) this.1 this.2)

/-- C209, refuted in general: with exact routines, one stump and one tuning row, the weight of the sibling is `u / (2 u + 9)`, where
`u` is the diagonal update; with all responses doubled it is `u / (2 u + 36)`. The update is not in the units of the data. -/
theorem C209_units_refuted {o : AllOracles ℝ} (ho : ExactLib o) : ∃ rf rf' lamb lamb', (∀ fuel, 2 ≤ fuel →
      smoothAll o fuel ([exStumpR].map (affTree 1 0)) (exAllCfg false (.bool false)) (affSources 1 0 exRowOne) =
        .ok (some (rf, lamb)) ∧
      smoothAll o fuel ([exStumpR].map (affTree 2 0)) (exAllCfg false (.bool false)) (affSources 2 0 exRowOne) =
        .ok (some (rf', lamb'))) ∧
    List.ofFn lamb = [1 - o.unit / (2 * o.unit + 9), o.unit / (2 * o.unit + 9)] ∧
    List.ofFn lamb' = [1 - o.unit / (2 * o.unit + 36), o.unit / (2 * o.unit + 36)] ∧ List.ofFn lamb' ≠ List.ofFn lamb := by
  obtain ⟨rf, lamb, h, e⟩ := exUnit_run ho (a := 1) one_ne_zero
  obtain ⟨rf', lamb', h', e'⟩ := exUnit_run ho (a := 2) two_ne_zero
  have n1 : (9 : ℝ) * 1 ^ 2 = 9 := by norm_num
  have n2 : (9 : ℝ) * 2 ^ 2 = 36 := by norm_num
  rw [n1] at e
  rw [n2] at e'
  refine ⟨rf, rf', lamb, lamb', fun fuel hf => ⟨h fuel hf, h' fuel hf⟩, e, e', fun hc => ?_⟩
  rw [e, e'] at hc
  have hu := ho.unit
  have h1 : o.unit / (2 * o.unit + 36) = o.unit / (2 * o.unit + 9) := by
    injection hc with _ hc
    injection hc
  rw [div_eq_div_iff (by positivity) (by positivity)] at h1
  nlinarith

/-- Exact routines exist. -/
example : ExactLib exactOracles := exact_lib

/-- Tuning rows of a stump and a tree that is one leaf. -/
noncomputable abbrev exTwoRows : TuneSrc → ℕ → List (TuneRow ℝ 1) :=
  fun _ k => if k = 0 then [⟨0, fun _ => 4⟩, ⟨1, fun _ => 1⟩] else [⟨0, fun _ => 0⟩]

theorem exTwoRows_loss (b : ℝ) (x : Fin 2 → ℝ) :
    tuneLoss ([exStumpR, exDotR].map (affTree 1 b)) false (affTune 1 b (exTwoRows .given)) x =
      1 / 2 * ((((1 + b) * x 0 + (4 + b) * x 1 - (4 + b)) ^ 2 + ((4 + b) * x 0 + (1 + b) * x 1 - (1 + b)) ^ 2) / 2 +
        ((5 + b) * x 0 - b) ^ 2) := by
  unfold tuneLoss
  rw [zipIdx_aff]
  have t0 : affTune 1 b (exTwoRows .given) 0 = [⟨0, fun _ => 1 * 4 + b⟩, ⟨1, fun _ => 1 * 1 + b⟩] := rfl
  have t1 : affTune 1 b (exTwoRows .given) 1 = [⟨0, fun _ => 1 * 0 + b⟩] := rfl
  simp only [List.zipIdx_cons, List.zipIdx_nil, List.map_cons, List.map_nil, zero_add, t0, t1, List.sum_cons, List.sum_nil,
    List.length_cons, List.length_nil]
  rw [(exStumpR_pred_shift b x).1, (exStumpR_pred_shift b x).2, exDotR_pred]
  push_cast
  ring

/-- C209, refuted in general, origin: with exact routines the stump and the one-leaf tree are fitted exactly to the tuning rows,
but with all responses raised by one they are not. The levels that the one-leaf tree lacks count as 0, wherever the responses have
their origin. -/
theorem C209_origin_refuted : ∃ rf rf' lamb lamb', (∀ fuel, 2 ≤ fuel →
      smoothAll exactOracles fuel [exStumpR, exDotR] (exAllCfg false (.bool false)) exTwoRows = .ok (some (rf, lamb)) ∧
      smoothAll exactOracles fuel ([exStumpR, exDotR].map (affTree 1 1)) (exAllCfg false (.bool false)) (affSources 1 1 exTwoRows) =
        .ok (some (rf', lamb'))) ∧
    forestMSE rf (exTwoRows .given) = 0 ∧ 0 < forestMSE rf' (affSources 1 1 exTwoRows .given) := by
  have hwf : ∀ t ∈ [exStumpR, exDotR], t.WF := by simp; decide
  have hn : ∀ t ∈ [exStumpR, exDotR], ∀ r, 0 < t.nSamp (t.leafNode r) := by
    intro t ht r
    rcases List.mem_cons.1 ht with rfl | ht
    · exact exStumpR_samples r
    · rw [List.mem_singleton] at ht
      subst ht
      exact exDotR_samples r
  have hn' : ∀ t ∈ [exStumpR, exDotR].map (affTree 1 1), ∀ r, 0 < t.nSamp (t.leafNode r) := by
    intro t ht r
    obtain ⟨t', ht', rfl⟩ := List.mem_map.1 ht
    exact hn t' ht' r
  have hr : ∀ tt ∈ [exStumpR, exDotR].zipIdx, ∀ q ∈ exTwoRows .given tt.2, q.leaf < tt.1.nLeaves := by
    simp; decide
  have hr' := rows_aff (a := 1) (b := 1) (P := fun tt i => i < tt.1.nLeaves) fun tt ht q hq => hr tt ht q hq
  have hne : ∀ k, exTwoRows .given k ≠ [] := by
    intro k h
    unfold exTwoRows at h
    split_ifs at h
  obtain ⟨rf, lamb, hrun⟩ := C116_returns (c := exAllCfg false (.bool false)) (sources := exTwoRows) exact_lib hwf hn
    (by decide) rfl (flag := false) (tp := none) rfl (by simp) (fun tt _ => hne tt.2) hr
  obtain ⟨rf', lamb', hrun'⟩ := C116_returns (c := exAllCfg false (.bool false)) (sources := affSources 1 1 exTwoRows) exact_lib
    (wf_aff hwf) hn' (by decide) rfl (flag := false) (tp := none) rfl (by simp)
    (fun tt _ h => hne tt.2 (List.map_eq_nil_iff.1 h)) hr'
  refine ⟨rf, rf', lamb, lamb', fun fuel hf => ⟨hrun fuel hf, hrun' fuel hf⟩, ?_, ?_⟩
  · have hl0 : ∀ x : Fin 2 → ℝ, tuneLoss [exStumpR, exDotR] false (exTwoRows .given) x =
        1 / 2 * (((x 0 + 4 * x 1 - 4) ^ 2 + (4 * x 0 + x 1 - 1) ^ 2) / 2 + (5 * x 0) ^ 2) := by
      intro x
      have h1 := C209_loss 1 [exStumpR, exDotR] false (exTwoRows .given) x
      rw [exTwoRows_loss 0 x] at h1
      linarith
    have hind : ∀ x : Fin 2 → ℝ, x ≠ 0 → ∃ tt ∈ [exStumpR, exDotR].zipIdx, ∃ q ∈ exTwoRows .given tt.2,
        leafPred tt.1 false x q.leaf ≠ 0 := by
      intro x hx
      by_contra hcon
      push Not at hcon
      have h := hcon (exStumpR, 0) (by simp)
      have h0 := h ⟨0, fun _ => 4⟩ (by simp [exTwoRows])
      have h1 := h ⟨1, fun _ => 1⟩ (by simp [exTwoRows])
      have h0' := (exStumpR_pred x).1.symm.trans h0
      have h1' := (exStumpR_pred x).2.symm.trans h1
      apply hx
      funext i
      fin_cases i
      · show x 0 = 0
        linarith
      · show x 1 = 0
        linarith
    obtain ⟨-, hmin⟩ := exact_min (c := exAllCfg false (.bool false)) exact_lib hwf (tp := none) rfl hr hind le_rfl (hrun 2 le_rfl)
    rw [mse_eq false lamb (C64_values hwf (hrun 2 le_rfl)) _ hr]
    have hs01 : InSimplex (![0, 1] : Fin 2 → ℝ) := ⟨fun i => by fin_cases i <;> simp, by rw [Fin.sum_univ_two]; simp⟩
    have hm := hmin (![0, 1] : Fin 2 → ℝ) fun _ => hs01
    have e1' : tuneLoss [exStumpR, exDotR] false (exTwoRows .given) (![0, 1] : Fin 2 → ℝ) = 0 := by
      rw [hl0]
      simp
    have h3 := hm.trans (le_of_eq e1')
    have h4 : ∀ x : Fin 2 → ℝ, 0 ≤ tuneLoss [exStumpR, exDotR] false (exTwoRows .given) x := by
      intro x
      rw [hl0 x]
      positivity
    have h5 := h4 lamb
    exact mul_eq_zero_of_right _ (le_antisymm h3 h5)
  · have hv := C64_values (wf_aff hwf) (hrun' 2 le_rfl)
    have hm := mse_eq (forest := [exStumpR, exDotR].map (affTree 1 1)) false lamb' hv (affTune 1 1 (exTwoRows .given)) hr'
    obtain ⟨hsx, -⟩ := C116_ridge exact_lib (wf_aff hwf) (tp := none) rfl hr' le_rfl (hrun' 2 le_rfl)
    have key : ∀ x : Fin 2 → ℝ, InSimplex x →
        0 < tuneLoss ([exStumpR, exDotR].map (affTree 1 1)) false (affTune 1 1 (exTwoRows .given)) x := by
      intro x hx
      rw [exTwoRows_loss]
      have h1 := hx.2
      rw [Fin.sum_univ_two] at h1
      rw [show x 1 = 1 - x 0 by linarith]
      nlinarith [sq_nonneg (x 0 - 1 / 10)]
    have hk := key lamb' (hsx rfl)
    refine lt_of_lt_of_eq ?_ hm.symm
    exact mul_pos two_pos hk

/-- The hypotheses of `C209_units_partial` hold for the stump with one tuning row in each leaf, tripled. -/
example : ∃ rf rf' lamb lamb',
    smoothAll exactOracles 2 [exStumpR] (exAllCfg false (.bool false)) exRowsR = .ok (some (rf, lamb)) ∧
    smoothAll exactOracles 2 ([exStumpR].map (affTree 3 0)) (exAllCfg false (.bool false)) (affSources 3 0 exRowsR) =
      .ok (some (rf', lamb')) ∧
    List.ofFn lamb' = List.ofFn lamb ∧ rf' = rf.map (affTree 3 0) := by
  have hwf : ∀ t ∈ [exStumpR], t.WF := by simp; decide
  have hn : ∀ t ∈ [exStumpR], ∀ r, 0 < t.nSamp (t.leafNode r) := by
    intro t ht r
    rw [List.mem_singleton] at ht
    subst ht
    exact exStumpR_samples r
  have hn' : ∀ t ∈ [exStumpR].map (affTree 3 0), ∀ r, 0 < t.nSamp (t.leafNode r) := by
    intro t ht r
    obtain ⟨t', ht', rfl⟩ := List.mem_map.1 ht
    exact hn t' ht' r
  have hr : ∀ tt ∈ [exStumpR].zipIdx, ∀ q ∈ exRowsR .given tt.2, q.leaf < tt.1.nLeaves := by
    simp; decide
  have hr' := rows_aff (a := 3) (b := 0) (P := fun tt i => i < tt.1.nLeaves) fun tt ht q hq => hr tt ht q hq
  obtain ⟨rf, lamb, hrun⟩ := C116_returns (c := exAllCfg false (.bool false)) (sources := exRowsR) exact_lib hwf hn
    (by decide) rfl (flag := false) (tp := none) rfl (by simp) (by simp) hr
  obtain ⟨rf', lamb', hrun'⟩ := C116_returns (c := exAllCfg false (.bool false)) (sources := affSources 3 0 exRowsR) exact_lib
    (wf_aff hwf) hn' (by decide) rfl (flag := false) (tp := none) rfl (by simp) (by
      intro tt _ h
      cases h) hr'
  refine ⟨rf, rf', lamb, lamb', hrun 2 le_rfl, hrun' 2 le_rfl, C209_units_partial exact_lib hwf (tp := none) rfl hr ?_ three_ne_zero le_rfl
    (hrun 2 le_rfl) (hrun' 2 le_rfl)⟩
  show ∀ x : Fin 2 → ℝ, x ≠ 0 → _
  intro x hx
  by_contra hcon
  push Not at hcon
  have h := hcon (exStumpR, 0) (by simp)
  have h0 := h ⟨0, fun _ => 2⟩ (by simp [exRowsR, allSource])
  have h1 := h ⟨1, fun _ => 3⟩ (by simp [exRowsR, allSource])
  have h0' := (exStumpR_pred x).1.symm.trans h0
  have h1' := (exStumpR_pred x).2.symm.trans h1
  apply hx
  funext i
  fin_cases i
  · show x 0 = 0
    linarith
  · show x 1 = 0
    linarith

theorem exStumpR_pred_all_shift (a b : ℝ) (x : Fin 2 → ℝ) :
    leafPred (affTree a b exStumpR) true x 0 = (a + b) * x 0 + (5 / 2 * a + b) * x 1 ∧
      leafPred (affTree a b exStumpR) true x 1 = (4 * a + b) * x 0 + (5 / 2 * a + b) * x 1 := by
  have h0 : (0 : ℕ) < exStumpR.nLeaves := by decide
  have h1 : (1 : ℕ) < exStumpR.nLeaves := by decide
  have hwf : exStumpR.WF := by decide
  have e : ∀ (r : Fin exStumpR.nLeaves) (k : Fin 2), levelRatio (affTree a b exStumpR) true r k =
      a * (if k.val = 0 then (if r.val = 0 then 1 else 4) else 5 / 2) + b := by
    intro r k
    have := levelRatio_aff a b exStumpR true r k
    rw [if_neg (levelSum_all_pos hwf exStumpR_samples r k).ne', exStumpR_ratio_all] at this
    exact this
  unfold leafPred
  constructor
  · refine (dif_pos h0).trans ?_
    rw [Fin.sum_univ_two]
    refine (congrArg₂ (fun u v => x 0 * u + x 1 * v) (e ⟨0, h0⟩ 0) (e ⟨0, h0⟩ 1)).trans ?_
    norm_num
    ring
  · refine (dif_pos h1).trans ?_
    rw [Fin.sum_univ_two]
    refine (congrArg₂ (fun u v => x 0 * u + x 1 * v) (e ⟨1, h1⟩ 0) (e ⟨1, h1⟩ 1)).trans ?_
    norm_num
    ring

/-- The hypotheses of `C209_origin_partial` hold for the stump with `parents_all`, for `y ↦ 2 y + 1`. -/
example : ∃ rf rf' lamb lamb',
    smoothAll exactOracles 2 [exStumpR] (exAllCfg true (.bool false)) exRowsR = .ok (some (rf, lamb)) ∧
    smoothAll exactOracles 2 ([exStumpR].map (affTree 2 1)) (exAllCfg true (.bool false)) (affSources 2 1 exRowsR) =
      .ok (some (rf', lamb')) ∧
    List.ofFn lamb' = List.ofFn lamb ∧ rf' = rf.map (affTree 2 1) := by
  have hwf : ∀ t ∈ [exStumpR], t.WF := by simp; decide
  have hn : ∀ t ∈ [exStumpR], ∀ r, 0 < t.nSamp (t.leafNode r) := by
    intro t ht r
    rw [List.mem_singleton] at ht
    subst ht
    exact exStumpR_samples r
  have hn' : ∀ t ∈ [exStumpR].map (affTree 2 1), ∀ r, 0 < t.nSamp (t.leafNode r) := by
    intro t ht r
    obtain ⟨t', ht', rfl⟩ := List.mem_map.1 ht
    exact hn t' ht' r
  have hr : ∀ tt ∈ [exStumpR].zipIdx, ∀ q ∈ exRowsR .given tt.2, q.leaf < tt.1.nLeaves := by
    simp; decide
  have hr' := rows_aff (a := 2) (b := 1) (P := fun tt i => i < tt.1.nLeaves) fun tt ht q hq => hr tt ht q hq
  obtain ⟨rf, lamb, hrun⟩ := C116_returns (c := exAllCfg true (.bool false)) (sources := exRowsR) exact_lib hwf hn
    (by decide) rfl (flag := false) (tp := none) rfl (by simp) (by simp) hr
  obtain ⟨rf', lamb', hrun'⟩ := C116_returns (c := exAllCfg true (.bool false)) (sources := affSources 2 1 exRowsR) exact_lib
    (wf_aff hwf) hn' (by decide) rfl (flag := false) (tp := none) rfl (by simp) (by
      intro tt _ h
      cases h) hr'
  refine ⟨rf, rf', lamb, lamb', hrun 2 le_rfl, hrun' 2 le_rfl, C209_origin_partial exact_lib hwf hn (tp := none) rfl rfl rfl hr two_ne_zero 1
    ?_ ?_ le_rfl (hrun 2 le_rfl) (hrun' 2 le_rfl)⟩
  · show ∀ x : Fin 2 → ℝ, x ≠ 0 → _
    intro x hx
    by_contra hcon
    push Not at hcon
    have h := hcon (exStumpR, 0) (by simp)
    have h0 := h ⟨0, fun _ => 2⟩ (by simp [exRowsR, allSource])
    have h1 := h ⟨1, fun _ => 3⟩ (by simp [exRowsR, allSource])
    have h0' := (exStumpR_pred_all x).1.symm.trans h0
    have h1' := (exStumpR_pred_all x).2.symm.trans h1
    apply hx
    funext i
    fin_cases i
    · show x 0 = 0
      linarith
    · show x 1 = 0
      linarith
  · show ∀ x : Fin 2 → ℝ, x ≠ 0 → _
    intro x hx
    by_contra hcon
    push Not at hcon
    have h := hcon (affTree 2 1 exStumpR, 0) (by simp)
    have h0 := h (affRow 2 1 ⟨0, fun _ => 2⟩) (by simp [exRowsR, allSource, affSources, affTune])
    have h1 := h (affRow 2 1 ⟨1, fun _ => 3⟩) (by simp [exRowsR, allSource, affSources, affTune])
    have h0' := (exStumpR_pred_all_shift 2 1 x).1.symm.trans h0
    have h1' := (exStumpR_pred_all_shift 2 1 x).2.symm.trans h1
    apply hx
    funext i
    fin_cases i
    · show x 0 = 0
      linarith
    · show x 1 = 0
      linarith

end SmoothRF
