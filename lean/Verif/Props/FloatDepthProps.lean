import Verif.Model.FloatDepth
import Verif.Proofs.FloatSum
import Verif.Props.DepthTuneProps

/-!
# C171: depth_tune in double precision
-/

set_option linter.unusedSectionVars false

namespace SmoothRF
open SkTree Topo

variable {C : ℕ}

/-- The rounded loss of one row. -/
noncomputable def flPointLoss [NeZero C] (kind : Kind) (v : Fin C → ℚ) (y : ℚ) : ℚ :=
  match kind with
  | .reg => fl (fl (y - v 0) ^ 2)
  | .cls => pointLoss .cls v y

/-- The rounded losses of the rows. -/
noncomputable def flRowLosses [NeZero C] (kind : Kind) (t : SkTree ℚ C) (tr : t.Node → t.Node)
    (rows : List (LossRow ℚ)) : List ℚ :=
  rows.map fun r => if h : r.leaf < t.nLeaves then
    flPointLoss kind (t.value (tr (t.leafNode ⟨r.leaf, h⟩))) r.y else 0

/-- The rounded loss of a truncated tree. -/
noncomputable def flTruncLoss [NeZero C] (kind : Kind) (t : SkTree ℚ C) (tr : t.Node → t.Node)
    (rows : List (LossRow ℚ)) : ℚ :=
  match kind with
  | .reg => npSum (flRowLosses .reg t tr rows)
  | .cls => truncLoss .cls t tr rows

theorem fl_nonneg {x : ℚ} (hx : 0 ≤ x) : 0 ≤ fl x :=
  le_trans (mul_nonneg (by norm_num) hx) (fl_bounds hx).1

theorem flPointLoss_bounds [NeZero C] (kind : Kind) (v : Fin C → ℚ) (y : ℚ) :
    (1 - 1 / 2 ^ 53) ^ 3 * pointLoss kind v y ≤ flPointLoss kind v y ∧
      flPointLoss kind v y ≤ (1 + 1 / 2 ^ 53) ^ 3 * pointLoss kind v y := by
  cases kind with
  | cls =>
    have h := pointLoss_nonneg (K := ℚ) .cls v y
    simp only [flPointLoss]
    exact ⟨mul_le_of_le_one_left h (by norm_num), le_mul_of_one_le_left h (by norm_num)⟩
  | reg =>
    simp only [flPointLoss, pointLoss]
    have h1 := fl_err (y - v 0)
    obtain ⟨h2, h3⟩ := fl_bounds (sq_nonneg (fl (y - v 0)))
    have hup : |fl (y - v 0)| ≤ (1 + 1 / 2 ^ 53) * |y - v 0| := by
      have := abs_sub_abs_le_abs_sub (fl (y - v 0)) (y - v 0)
      linarith
    have hlo : (1 - 1 / 2 ^ 53) * |y - v 0| ≤ |fl (y - v 0)| := by
      have := abs_sub_abs_le_abs_sub (y - v 0) (fl (y - v 0))
      rw [abs_sub_comm (y - v 0) (fl (y - v 0))] at this
      linarith
    have s1 : fl (y - v 0) ^ 2 ≤ (1 + 1 / 2 ^ 53) ^ 2 * (y - v 0) ^ 2 := by
      rw [← sq_abs (fl (y - v 0)), ← sq_abs (y - v 0), ← mul_pow]
      exact pow_le_pow_left₀ (abs_nonneg _) hup 2
    have s2 : (1 - 1 / 2 ^ 53) ^ 2 * (y - v 0) ^ 2 ≤ fl (y - v 0) ^ 2 := by
      rw [← sq_abs (fl (y - v 0)), ← sq_abs (y - v 0), ← mul_pow]
      exact pow_le_pow_left₀ (mul_nonneg (by norm_num) (abs_nonneg _)) hlo 2
    constructor
    · refine le_trans ?_ h2
      calc (1 - 1 / 2 ^ 53 : ℚ) ^ 3 * (y - v 0) ^ 2
          = (1 - 1 / 2 ^ 53) * ((1 - 1 / 2 ^ 53) ^ 2 * (y - v 0) ^ 2) := by ring
        _ ≤ _ := mul_le_mul_of_nonneg_left s2 (by norm_num)
    · refine le_trans h3 ?_
      calc (1 + 1 / 2 ^ 53 : ℚ) * fl (y - v 0) ^ 2
          ≤ (1 + 1 / 2 ^ 53) * ((1 + 1 / 2 ^ 53) ^ 2 * (y - v 0) ^ 2) :=
            mul_le_mul_of_nonneg_left s1 (by norm_num)
        _ = _ := by ring

theorem flPointLoss_nonneg [NeZero C] (kind : Kind) (v : Fin C → ℚ) (y : ℚ) : 0 ≤ flPointLoss kind v y :=
  le_trans (mul_nonneg (by norm_num) (pointLoss_nonneg _ _ _)) (flPointLoss_bounds kind v y).1

theorem flRowLosses_nonneg [NeZero C] (kind : Kind) (t : SkTree ℚ C) (tr : t.Node → t.Node)
    (rows : List (LossRow ℚ)) : ∀ x ∈ flRowLosses kind t tr rows, 0 ≤ x := by
  intro x hx
  obtain ⟨r, -, rfl⟩ := List.mem_map.1 hx
  split_ifs
  · exact flPointLoss_nonneg _ _ _
  · exact le_rfl

theorem sum_between {α : Type} (l : List α) (f g : α → ℚ) (a b : ℚ)
    (h : ∀ x ∈ l, a * f x ≤ g x ∧ g x ≤ b * f x) :
    a * (l.map f).sum ≤ (l.map g).sum ∧ (l.map g).sum ≤ b * (l.map f).sum := by
  induction l with
  | nil => simp
  | cons x l ih =>
    obtain ⟨h1, h2⟩ := h x (by simp)
    obtain ⟨h3, h4⟩ := ih fun y hy => h y (by simp [hy])
    simp only [List.map_cons, List.sum_cons, mul_add]
    exact ⟨add_le_add h1 h3, add_le_add h2 h4⟩

theorem flTruncLoss_bounds [NeZero C] (kind : Kind) (t : SkTree ℚ C) (tr : t.Node → t.Node)
    {rows : List (LossRow ℚ)} {N : ℕ} (hN : rows.length ≤ N) :
    (1 - 1 / 2 ^ 53) ^ (N + 3) * truncLoss kind t tr rows ≤ flTruncLoss kind t tr rows ∧
      flTruncLoss kind t tr rows ≤ (1 + 1 / 2 ^ 53) ^ (N + 3) * truncLoss kind t tr rows := by
  have h0 := truncLoss_nonneg (K := ℚ) kind t tr rows
  cases kind with
  | cls =>
    exact ⟨mul_le_of_le_one_left h0 (pow_le_one₀ (by norm_num) (by norm_num)),
      le_mul_of_one_le_left h0 (one_le_pow₀ (by norm_num))⟩
  | reg =>
    have hb := sum_between rows (fun r => if h : r.leaf < t.nLeaves then
        pointLoss .reg (t.value (tr (t.leafNode ⟨r.leaf, h⟩))) r.y else 0)
      (fun r => if h : r.leaf < t.nLeaves then
        flPointLoss .reg (t.value (tr (t.leafNode ⟨r.leaf, h⟩))) r.y else 0)
      ((1 - 1 / 2 ^ 53) ^ 3) ((1 + 1 / 2 ^ 53) ^ 3) (by
        intro r _
        split_ifs with h
        · exact flPointLoss_bounds .reg _ _
        · simp)
    have hs := ((npSum_rsum (flRowLosses .reg t tr rows)).mono
      (d' := N) (by simpa [flRowLosses] using hN)).bounds (flRowLosses_nonneg .reg t tr rows)
    have b1 : (1 - 1 / 2 ^ 53) ^ 3 * truncLoss .reg t tr rows ≤ (flRowLosses .reg t tr rows).sum := hb.1
    have b2 : (flRowLosses .reg t tr rows).sum ≤ (1 + 1 / 2 ^ 53) ^ 3 * truncLoss .reg t tr rows := hb.2
    constructor
    · refine le_trans ?_ hs.1
      rw [pow_add, mul_assoc]
      exact mul_le_mul_of_nonneg_left b1 (pow_nonneg (by norm_num) _)
    · refine le_trans hs.2 ?_
      rw [pow_add, mul_assoc]
      exact mul_le_mul_of_nonneg_left b2 (pow_nonneg (by norm_num) _)

theorem flTruncLoss_nonneg [NeZero C] (kind : Kind) (t : SkTree ℚ C) (tr : t.Node → t.Node)
    (rows : List (LossRow ℚ)) : 0 ≤ flTruncLoss kind t tr rows :=
  le_trans (mul_nonneg (pow_nonneg (by norm_num) _) (truncLoss_nonneg _ _ _ _))
    (flTruncLoss_bounds kind t tr (N := rows.length) le_rfl).1

theorem flTreeLoss_eq [NeZero C] (kind : Kind) (t : SkTree ℚ C) (tr : t.Node → t.Node) (rows : List (LossRow ℚ))
    (hr : ∀ r ∈ rows, r.leaf < t.nLeaves) (hne : rows ≠ []) :
    flTreeLoss kind rows ((List.finRange t.nLeaves).map fun r => t.value (tr (t.leafNode r))) =
      .ok (flTruncLoss kind t tr rows) := by
  have hC : 0 < C := Nat.pos_of_ne_zero (NeZero.ne C)
  cases kind
  · unfold flTreeLoss
    rw [if_neg (by simpa using hne)]
    simp only
    rw [mapM_ok _ _ (fun r => if h : r.leaf < t.nLeaves then
      flPointLoss .reg (t.value (tr (t.leafNode ⟨r.leaf, h⟩))) r.y else 0)]
    · rfl
    · intro r hrr
      rw [pyGet_some (a := t.value (tr (t.leafNode ⟨r.leaf, hr r hrr⟩))) (by
        rw [List.getElem?_map, finRange_getElem? ⟨r.leaf, hr r hrr⟩]; rfl), dif_pos (hr r hrr)]
      simp only [bind, Except.bind]
      rw [pyGet_some (a := t.value (tr (t.leafNode ⟨r.leaf, hr r hrr⟩)) 0)]
      · rfl
      · rw [List.getElem?_ofFn, dif_pos hC]; rfl
  · exact treeLoss_eq .cls t tr rows hr hne

theorem flDepthFold [NeZero C] (kind : Kind) (maxDepth : ℕ) (tune : ℕ → List (LossRow ℚ))
    (dep : SkTree ℚ C → ℕ) (tr : (t : SkTree ℚ C) → ℕ → t.Node → t.Node)
    (l : List (SkTree ℚ C × ℕ))
    (hl : ∀ tt ∈ l, tt.1.WF ∧ tt.1.IsTreeDepth (dep tt.1) ∧ 0 < dep tt.1 ∧ dep tt.1 ≤ maxDepth ∧
      (∀ d i, tt.1.Deepest d i (tr tt.1 d i)) ∧ (∀ r ∈ tune tt.2, r.leaf < tt.1.nLeaves) ∧ tune tt.2 ≠ [])
    (A : ℕ → ℚ) (i : Option ℕ) :
    ∃ j, l.foldlM (flDepthTuneStep kind maxDepth tune) ((List.range maxDepth).map A, i) =
      .ok ((List.range maxDepth).map fun d =>
        (l.map fun tt => flTruncLoss kind tt.1 (tr tt.1 (min d (dep tt.1 - 1))) (tune tt.2)).foldl
          (fun r x => fl (r + x)) (A d), j) := by
  induction l generalizing A i with
  | nil => exact ⟨i, by simp [pure, Except.pure]⟩
  | cons tt l ih =>
    obtain ⟨h1, h2, h3, h4, h5, h6, h7⟩ := hl tt (by simp)
    have e : flDepthTuneStep kind maxDepth tune ((List.range maxDepth).map A, i) tt =
        .ok ((List.range maxDepth).map (fun d => fl (A d +
          flTruncLoss kind tt.1 (tr tt.1 (min d (dep tt.1 - 1))) (tune tt.2))), some (dep tt.1 - 1)) := by
      unfold flDepthTuneStep
      rw [leafPredictedValues_eq h1 h2 h5]
      simp only [bind, Except.bind]
      rw [mapM_ok _ _ fun pred => match flTreeLoss kind (tune tt.2) pred with | .ok x => x | .error _ => 0]
      · simp only [List.map_map]
        have e2 : (List.range (dep tt.1)).map ((fun pred => match flTreeLoss kind (tune tt.2) pred with
            | .ok x => x | .error _ => 0) ∘ fun d =>
              (List.finRange tt.1.nLeaves).map fun r => tt.1.value (tr tt.1 d (tt.1.leafNode r))) =
            (List.range (dep tt.1)).map fun d => flTruncLoss kind tt.1 (tr tt.1 d) (tune tt.2) := by
          refine List.map_congr_left fun d _ => ?_
          simp only [Function.comp_apply, flTreeLoss_eq kind tt.1 (tr tt.1 d) (tune tt.2) h6 h7]
        rw [e2, treeLossVec_eq maxDepth i _ h3 h4 _ fun d => flTruncLoss_nonneg _ _ _ _]
        simp only [pure, Except.pure]
        rw [List.zipWith_map, List.zipWith_self]
      · intro p hp
        obtain ⟨d, -, rfl⟩ := List.mem_map.1 hp
        rw [flTreeLoss_eq kind tt.1 (tr tt.1 d) (tune tt.2) h6 h7]
    obtain ⟨j, hj⟩ := ih (fun tt' h => hl tt' (by simp [h])) (fun d => fl (A d +
          flTruncLoss kind tt.1 (tr tt.1 (min d (dep tt.1 - 1))) (tune tt.2))) (some (dep tt.1 - 1))
    refine ⟨j, ?_⟩
    rw [List.foldlM_cons, e]
    simp only [bind, Except.bind]
    rw [hj]
    simp only [List.map_cons, List.foldl_cons]

theorem forestDepth_of {K : Type} [Field K] [LinearOrder K] {forest : List (SkTree K C)}
    (hwf : ∀ t ∈ forest, t.WF) {dep : SkTree K C → ℕ} (hdep : ∀ t ∈ forest, t.IsTreeDepth (dep t))
    {D : ℕ} (hD : ∃ t ∈ forest, dep t = D) (hmax : ∀ t ∈ forest, dep t ≤ D) : forestDepth forest = D := by
  have hne : forest.map SkTree.toTopo ≠ [] := by
    obtain ⟨t, ht, -⟩ := hD
    intro e
    rw [List.map_eq_nil_iff] at e
    simp [e] at ht
  obtain ⟨-, -, h3, h4⟩ := C02_calc_depth_for_forest (forest.map SkTree.toTopo) hne (by
    intro t ht
    obtain ⟨s, hs, rfl⟩ := List.mem_map.1 ht
    exact hwf s hs)
  apply le_antisymm
  · obtain ⟨t, ht, i, hi⟩ := h4
    obtain ⟨s, hs, rfl⟩ := List.mem_map.1 ht
    exact ((hdep s hs).2 i _ hi).trans (hmax s hs)
  · obtain ⟨t, ht, rfl⟩ := hD
    obtain ⟨i, hi⟩ := (hdep t ht).1
    exact h3 t.toTopo (List.mem_map.2 ⟨t, ht, rfl⟩) i _ hi

/-- What the rounded `depth_tune` returns. -/
theorem flDepthTune_eq [NeZero C] {kind : Kind} {forest : List (SkTree ℚ C)}
    (hwf : ∀ t ∈ forest, t.WF) {dep : SkTree ℚ C → ℕ} (hdep : ∀ t ∈ forest, t.IsTreeDepth (dep t))
    (hpos : ∀ t ∈ forest, 0 < dep t) {D : ℕ} (hD : ∃ t ∈ forest, dep t = D)
    (hmax : ∀ t ∈ forest, dep t ≤ D) {tr : (t : SkTree ℚ C) → ℕ → t.Node → t.Node}
    (htr : ∀ t ∈ forest, ∀ d i, t.Deepest d i (tr t d i)) {data : DataArgs} {src : TuneSrc}
    (hsrc : tuneSource data = .ok src) {sources : TuneSrc → ℕ → List (LossRow ℚ)}
    (hrows : ∀ tt ∈ forest.zipIdx, (∀ r ∈ sources src tt.2, r.leaf < tt.1.nLeaves) ∧ sources src tt.2 ≠ []) :
    let floss := fun d => flSum (forest.zipIdx.map fun tt =>
      flTruncLoss kind tt.1 (tr tt.1 (min d (dep tt.1 - 1))) (sources src tt.2))
    ∃ out best, flDepthTune (some kind) forest data sources = .ok (out, (List.range D).map floss) ∧
      forest.mapM (truncateTree best) = .ok out ∧
      best < D ∧ (∀ d < D, floss best ≤ floss d) ∧ (∀ d < best, floss best < floss d) ∧
      List.Forall₂ (fun t t' => LeafUpdate t t' fun r =>
        t.value (tr t (min best (dep t - 1)) (t.leafNode r))) forest out := by
  intro floss
  have hfd := forestDepth_of hwf hdep hD hmax
  have hD0 : 0 < D := by
    obtain ⟨t, ht, e⟩ := hD
    exact e ▸ hpos t ht
  obtain ⟨j, hj⟩ := flDepthFold kind D (sources src) dep tr forest.zipIdx (fun tt htt => by
    have hm : tt.1 ∈ forest := by
      rw [← List.zipIdx_map_fst 0 forest]
      exact List.mem_map.2 ⟨tt, htt, rfl⟩
    exact ⟨hwf _ hm, hdep _ hm, hpos _ hm, hmax _ hm, htr _ hm, hrows _ htt⟩) (fun _ => 0) none
  obtain ⟨best, b1, b2, b3, b4⟩ := npArgmin_range D hD0 floss
  obtain ⟨out, o1, o2⟩ := mapM_forall2 (l := forest) (f := truncateTree best)
    (R := fun t t' => LeafUpdate t t' fun r =>
        t.value (tr t (min best (dep t - 1)) (t.leafNode r)))
    (fun t ht => truncateTree_eq (hwf t ht) (hdep t ht) (hpos t ht) (htr t ht) best)
  refine ⟨out, best, ?_, o1, b2, b3, b4, o2⟩
  have e0 : List.replicate D (0 : ℚ) = (List.range D).map fun _ => 0 := by simp
  simp only [flDepthTune, hsrc, hfd, bind, Except.bind]
  rw [e0, hj]
  have e1 : npArgmin ((List.range D).map fun d => (forest.zipIdx.map fun tt =>
      flTruncLoss kind tt.1 (tr tt.1 (min d (dep tt.1 - 1))) (sources src tt.2)).foldl
        (fun r x => fl (r + x)) 0) = .ok best := b1
  simp only [e1, o1]
  rfl

/-- C171: `depth_tune` in doubles, with at most `N` tuning rows per tree and `E = N + 3 + #trees` roundings:
every stored loss is the exact loss up to a factor between `(1 - 2^-53)^E` and `(1 + 2^-53)^E`, the forest is
truncated at the first depth of least stored loss, and the exact loss of that depth exceeds the least exact
loss at most by the quotient of the two factors. -/
theorem C171_near_minimal [NeZero C] {kind : Kind} {forest : List (SkTree ℚ C)}
    (hwf : ∀ t ∈ forest, t.WF) {dep : SkTree ℚ C → ℕ} (hdep : ∀ t ∈ forest, t.IsTreeDepth (dep t))
    (hpos : ∀ t ∈ forest, 0 < dep t) {D : ℕ} (hD : ∃ t ∈ forest, dep t = D)
    (hmax : ∀ t ∈ forest, dep t ≤ D) {tr : (t : SkTree ℚ C) → ℕ → t.Node → t.Node}
    (htr : ∀ t ∈ forest, ∀ d i, t.Deepest d i (tr t d i)) {data : DataArgs} {src : TuneSrc}
    (hsrc : tuneSource data = .ok src) {sources : TuneSrc → ℕ → List (LossRow ℚ)}
    (hrows : ∀ tt ∈ forest.zipIdx, (∀ r ∈ sources src tt.2, r.leaf < tt.1.nLeaves) ∧ sources src tt.2 ≠ [])
    {N E : ℕ} (hN : ∀ tt ∈ forest.zipIdx, (sources src tt.2).length ≤ N) (hE : E = N + 3 + forest.length) :
    let loss := fun d => (forest.zipIdx.map fun tt =>
      truncLoss kind tt.1 (tr tt.1 (min d (dep tt.1 - 1))) (sources src tt.2)).sum
    ∃ out best L, flDepthTune (some kind) forest data sources = .ok (out, L) ∧ L.length = D ∧
      (∀ d < D, ∃ x, L[d]? = some x ∧ (1 - 1 / 2 ^ 53) ^ E * loss d ≤ x ∧ x ≤ (1 + 1 / 2 ^ 53) ^ E * loss d) ∧
      best < D ∧ (∀ d < D, (1 - 1 / 2 ^ 53) ^ E * loss best ≤ (1 + 1 / 2 ^ 53) ^ E * loss d) ∧
      (∀ b x, L[best]? = some b → x ∈ L → b ≤ x) ∧
      List.Forall₂ (fun t t' => LeafUpdate t t' fun r =>
        t.value (tr t (min best (dep t - 1)) (t.leafNode r))) forest out := by
  intro loss
  obtain ⟨out, best, h1, -, h2, h3, -, h4⟩ := flDepthTune_eq (kind := kind) hwf hdep hpos hD hmax htr hsrc hrows
  set floss := fun d => flSum (forest.zipIdx.map fun tt =>
      flTruncLoss kind tt.1 (tr tt.1 (min d (dep tt.1 - 1))) (sources src tt.2)) with hfl
  have hb : ∀ d, (1 - 1 / 2 ^ 53) ^ E * loss d ≤ floss d ∧ floss d ≤ (1 + 1 / 2 ^ 53) ^ E * loss d := by
    intro d
    have k1 := sum_between forest.zipIdx
      (fun tt => truncLoss kind tt.1 (tr tt.1 (min d (dep tt.1 - 1))) (sources src tt.2))
      (fun tt => flTruncLoss kind tt.1 (tr tt.1 (min d (dep tt.1 - 1))) (sources src tt.2))
      ((1 - 1 / 2 ^ 53) ^ (N + 3)) ((1 + 1 / 2 ^ 53) ^ (N + 3))
      (fun tt htt => flTruncLoss_bounds kind _ _ (hN tt htt))
    have k2 := ((rsum_flSum (forest.zipIdx.map fun tt =>
      flTruncLoss kind tt.1 (tr tt.1 (min d (dep tt.1 - 1))) (sources src tt.2))).mono
      (d' := forest.length) (by simp)).bounds (by
        intro x hx
        obtain ⟨tt, -, rfl⟩ := List.mem_map.1 hx
        exact flTruncLoss_nonneg _ _ _ _)
    rw [hE, add_comm (N + 3), pow_add _ forest.length, pow_add _ forest.length, mul_assoc, mul_assoc]
    exact ⟨le_trans (mul_le_mul_of_nonneg_left k1.1 (pow_nonneg (by norm_num) _)) k2.1,
      le_trans k2.2 (mul_le_mul_of_nonneg_left k1.2 (pow_nonneg (by norm_num) _))⟩
  have hget : ∀ d < D, ((List.range D).map floss)[d]? = some (floss d) := by
    intro d hd
    rw [List.getElem?_map, List.getElem?_range hd]; rfl
  refine ⟨out, best, _, h1, by simp, fun d hd => ⟨_, hget d hd, hb d⟩, h2, fun d hd => ?_, ?_, h4⟩
  · exact (hb best).1.trans ((h3 d hd).trans (hb d).2)
  · intro b x e hx
    rw [hget best h2, Option.some.injEq] at e
    obtain ⟨d, hd, rfl⟩ := List.mem_map.1 hx
    rw [← e]
    exact h3 d (List.mem_range.1 hd)

/-- C171: if one depth is better than every other by more than the quotient of the two factors, the rounded
and the exact `depth_tune` return the same forest. -/
theorem C171_separated [NeZero C] {kind : Kind} {forest : List (SkTree ℚ C)}
    (hwf : ∀ t ∈ forest, t.WF) {dep : SkTree ℚ C → ℕ} (hdep : ∀ t ∈ forest, t.IsTreeDepth (dep t))
    (hpos : ∀ t ∈ forest, 0 < dep t) {D : ℕ} (hD : ∃ t ∈ forest, dep t = D)
    (hmax : ∀ t ∈ forest, dep t ≤ D) {tr : (t : SkTree ℚ C) → ℕ → t.Node → t.Node}
    (htr : ∀ t ∈ forest, ∀ d i, t.Deepest d i (tr t d i)) {data : DataArgs} {src : TuneSrc}
    (hsrc : tuneSource data = .ok src) {sources : TuneSrc → ℕ → List (LossRow ℚ)}
    (hrows : ∀ tt ∈ forest.zipIdx, (∀ r ∈ sources src tt.2, r.leaf < tt.1.nLeaves) ∧ sources src tt.2 ≠ [])
    {N E : ℕ} (hN : ∀ tt ∈ forest.zipIdx, (sources src tt.2).length ≤ N) (hE : E = N + 3 + forest.length)
    {d₀ : ℕ} (hd₀ : d₀ < D)
    (hsep : ∀ d < D, d ≠ d₀ → (1 + 1 / 2 ^ 53) ^ E * (forest.zipIdx.map fun tt =>
        truncLoss kind tt.1 (tr tt.1 (min d₀ (dep tt.1 - 1))) (sources src tt.2)).sum <
      (1 - 1 / 2 ^ 53) ^ E * (forest.zipIdx.map fun tt =>
        truncLoss kind tt.1 (tr tt.1 (min d (dep tt.1 - 1))) (sources src tt.2)).sum) :
    ∃ out L L', flDepthTune (some kind) forest data sources = .ok (out, L) ∧
      depthTune (some kind) forest data sources = .ok (out, L') := by
  have upd : ∀ (f g : List (SkTree ℚ C)) (out : List (SkTree ℚ C)) (b : ℕ), (∀ t ∈ f, t.WF) →
      List.Forall₂ (fun t t' => LeafUpdate t t' fun r =>
        t.value (tr t (min b (dep t - 1)) (t.leafNode r))) f out →
      List.Forall₂ (fun t t' => LeafUpdate t t' fun r =>
        t.value (tr t (min b (dep t - 1)) (t.leafNode r))) f g → out = g := by
    intro f
    induction f with
    | nil => intro g out b _ h1 h2; cases h1; cases h2; rfl
    | cons t f ih =>
      intro g out b hw h1 h2
      cases h1 with
      | cons a1 b1 =>
        cases h2 with
        | cons a2 b2 =>
          rw [ih _ _ b (fun s hs => hw s (by simp [hs])) b1 b2]
          congr 1
          obtain ⟨v, rfl, v1, v2⟩ := a1
          obtain ⟨w, rfl, w1, w2⟩ := a2
          have : v = w := by
            funext i c
            by_cases hi : t.IsLeaf i
            · obtain ⟨r, rfl⟩ := exists_leafNode ((isLeaf_iff (hw t (by simp))).1 hi)
              rw [v1, w1]
            · rw [v2 i c hi, w2 i c hi]
          rw [this]
  obtain ⟨out, best, L, h1, -, -, hb, h2, -, h4⟩ :=
    C171_near_minimal (kind := kind) hwf hdep hpos hD hmax htr hsrc hrows hN hE
  obtain ⟨out', best', g1, gb, g2, -, g4⟩ := C51_depth_tune (kind := kind) hwf hdep hpos hD hmax htr hsrc hrows
  have e1 : best = d₀ := by
    by_contra hne
    exact absurd (h2 d₀ hd₀) (not_le.2 (hsep best hb hne))
  have e2 : best' = d₀ := by
    by_contra hne
    have a := hsep best' gb hne
    have b := g2 d₀ hd₀
    have pos : 0 ≤ (forest.zipIdx.map fun tt =>
        truncLoss kind tt.1 (tr tt.1 (min best' (dep tt.1 - 1))) (sources src tt.2)).sum := by
      apply List.sum_nonneg
      intro x hx
      obtain ⟨tt, -, rfl⟩ := List.mem_map.1 hx
      exact truncLoss_nonneg _ _ _ _
    have pos' := pos.trans b
    have c1 := mul_le_of_le_one_left pos (pow_le_one₀ (n := E) (show (0 : ℚ) ≤ 1 - 1 / 2 ^ 53 by norm_num) (by norm_num))
    have c2 := le_mul_of_one_le_left pos' (one_le_pow₀ (n := E) (show (1 : ℚ) ≤ 1 + 1 / 2 ^ 53 by norm_num))
    linarith
  subst e1
  rw [e2] at g4
  have := upd forest _ _ _ hwf h4 g4
  subst this
  exact ⟨out, _, _, h1, g1⟩

/-- C171: for classifiers nothing is lost: with at most 2^53 tuning rows in all, forest and losses are those of
exact arithmetic. -/
theorem C171_classes [NeZero C] {forest : List (SkTree ℚ C)}
    (hwf : ∀ t ∈ forest, t.WF) {dep : SkTree ℚ C → ℕ} (hdep : ∀ t ∈ forest, t.IsTreeDepth (dep t))
    (hpos : ∀ t ∈ forest, 0 < dep t) {data : DataArgs} {src : TuneSrc}
    (hsrc : tuneSource data = .ok src) {sources : TuneSrc → ℕ → List (LossRow ℚ)}
    (hrows : ∀ tt ∈ forest.zipIdx, (∀ r ∈ sources src tt.2, r.leaf < tt.1.nLeaves) ∧ sources src tt.2 ≠ [])
    (hne : forest ≠ [])
    (htot : (forest.zipIdx.map fun tt => (sources src tt.2).length).sum ≤ 2 ^ 53) :
    flDepthTune (some .cls) forest data sources = depthTune (some .cls) forest data sources := by
  classical
  have hex : ∀ (t : SkTree ℚ C) (d : ℕ) (i : t.Node), ∃ a, t ∈ forest → t.Deepest d i a := by
    intro t d i
    by_cases ht : t ∈ forest
    · obtain ⟨a, ha⟩ := exists_deepest (hwf t ht) d i
      exact ⟨a, fun _ => ha⟩
    · exact ⟨i, fun h => absurd h ht⟩
  choose tr htr using hex
  have hl : ∃ D, (∃ t ∈ forest, dep t = D) ∧ ∀ t ∈ forest, dep t ≤ D := by
    obtain ⟨t, ht, h⟩ := Finset.exists_max_image forest.toFinset dep (by
      rwa [List.toFinset_nonempty_iff])
    exact ⟨_, ⟨t, List.mem_toFinset.1 ht, rfl⟩, fun s hs => h s (List.mem_toFinset.2 hs)⟩
  obtain ⟨D, hD, hmax⟩ := hl
  have hfd := forestDepth_of hwf hdep hD hmax
  have hall : ∀ tt ∈ forest.zipIdx, tt.1.WF ∧ tt.1.IsTreeDepth (dep tt.1) ∧ 0 < dep tt.1 ∧ dep tt.1 ≤ D ∧
      (∀ d i, tt.1.Deepest d i (tr tt.1 d i)) ∧ (∀ r ∈ sources src tt.2, r.leaf < tt.1.nLeaves) ∧
      sources src tt.2 ≠ [] := by
    intro tt htt
    have hm : tt.1 ∈ forest := by
      rw [← List.zipIdx_map_fst 0 forest]
      exact List.mem_map.2 ⟨tt, htt, rfl⟩
    exact ⟨hwf _ hm, hdep _ hm, hpos _ hm, hmax _ hm, fun d i => htr _ d i hm, hrows _ htt⟩
  obtain ⟨j, hj⟩ := flDepthFold .cls D (sources src) dep tr forest.zipIdx hall (fun _ => 0) none
  obtain ⟨j', hj'⟩ := depthFold .cls D (sources src) dep tr forest.zipIdx hall (fun _ => 0) none
  have e0 : List.replicate D (0 : ℚ) = (List.range D).map fun _ => 0 := by simp
  have point : ∀ (v : Fin C → ℚ) (y : ℚ), pointLoss .cls v y = 0 ∨ pointLoss .cls v y = 1 := by
    intro v y
    simp only [pointLoss]
    split_ifs
    · exact Or.inl rfl
    · exact Or.inr rfl
  have whole : ∀ (t : SkTree ℚ C) (f : t.Node → t.Node) (rows : List (LossRow ℚ)),
      ∃ n : ℕ, truncLoss .cls t f rows = n ∧ n ≤ rows.length := by
    intro t f rows
    unfold truncLoss
    induction rows with
    | nil => exact ⟨0, by simp, le_rfl⟩
    | cons r rows ih =>
      obtain ⟨n, h1, h2⟩ := ih
      rw [List.map_cons, List.sum_cons, h1]
      by_cases h : r.leaf < t.nLeaves
      · rw [dif_pos h]
        rcases point (t.value (f (t.leafNode ⟨r.leaf, h⟩))) r.y with e | e <;> rw [e]
        · exact ⟨n, by simp, by simp; omega⟩
        · exact ⟨1 + n, by push_cast; rfl, by simp; omega⟩
      · rw [dif_neg h]
        exact ⟨n, by simp, by simp; omega⟩
  have hsum : ∀ d, flSum (forest.zipIdx.map fun tt =>
      flTruncLoss .cls tt.1 (tr tt.1 (min d (dep tt.1 - 1))) (sources src tt.2)) =
      0 + (forest.zipIdx.map fun tt =>
        truncLoss .cls tt.1 (tr tt.1 (min d (dep tt.1 - 1))) (sources src tt.2)).sum := by
    intro d
    rw [zero_add]
    refine ((rsum_flSum (forest.zipIdx.map fun tt =>
      truncLoss .cls tt.1 (tr tt.1 (min d (dep tt.1 - 1))) (sources src tt.2))).exact 0 ?_ ?_).1
    · intro x hx
      obtain ⟨tt, -, rfl⟩ := List.mem_map.1 hx
      obtain ⟨n, hn, -⟩ := whole tt.1 (tr tt.1 (min d (dep tt.1 - 1))) (sources src tt.2)
      exact ⟨n, by rw [hn]; simp⟩
    · have : (forest.zipIdx.map fun tt =>
          truncLoss .cls tt.1 (tr tt.1 (min d (dep tt.1 - 1))) (sources src tt.2)).sum ≤
          (forest.zipIdx.map fun tt => ((sources src tt.2).length : ℚ)).sum := by
        apply List.sum_le_sum
        intro tt _
        obtain ⟨n, hn, hle⟩ := whole tt.1 (tr tt.1 (min d (dep tt.1 - 1))) (sources src tt.2)
        rw [hn]
        exact_mod_cast hle
      refine this.trans ?_
      have e : (forest.zipIdx.map fun tt => ((sources src tt.2).length : ℚ)).sum =
          ((forest.zipIdx.map fun tt => (sources src tt.2).length).sum : ℕ) := by
        rw [Nat.cast_list_sum, List.map_map]
        rfl
      rw [e, zpow_zero, mul_one]
      exact_mod_cast htot
  simp only [flDepthTune, depthTune, hsrc, hfd, bind, Except.bind]
  rw [e0, hj, hj']
  have e3 : ((List.range D).map fun d => (forest.zipIdx.map fun tt =>
      flTruncLoss .cls tt.1 (tr tt.1 (min d (dep tt.1 - 1))) (sources src tt.2)).foldl
        (fun r x => fl (r + x)) 0) = (List.range D).map fun d => 0 + (forest.zipIdx.map fun tt =>
        truncLoss .cls tt.1 (tr tt.1 (min d (dep tt.1 - 1))) (sources src tt.2)).sum :=
    List.map_congr_left fun d _ => hsum d
  simp only [e3]

/-- A regression tree with leaves at depths 1 and 2, all values tiny except that of node 4. -/
abbrev exTiny : SkTree ℚ 1 := { exTree with value := fun i _ => if i.val = 0 then 1 / 2 ^ 60 else 1 / 2 ^ 59 }

/-- C171, the full claim fails: one row with response 1 is predicted by 2^-60 at depth 0 and by 2^-59 at depth
1; both differences round to 1, the depths tie and the worse depth 0 is chosen. -/
theorem C171_refuted : ¬ ∀ (forest : List (SkTree ℚ 1)) (sources : TuneSrc → ℕ → List (LossRow ℚ))
    (out out' : List (SkTree ℚ 1)) (L L' : List ℚ), (∀ t ∈ forest, t.WF) →
    flDepthTune (some .reg) forest exData sources = .ok (out, L) →
    depthTune (some .reg) forest exData sources = .ok (out', L') → valuesOf out = valuesOf out' := by
  intro h
  have e1 : (match flDepthTune (some .reg) [exTiny] exData (fun _ _ => [⟨0, 1⟩]) with
      | .ok (out, _) => some (valuesOf out) | .error _ => none) =
      some [[[1 / 2 ^ 60], [1 / 2 ^ 59], [1 / 2 ^ 60], [1 / 2 ^ 60], [1 / 2 ^ 60]]] := by decide +kernel
  have e2 : (match depthTune (some .reg) [exTiny] exData (fun _ _ => [⟨0, 1⟩]) with
      | .ok (out, _) => some (valuesOf out) | .error _ => none) =
      some [[[1 / 2 ^ 60], [1 / 2 ^ 59], [1 / 2 ^ 59], [1 / 2 ^ 59], [1 / 2 ^ 59]]] := by decide +kernel
  cases a1 : flDepthTune (some .reg) [exTiny] exData (fun _ _ => [⟨0, 1⟩]) with
  | error e => rw [a1] at e1; cases e1
  | ok p =>
    cases a2 : depthTune (some .reg) [exTiny] exData (fun _ _ => [⟨0, 1⟩]) with
    | error e => rw [a2] at e2; cases e2
    | ok q =>
      rw [a1] at e1
      rw [a2] at e2
      have := h [exTiny] _ p.1 q.1 p.2 q.2 (by decide) a1 a2
      simp only [Option.some.injEq] at e1 e2
      rw [e1, e2] at this
      revert this
      decide +kernel

/-- Stump and tree with the response 1/10, which is no double: the stored losses differ from the exact ones, the
forests agree. -/
example : (match flDepthTune (some .reg) [exStump, exTree] exData (fun _ _ => [⟨0, 1/10⟩, ⟨1, 4⟩]),
      depthTune (some .reg) [exStump, exTree] exData (fun _ _ => [⟨0, 1/10⟩, ⟨1, 4⟩]) with
    | .ok (out, L), .ok (out', L') => some (valuesOf out, valuesOf out == valuesOf out', L == L')
    | _, _ => none) =
    some ([[[5 / 2], [5 / 2], [5 / 2]], [[13 / 2], [3], [3], [3], [10]]], true, false) := by
  decide +kernel

end SmoothRF
