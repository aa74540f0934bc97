import Verif.Props.TuneUnitsProps
import Verif.Props.ImpOrderProps
import Verif.Props.AffineProps
import Verif.Props.SmoothImpProps

/-!
# C211: change of units under the impurity distance
-/

set_option linter.unusedSectionVars false

namespace SmoothRF
open SkTree Topo

variable {K : Type} [Field K] [LinearOrder K] [IsStrictOrderedRing K]

/-! ### levels -/

/-- The argument `levels` in units in which distances are `s` times larger: an array is converted, a number of quantiles stays. -/
def unitLevels (s : K) : Levels K → Levels K
  | .int n => .int n
  | .arr l => .arr (l.map (s * ·))

/-- The constant 2 of smooth_base.py 439 plays no part for breaks `lv` and distances `d`, whether measured as they are or `s` times
larger: either some positive distance is at most 2 in both units, or every positive break is above half of some positive distance. -/
def TwoIrrelevant {n : ℕ} (s : K) (lv : List K) (d : Fin n → Fin n → K) : Prop :=
  (∃ i j, 0 < d i j ∧ d i j ≤ 2 ∧ s * d i j ≤ 2) ∨ ∀ l ∈ lv, 0 < l → ∃ i j, 0 < d i j ∧ d i j < 2 * l

/-- Multiplication of extended numbers by `s`. -/
def extMul (s : K) : Ext K → Ext K := WithBot.map (WithTop.map (s * ·))

theorem extMul_fin (s x : K) : extMul s (fin x) = fin (s * x) := rfl
theorem extMul_bot (s : K) : extMul s ⊥ = ⊥ := rfl
theorem extMul_top (s : K) : extMul s (((⊤ : WithTop K)) : Ext K) = ((⊤ : WithTop K) : Ext K) := rfl

theorem extMul_inj {s : K} (hs : 0 < s) : Function.Injective (extMul s) :=
  WithBot.map_injective (WithTop.map_injective (mul_right_injective₀ hs.ne'))

theorem extMul_lt {s : K} (hs : 0 < s) (b : Ext K) (x : K) : extMul s b < fin (s * x) ↔ b < fin x := by
  rcases b with _ | _ | b
  · exact iff_of_true (bot_lt_fin _) (bot_lt_fin _)
  · exact iff_of_false (not_lt.2 (fin_lt_top _).le) (not_lt.2 (fin_lt_top _).le)
  · show fin (s * b) < fin (s * x) ↔ fin b < fin x
    rw [fin_lt, fin_lt, mul_lt_mul_iff_right₀ hs]

theorem sortedSet_units {s : K} (hs : 0 < s) (lv : List K) : sortedSet (lv.map (s * ·)) = (sortedSet lv).map (s * ·) := by
  unfold sortedSet
  rw [List.map_insertionSort (r := (· ≤ ·)) (s := (· ≤ ·)) (s * ·) _ fun a _ b _ => (mul_le_mul_iff_right₀ hs).symm,
    ← List.dedup_map_of_injective (mul_right_injective₀ hs.ne'), List.map_cons, mul_zero]

theorem withInf_units (s : K) (b : List K) : withInf (b.map (s * ·)) = (withInf b).map (extMul s) := by
  unfold withInf
  rw [List.map_set, List.map_set, List.map_map, List.map_map, List.length_map]
  rfl

theorem withInf_entry {b : List K} {x : Ext K} (h : x ∈ withInf b) :
    x = ⊥ ∨ x = ((⊤ : WithTop K) : Ext K) ∨ ∃ v ∈ b, x = fin v := by
  unfold withInf at h
  rcases List.mem_or_eq_of_mem_set h with h | h
  · rcases List.mem_or_eq_of_mem_set h with h | h
    · obtain ⟨v, hv, rfl⟩ := List.mem_map.1 h
      exact .inr (.inr ⟨v, hv, rfl⟩)
    · exact .inr (.inl h)
  · exact .inl h

theorem foldlMin_units {s : K} (hs : 0 < s) : ∀ (l : List K) (p : K), (l.map (s * ·)).foldl min (s * p) = s * l.foldl min p := by
  intro l
  induction l with
  | nil => intro p; rfl
  | cons a l ih =>
    intro p
    rw [List.map_cons, List.foldl_cons, List.foldl_cons, ← mul_min_of_nonneg _ _ hs.le, ih]

theorem positives_units {s : K} (hs : 0 < s) {n : ℕ} (d : Fin n → Fin n → K) :
    positives (fun i j => s * d i j) = (positives d).map (s * ·) := by
  unfold positives
  have e : ((List.finRange n).flatMap fun i => (List.finRange n).map fun j => s * d i j) =
      ((List.finRange n).flatMap fun i => (List.finRange n).map fun j => d i j).map (s * ·) := by
    rw [List.map_flatMap]
    refine List.flatMap_congr fun i _ => ?_
    rw [List.map_map]
    rfl
  rw [e, List.filter_map]
  congr 1
  refine List.filter_congr fun x _ => ?_
  simp only [Function.comp, mul_pos_iff_of_pos_left hs]

theorem idxOf_map_inj {α β : Type} [DecidableEq α] [DecidableEq β] {f : α → β} (hf : Function.Injective f) (l : List α) (x : α) :
    (l.map f).idxOf (f x) = l.idxOf x := by
  induction l with
  | nil => rfl
  | cons a l ih =>
    rw [List.map_cons]
    by_cases h : a = x
    · rw [h, List.idxOf_cons_self, List.idxOf_cons_self]
    · rw [List.idxOf_cons_ne _ h, List.idxOf_cons_ne _ (fun e => h (hf e)), ih]

/-- C211, levels: distances `s` times larger, cut at breaks `s` times larger, fall on the same levels, and the number of levels is
the same, when the constant 2 plays no part. -/
theorem C211_discretise {n : ℕ} {s : K} (hs : 0 < s) (lv : List K) (d : Fin n → Fin n → K) (h2 : TwoIrrelevant s lv d) :
    discretise (lv.map (s * ·)) (fun i j => s * d i j) = discretise lv d := by
  unfold discretise mkBreaks
  rw [positives_units hs, sortedSet_units hs, withInf_units]
  cases hp : positives d with
  | nil => rfl
  | cons p ps =>
    rw [List.map_cons]
    dsimp only
    rw [foldlMin_units hs]
    obtain ⟨hm2, hm1⟩ := foldl_min_spec p ps
    rw [← hp] at hm1 hm2
    generalize ps.foldl min p = m at hm1 hm2 ⊢
    obtain ⟨hm0, -⟩ := (mem_positives d m).1 hm1
    generalize hB : withInf (sortedSet lv) = B
    have hz : (fin 0 : Ext K) = extMul s (fin 0) := by rw [extMul_fin, mul_zero]
    have hb : (⊥ : Ext K) = extMul s ⊥ := rfl
    have e0 : (fin 0 ∈ B.map (extMul s)) ↔ fin 0 ∈ B := by
      rw [hz, List.mem_map_of_injective (extMul_inj hs), ← hz]
    have e1 : (B.map (extMul s)).idxOf (fin 0) = B.idxOf (fin 0) := by
      have := idxOf_map_inj (extMul_inj hs) B (fin 0)
      rwa [← hz] at this
    have e2 : (B.map (extMul s)).idxOf ⊥ = B.idxOf ⊥ := idxOf_map_inj (extMul_inj hs) B ⊥
    simp only [e0, e1, e2]
    generalize (if fin 0 ∈ B then B.idxOf (fin 0) else B.idxOf ⊥) = w
    rw [List.getElem?_map]
    cases hn : B[w + 1]? with
    | none => rfl
    | some nxt =>
      dsimp only [Option.map_some]
      have hu : min m 2 / 2 < m := by have := min_le_left m 2; linarith
      have hu' : min (s * m) 2 / 2 < s * m := by
        have := min_le_left (s * m) 2
        have := mul_pos hs hm0
        linarith
      have hu0 : 0 < min m 2 / 2 := by have := lt_min hm0 two_pos; linarith
      have hu0' : 0 < min (s * m) 2 / 2 := by have := lt_min (mul_pos hs hm0) (two_pos (α := K)); linarith
      have hins : fin (min (s * m) 2 / 2) < extMul s nxt ↔ fin (min m 2 / 2) < nxt := by
        have hmem : nxt ∈ withInf (sortedSet lv) := by rw [hB]; exact List.mem_of_getElem? hn
        rcases withInf_entry hmem with rfl | rfl | ⟨v, hv, rfl⟩
        · exact iff_of_false (not_lt_bot) (not_lt_bot)
        · exact iff_of_true (fin_lt_top _) (fin_lt_top _)
        · rw [extMul_fin, fin_lt, fin_lt]
          rcases h2 with ⟨i, j, h3, h4, h5⟩ | h2
          · have hmd : m ≤ d i j := hm2 _ ((mem_positives d _).2 ⟨h3, i, j, rfl⟩)
            rw [min_eq_left (hmd.trans h4), min_eq_left ((mul_le_mul_of_nonneg_left hmd hs.le).trans h5), mul_div_assoc,
              mul_lt_mul_iff_right₀ hs]
          · rcases le_or_gt v 0 with hv0 | hv0
            · exact iff_of_false (not_lt.2 ((mul_nonpos_of_nonneg_of_nonpos hs.le hv0).trans hu0'.le)) (not_lt.2 (hv0.trans hu0.le))
            · have hvl : v ∈ lv := ((sortedSet_mem lv v).1 hv).resolve_left hv0.ne'
              obtain ⟨i, j, h3, h4⟩ := h2 v hvl hv0
              have hmd : m ≤ d i j := hm2 _ ((mem_positives d _).2 ⟨h3, i, j, rfl⟩)
              have h6 : s * m < s * (2 * v) := mul_lt_mul_of_pos_left (hmd.trans_lt h4) hs
              have h7 := min_le_left m 2
              have h8 := min_le_left (s * m) 2
              exact iff_of_true (by linarith) (by linarith)
      have hcut : ∀ (b : List (Ext K)) x, ((b.map (extMul s)).filter fun c => decide (c < fin (s * x))).length =
          (b.filter fun c => decide (c < fin x)).length := by
        intro b x
        rw [List.filter_map, List.length_map]
        congr 1
        exact List.filter_congr fun c _ => by simp only [Function.comp, extMul_lt hs]
      simp only [hins, bind, Except.bind, pure, Except.pure, Except.ok.injEq, Prod.mk.injEq]
      split_ifs with hi
      · refine ⟨?_, by simp⟩
        funext i j
        unfold cutLevel
        simp only [List.filter_append, List.length_append, ← List.map_take, ← List.map_drop, hcut]
        congr 3
        have hd : fin (min (s * m) 2 / 2) < fin (s * d i j) ↔ fin (min m 2 / 2) < fin (d i j) := by
          rw [fin_lt, fin_lt]
          rcases le_or_gt (d i j) 0 with h0 | h0
          · exact iff_of_false (not_lt.2 ((mul_nonpos_of_nonneg_of_nonpos hs.le h0).trans hu0'.le)) (not_lt.2 (h0.trans hu0.le))
          · have hmd : m ≤ d i j := hm2 _ ((mem_positives d _).2 ⟨h0, i, j, rfl⟩)
            exact iff_of_true (hu'.trans_le (mul_le_mul_of_nonneg_left hmd hs.le)) (hu.trans_le hmd)
        by_cases hc : fin (min m 2 / 2) < fin (d i j)
        · simp [hc, hd.2 hc]
        · simp [hc, mt hd.1 hc]
      · refine ⟨?_, by simp⟩
        funext i j
        unfold cutLevel
        rw [hcut]

/-! ### distances -/

/-- C211, distances: the impurity distances of a regression tree fitted to `a * y + b` are `a^2` times those of the tree fitted to `y`. -/
theorem C211_distances (a b : K) {t : SkTree K 1} (hwf : t.WF) (st : Style) :
    (fitUnits a b t).impDist st = fun i j => a ^ 2 * t.impDist st i j := by
  have key : ∀ i j : Fin t.nLeaves, t.distImpurity (fun i => a ^ 2 * t.impurity i) .standard i j =
      a ^ 2 * t.distImpurity t.impurity .standard i j := by
    intro i j
    obtain ⟨c, hc⟩ := exists_lca hwf (t.leafNode i) (t.leafNode j)
    rw [(C10_distance_impurity _ hwf _ i j c hc).1, (C10_distance_impurity _ hwf _ i j c hc).1, mul_sub]
  have hs : ∀ (imp : t.Node → K) s i j, t.distImpurity imp s i j = applyStyle s (t.distImpurity imp .standard) i j := by
    intro imp s i j
    cases s <;> rfl
  have main : ∀ i j : Fin t.nLeaves, t.distImpurity (fun i => a ^ 2 * t.impurity i) st i j = a ^ 2 * t.distImpurity t.impurity st i j := by
    intro i j
    rw [hs, hs t.impurity]
    cases st with
    | standard => exact key i j
    | max => simp only [applyStyle, key, mul_max_of_nonneg _ _ (sq_nonneg a)]
    | min => simp only [applyStyle, key, mul_min_of_nonneg _ _ (sq_nonneg a)]
  exact funext fun i => funext fun j => main i j

theorem ravelM_units {n : ℕ} (s : K) (d : Fin n → Fin n → K) : ravelM (fun i j => s * d i j) = (ravelM d).map (s * ·) := by
  unfold ravelM
  rw [List.map_flatMap]
  refine List.flatMap_congr fun i _ => ?_
  rw [List.map_map]
  rfl

/-- C211, quantiles: the quantiles of values `s` times larger are `s` times larger. -/
theorem C211_quantiles {s : K} (hs : 0 < s) (vals : List K) (n : ℕ) :
    quantileBreaks (vals.map (s * ·)) n = (quantileBreaks vals n).map (List.map (s * ·)) := by
  have hq : ∀ k, quantileAt (vals.map (s * ·)) n k = s * quantileAt vals n k := by
    intro k
    unfold quantileAt
    rw [← List.map_insertionSort (r := (· ≤ ·)) (s := (· ≤ ·)) (s * ·) _ fun a _ b _ => (mul_le_mul_iff_right₀ hs).symm]
    have hg : ∀ (l : List K) (i : ℕ), (l.map (s * ·)).getD i 0 = s * l.getD i 0 := by
      intro l i
      rw [List.getD_eq_getElem?_getD, List.getD_eq_getElem?_getD, List.getElem?_map]
      cases l[i]? <;> simp
    simp only [hg, List.length_map]
    ring
  unfold quantileBreaks
  simp only [List.map_eq_nil_iff]
  split_ifs
  · rfl
  · rfl
  · simp only [Except.map, List.map_map]
    exact congrArg Except.ok (List.map_congr_left fun k _ => hq k)

theorem allValues_units (a b : K) (st : Style) (forest : List (SkTree K 1)) (hwf : ∀ t ∈ forest, t.WF) (acc : List K) :
    (forest.map (fitUnits a b)).foldl (fun acc t => acc ++ ravelM (t.impDist st)) (acc.map (a ^ 2 * ·)) =
      (forest.foldl (fun acc t => acc ++ ravelM (t.impDist st)) acc).map (a ^ 2 * ·) := by
  induction forest generalizing acc with
  | nil => rfl
  | cons t ts ih =>
    rw [List.map_cons, List.foldl_cons, List.foldl_cons, ← ih (fun u hu => hwf u (List.mem_cons_of_mem _ hu)), List.map_append]
    have := C211_distances a b (hwf t (List.mem_cons_self ..)) st
    congr 2
    exact (congrArg (ravelM (n := t.nLeaves)) this).trans (ravelM_units _ _)

/-- C211, breaks: the breaks used for a forest fitted to `a * y + b` are `a^2` times the breaks used for the forest fitted to `y`. -/
theorem C211_breaks {a : K} (ha : a ≠ 0) (b : K) {forest : List (SkTree K 1)} (hwf : ∀ t ∈ forest, t.WF) (st : Style)
    (levels : Option (Levels K)) :
    resolveLevels (forest.map (fitUnits a b)) st (levels.map (unitLevels (a ^ 2))) =
      (resolveLevels forest st levels).map (List.map (a ^ 2 * ·)) := by
  have hs : 0 < a ^ 2 := by positivity
  rcases levels with _ | n | l
  · rfl
  · unfold resolveLevels
    dsimp only [Option.map_some, unitLevels]
    rw [List.length_map, ← List.map_take]
    have key : ∀ f : List (SkTree K 1), (∀ t ∈ f, t.WF) → quantilesDistanceTrees (f.map (fitUnits a b)) st (some n) =
        (quantilesDistanceTrees f st (some n)).map (List.map (a ^ 2 * ·)) := by
      intro f hf
      unfold quantilesDistanceTrees
      have := allValues_units a b st f hf []
      rw [List.map_nil] at this
      dsimp only
      rw [this, C211_quantiles hs]
    split_ifs
    · exact key _ fun t ht => hwf t (List.mem_of_mem_take ht)
    · exact key _ hwf
  · rfl

/-! ### matrices -/

/-- The matrices for responses `a` times larger. -/
def impUnitGE (a : K) (ge : GE K 1) : GE K 1 :=
  { ge with gamma := fun c => (ge.gamma c).map (List.map (a * ·)) }

theorem impLevels_units {a : K} (ha : a ≠ 0) (b : K) {t : SkTree K 1} (hwf : t.WF) (st : Style) (lv : List K)
    (h2 : TwoIrrelevant (a ^ 2) lv (t.impDist st)) :
    (fitUnits a b t).impLevels st (.arr (lv.map (a ^ 2 * ·))) = t.impLevels st (.arr lv) := by
  have hs : 0 < a ^ 2 := by positivity
  refine Eq.trans ?_ (C211_discretise hs lv (t.impDist st) h2)
  exact congrArg (discretise (n := t.nLeaves) (lv.map (a ^ 2 * ·))) (C211_distances a b hwf st)

theorem padRow_units (a : K) (pa : Bool) (w : ℕ) (row : List K) : padRow pa w (row.map (a * ·)) = (padRow pa w row).map (a * ·) := by
  unfold padRow
  rw [List.length_map]
  by_cases hl : row.length ≠ w
  · rw [if_pos hl, if_pos hl]
    cases pa
    · simp
    · simp only [if_true, List.map_append, List.map_replicate, List.getLast?_map]
      cases row.getLast? <;> simp
  · rw [if_neg hl, if_neg hl]

theorem gammaTree_units (a : K) (t : SkTree K 1) (pa : Bool) (D : Fin t.nLeaves → Fin t.nLeaves → ℤ) (c : Fin 1) :
    (fitUnits a 0 t).gammaTree .reg pa D c = (t.gammaTree .reg pa D c).map (List.map (a * ·)) := by
  have hv : ∀ j : Fin t.nLeaves, (fitUnits a 0 t).ny .reg (t.leafNode j) c = a * t.ny .reg (t.leafNode j) c := by
    intro j
    show t.nSamp _ * (a * t.value _ c + 0) = a * (t.nSamp _ * t.value _ c)
    ring
  have main : ∀ i : Fin t.nLeaves, (fitUnits a 0 t).levelRow pa D (fun j => (fitUnits a 0 t).ny .reg (t.leafNode j) c) i =
      (t.levelRow pa D (fun j => t.ny .reg (t.leafNode j) c) i).map (a * ·) := by
    intro i
    refine Eq.trans (b := (List.range (t.maxDist D + 1)).map fun k => ∑ j, inner pa D k i j * (fitUnits a 0 t).ny .reg (t.leafNode j) c) rfl ?_
    unfold levelRow
    rw [List.map_map]
    refine List.map_congr_left fun k _ => ?_
    simp only [Function.comp]
    rw [Finset.mul_sum]
    refine Finset.sum_congr rfl fun j _ => ?_
    rw [hv j, mul_left_comm]
  refine Eq.trans (b := (List.finRange t.nLeaves).map fun i =>
    (fitUnits a 0 t).levelRow pa D (fun j => (fitUnits a 0 t).ny .reg (t.leafNode j) c) i) rfl ?_
  unfold gammaTree
  rw [List.map_map]
  exact List.map_congr_left fun i _ => main i

theorem impStep_units {a : K} (ha : a ≠ 0) (st : Style) (pa : Bool) (lv : List K) (w : ℕ) (acc : GE K 1) {t : SkTree K 1}
    (hwf : t.WF) (k : ℕ) (h2 : TwoIrrelevant (a ^ 2) lv (t.impDist st)) :
    impStep .reg st pa (lv.map (a ^ 2 * ·)) w (impUnitGE a acc) (fitUnits a 0 t, k) = (impStep .reg st pa lv w acc (t, k)).map (impUnitGE a) := by
  unfold impStep
  dsimp only
  have hl := impLevels_units ha 0 hwf st lv h2
  refine (congrArg (fun x : Except PyErr ((Fin t.nLeaves → Fin t.nLeaves → ℕ) × ℕ) => x >>= _) hl).trans ?_
  cases hx : t.impLevels st (.arr lv) with
  | error e => rfl
  | ok x =>
    obtain ⟨lev, L⟩ := x
    show (if w < t.maxDist (fun i j => (lev i j : ℤ)) + 1 then _ else _) = Except.map _ (if w < t.maxDist (fun i j => (lev i j : ℤ)) + 1 then _ else _)
    split_ifs with hw
    · rfl
    · show Except.ok _ = Except.ok _
      congr 1
      unfold impUnitGE
      dsimp only
      congr 1
      funext c
      rw [List.map_append]
      congr 1
      refine (congrArg (List.map (padRow pa w)) (gammaTree_units a t pa _ c)).trans ?_
      rw [List.map_map, List.map_map]
      exact List.map_congr_left fun r _ => padRow_units a pa w r

/-- C211, matrices: for responses `a` times larger, and the breaks converted, `create_Gamma_eta_forest` raises the same exceptions or
returns the same `eta` and tree numbers and `a` times `Gamma`, when the constant 2 plays no part in any tree. -/
theorem C211_matrices {a : K} (ha : a ≠ 0) {forest : List (SkTree K 1)} (hwf : ∀ t ∈ forest, t.WF) (st : Style) (pa : Bool)
    (levels : Option (Levels K))
    (h2 : ∀ lv, resolveLevels forest st levels = .ok lv → ∀ t ∈ forest, TwoIrrelevant (a ^ 2) lv (t.impDist st)) :
    gammaEtaForestImp .reg (forest.map (fitUnits a 0)) st pa (levels.map (unitLevels (a ^ 2))) =
      (gammaEtaForestImp .reg forest st pa levels).map (impUnitGE a) := by
  unfold gammaEtaForestImp
  rw [C211_breaks ha 0 hwf]
  cases hl : resolveLevels forest st levels with
  | error e => rfl
  | ok lv =>
    have h2 := h2 lv hl
    cases forest with
    | nil => rfl
    | cons t0 ts =>
      simp only [Except.map, bind, Except.bind, List.map_cons]
      have e0 := impLevels_units ha 0 (hwf t0 (List.mem_cons_self ..)) st lv (h2 t0 (List.mem_cons_self ..))
      have e1 : ∀ (x : Except PyErr ((Fin t0.nLeaves → Fin t0.nLeaves → ℕ) × ℕ)) (y : Except PyErr ((Fin t0.nLeaves → Fin t0.nLeaves → ℕ) × ℕ))
        (f g : ((Fin t0.nLeaves → Fin t0.nLeaves → ℕ) × ℕ) → Except PyErr (GE K 1)) (_ : x = y) (_ : ∀ v, f v = (g v).map (impUnitGE a)),
        (x >>= f) = (y >>= g).map (impUnitGE a) := by
        rintro x y f g rfl hfg
        cases x with
        | error e => rfl
        | ok v => exact hfg v
      refine e1 _ _ _ _ e0 fun v => ?_
      have fold : ∀ (l : List (SkTree K 1)) (k : ℕ) (acc : GE K 1), (∀ t ∈ l, t.WF ∧ TwoIrrelevant (a ^ 2) lv (t.impDist st)) →
          ((l.map (fitUnits a 0)).zipIdx k).foldlM (impStep .reg st pa (lv.map (a ^ 2 * ·)) (v.2 - 1 + 1)) (impUnitGE a acc) =
            ((l.zipIdx k).foldlM (impStep .reg st pa lv (v.2 - 1 + 1)) acc).map (impUnitGE a) := by
        intro l
        induction l with
        | nil => intro k acc _; rfl
        | cons t l ih =>
          intro k acc hh
          obtain ⟨w1, w2⟩ := hh t (List.mem_cons_self ..)
          rw [List.map_cons, List.zipIdx_cons, List.zipIdx_cons, List.foldlM_cons, List.foldlM_cons, impStep_units ha st pa lv _ acc w1 k w2]
          cases impStep .reg st pa lv (v.2 - 1 + 1) acc (t, k) with
          | error e => rfl
          | ok acc' => exact ih (k + 1) acc' fun u hu => hh u (List.mem_cons_of_mem _ hu)
      exact fold (t0 :: ts) 0 ⟨fun _ => [], [], []⟩ fun t ht => ⟨hwf t ht, h2 t ht⟩

/-! ### descent -/

/-- The optimiser's row for responses `a` times larger. -/
def impUnitRow {k : ℕ} (a : K) (r : Row K k) : Row K k := { r with y := a * r.y, gam := fun j => a * r.gam j }

theorem impUnitRow_gam {k : ℕ} (a : K) (r : Row K k) (l : Fin k → K) : dot (impUnitRow a r).gam l = a * dot r.gam l := by
  simp only [dot, impUnitRow, Finset.mul_sum, mul_assoc]

theorem impUnitRow_res {k : ℕ} (a : K) (r : Row K k) (l : Fin k → K) : residual (impUnitRow a r) l = a * residual r l := by
  have : etaFill (impUnitRow a r) l = etaFill r l := rfl
  rw [residual, impUnitRow_gam, this, residual]
  show a * r.y - _ = _
  ring

theorem impUnitRow_assert {k : ℕ} {a : K} (ha : a ≠ 0) (rows : List (Row K k)) (l : Fin k → K) :
    fillAssert (rows.map (impUnitRow a)) l = fillAssert rows l := by
  unfold fillAssert
  rw [List.all_map]
  congr 1
  funext r
  have e : (impUnitRow a r).eta = r.eta := rfl
  simp only [Function.comp, impUnitRow_gam, e, mul_eq_zero, ha, false_or]

theorem impUnitRow_gradient {k : ℕ} {a : K} (ha : a ≠ 0) (rows : List (Row K k)) (l : Fin k → K) :
    takeGradient (rows.map (impUnitRow a)) l = (takeGradient rows l).map fun g j => a ^ 2 * g j := by
  unfold takeGradient
  rw [impUnitRow_assert ha]
  split_ifs
  · show Except.ok _ = Except.ok _
    congr 1
    funext j
    dsimp only
    rw [List.map_map, ← List.sum_map_mul_left]
    congr 1
    refine List.map_congr_left fun r _ => ?_
    have e : etaFill (impUnitRow a r) l = etaFill r l := rfl
    simp only [Function.comp, impUnitRow_res, impUnitRow_gam, e]
    show -2 * (a * residual r l) * r.w * (1 / etaFill r l * (a * r.gam j) - a * dot r.gam l / etaFill r l ^ 2 * r.eta j) = _
    ring
  · rfl

theorem impUnitRow_cost {k : ℕ} {a : K} (ha : a ≠ 0) (rows : List (Row K k)) (l : Fin k → K) :
    calcCost (rows.map (impUnitRow a)) l = (calcCost rows l).map fun c => a ^ 2 * c := by
  unfold calcCost
  rw [impUnitRow_assert ha]
  split_ifs
  · show Except.ok _ = Except.ok _
    congr 1
    dsimp only
    rw [List.map_map, ← List.sum_map_mul_left]
    congr 1
    refine List.map_congr_left fun r _ => ?_
    simp only [Function.comp, impUnitRow_res]
    show (a * residual r l) ^ 2 * r.w = _
    ring
  · rfl

/-- The arguments of `smooth` for responses `a` times larger: step size divided by `a^2`, Adam's `eps` multiplied by it. -/
def impUnitCfg (a : K) (cfg : SmoothCfg K) : SmoothCfg K :=
  { cfg with tFix := cfg.tFix / a ^ 2, adam := cfg.adam.map (affAdam (a ^ 2)) }

theorem optimise_units {n : ℕ} {sqrt : K → K} {a : K} (ha : a ≠ 0)
    {ce : SgdOpts K → K → List (Row K n) → List K → List ℕ → Except PyErr ((Fin n → K) × (Fin n → K) × List K)}
    {cfg : SmoothCfg K} (hq : cfg.adam ≠ none → ∀ x, 0 ≤ x → 0 ≤ sqrt x ∧ sqrt x ^ 2 = x) {rows : List (Row K n)}
    {lamb l1 l2 : Fin n → K} {cs : List K} (h : smoothOptimise sqrt ce .reg cfg rows lamb = .ok (l1, l2, cs)) :
    smoothOptimise sqrt ce .reg (impUnitCfg a cfg) (rows.map (impUnitRow a)) lamb = .ok (l1, l2, cs.map (a ^ 2 * ·)) := by
  have hs : 0 < a ^ 2 := by positivity
  unfold smoothOptimise at h ⊢
  by_cases hsan : cfg.sanityCheck = true
  · rw [if_pos hsan] at h
    rw [if_pos (show (impUnitCfg a cfg).sanityCheck = true from hsan)]
    cases h
    rfl
  · rw [if_neg hsan] at h
    rw [if_neg (show ¬ (impUnitCfg a cfg).sanityCheck = true from hsan)]
    simp only [true_or, if_true] at h ⊢
    unfold sgd at h ⊢
    rw [dif_pos (by simp)] at h ⊢
    dsimp only at h ⊢
    have hc : (impUnitCfg a cfg).noConstraint = cfg.noConstraint := rfl
    rw [hc]
    split_ifs at h ⊢ with hf
    have hemp : (rows.map (impUnitRow a)).isEmpty = rows.isEmpty := by cases rows <;> rfl
    have hfil : ∀ c, (rows.map (impUnitRow a)).filter (fun r => r.tree == c) = (rows.filter fun r => r.tree == c).map (impUnitRow a) := by
      intro c
      rw [List.filter_map]
      rfl
    exact sgdRun_scale hs (fun hA x hx => sqrt_scale (hq hA) hs x hx) hemp (fun _ => True)
      (fun l _ c g hg => by rw [hfil, impUnitRow_gradient ha, hg]; rfl)
      (fun l _ x hx => by rw [impUnitRow_cost ha, hx]; rfl) trivial (fun _ _ _ _ => trivial) h

/-! ### smooth -/

theorem tuneSummaries_units (a : K) (forest : List (SkTree K 1)) (tune : ℕ → List (TuneRow K 1)) :
    tuneSummaries false (forest.map (fitUnits a 0)) (fun i => (tune i).map (affRow a 0)) =
      (tuneSummaries false forest tune).map (List.map fun p => ((fun c => a * p.1 c, p.2) : (Fin 1 → K) × K)) := by
  have hw : ∀ (rows : List (TuneRow K 1)) (i : ℕ), leafWeight (rows.map (affRow a 0)) i = leafWeight rows i := by
    intro rows i
    unfold leafWeight
    rw [List.filter_map, List.length_map]
    rfl
  have hm : ∀ (rows : List (TuneRow K 1)) (i : ℕ) (c : Fin 1), leafMean (rows.map (affRow a 0)) i c = a * leafMean rows i c := by
    intro rows i c
    unfold leafMean
    rw [hw, List.filter_map, List.map_map, ← mul_div_assoc, ← List.sum_map_mul_left]
    congr 2
    exact List.map_congr_left fun r _ => add_zero _
  have fold : ∀ (l : List (SkTree K 1)) (k : ℕ) (acc : List ((Fin 1 → K) × K)),
      ((l.map (fitUnits a 0)).zipIdx k).foldlM (fun acc tt =>
          let rows := (tune tt.2).map (affRow a 0)
          if rows.isEmpty || (false && decide (∃ c, ∀ r ∈ rows, r.y c = 0)) then .error .valueError
          else pure (acc ++ (List.range tt.1.nLeaves).map fun i => ((fun c => leafMean rows i c), leafWeight rows i)))
          (acc.map fun p => ((fun c => a * p.1 c, p.2) : (Fin 1 → K) × K)) =
        ((l.zipIdx k).foldlM (fun acc tt =>
          let rows := tune tt.2
          if rows.isEmpty || (false && decide (∃ c, ∀ r ∈ rows, r.y c = 0)) then (.error .valueError : Except PyErr _)
          else pure (acc ++ (List.range tt.1.nLeaves).map fun i => ((fun c => leafMean rows i c), leafWeight rows i))) acc).map
            (List.map fun p => ((fun c => a * p.1 c, p.2) : (Fin 1 → K) × K)) := by
    intro l
    induction l with
    | nil => intro k acc; rfl
    | cons t l ih =>
      intro k acc
      rw [List.map_cons, List.zipIdx_cons, List.zipIdx_cons, List.foldlM_cons, List.foldlM_cons]
      simp only [Bool.false_and, Bool.or_false, List.isEmpty_map]
      split_ifs with he
      · rfl
      · have := ih (k + 1) (acc ++ (List.range t.nLeaves).map fun i => ((fun c => leafMean (tune k) i c), leafWeight (tune k) i))
        simp only [Bool.false_and, Bool.or_false, List.isEmpty_map, List.map_append, List.map_map, hm, hw] at this ⊢
        exact this
  exact fold forest 0 []

theorem flatRows_units (a : K) (n : ℕ) (al : Bool) (ge : GE K 1) (yw : List ((Fin 1 → K) × K)) :
    flatRows n al (impUnitGE a ge) (yw.map fun p => ((fun c => a * p.1 c, p.2) : (Fin 1 → K) × K)) = (flatRows n al ge yw).map (impUnitRow a) := by
  unfold flatRows
  rw [List.map_flatMap]
  refine List.flatMap_congr fun c _ => ?_
  rw [List.map_map]
  refine List.map_congr_left fun i _ => ?_
  simp only [Function.comp, impUnitRow, impUnitGE, List.getElem?_map]
  congr 1
  · cases yw[i]? <;> simp
  · cases yw[i]? <;> simp
  · funext j
    simp only [toVec, List.getD_eq_getElem?_getD, List.getElem?_map]
    cases (ge.gamma c)[i]? with
    | none => simp
    | some row =>
      simp only [Option.map_some, Option.getD_some, List.getElem?_map]
      cases row[(j : ℕ)]? <;> simp

theorem impUnitRow_value {k : ℕ} (a : K) (r : Row K k) (l : Fin k → K) : smoothValue (impUnitRow a r) l = a * smoothValue r l := by
  unfold smoothValue
  have e : etaFill (impUnitRow a r) l = etaFill r l := rfl
  have e' : (impUnitRow a r).eta = r.eta := rfl
  rw [impUnitRow_gam, e, e', mul_ite, mul_zero, mul_div_assoc]

theorem reshapeF_units (a : K) (flat : List K) :
    reshapeF 1 (flat.map (a * ·)) = (reshapeF 1 flat).map fun v c => a * v c := by
  unfold reshapeF
  dsimp only
  rw [List.length_map, List.map_map]
  refine List.map_congr_left fun i _ => ?_
  funext c
  simp only [Function.comp, List.getD_eq_getElem?_getD, List.getElem?_map]
  cases flat[c.val * (flat.length / 1) + i]? <;> simp

theorem writeLeaves_units (a : K) (t : SkTree K 1) (vals : List (Fin 1 → K)) :
    writeLeaves (fitUnits a 0 t) (vals.map fun v c => a * v c) = (writeLeaves t vals).map (fitUnits a 0) := by
  have hn : ∀ (i : t.Node) c, newValue (fitUnits a 0 t) (vals.map fun v c => a * v c) i c = a * newValue t vals i c + 0 := by
    intro i c
    show (if t.right i = none then ((vals.map fun v c => a * v c)[if (vals.map fun v c => a * v c).length = 1 then 0 else (t.leafIdx i).toNat]?).elim 0
      (fun v => v c) else a * t.value i c + 0) = _
    unfold newValue
    rw [List.length_map, List.getElem?_map]
    split_ifs
    · cases vals[0]? <;> simp
    · cases vals[(t.leafIdx i).toNat]? <;> simp
    · rfl
  unfold writeLeaves
  rw [List.length_map]
  have e : (fitUnits a 0 t).nLeaves = t.nLeaves := rfl
  rw [e]
  split_ifs
  · show Except.ok _ = Except.ok _
    congr 1
    exact congrArg (fun v => ({ fitUnits a 0 t with value := v } : SkTree K 1)) (funext fun i => funext fun c => hn i c)
  · rfl

theorem writeBack_units (a : K) (all : List (Fin 1 → K)) : ∀ (forest : List (SkTree K 1)) (k : ℕ),
    writeBack1 (all.map fun v c => a * v c) k (forest.map (fitUnits a 0)) = (writeBack1 all k forest).map (List.map (fitUnits a 0)) ∧
    writeBack2 (all.map fun v c => a * v c) k (forest.map (fitUnits a 0)) = (writeBack2 all k forest).map (List.map (fitUnits a 0)) := by
  intro forest
  induction forest with
  | nil => intro k; exact ⟨rfl, rfl⟩
  | cons t ts ih =>
    intro k
    have e : (fitUnits a 0 t).nLeaves = t.nLeaves := rfl
    rw [List.map_cons]
    unfold writeBack1 writeBack2
    rw [e, ← List.map_drop, ← List.map_take, writeLeaves_units, (ih (k + t.nLeaves)).1, (ih k).2]
    cases writeLeaves t ((all.drop k).take t.nLeaves) with
    | error e => exact ⟨rfl, rfl⟩
    | ok t' =>
      constructor
      · cases writeBack1 all (k + t.nLeaves) ts <;> rfl
      · cases writeBack2 all k ts <;> rfl

/-- C211: `smooth` with the impurity distance, for a regression forest fitted to and tuned on responses `a` times larger (levels given
as an array converted too, step size and Adam's `eps` adapted): the same weights, `a^2` times the costs, and the two forests in the
new units, when the constant 2 plays no part in any tree. -/
theorem C211_smooth_partial {a : K} (ha : a ≠ 0) {sqrt : K → K}
    {ce : (n : ℕ) → SgdOpts K → K → List (Row K n) → List K → List ℕ → Except PyErr ((Fin n → K) × (Fin n → K) × List K)}
    {forest : List (SkTree K 1)} (hwf : ∀ t ∈ forest, t.WF) {levels : Option (Levels K)} {cfg : SmoothCfg K}
    (hq : cfg.adam ≠ none → ∀ x, 0 ≤ x → 0 ≤ sqrt x ∧ sqrt x ^ 2 = x)
    (h2 : ∀ lv, resolveLevels forest cfg.style levels = .ok lv → ∀ t ∈ forest, TwoIrrelevant (a ^ 2) lv (t.impDist cfg.style))
    {sources : TuneSrc → ℕ → List (TuneRow K 1)} {n : ℕ} {out : SmoothOut K 1 (n + 1)}
    (h : smoothImp sqrt ce (some .reg) forest levels cfg sources = .ok ⟨n, out⟩) :
    smoothImp sqrt ce (some .reg) (forest.map (fitUnits a 0)) (levels.map (unitLevels (a ^ 2)))
        { cfg with tFix := cfg.tFix / a ^ 2, adam := cfg.adam.map fun o => { o with eps := a ^ 2 * o.eps } }
        (fun src i => (sources src i).map (affRow a 0)) =
      .ok ⟨n, ⟨out.rf1.map (fitUnits a 0), out.lamb1, out.rf2.map (fitUnits a 0), out.lamb2, out.costs.map (a ^ 2 * ·)⟩⟩ := by
  obtain ⟨kind, src, ge, h0, h1, hge, hn, hf⟩ := smoothImp_ok h
  cases h0
  dsimp only at hn
  subst hn
  obtain ⟨yw, lamb, g1, g2, g3, g4, g5⟩ := smoothFrom_ok hf
  unfold smoothImp
  have e1 := C211_matrices ha hwf cfg.style cfg.parentsAll levels h2
  rw [hge] at e1
  simp only [h1, e1, bind, Except.bind, Except.map]
  have hl : lastLevel (impUnitGE a ge) = lastLevel ge := rfl
  have g1' := tuneSummaries_units a forest (sources src)
  have hd : (decide (Kind.reg = .cls) && decide (src ≠ .given)) = false := rfl
  rw [hd] at g1
  rw [g1] at g1'
  have g3' := optimise_units (ce := ce _) ha hq g3
  have key : smoothFrom (n := lastLevel ge) sqrt (ce _) .reg src (impUnitGE a ge) (forest.map (fitUnits a 0)) (impUnitCfg a cfg)
      (fun src i => (sources src i).map (affRow a 0)) = .ok ⟨out.rf1.map (fitUnits a 0), out.lamb1,
        out.rf2.map (fitUnits a 0), out.lamb2, out.costs.map (a ^ 2 * ·)⟩ := by
    unfold smoothFrom
    rw [hd]
    have hal : (impUnitCfg a cfg).allTrees = cfg.allTrees := rfl
    have hse : (impUnitCfg a cfg).seed = cfg.seed := rfl
    have hce : (impUnitCfg a cfg).classEps = cfg.classEps := rfl
    have hv : ∀ l, ((flatRows (lastLevel ge + 1) cfg.allTrees ge yw).map (impUnitRow a)).map (fun r => smoothValue r l) =
        ((flatRows (lastLevel ge + 1) cfg.allTrees ge yw).map fun r => smoothValue r l).map (a * ·) := by
      intro l
      rw [List.map_map, List.map_map]
      exact List.map_congr_left fun r _ => impUnitRow_value a r l
    simp only [g1', bind, Except.bind, Except.map, hal, hse, hce, g2, flatRows_units, g3', hv, reshapeF_units, (writeBack_units a _ _ _).1,
      (writeBack_units a _ _ _).2, g4, g5, pure, Except.pure]
  have key' := congrArg (fun x : Except PyErr (SmoothOut K 1 (lastLevel ge + 1)) => x >>= fun o => (Except.ok ⟨lastLevel ge, o⟩ : Except PyErr ((n : ℕ) × SmoothOut K 1 (n + 1)))) key
  exact key'

/-! ### examples -/

/-- The stump fitted to the responses -2 and 2. -/
abbrev exGap : SkTree ℚ 1 :=
  { toTopo := ⟨2, ![some 1, none, none], ![some 2, none, none]⟩
    value := fun i _ => ![0, -2, 2] i
    nSamp := ![2, 1, 1]
    impurity := ![4, 0, 0] }

/-- Tuning responses -1 and 1, one in each leaf of `exGap`. -/
abbrev exGapTune (_ : ℕ) : List (TuneRow ℚ 1) := [⟨0, fun _ => -1⟩, ⟨1, fun _ => 1⟩]

/-- Two constrained plain steps of size 1/40. -/
abbrev exGapCfg : SmoothCfg ℚ := { exCfg with sanityCheck := false, parentsAll := false, steps := [0, 0], tFix := 1 / 40 }

/-- C211 (refuted without the condition): the stump fitted to -2 and 2 and tuned on -1 and 1, with `levels=5`, and the same with all
responses doubled and the step size adapted. The first has four weights and gets the values -18/17 and 18/17. The second has five
weights and gets -2 and 2, not -36/17 and 36/17. -/
theorem C211_refuted : ∃ out out' : (n : ℕ) × SmoothOut ℚ 1 (n + 1),
    FitReg exGap ([⟨![true, true, false], -2⟩, ⟨![true, false, true], 2⟩] : List (OobRow exGap.toTopo ℚ)) ∧
    smoothImp (fun x => x) noCe (some .reg) [exGap] (some (.int 5)) exGapCfg (fun _ => exGapTune) = .ok out ∧
    smoothImp (fun x => x) noCe (some .reg) [fitUnits 2 0 exGap] (some (.int 5)) { exGapCfg with tFix := exGapCfg.tFix / 2 ^ 2 }
      (fun _ i => (exGapTune i).map (affRow 2 0)) = .ok out' ∧
    out.1 + 1 = 4 ∧ out'.1 + 1 = 5 ∧ valuesOf out.2.rf1 = [[[0], [-18 / 17], [18 / 17]]] ∧ valuesOf out'.2.rf1 = [[[0], [-2], [2]]] := by
  have k1 : (match smoothImp (fun x => x) noCe (some .reg) [exGap] (some (.int 5)) exGapCfg (fun _ => exGapTune) with
    | .ok out => some (out.1 + 1, valuesOf out.2.rf1)
    | .error _ => none) = some (4, [[[0], [-18 / 17], [18 / 17]]]) := by decide +kernel
  have k2 : (match smoothImp (fun x => x) noCe (some .reg) [fitUnits 2 0 exGap] (some (.int 5))
      { exGapCfg with tFix := exGapCfg.tFix / 2 ^ 2 } (fun _ i => (exGapTune i).map (affRow 2 0)) with
    | .ok out => some (out.1 + 1, valuesOf out.2.rf1)
    | .error _ => none) = some (5, [[[0], [-2], [2]]]) := by decide +kernel
  rcases h1 : smoothImp (fun x => x) noCe (some .reg) [exGap] (some (.int 5)) exGapCfg (fun _ => exGapTune) with e | out
  · rw [h1] at k1; cases k1
  rcases h2 : smoothImp (fun x => x) noCe (some .reg) [fitUnits 2 0 exGap] (some (.int 5))
      { exGapCfg with tFix := exGapCfg.tFix / 2 ^ 2 } (fun _ i => (exGapTune i).map (affRow 2 0)) with e | out'
  · rw [h2] at k2; cases k2
  rw [h1] at k1
  rw [h2] at k2
  simp only [Option.some.injEq, Prod.mk.injEq] at k1 k2
  exact ⟨out, out', ⟨by decide, by decide, by decide +kernel, by decide +kernel, by decide +kernel⟩, rfl, rfl, k1.1, k2.1, k1.2, k2.2⟩

/-- With responses halved the constant 2 plays no part for the breaks of `exGap`; neither does it with doubled responses when `levels=1`. -/
example : (∀ lv, resolveLevels [fitUnits (1 / 2) 0 exGap] .standard (some (.int 5)) = .ok lv →
      ∀ t ∈ [fitUnits (1 / 2) 0 exGap], TwoIrrelevant ((1 / 2) ^ 2) lv (t.impDist .standard)) ∧
    (∀ lv, resolveLevels [exGap] .standard (some (.int 1)) = .ok lv → ∀ t ∈ [exGap], TwoIrrelevant (2 ^ 2) lv (t.impDist .standard)) := by
  constructor
  · intro lv _ t ht
    rw [List.mem_singleton] at ht
    subst ht
    exact .inl ⟨(⟨0, by decide⟩ : Fin exGap.nLeaves), (⟨1, by decide⟩ : Fin exGap.nLeaves), by decide +kernel⟩
  · intro lv h t ht
    rw [List.mem_singleton] at ht
    subst ht
    have : resolveLevels [exGap] .standard (some (.int 1)) = .ok [0, 4] := by decide +kernel
    rw [this] at h
    cases h
    refine .inr fun l hl h0 => ⟨⟨0, by decide⟩, ⟨1, by decide⟩, ?_⟩
    simp only [List.mem_cons, List.not_mem_nil, or_false] at hl
    rcases hl with rfl | rfl
    · exact absurd h0 (lt_irrefl _)
    · decide +kernel

/-- Instance of C211: `levels=1`, responses and tuning responses doubled. -/
example : (match smoothImp (fun x => x) noCe (some .reg) [exGap] (some (.int 1)) exGapCfg (fun _ => exGapTune) with
    | .ok out => some (List.ofFn out.2.lamb1, out.2.costs, valuesOf out.2.rf1)
    | .error _ => none) = some ([19 / 25, 6 / 25, 0], [2, 2 / 25, 2 / 625], [[[0], [-26 / 25], [26 / 25]]]) ∧
    (match smoothImp (fun x => x) noCe (some .reg) [fitUnits 2 0 exGap] (some (.int 1)) { exGapCfg with tFix := exGapCfg.tFix / 2 ^ 2 }
      (fun _ i => (exGapTune i).map (affRow 2 0)) with
    | .ok out => some (List.ofFn out.2.lamb1, out.2.costs, valuesOf out.2.rf1)
    | .error _ => none) = some ([19 / 25, 6 / 25, 0], [8, 8 / 25, 8 / 625], [[[0], [-52 / 25], [52 / 25]]]) := ⟨by decide +kernel, by decide +kernel⟩

end SmoothRF
