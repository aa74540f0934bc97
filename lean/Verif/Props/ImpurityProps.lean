import Verif.Proofs.Impurity
import Verif.Props.GammaProps
import Verif.Props.DiscretiseProps

/-!
# C94–C96: Gamma and eta under the impurity distance; quantile breaks
-/

set_option linter.unusedSectionVars false

namespace SmoothRF
open Topo SkTree

variable {K : Type} [Field K] [LinearOrder K] [IsStrictOrderedRing K] {C : ℕ}

/-- C96: `np.quantile(vals, arange(levels+1)/levels)` returns `levels + 1` non-decreasing breaks from
the smallest to the largest value; break `k` interpolates linearly between the order statistics at
rank `(n-1)k/levels`; more than the fraction `k/levels` of `n-1` values lies at or below it and more
than `1 - k/levels` at or above. -/
theorem C96_quantiles (vals : List K) (levels : ℕ) (breaks : List K)
    (hok : quantileBreaks vals levels = .ok breaks) :
    breaks.length = levels + 1 ∧ breaks.Pairwise (· ≤ ·) ∧
    (∀ b ∈ breaks, ∃ x ∈ vals, ∃ y ∈ vals, x ≤ b ∧ b ≤ y) ∧
    (∃ lo ∈ vals, breaks.head? = some lo ∧ ∀ v ∈ vals, lo ≤ v) ∧
    (∃ hi ∈ vals, breaks.getLast? = some hi ∧ ∀ v ∈ vals, v ≤ hi) ∧
    ∀ k b, breaks[k]? = some b →
      ((vals.length - 1) * k < levels * vals.countP (fun v => decide (v ≤ b)) ∧
       (vals.length - 1) * (levels - k) < levels * vals.countP (fun v => decide (b ≤ v))) ∧
      ∀ sorted : List K, sorted.Perm vals → sorted.Pairwise (· ≤ ·) →
        ∀ a r x, (vals.length - 1) * k = levels * a + r → r < levels → sorted[a]? = some x →
          (r = 0 → b = x) ∧
          ∀ y, sorted[a + 1]? = some y → (levels : K) * b = (levels - r) * x + r * y := by
  unfold quantileBreaks at hok
  split at hok
  · cases hok
  rename_i hl0
  split at hok
  · cases hok
  rename_i hv
  have hl : 0 < levels := Nat.pos_of_ne_zero hl0
  obtain rfl := Except.ok.inj hok
  clear hok
  have hperm : (vals.insertionSort (· ≤ ·)).Perm vals := List.perm_insertionSort _ _
  have hs : (vals.insertionSort (· ≤ ·)).Pairwise (· ≤ ·) := List.pairwise_insertionSort _ _
  have hn : 0 < (vals.insertionSort (· ≤ ·)).length := by
    rw [hperm.length_eq]; exact List.length_pos_iff.2 hv
  have hmem : ∀ i, i < (vals.insertionSort (· ≤ ·)).length →
      (vals.insertionSort (· ≤ ·)).getD i 0 ∈ vals := by
    intro i hi
    rw [getD_lt hi]
    exact hperm.mem_iff.1 (List.getElem_mem _)
  refine ⟨by simp, ?_, ?_, ?_, ?_, ?_⟩
  · rw [List.pairwise_map, List.pairwise_iff_getElem]
    intro i j hi hj hij
    rw [List.getElem_range, List.getElem_range]
    simp only [List.length_range] at hj
    exact quantileAt_mono vals levels i j hv hl hij.le (by omega)
  · intro b hb
    obtain ⟨k, hk, rfl⟩ := List.mem_map.1 hb
    rw [List.mem_range] at hk
    obtain ⟨ha, h1, h2, -⟩ := quantileAt_between vals levels k hv hl (by omega)
    exact ⟨_, hmem _ ha, _, hmem _ (lt_of_le_of_lt (min_le_right _ _) (Nat.sub_lt hn Nat.one_pos)),
      h1, h2⟩
  · obtain ⟨ha, h1, h2, h3⟩ := quantileAt_between vals levels 0 hv hl (by omega)
    have e := h3 (by simp)
    refine ⟨quantileAt vals levels 0, by rw [e]; exact hmem _ ha, ?_, ?_⟩
    · rw [List.range_succ_eq_map]; rfl
    · intro v hv'
      obtain ⟨i, hi, rfl⟩ := List.mem_iff_getElem.1 (hperm.mem_iff.2 hv')
      rw [e, ← getD_lt hi]
      exact sorted_getD hs (by simp) hi
  · obtain ⟨ha, h1, h2, h3⟩ := quantileAt_between vals levels levels hv hl le_rfl
    have e := h3 (by simp)
    rw [Nat.mul_div_cancel _ hl] at e ha
    refine ⟨quantileAt vals levels levels, by rw [e]; exact hmem _ ha, ?_, ?_⟩
    · rw [List.range_succ]; simp
    · intro v hv'
      obtain ⟨i, hi, rfl⟩ := List.mem_iff_getElem.1 (hperm.mem_iff.2 hv')
      rw [e, ← getD_lt hi]
      exact sorted_getD hs (Nat.le_sub_one_of_lt hi) ha
  · intro k b hb
    rw [List.getElem?_map] at hb
    obtain ⟨k', hk', rfl⟩ := Option.map_eq_some_iff.1 hb
    obtain ⟨hk1, hk2⟩ := List.getElem?_eq_some_iff.1 hk'
    rw [List.getElem_range] at hk2
    subst hk2
    simp only [List.length_range] at hk1
    refine ⟨quantileAt_counts vals levels k hv hl (by omega), ?_⟩
    intro sorted hp hsort a r x har hr hx
    have es : vals.insertionSort (· ≤ ·) = sorted :=
      sorted_unique (hperm.trans hp.symm) hs hsort
    have hlen : sorted.length = vals.length := hp.length_eq
    have hdiv : (sorted.length - 1) * k / levels = a := by
      rw [hlen, har, Nat.mul_add_div hl, Nat.div_eq_of_lt hr, Nat.add_zero]
    have hmod : (sorted.length - 1) * k % levels = r := by
      rw [hlen, har, Nat.mul_add_mod, Nat.mod_eq_of_lt hr]
    have eq : quantileAt vals levels k = sorted.getD a 0 + (r : K) / (levels : K) *
        (sorted.getD (min (a + 1) (sorted.length - 1)) 0 - sorted.getD a 0) := by
      unfold quantileAt
      simp only [es, hdiv, hmod]
    have hxa : sorted.getD a 0 = x := by simp [List.getD, hx]
    constructor
    · rintro rfl; rw [eq, hxa]; simp
    · intro y hy
      have hlt : a + 1 < sorted.length := (List.getElem?_eq_some_iff.1 hy).1
      have hya : sorted.getD (min (a + 1) (sorted.length - 1)) 0 = y := by
        rw [min_eq_left (by omega)]; simp [List.getD, hy]
      rw [eq, hxa, hya]
      have : (levels : K) ≠ 0 := by exact_mod_cast hl0
      field_simp
      ring

/-- C96: it returns whenever there is a value and `levels` is positive. -/
theorem C96_returns (vals : List K) (levels : ℕ) :
    (∃ b, quantileBreaks vals levels = .ok b) ↔ vals ≠ [] ∧ 0 < levels := by
  unfold quantileBreaks
  by_cases h : levels = 0
  · simp [h]
  · by_cases hv : vals = []
    · simp [h, hv]
    · simp [h, hv, Nat.pos_of_ne_zero h]

/-- Four levels of six values: breaks 0, 2, 5/2, 3, 9 (ranks 0, 5/4, 5/2, 15/4, 5). -/
example : (match quantileBreaks (K := ℚ) [3, 2, 9, 0, 3, 2] 4 with
    | .ok b => some b | .error _ => none) = some [0, 2, 5 / 2, 3, 9] := by decide +kernel

theorem discretise_isOk {n : ℕ} (levels : List K) (out : Fin n → Fin n → K) :
    (∃ r, discretise levels out = .ok r) ↔ (∃ i j, 0 < out i j) ∧ ∃ b ∈ levels, b ≠ 0 := by
  obtain ⟨h1, h2, -⟩ := C11_raises levels out
  constructor
  · rintro ⟨r, hr⟩
    have n1 : ¬ ∀ i j, out i j ≤ 0 := fun h => by rw [h1.2 h] at hr; cases hr
    push Not at n1
    have n2 : ¬ ∀ b ∈ levels, b = 0 := fun h => by rw [h2.2 ⟨n1, h⟩] at hr; cases hr
    push Not at n2
    exact ⟨n1, n2⟩
  · rintro ⟨hp, hb⟩
    rcases hd : discretise levels out with e | r
    · exfalso
      have hcases : e = .valueError ∨ e = .indexError := by
        unfold discretise at hd
        rcases hm : mkBreaks levels (positives out) with e' | b
        · rw [hm] at hd
          simp only [bind, Except.bind] at hd
          obtain rfl := Except.error.inj hd
          unfold mkBreaks at hm
          split at hm
          · exact Or.inl (Except.error.inj hm).symm
          · simp only at hm
            split at hm
            · exact Or.inr (Except.error.inj hm).symm
            · cases hm
        · rw [hm] at hd; cases hd
      rcases hcases with rfl | rfl
      · obtain ⟨i, j, hij⟩ := hp
        exact absurd (h1.1 hd i j) (not_le.2 hij)
      · obtain ⟨b, hb, hb0⟩ := hb
        exact hb0 ((h2.1 hd).2 b hb)
    · exact ⟨r, rfl⟩

theorem foldl_ravelM (l : List (SkTree K C)) (s : Style) (acc : List K) :
    l.foldl (fun acc t => acc ++ ravelM (t.impDist s)) acc =
      acc ++ l.flatMap fun t => ravelM (t.distImpurity t.impurity s) := by
  induction l generalizing acc with
  | nil => simp
  | cons t ts ih => rw [List.foldl_cons, ih]; simp [impDist]

theorem resolve_int (forest : List (SkTree K C)) (s : Style) (n : ℕ) :
    resolveLevels forest s (some (.int n)) = quantileBreaks ((forest.take 5).flatMap fun t =>
      ravelM (t.distImpurity t.impurity s)) n := by
  have hin : (if forest.length > 5 then forest.take 5 else forest) = forest.take 5 := by
    split
    · rfl
    · rw [List.take_of_length_le (by omega)]
  simp only [resolveLevels, quantilesDistanceTrees]
  rw [hin, foldl_ravelM, List.nil_append]

/-- C94: the forest matrices under the impurity distance. The breaks are the caller's array, or the
quantiles of the leaf distances of the first five trees; `lev t` is tree `t`'s discretised distance
(C11); every row has as many columns as tree 0 has breaks, which is enough for every level of every
tree; each entry is the documented sum, and without `parents_all` a row of eta sums to its tree's
total leaf weight. -/
theorem C94_impurity_matrices (kind : Kind) (forest : List (SkTree K C))
    (s : Style) (pa : Bool) (levels : Option (Levels K)) (G : GE K C)
    (hok : gammaEtaForestImp kind forest s pa levels = .ok G) :
    ∃ (lv : List K) (L : ℕ) (lev : (t : SkTree K C) → Fin t.nLeaves → Fin t.nLeaves → ℕ),
      (levels = some (.arr lv) ∨ ∃ n, levels = some (.int n) ∧
        quantileBreaks ((forest.take 5).flatMap fun t => ravelM (t.distImpurity t.impurity s)) n =
          .ok lv) ∧
      (∃ t0 ∈ forest.head?, discretise lv (t0.distImpurity t0.impurity s) = .ok (lev t0, L)) ∧
      (∀ t ∈ forest, ∃ Lt, discretise lv (t.distImpurity t.impurity s) = .ok (lev t, Lt)) ∧
      (∀ t ∈ forest, ∀ i j, lev t i j < L) ∧
      (∀ c, G.gamma c = forest.flatMap fun t => (List.finRange t.nLeaves).map fun i =>
        (List.range L).map (levelSum pa (fun i j => (lev t i j : ℤ))
          (fun j => t.mass kind (t.leafNode j) c) i)) ∧
      (G.eta = forest.flatMap fun t => (List.finRange t.nLeaves).map fun i =>
        (List.range L).map (levelSum pa (fun i j => (lev t i j : ℤ))
          (fun j => t.nSamp (t.leafNode j)) i)) ∧
      (G.tIdx = forest.zipIdx.flatMap fun tt => List.replicate tt.1.nLeaves tt.2) ∧
      (pa = false → ∀ t ∈ forest, ∀ i, ((List.range L).map (levelSum pa
        (fun i j => (lev t i j : ℤ)) (fun j => t.nSamp (t.leafNode j)) i)).sum =
          ∑ j, t.nSamp (t.leafNode j)) := by
  unfold gammaEtaForestImp at hok
  obtain ⟨lv, hlv, hok⟩ := bind_ok hok
  rcases forest with _ | ⟨t0, ts⟩
  · cases hok
  simp only at hok
  obtain ⟨⟨lev0, L0⟩, h0, hok⟩ := bind_ok hok
  rw [impLevels_arr] at h0
  simp only at hok
  have hall := fold_inv _ _ _ _ hok
  obtain ⟨br0, hb0, -, hL0⟩ := discretise_ok h0
  have hL0pos : 2 ≤ L0 := by
    obtain ⟨hbot, htop⟩ := mkBreaks_bot_top hb0
    have := cutLevel_bound br0 hbot htop 0
    omega
  rw [show L0 - 1 + 1 = L0 by omega] at hok
  let lev : (t : SkTree K C) → Fin t.nLeaves → Fin t.nLeaves → ℕ := fun t =>
    match discretise lv (t.impDist s) with
    | .ok (l, _) => l
    | .error _ => fun _ _ => 0
  have hlev : ∀ t ∈ t0 :: ts, ∃ Lt, discretise lv (t.impDist s) = .ok (lev t, Lt) := by
    intro t ht
    obtain ⟨l, Lt, h⟩ := hall t ht
    refine ⟨Lt, ?_⟩
    simp only [lev, h]
  have hlt : ∀ t ∈ t0 :: ts, ∀ i j, lev t i j < L0 := by
    intro t ht i j
    obtain ⟨Lt, h⟩ := hlev t ht
    exact lev_lt h0 h i j
  have hw : ∀ t ∈ t0 :: ts, t.maxDist (fun i j => (lev t i j : ℤ)) + 1 ≤ L0 := fun t ht =>
    t.maxDist_lt _ _ (by omega) (hlt t ht)
  obtain ⟨G', hG', g1, g2, g3⟩ := fold_ok (kind := kind) (pa := pa) (t0 :: ts) 0
    { gamma := fun _ => [], eta := [], tIdx := [] } lev hlev hw
  have : G' = G := Except.ok.inj (hG'.symm.trans hok)
  subst this
  refine ⟨lv, L0, lev, ?_, ⟨t0, rfl, ?_⟩, hlev, hlt, ?_, ?_, ?_, ?_⟩
  · rcases levels with _ | ⟨n⟩ | l
    · cases hlv
    · right
      rw [resolve_int] at hlv
      exact ⟨n, rfl, hlv⟩
    · left
      rw [show lv = l from (Except.ok.inj hlv).symm]
  · have hl0 : lev t0 = lev0 := by simp only [lev, h0]
    rw [hl0]; exact h0
  · intro c
    rw [g1 c, List.nil_append]
    apply List.flatMap_congr
    intro t ht
    simp only [gammaTree, List.map_map, ny_eq]
    exact List.map_congr_left fun i _ => padRow_levelRow t pa _ _ i _ (hw t ht)
  · rw [g2, List.nil_append]
    apply List.flatMap_congr
    intro t ht
    simp only [etaTree, List.map_map]
    exact List.map_congr_left fun i _ => padRow_levelRow t pa _ _ i _ (hw t ht)
  · rw [g3, List.nil_append]
  · rintro rfl t ht i
    rw [sum_map_range, show L0 = (L0 - 1) + 1 by omega,
      sum_levelSum _ (fun i j => Int.natCast_nonneg _),
      levelSum_true_max t _ _ _ _ (by have := hw t ht; omega)]

/-- C94 (when it returns): with an array, exactly when the forest is not empty, some break is not zero
and every tree has a positive leaf distance; with a positive integer, whenever the forest is not empty
and every tree has a positive leaf distance; without levels, never (ValueError). A tree that is a
single leaf has no positive distance. -/
theorem C94_returns (kind : Kind) (forest : List (SkTree K C)) (s : Style) (pa : Bool) :
    (∀ l, (∃ G, gammaEtaForestImp kind forest s pa (some (.arr l)) = .ok G) ↔
      forest ≠ [] ∧ (∃ b ∈ l, b ≠ 0) ∧
        ∀ t ∈ forest, ∃ i j, 0 < t.distImpurity t.impurity s i j) ∧
    (∀ n, 0 < n → ((∃ G, gammaEtaForestImp kind forest s pa (some (.int n)) = .ok G) ↔
      forest ≠ [] ∧ ∀ t ∈ forest, ∃ i j, 0 < t.distImpurity t.impurity s i j)) ∧
    gammaEtaForestImp kind forest s pa none = .error .valueError := by
  have main : ∀ (lv : List K) (levels : Option (Levels K)), resolveLevels forest s levels = .ok lv →
      ((∃ G, gammaEtaForestImp kind forest s pa levels = .ok G) ↔
      forest ≠ [] ∧ (∃ b ∈ lv, b ≠ 0) ∧
        ∀ t ∈ forest, ∃ i j, 0 < t.distImpurity t.impurity s i j) := by
    intro lv levels hlv
    unfold gammaEtaForestImp
    simp only [hlv, bind, Except.bind]
    rcases forest with _ | ⟨t0, ts⟩
    · simp
    simp only [impLevels_arr]
    constructor
    · rintro ⟨G, hG⟩
      rcases h0 : discretise lv (t0.impDist s) with e | ⟨lev0, L0⟩
      · rw [h0] at hG; cases hG
      rw [h0] at hG
      have hall := fold_inv _ _ _ _ hG
      refine ⟨by simp, ((discretise_isOk _ _).1 ⟨_, h0⟩).2, fun t ht => ?_⟩
      obtain ⟨lev, L, h⟩ := hall t ht
      exact ((discretise_isOk _ _).1 ⟨_, h⟩).1
    · rintro ⟨-, hb, hp⟩
      have hall : ∀ t ∈ t0 :: ts, ∃ r, discretise lv (t.impDist s) = .ok r := fun t ht =>
        (discretise_isOk _ _).2 ⟨hp t ht, hb⟩
      obtain ⟨⟨lev0, L0⟩, h0⟩ := hall t0 (by simp)
      rw [h0]
      let lev : (t : SkTree K C) → Fin t.nLeaves → Fin t.nLeaves → ℕ := fun t =>
        match discretise lv (t.impDist s) with
        | .ok (l, _) => l
        | .error _ => fun _ _ => 0
      have hlev : ∀ t ∈ t0 :: ts, ∃ Lt, discretise lv (t.impDist s) = .ok (lev t, Lt) := by
        intro t ht
        obtain ⟨⟨l, Lt⟩, h⟩ := hall t ht
        exact ⟨Lt, by simp only [lev, h]⟩
      have hL0 : 2 ≤ L0 := by
        obtain ⟨br0, hb0, -, rfl⟩ := discretise_ok h0
        obtain ⟨hbot, htop⟩ := mkBreaks_bot_top hb0
        have := cutLevel_bound br0 hbot htop 0
        omega
      obtain ⟨G, hG, -⟩ := fold_ok (kind := kind) (pa := pa) (width := L0 - 1 + 1) (t0 :: ts) 0
        { gamma := fun _ => [], eta := [], tIdx := [] } lev hlev (fun t ht => by
          obtain ⟨Lt, h⟩ := hlev t ht
          exact t.maxDist_lt _ _ (by omega) (fun i j => by have := lev_lt h0 h i j; omega))
      exact ⟨G, hG⟩
  refine ⟨fun l => main l _ rfl, fun n hn => ?_, rfl⟩
  rcases forest with _ | ⟨t0, ts⟩
  · constructor
    · rintro ⟨G, hG⟩
      exfalso
      unfold gammaEtaForestImp at hG
      obtain ⟨lv, -, hG⟩ := bind_ok hG
      cases hG
    · rintro ⟨h, -⟩; exact absurd rfl h
  · constructor
    · rintro ⟨G, hG⟩
      have hG0 := hG
      unfold gammaEtaForestImp at hG
      obtain ⟨lv, hlv, -⟩ := bind_ok hG
      exact ⟨by simp, ((main lv _ hlv).1 ⟨G, hG0⟩).2.2⟩
    · rintro ⟨-, hp⟩
      obtain ⟨i, j, hij⟩ := hp t0 (by simp)
      have hmem : t0.distImpurity t0.impurity s i j ∈ ((t0 :: ts).take 5).flatMap fun t =>
          ravelM (t.distImpurity t.impurity s) := by
        rw [List.take_succ_cons, List.flatMap_cons, List.mem_append]
        exact Or.inl (List.mem_flatMap.2 ⟨i, List.mem_finRange _,
          List.mem_map.2 ⟨j, List.mem_finRange _, rfl⟩⟩)
      obtain ⟨lv, hlv⟩ := (C96_returns (((t0 :: ts).take 5).flatMap fun t =>
          ravelM (t.distImpurity t.impurity s)) n).2 ⟨List.ne_nil_of_mem hmem, hn⟩
      have hq := C96_quantiles _ _ _ hlv
      rw [← resolve_int] at hlv
      refine (main lv _ hlv).2 ⟨by simp, ?_, hp⟩
      obtain ⟨hi, -, hlast, hmax⟩ := hq.2.2.2.2.1
      exact ⟨hi, List.mem_of_getLast? hlast, (lt_of_lt_of_le hij (hmax _ hmem)).ne'⟩

/-- Two trees, breaks `[1, 3]`: four columns; the row of the stump's leaves and of the larger tree's. -/
example : (match gammaEtaForestImp .reg [exTree, exStump] .standard false (some (.arr [1, 3])) with
    | .ok G => some (G.eta, G.tIdx) | .error _ => none) =
    some ([[1, 0, 5, 0], [2, 1, 3, 0], [3, 0, 3, 0], [1, 1, 0, 0], [1, 1, 0, 0]], [0, 0, 0, 1, 1]) := by
  decide +kernel

/-- C95 (what holds): the shared breaks are extended per tree, so two trees of one forest may number
the same distance differently, but by at most one level, and not at all for a distance that is zero or
negative.
Missing: equality, which is false (`C95_refuted`). -/
theorem C95_shared_levels_partial {n m L L' : ℕ} (levels : List K) (out : Fin n → Fin n → K)
    (out' : Fin m → Fin m → K) (lev : Fin n → Fin n → ℕ) (lev' : Fin m → Fin m → ℕ)
    (h : discretise levels out = .ok (lev, L)) (h' : discretise levels out' = .ok (lev', L'))
    (i j : Fin n) (i' j' : Fin m) (he : out i j = out' i' j') :
    lev i j ≤ lev' i' j' + 1 ∧ lev' i' j' ≤ lev i j + 1 ∧
      (out i j ≤ 0 → lev i j = lev' i' j') ∧ L ≤ L' + 1 ∧ L' ≤ L + 1 := by
  obtain ⟨br, hb, rfl, rfl⟩ := discretise_ok h
  obtain ⟨br', hb', rfl, rfl⟩ := discretise_ok h'
  have p := fun x hx => ((mem_positives out x).1 hx).1
  have p' := fun x hx => ((mem_positives out' x).1 hx).1
  obtain ⟨a1, a2, a3⟩ := cutLevel_shared hb p (out i j)
  obtain ⟨b1, b2, b3⟩ := cutLevel_shared hb' p' (out' i' j')
  have l1 := mkBreaks_length hb p
  have l2 := mkBreaks_length hb' p'
  rw [← he] at b1 b2 b3
  refine ⟨?_, ?_, fun h0 => ?_, by omega, by omega⟩
  · show cutLevel br (out i j) ≤ cutLevel br' (out' i' j') + 1
    rw [← he]; omega
  · show cutLevel br' (out' i' j') ≤ cutLevel br (out i j) + 1
    rw [← he]; omega
  · show cutLevel br (out i j) = cutLevel br' (out' i' j')
    rw [← he, a3 h0, b3 h0]

/-- C95 (refuted): "levels the same across tree" (smooth_base.py 660). Two trees, breaks `[1, 3]`: a
distance 2 occurs in both, at level 2 in the first and at level 1 in the second, so one component of
lambda weights different distances in different trees. -/
theorem C95_refuted :
    ¬ ∀ (forest : List (SkTree ℚ 1)) (levels : List ℚ), (∀ t ∈ forest, t.WF) →
      ∀ t ∈ forest, ∀ t' ∈ forest, ∀ lev L lev' L',
        t.impLevels .standard (.arr levels) = .ok (lev, L) →
        t'.impLevels .standard (.arr levels) = .ok (lev', L') →
        ∀ i j i' j', t.distImpurity t.impurity .standard i j =
          t'.distImpurity t'.impurity .standard i' j' → lev i j = lev' i' j' := by
  intro hall
  have e1 : (match exTree.impLevels .standard (.arr [1, 3]) with
      | .ok (lev, _) => some (lev ⟨0, by decide⟩ ⟨1, by decide⟩) | .error _ => none) = some 2 := by
    decide +kernel
  have e2 : (match exStump.impLevels .standard (.arr [1, 3]) with
      | .ok (lev, _) => some (lev ⟨1, by decide⟩ ⟨0, by decide⟩) | .error _ => none) = some 1 := by
    decide +kernel
  rcases h1 : exTree.impLevels .standard (.arr [1, 3]) with e | ⟨lev, L⟩
  · rw [h1] at e1; cases e1
  rcases h2 : exStump.impLevels .standard (.arr [1, 3]) with e | ⟨lev', L'⟩
  · rw [h2] at e2; cases e2
  rw [h1] at e1
  rw [h2] at e2
  have := hall [exTree, exStump] [1, 3] (by simp; decide) exTree (by simp) exStump (by simp)
    lev L lev' L' h1 h2 ⟨0, by decide⟩ ⟨1, by decide⟩ ⟨1, by decide⟩ ⟨0, by decide⟩
    (by decide +kernel)
  simp only [Option.some.injEq] at e1 e2
  rw [e1, e2] at this
  exact absurd this (by decide)

end SmoothRF
