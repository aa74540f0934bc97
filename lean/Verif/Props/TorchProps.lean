import Verif.Proofs.Torch4
import Verif.Proofs.Clean2
import Verif.Props.SmoothProps
import Mathlib.Analysis.SpecialFunctions.Exp

/-!
# C65–C70, C86–C90: smooth_pytorch
-/

set_option linter.unusedSectionVars false

namespace SmoothRF
open Topo SkTree

variable {K : Type} [Field K] [LinearOrder K] {C p : ℕ}

/-- Example positive function in place of `exp`. -/
abbrev exExp (x : ℚ) : ℚ := if 0 ≤ x then 1 + x else 1 / (1 - x)

theorem exExp_pos (x : ℚ) : 0 < exExp x := by
  unfold exExp
  split_ifs with h
  · linarith
  · exact div_pos one_pos (by linarith)

/-! ### data set -/

/-- C65: `len(dataset)` is the number of distinct tree ids and `dataset[idx]` holds exactly the rows
with that id, in order, in all five arrays. -/
theorem C65_batches {n : ℕ} {rows : List (Row K n)} {one : List (String × List K)}
    {two : List (String × List (List K))} {d : Dataset K n} (h : mkDataset rows one two = .ok d) :
    d.numTrees = (rows.map Row.tree).toFinset.card ∧
    ∀ idx, let sel := rows.filter fun r => decide (r.tree = idx)
      (d.item idx).y = sel.map Row.y ∧ (d.item idx).weights = sel.map Row.w ∧
      (d.item idx).gamma = sel.map Row.gam ∧ (d.item idx).eta = sel.map Row.eta ∧
      (d.item idx).feats =
        ((List.range rows.length).filter fun i => decide ((rows[i]?).map Row.tree = some idx)).map d.feats := by
  obtain ⟨-, h1, h2, h3, h4, h5, h6, -, -⟩ := mkDataset_ok h
  refine ⟨by rw [h6, List.card_toFinset], fun idx => ?_⟩
  have hf : (fun r : Row K n => decide (r.tree = idx)) = fun r => r.tree == idx := by
    funext r; rfl
  simp only [Dataset.item, h1, h2, h3, h4, h5, maskSel_map, hf, true_and, List.length_map]
  have e : rows.map Row.tree = (List.range rows.length).map fun i => ((rows[i]?).map Row.tree).getD 0 := by
    apply List.ext_getElem
    · simp
    · intro i a b
      have : i < rows.length := by simpa using a
      simp [this]
  rw [e, maskSel_map]
  congr 1
  refine List.filter_congr fun i hi => ?_
  have : i < rows.length := by simpa using hi
  simp only [List.getElem?_eq_getElem this, Option.map_some, Option.getD_some, Option.some.injEq]
  rfl

theorem flatMap_filter_perm {α : Type} (l : List α) (f : α → ℕ) (T : ℕ) :
    ((List.range T).flatMap fun i => l.filter fun a => decide (f a = i)).Perm
      (l.filter fun a => decide (f a < T)) := by
  induction T with
  | zero => simp
  | succ T ih =>
    rw [List.range_succ, List.flatMap_append, List.flatMap_singleton]
    refine (ih.append_right _).trans ?_
    have h := List.filter_append_perm (fun a => decide (f a < T)) (l.filter fun a => decide (f a < T + 1))
    rw [List.filter_filter, List.filter_filter] at h
    refine List.Perm.trans (List.Perm.of_eq ?_) h
    congr 1
    · refine List.filter_congr fun a _ => ?_
      rw [← Bool.decide_and]
      exact decide_eq_decide.2 (by omega)
    · refine List.filter_congr fun a _ => ?_
      rw [← decide_not, ← Bool.decide_and]
      exact decide_eq_decide.2 (by omega)

/-- C65: when the ids are `0 .. T-1`, the batches partition the rows. -/
theorem C65_partition {n : ℕ} {rows : List (Row K n)} {one : List (String × List K)}
    {two : List (String × List (List K))} {d : Dataset K n} (h : mkDataset rows one two = .ok d) {T : ℕ}
    (hT : ∀ i, i < T ↔ ∃ r ∈ rows, r.tree = i) :
    d.numTrees = T ∧
    ((List.range d.numTrees).flatMap fun idx => rows.filter fun r => decide (r.tree = idx)).Perm rows := by
  have e : d.numTrees = T := by
    rw [(C65_batches h).1]
    have : (rows.map Row.tree).toFinset = Finset.range T := by
      ext i; simp [hT i]
    rw [this, Finset.card_range]
  refine ⟨e, ?_⟩
  rw [e]
  refine (flatMap_filter_perm rows Row.tree T).trans (List.Perm.of_eq ?_)
  rw [List.filter_eq_self]
  intro r hr
  simpa using (hT _).2 ⟨r, hr, rfl⟩

/-- C66: column `lamb_dim * v + k` of the features is variable `v` at level `k`; linear model `k` is fed
the level-`k` value of every variable. -/
theorem C66_feature_layout {n : ℕ} {rows : List (Row K n)} {one : List (String × List K)}
    {two : List (String × List (List K))} {d : Dataset K n} (h : mkDataset rows one two = .ok d) :
    d.numVars = one.length + two.length ∧
    (∀ v < d.numVars, ∀ i, ∀ k < n, d.feats i (n * v + k) = varLevel one two v i k) ∧
    ∀ (net : Net K), net.numVars ≤ d.numVars → ∀ i, ∀ k < n,
      net.linear n (d.feats i) k = linSpec net.params net.numVars (fun v k => varLevel one two v i k) k := by
  obtain ⟨-, -, -, -, -, -, -, h7, h8⟩ := mkDataset_ok h
  exact ⟨h7, h8, fun net hn i k hk => linear_eq fun v hv => h8 v (by omega) i k hk⟩

/-- C66: a dictionary entry of the wrong shape raises AssertionError, and nothing else is refused. -/
theorem C66_shapes {n : ℕ} (rows : List (Row K n)) (one : List (String × List K))
    (two : List (String × List (List K))) :
    (DictOk rows.length n one two → ∃ d, mkDataset rows one two = .ok d) ∧
    (¬ DictOk rows.length n one two → mkDataset rows one two = .error .assertionError) := by
  refine ⟨mkDataset_returns, fun h => ?_⟩
  unfold mkDataset
  rw [softmaxStructure_error h]
  rfl

/-- Three rows of two trees. -/
abbrev exTorchRows : List (Row ℚ 2) :=
  [⟨1, 1, ![1, 2], ![1, 2], 1⟩, ⟨4, 2, ![3, 2], ![1, 2], 0⟩, ⟨2, 1, ![5, 2], ![1, 2], 1⟩]

/-- Instance of C65 and C66: a 1-d and a 2-d variable. -/
example : (match mkDataset exTorchRows [("a", [7, 8, 9])] [("b", [[1, 2], [3, 4], [5, 6]])] with
    | .ok d => some (d.numTrees, (d.item 1).y, (d.item 1).feats.map fun f => (List.range 4).map f)
    | .error _ => none) = some (2, [1, 2], [[7, 7, 1, 2], [9, 9, 5, 6]]) := by decide +kernel

example : DictOk (K := ℚ) 3 2 [("a", [7, 8, 9])] [("b", [[1, 2], [3, 4], [5, 6]])] := by
  constructor <;> simp

/-! ### network -/

/-- C67: whatever the parameters and features, the network gives each leaf positive weights summing to
1 and predicts the weighted ratio. -/
theorem C67_forward [IsStrictOrderedRing K] {exp : K → K} (hexp : ∀ x, 0 < exp x) {net : Net K} {n : ℕ}
    {x : Item K (n + 1)} {out : List K} (h : forward exp net x = .ok out) (i : ℕ)
    {g e : Fin (n + 1) → K} {f : ℕ → K} (hg : x.gamma[i]? = some g) (he : x.eta[i]? = some e)
    (hf : x.feats[i]? = some f) :
    ∃ l : Fin (n + 1) → K, (∀ k, 0 < l k) ∧ ∑ k, l k = 1 ∧
      (∀ k, l k = softSpec exp (net.linear (n + 1) f) k) ∧ ∑ k, e k * l k ≠ 0 ∧
      out[i]? = some ((∑ k, g k * l k) / ∑ k, e k * l k) := by
  unfold forward at h
  split_ifs at h with hv
  obtain ⟨-, h2⟩ := mapM_get h
  obtain ⟨b, h3, h4⟩ := h2 i ((g, e), f) (by simp [List.getElem?_zip_eq_some, hg, he, hf])
  unfold leafOut at h4
  split_ifs at h4 with h0
  cases h4
  exact ⟨net.lamb exp f, lamb_pos hexp net f, lamb_sum hexp net f, fun k => rfl, h0, h3⟩

/-- The hypothesis on `exp` holds for the real exponential. -/
theorem C67_real_exp : ∀ x : ℝ, 0 < Real.exp x := Real.exp_pos

theorem smooth_between [IsStrictOrderedRing K] {t : SkTree K C} (s : Style) (pa : Bool) {n : ℕ}
    (lamb : Fin n → K) (hl : ∀ k, 0 ≤ lamb k) (hn : ∀ j, 0 ≤ t.nSamp (t.leafNode j)) (r : Fin t.nLeaves)
    (c : Fin C) (hd : smoothDen t s pa lamb r ≠ 0) :
    ∃ j k : Fin t.nLeaves,
      t.value (t.leafNode j) c ≤ smoothNum .reg t s pa lamb r c / smoothDen t s pa lamb r ∧
      smoothNum .reg t s pa lamb r c / smoothDen t s pa lamb r ≤ t.value (t.leafNode k) c := by
  have : Nonempty (Fin t.nLeaves) := ⟨r⟩
  obtain ⟨j, -, hj⟩ := Finset.exists_min_image Finset.univ (fun j => t.value (t.leafNode j) c)
    Finset.univ_nonempty
  obtain ⟨k, -, hk⟩ := Finset.exists_max_image Finset.univ (fun j => t.value (t.leafNode j) c)
    Finset.univ_nonempty
  have hpos : 0 < smoothDen t s pa lamb r :=
    lt_of_le_of_ne (smoothDen_nonneg t _ _ _ hl hn r) (Ne.symm hd)
  refine ⟨j, k, ?_, ?_⟩
  · rw [le_div_iff₀ hpos, mul_comm, smoothDen, Finset.sum_mul]
    refine Finset.sum_le_sum fun q _ => ?_
    rw [mul_right_comm, ← levelSum_smul]
    refine mul_le_mul_of_nonneg_right (levelSum_mono _ _ _ _ (fun l => ?_) _ _) (hl q)
    exact mul_le_mul_of_nonneg_left (hj l (Finset.mem_univ _)) (hn l)
  · rw [div_le_iff₀ hpos, mul_comm, smoothDen, Finset.sum_mul]
    refine Finset.sum_le_sum fun q _ => ?_
    rw [mul_right_comm _ (lamb q), ← levelSum_smul (a := t.value (t.leafNode k) c)]
    refine mul_le_mul_of_nonneg_right (levelSum_mono _ _ _ _ (fun l => ?_) _ _) (hl q)
    exact mul_le_mul_of_nonneg_left (hk l (Finset.mem_univ _)) (hn l)

theorem updateRf_ok {exp : K → K} {net : Net K} {kind : Kind} {forest : List (SkTree K C)}
    (hwf : ∀ t ∈ forest, t.WF) {s : Style} {pa : Bool} {a : DataArgs}
    {sources : PSrc → ℕ → List (TuneRow K C)} {rf' : List (SkTree K C)}
    (h : updateRf exp net (some kind) forest s pa a sources = .ok rf') :
    ∃ pr d, pytorchPrep (some kind) forest s pa
        { a with xTune := false, yTune := false, resample := false } true sources = .ok pr ∧
      pr.rows = prepRows kind forest s pa (sources .train) ∧ pr.one.length = 3 ∧ pr.two.length = 2 ∧
      mkDataset (prepRows kind forest s pa (sources .train)) pr.one pr.two = .ok d ∧
      updateTrees exp net d forest = .ok rf' := by
  unfold updateRf at h
  obtain ⟨pr, h1, h⟩ := bind_ok h
  obtain ⟨d, h2, h⟩ := bind_ok h
  obtain ⟨src, more, g1, g2, g3, g4, g5, g6⟩ := prep_ok hwf h1
  have : src = .train := by
    unfold prepSource at g1
    simp only at g1
    split_ifs at g1
    cases g1; rfl
  subst this
  exact ⟨pr, d, h1, g4, by rw [g5]; rfl, by rw [g6]; rfl, by rw [← g4]; exact h2, h⟩

/-- C67: every value `update_rf` writes into a regression forest lies between two leaf values of the
same tree, for every style and every network. -/
theorem C67_range [IsStrictOrderedRing K] (hC : 0 < C) {exp : K → K} (hexp : ∀ x, 0 < exp x) {net : Net K}
    {forest : List (SkTree K C)} (hwf : ∀ t ∈ forest, t.WF)
    (hn : ∀ t ∈ forest, ∀ r, 0 ≤ t.nSamp (t.leafNode r)) {s : Style} {pa : Bool} {a : DataArgs}
    {sources : PSrc → ℕ → List (TuneRow K C)} {rf' : List (SkTree K C)}
    (h : updateRf exp net (some .reg) forest s pa a sources = .ok rf') :
    List.Forall₂ (fun t t' => ∃ v, t' = { t with value := v } ∧ ∀ (r : Fin t.nLeaves) (c : Fin C),
      ∃ j k : Fin t.nLeaves, t.value (t.leafNode j) c ≤ v (t.leafNode r) c ∧
        v (t.leafNode r) c ≤ t.value (t.leafNode k) c) forest rf' := by
  obtain ⟨pr, d, -, -, -, -, h2, h3⟩ := updateRf_ok hwf h
  obtain ⟨g1, g2⟩ := updateTrees_ok hC hwf h2 h3
  rw [List.forall₂_iff_get]
  refine ⟨g1.symm, fun i hi hi' => ?_⟩
  have ht : forest[i]? = some (forest.get ⟨i, hi⟩) := List.getElem?_eq_getElem hi
  obtain ⟨-, -, k1, t', k2, v, e, hv, -⟩ := g2 i _ ht
  have : rf'.get ⟨i, hi'⟩ = t' := by
    rw [List.getElem?_eq_getElem hi'] at k2
    exact Option.some.inj k2
  rw [this]
  refine ⟨v, e, fun r c => ?_⟩
  rw [hv]
  exact smooth_between s pa _ (fun k => (lamb_pos hexp net _ k).le) (hn _ (List.get_mem ..)) r c (k1 r c)

/-! ### update_rf -/

/-- C89: with the standard distance, `update_rf` changes only the leaf vectors; leaf `r`, class `c`, of
each tree gets `(Gamma lamb) / (eta lamb)` for `lamb` the softmax of the linear models applied to that
leaf's own variables (the same for every class). -/
theorem C89_update_rf (hC : 0 < C) {exp : K → K} {net : Net K} {kind : Kind} {forest : List (SkTree K C)}
    (hwf : ∀ t ∈ forest, t.WF) {pa : Bool} {a : DataArgs} {sources : PSrc → ℕ → List (TuneRow K C)}
    {rf' : List (SkTree K C)} (h : updateRf exp net (some kind) forest .standard pa a sources = .ok rf') :
    List.Forall₂ (fun t t' => ∃ (F : Fin t.nLeaves → ℕ → ℕ → K)
        (l : Fin t.nLeaves → Fin (forestDepth forest + 1) → K),
      (∀ r, ∀ v < 5, ∀ k < forestDepth forest + 1, FeatIs t r k v (F r v k)) ∧
      (∀ r k, l r k = softSpec exp (linSpec net.params net.numVars (F r)) k) ∧
      (∀ r, smoothDen t .standard pa (l r) r ≠ 0) ∧
      LeafUpdate t t' fun r c =>
        smoothNum kind t .standard pa (l r) r c / smoothDen t .standard pa (l r) r) forest rf' := by
  obtain ⟨pr, d, h1, -, h3, h4, h5, h6⟩ := updateRf_ok hwf h
  obtain ⟨g1, g2⟩ := updateTrees_ok hC hwf h5 h6
  obtain ⟨-, -, -, -, -, -, -, h7, h8⟩ := mkDataset_ok h5
  rw [List.forall₂_iff_get]
  refine ⟨g1.symm, fun i hi hi' => ?_⟩
  have ht : forest[i]? = some (forest.get ⟨i, hi⟩) := List.getElem?_eq_getElem hi
  obtain ⟨k0, k0', k1, t', k2, v, e, hv, hw⟩ := g2 i _ ht
  have : rf'.get ⟨i, hi'⟩ = t' := by
    rw [List.getElem?_eq_getElem hi'] at k2
    exact Option.some.inj k2
  rw [this]
  generalize forest.get ⟨i, hi⟩ = t at *
  obtain ⟨src, more, -, q2, -, -, q3, q4⟩ := prep_ok hwf h1
  obtain ⟨M, hM, e1, e2, e3, e4, e5⟩ := forestMore_standard forest hwf
  rw [hM] at q2
  cases q2
  -- the variables do not depend on the class
  have hcls : ∀ (r : Fin t.nLeaves) (c c' : Fin C), ∀ w < 5, ∀ k,
      varLevel pr.one pr.two w (c.val * (leafListI forest).length + (leafOff forest i + r.val)) k =
      varLevel pr.one pr.two w (c'.val * (leafListI forest).length + (leafOff forest i + r.val)) k := by
    intro r c c' w hw k
    have e4' : more.depthLeaf.map (fun z : ℤ => (z : K)) =
        forest.flatMap fun t => (List.finRange t.nLeaves).map fun i =>
          ((t.depthPerNode (t.leafNode i) : ℕ) : K) := by
      rw [e4, List.map_flatMap]; simp [Function.comp_def]
    have h03 : (0 : ℕ) < 0 + 1 + 1 + 1 := by omega
    have h13 : (1 : ℕ) < 0 + 1 + 1 + 1 := by omega
    have h23 : (2 : ℕ) < 0 + 1 + 1 + 1 := by omega
    have h33 : ¬ (3 : ℕ) < 0 + 1 + 1 + 1 := by omega
    have h43 : ¬ (4 : ℕ) < 0 + 1 + 1 + 1 := by omega
    rw [q3, q4]
    match w, hw with
    | 0, _ => simp only [varLevel, h03, if_true, List.length_cons, List.length_nil, List.getElem?_cons_zero,
        Option.elim, e3, tile_leaf forest _ ht]
    | 1, _ => simp only [varLevel, h13, if_true, List.length_cons, List.length_nil, List.getElem?_cons_succ,
        List.getElem?_cons_zero, Option.elim, e4', tile_leaf forest _ ht]
    | 2, _ => simp only [varLevel, h23, if_true, List.length_cons, List.length_nil, List.getElem?_cons_succ,
        List.getElem?_cons_zero, Option.elim, e5, tile_leaf forest _ ht]
    | 3, _ => simp only [varLevel, List.length_cons, List.length_nil, h33, if_false, Nat.reduceAdd,
        Nat.reduceSub, List.getElem?_cons_zero, Option.elim, e1, tile_leaf forest _ ht]
    | 4, _ => simp only [varLevel, List.length_cons, List.length_nil, h43, if_false, Nat.reduceAdd,
        Nat.reduceSub, List.getElem?_cons_succ, List.getElem?_cons_zero, Option.elim, e2,
        tile_leaf forest _ ht]
  have hF : ∀ (r : Fin t.nLeaves) (c : Fin C), updLamb exp net forest d i c r =
      fun k => softSpec exp (linSpec net.params net.numVars fun w k => varLevel pr.one pr.two w
        ((⟨0, hC⟩ : Fin C).val * (leafListI forest).length + (leafOff forest i + r.val)) k) k := by
    intro r c
    funext k
    unfold updLamb
    refine lamb_eq (fun w hw k hk => ?_) k
    rw [h8 w (by omega) _ k hk]
    exact hcls r c _ w (by omega) k
  refine ⟨fun r w k => varLevel pr.one pr.two w
      ((⟨0, hC⟩ : Fin C).val * (leafListI forest).length + (leafOff forest i + r.val)) k,
    fun r => updLamb exp net forest d i (⟨0, hC⟩ : Fin C).val r, ?_, ?_, fun r => k1 r ⟨0, hC⟩,
    v, e, ?_, hw⟩
  · exact fun r w hw k hk => features_standard hwf h1 ht ⟨0, hC⟩ r k hk w hw
  · intro r k
    exact congrFun (hF r ⟨0, hC⟩) k
  · intro r c
    rw [hv r c]
    simp only
    rw [hF r c, hF r ⟨0, hC⟩]

/-- C89: `update_rf` returns whenever leaf weights are positive, the network has between one and five
variables, and the training rows of each tree contain all classes (classification). -/
theorem C89_returns [IsStrictOrderedRing K] (hC : 0 < C) {exp : K → K} (hexp : ∀ x, 0 < exp x)
    {net : Net K} (hv1 : 0 < net.numVars) (hv2 : net.numVars ≤ 5) {kind : Kind}
    {forest : List (SkTree K C)} (hwf : ∀ t ∈ forest, t.WF)
    (hn : ∀ t ∈ forest, ∀ r, 0 < t.nSamp (t.leafNode r)) (pa : Bool) {a : DataArgs}
    (ha : a.xTrained = true ∧ a.yTrained = true) {sources : PSrc → ℕ → List (TuneRow K C)}
    (hrows : ∀ i < forest.length, sources .train i ≠ [])
    (hs : kind = .cls → ∀ i < forest.length, ∀ c, ∃ r ∈ sources .train i, r.y c ≠ 0) :
    ∃ rf', updateRf exp net (some kind) forest .standard pa a sources = .ok rf' := by
  obtain ⟨M, hM, e1, e2, e3, e4, e5⟩ := forestMore_standard forest hwf
  have hsrc : prepSource { a with xTune := false, yTune := false, resample := false } true = .ok .train := by
    simp [prepSource, ha.1, ha.2]
  obtain ⟨pr, hpr⟩ := prep_returns (kind := kind) (pa := pa) (sources := sources) hsrc hM (by
    rintro ⟨k1, -, tt, htt, c, hc⟩
    have := List.mem_zipIdx htt
    obtain ⟨r, hr, hne⟩ := hs k1 tt.2 (by omega) c
    exact hne (hc r hr)) (by
    intro tt htt
    have := List.mem_zipIdx htt
    exact hrows tt.2 (by omega))
  obtain ⟨src, more, q1, q2, -, q5, q3, q4⟩ := prep_ok hwf hpr
  rw [hsrc] at q1
  cases q1
  rw [hM] at q2
  cases q2
  have hlen : ∀ {α : Type} (f : (t : SkTree K C) → Fin t.nLeaves → α),
      (tile C (forest.flatMap fun t => (List.finRange t.nLeaves).map (f t))).length = pr.rows.length := by
    intro α f
    rw [q5, prepRows_length, tile_length, ← leafList_map, List.length_map, leafListI_length]
  have e4' : M.depthLeaf.map (fun z : ℤ => (z : K)) =
      forest.flatMap fun t => (List.finRange t.nLeaves).map fun i =>
        ((t.depthPerNode (t.leafNode i) : ℕ) : K) := by
    rw [e4, List.map_flatMap]; simp [Function.comp_def]
  have hok : DictOk pr.rows.length (forestDepth forest + 1) pr.one pr.two := by
    obtain ⟨M', hM', ⟨R1, r1, p1⟩, ⟨R2, r2, p2⟩, -⟩ := C18_level_features_partial forest hwf
    rw [hM] at hM'
    cases hM'
    rw [q3, q4]
    refine ⟨?_, ?_⟩
    · intro e he
      simp only [List.mem_cons, List.not_mem_nil, or_false] at he
      rcases he with rfl | rfl | rfl
      · simp only [e3]; exact hlen _
      · simp only [e4']; exact hlen _
      · simp only [e5]; exact hlen _
    · intro e he
      simp only [List.mem_cons, List.not_mem_nil, or_false] at he
      rcases he with rfl | rfl
      · refine ⟨by simp only [r1]; exact hlen _, fun row hrow => ?_⟩
        have := mem_tile hrow
        rw [r1] at this
        obtain ⟨t, ht, hx⟩ := List.mem_flatMap.1 this
        obtain ⟨i, -, rfl⟩ := List.mem_map.1 hx
        exact (p1 t ht i).1
      · refine ⟨by simp only [r2]; exact hlen _, fun row hrow => ?_⟩
        have := mem_tile hrow
        rw [r2] at this
        obtain ⟨t, ht, hx⟩ := List.mem_flatMap.1 this
        obtain ⟨i, -, rfl⟩ := List.mem_map.1 hx
        exact (p2 t ht i).1
  obtain ⟨d, hd⟩ := mkDataset_returns hok
  unfold updateRf
  simp only [hpr, hd, bind, Except.bind]
  rw [q5] at hd
  refine updateTrees_returns hC hwf hd hv1 (by rw [q3, q4]; simpa using hv2) ?_
  intro idx t ht r c
  have htm := List.mem_of_getElem? ht
  exact (smoothDen_pos (hwf t htm) .standard pa _ (fun k => lamb_pos hexp net _ k) (hn t htm) r).ne'

/-- A network with a large level-0 bias and a leaf-size weight. -/
abbrev exNet : Net ℚ := ⟨5, ⟨fun k v => if k = 1 ∧ v = 0 then 1 else 0, fun k => if k = 0 then 9 else 0⟩⟩

/-- Training rows: one per leaf. -/
abbrev exTrain : ℕ → List (TuneRow ℚ 1) := fun _ => [⟨0, fun _ => 1⟩, ⟨1, fun _ => 4⟩]

abbrev exTorchData : DataArgs := ⟨true, true, false, false, false⟩

/-- Instance of C67 and C89: leaf size 1 gives linear predictors 9 and 1, weights 10/12 and 2/12. -/
example : (match updateRf exExp exNet (some .reg) [exStump] .standard false exTorchData (fun _ => exTrain) with
    | .ok rf => some (valuesOf rf) | .error _ => none) = some [[[5 / 2], [3 / 2], [7 / 2]]] := by
  decide +kernel

end SmoothRF
