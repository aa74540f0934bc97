import Verif.Props.TorchProps

/-!
# C68–C70, C86–C88: the loss and the optimisation of smooth_pytorch
-/

set_option linter.unusedSectionVars false

namespace SmoothRF
open Topo SkTree

variable {K : Type} [Field K] [LinearOrder K] {C p : ℕ}

/-! ### loss -/

/-- C86: on three vectors of one shape `weighted_l2` is the documented weighted squared error.
Missing: the shapes of the actual call, for which it fails (`C86_refuted`). -/
theorem C86_equal_shapes_partial (y pr w : List K) (h1 : w.length = y.length) (h2 : pr.length = y.length)
    (hw : w.sum ≠ 0) : weightedL2 (flatVec y) (flatVec pr) (flatVec w) = .ok (wL2 y pr w) :=
  loss_flat y pr w h1 h2 hw

/-- C86: the loss `smooth_pytorch` optimises compares every response with every prediction. -/
theorem C86_training_loss {exp : K → K} {net : Net K} {n : ℕ} {x : Item K n} {pr : List K}
    (hpr : forward exp net x = .ok pr) (h1 : x.weights.length = x.y.length) (h2 : pr.length = x.y.length)
    (hw : x.weights.sum ≠ 0) :
    itemLoss exp net x = .ok ((pr.map fun q =>
      ((x.y.zip x.weights).map fun e => e.2 * (e.1 - q) ^ 2).sum).sum / x.weights.sum) := by
  unfold itemLoss
  simp only [hpr, bind, Except.bind]
  exact loss_broadcast _ _ _ h1 h2 hw

theorem cross_one (y w : List K) (h1 : w.length = y.length) (hw : w.sum ≠ 0) (q : K) :
    ((y.zip w).map fun e => e.2 * (e.1 - q) ^ 2).sum =
      ((y.zip w).map fun e => e.2 * (e.1 - wMean y w) ^ 2).sum + w.sum * (q - wMean y w) ^ 2 := by
  have hm : ((y.zip w).map fun e => e.2 * e.1).sum = w.sum * wMean y w := by
    unfold wMean
    rw [mul_div_cancel₀ _ hw]
    congr 1
    rw [← List.map_uncurry_zip_eq_zipWith]
    rfl
  have hs : ((y.zip w).map fun e => e.2).sum = w.sum := by
    rw [show (fun e : K × K => e.2) = Prod.snd from rfl, List.map_snd_zip h1.le]
  generalize wMean y w = μ at hm ⊢
  rw [← hs] at hm ⊢
  have key : ∀ l : List (K × K), (l.map fun e => e.2 * (e.1 - q) ^ 2).sum =
      (l.map fun e => e.2 * (e.1 - μ) ^ 2).sum +
        2 * (μ - q) * ((l.map fun e => e.2 * e.1).sum - (l.map fun e => e.2).sum * μ) +
        (l.map fun e => e.2).sum * (q - μ) ^ 2 := by
    intro l
    induction l with
    | nil => simp
    | cons a l ih =>
      simp only [List.map_cons, List.sum_cons]
      rw [ih]
      ring
  rw [key, hm]
  ring

/-- C86: that loss is `N` times the weighted variance of the responses plus the sum of squared
deviations of the predictions from the weighted mean response. -/
theorem C86_decomposition {exp : K → K} {net : Net K} {n : ℕ} {x : Item K n} {pr : List K}
    (hpr : forward exp net x = .ok pr) (h1 : x.weights.length = x.y.length) (h2 : pr.length = x.y.length)
    (hw : x.weights.sum ≠ 0) :
    itemLoss exp net x = .ok ((pr.length : K) *
        (((x.y.zip x.weights).map fun e => e.2 * (e.1 - wMean x.y x.weights) ^ 2).sum / x.weights.sum) +
      (pr.map fun q => (q - wMean x.y x.weights) ^ 2).sum) := by
  rw [C86_training_loss hpr h1 h2 hw]
  congr 1
  have : ∀ pr : List K, (pr.map fun q => ((x.y.zip x.weights).map fun e => e.2 * (e.1 - q) ^ 2).sum).sum =
      (pr.length : K) * ((x.y.zip x.weights).map fun e => e.2 * (e.1 - wMean x.y x.weights) ^ 2).sum +
        x.weights.sum * (pr.map fun q => (q - wMean x.y x.weights) ^ 2).sum := by
    intro pr
    induction pr with
    | nil => simp
    | cons a l ih =>
      simp only [List.map_cons, List.sum_cons, List.length_cons]
      rw [ih, cross_one _ _ h1 hw a]
      push_cast
      ring
  rw [this]
  field_simp

/-- C86: two networks whose predictions are the same up to order have the same training loss, and the
loss is least exactly when every prediction is the weighted mean response. -/
theorem C86_ignores_matching [IsStrictOrderedRing K] {exp : K → K} {net net' : Net K} {n : ℕ} {x : Item K n}
    {pr pr' : List K} (hpr : forward exp net x = .ok pr) (hpr' : forward exp net' x = .ok pr')
    (h1 : x.weights.length = x.y.length) (h2 : pr.length = x.y.length) (h2' : pr'.length = x.y.length)
    (hw : x.weights.sum ≠ 0) :
    (pr.Perm pr' → itemLoss exp net x = itemLoss exp net' x) ∧
    ((∀ q ∈ pr, q = wMean x.y x.weights) → ∀ a b, itemLoss exp net x = .ok a →
      itemLoss exp net' x = .ok b → a ≤ b ∧ (a = b → ∀ q ∈ pr', q = wMean x.y x.weights)) := by
  constructor
  · intro hp
    rw [C86_decomposition hpr h1 h2 hw, C86_decomposition hpr' h1 h2' hw, hp.length_eq,
      (hp.map fun q => (q - wMean x.y x.weights) ^ 2).sum_eq]
  · intro hq a b ha hb
    rw [C86_decomposition hpr h1 h2 hw] at ha
    rw [C86_decomposition hpr' h1 h2' hw] at hb
    cases ha
    cases hb
    have z : (pr.map fun q => (q - wMean x.y x.weights) ^ 2).sum = 0 := by
      apply List.sum_eq_zero
      intro v hv
      obtain ⟨q, hqm, rfl⟩ := List.mem_map.1 hv
      rw [hq q hqm]; ring
    have hnn : ∀ v ∈ pr'.map fun q => (q - wMean x.y x.weights) ^ 2, 0 ≤ v := by
      intro v hv
      obtain ⟨q, -, rfl⟩ := List.mem_map.1 hv
      positivity
    have nn := List.sum_nonneg hnn
    rw [z, h2, h2']
    refine ⟨by linarith, fun e q hqm => ?_⟩
    have e0 : (pr'.map fun q => (q - wMean x.y x.weights) ^ 2).sum = 0 := by linarith
    have := List.single_le_sum hnn _ (List.mem_map.2 ⟨q, hqm, rfl⟩)
    rw [e0] at this
    have h0 : (q - wMean x.y x.weights) ^ 2 = 0 := le_antisymm this (by positivity)
    exact sub_eq_zero.1 (pow_eq_zero_iff (two_ne_zero)|>.1 h0)

/-- An item of two leaves with a single level: predictions are exactly the responses. -/
abbrev exItem : Item ℚ 1 :=
  ⟨[1, 4], [fun _ => 1, fun _ => 4], [fun _ => 1, fun _ => 1], [1, 1], 1, [fun _ => 0, fun _ => 0]⟩

abbrev exNet1 : Net ℚ := ⟨1, ⟨fun _ _ => 0, fun _ => 0⟩⟩

/-- C86 (refuted): the training loss is not the documented weighted squared error. On an item whose
predictions equal the responses the documented loss is 0, the computed one 9. -/
theorem C86_refuted : ¬ ∀ (net : Net ℚ) (x : Item ℚ 1) (pr : List ℚ), forward exExp net x = .ok pr →
    x.weights.length = x.y.length → pr.length = x.y.length → x.weights.sum ≠ 0 →
    itemLoss exExp net x = .ok (wL2 x.y pr x.weights) := by
  intro hall
  have hpr : forward exExp exNet1 exItem = .ok [1, 4] := ok_of_toOption (by decide +kernel)
  have h := hall exNet1 exItem [1, 4] hpr rfl rfl (by decide +kernel)
  have h' : itemLoss exExp exNet1 exItem = .ok 9 := ok_of_toOption (by decide +kernel)
  rw [h'] at h
  revert h
  have : wL2 exItem.y [1, 4] exItem.weights = 0 := by decide +kernel
  rw [this]
  intro h
  cases h

/-! ### initial network -/

/-- C88: the deterministic start: for positive `init` every leaf starts with
`lamb_0 = exp(init) / (exp(init) + n exp(0))` and equal other weights; other values raise ValueError. -/
theorem C88_initial_weights (exp : K → K) (numVars : ℕ) (b : K) (rnd : Params K) :
    (b ≤ 0 → initNet numVars (some b) rnd = .error .valueError) ∧
    (0 < b → ∃ net, initNet numVars (some b) rnd = .ok net ∧ net.numVars = numVars ∧
      ∀ (n : ℕ) (feat : ℕ → K) (k : Fin (n + 1)), net.lamb exp feat k =
        (if k = 0 then exp b else exp 0) / (exp b + n * exp 0)) := by
  refine ⟨fun h => by simp [initNet, h], fun h => ⟨_, by rw [initNet, if_neg (not_le.2 h)], rfl, ?_⟩⟩
  intro n feat k
  have e : ∀ k : Fin (n + 1), (Net.linear ⟨numVars, ⟨fun _ _ => 0, fun k => if k = 0 then b else 0⟩⟩ (n + 1)
      feat k.val : K) = if k = 0 then b else 0 := by
    intro k
    unfold Net.linear
    simp only [zero_mul, List.map_const', List.sum_replicate, smul_zero, zero_add]
    by_cases hk : k = 0
    · rw [if_pos hk, hk]; rfl
    · rw [if_neg hk]; exact if_neg fun h => hk (Fin.ext h)
  unfold Net.lamb softmax
  simp only [e]
  rw [Fin.sum_univ_succ]
  congr 1
  · split_ifs <;> rfl
  · simp [Fin.succ_ne_zero]

/-- C88: with the real exponential the starting weight of the leaf itself is within `n exp(-init)` of
1, the weight of the unsmoothed forest. -/
theorem C88_close_to_forest (numVars : ℕ) (b : ℝ) (hb : 0 < b) (rnd : Params ℝ) {net : Net ℝ}
    (h : initNet numVars (some b) rnd = .ok net) (n : ℕ) (feat : ℕ → ℝ) :
    1 - n * Real.exp (-b) ≤ (net.lamb Real.exp feat : Fin (n + 1) → ℝ) 0 ∧
      (net.lamb Real.exp feat : Fin (n + 1) → ℝ) 0 ≤ 1 := by
  obtain ⟨net', e, -, hl⟩ := (C88_initial_weights Real.exp numVars b rnd).2 hb
  rw [e] at h
  cases h
  rw [hl n feat 0, if_pos rfl, Real.exp_zero, mul_one]
  have hp := Real.exp_pos b
  have hn : (0 : ℝ) ≤ n := Nat.cast_nonneg n
  have hs : 0 < Real.exp b + n := by linarith
  constructor
  · rw [le_div_iff₀ hs, Real.exp_neg]
    have : (1 - n * (Real.exp b)⁻¹) * (Real.exp b + n) =
        Real.exp b - n * (n * (Real.exp b)⁻¹) := by
      field_simp; ring
    rw [this]
    have : 0 ≤ n * (n * (Real.exp b)⁻¹) := by positivity
    linarith
  · rw [div_le_one hs]; linarith

/-- Instance of C88. -/
example : (match initNet 5 (some (9 : ℚ)) ⟨fun _ _ => 0, fun _ => 0⟩ with
    | .ok net => some (List.ofFn (net.lamb exExp (fun _ => 3) : Fin 3 → ℚ)) | .error _ => none) =
    some [10 / 12, 1 / 12, 1 / 12] := by decide +kernel

/-! ### the run -/

/-- A stump with its split. -/
abbrev exFull : FullTree ℚ 1 1 := { exStump with feature := fun _ => 0, threshold := fun _ => 0 }

/-- A run: the optimiser sets the level-0 bias to 9 times the step number. -/
abbrev exEnv : TorchEnv ℚ ℕ where
  exp := exExp
  opt := fun s _ _ => (s + 1, ⟨fun k v => if k = 0 ∧ v = 0 then 1 else 0, fun k => if k = 0 then 9 * s else 0⟩)
  s0 := 0
  rnd := ⟨fun _ _ => 0, fun _ => 0⟩
  draws := fun _ => 0

abbrev exTorchArgs : TorchArgs ℚ :=
  ⟨exTorchData, .standard, false, 2, false, true, true, false, false, some 10⟩

/-- Sources that differ: the out-of-bag rows have other responses than the bootstrap sample. -/
abbrev exSources : PSrc → ℕ → List (TuneRow ℚ 1)
  | .oob => fun _ => [⟨0, fun _ => 7⟩, ⟨1, fun _ => 8⟩]
  | _ => exTrain

theorem maskSel_zero {α β : Type} (rows : List α) (g : ℕ → β) {n : ℕ} {f : α → Row K n} :
    maskSel (rows.map (Row.tree ∘ fun r => { f r with tree := 0 })) 0 ((List.range rows.length).map g) =
      (List.range rows.length).map g := by
  have : rows.map (Row.tree ∘ fun r => { f r with tree := 0 }) = List.replicate rows.length 0 := by
    simp [Function.comp_def, List.map_const']
  unfold maskSel
  rw [this, List.filter_eq_self.2, List.map_snd_zip]
  · simp
  · intro e he
    have := List.of_mem_zip he
    simp [List.mem_replicate] at this
    simp [this.1.2]

/-- C68 (what holds): along every optimisation path `loss_all` lists the full-data losses of the
successive parameters, `loss_min` is their minimum and `best_model` is the model of the last step
attaining it. `params_min`, however, holds the parameters of the last step (see `C68_refuted`).
Missing: `params_min` being the parameters of the best model. -/
theorem C68_reported_minimum_partial {S : Type} {env : TorchEnv K S} {rf : Option Kind}
    {forest : List (FullTree K C p)} {X : List (Fin p → K)} {a : TorchArgs K}
    {sources : PSrc → ℕ → List (TuneRow K C)}
    {out : TorchOut K C (forestDepth (forest.map FullTree.toSkTree) + 1)}
    (h : smoothPytorch env rf forest X a sources = .ok out) :
    ∃ (V : ℕ) (p0 : Params K) (all : Item K (forestDepth (forest.map FullTree.toSkTree) + 1)),
      let traj := optSeq env.opt env.s0 p0
        ((List.range out.losses.length).map fun i => out.data.item (env.draws i))
      initNet out.data.numVars a.init env.rnd = .ok ⟨V, p0⟩ ∧
      (∀ (i : ℕ) q l, traj[i]? = some q → out.losses[i]? = some l → itemLoss env.exp ⟨V, q⟩ all = .ok l) ∧
      all.y = out.data.y ∧ all.weights = out.data.weights ∧ all.gamma = out.data.gamma ∧
      all.eta = out.data.eta ∧ all.feats = (List.range out.data.y.length).map out.data.feats ∧
      (∃ m i, out.lossMin = some m ∧ out.losses[i]? = some m ∧ (∀ l ∈ out.losses, m ≤ l) ∧
        (∀ (j : ℕ) l, i < j → out.losses[j]? = some l → m < l) ∧
        ∃ q, traj[i]? = some q ∧ out.best = ⟨V, q⟩) ∧
      ∃ q, traj.getLast? = some q ∧ out.live = ⟨V, q⟩ ∧ out.paramsMin = some q := by
  obtain ⟨pr, one, two, all, net, st, b, -, -, g3, g4, g5, -, g7, g8, -, e1, e2, e3, e4, e5⟩ :=
    smoothPytorch_ok h
  have I := runLoop_inv g7
  refine ⟨net.numVars, net.params, all.item 0, ?_⟩
  have hxs : ((List.range (a.sgdMax / (if a.allTrees then 1 else forest.length) *
      out.data.numTrees)).map env.draws).map out.data.item =
      (List.range out.losses.length).map fun i => out.data.item (env.draws i) := by
    rw [e1, I.len]
    simp
  rw [hxs] at I
  generalize (List.range out.losses.length).map (fun i => out.data.item (env.draws i)) = xs at I ⊢
  have hne : xs ≠ [] := by
    intro h0
    rw [(I.empty h0).2.1] at g8
    cases g8
  obtain ⟨m, b', i, k1, k2, k3, -, -, k6, k7, k8, k9⟩ := I.best hne
  rw [g8] at k2
  cases k2
  obtain ⟨-, r1, r2, r3, r4, -, -, r7, -⟩ := mkDataset_ok g3
  obtain ⟨-, s1, s2, s3, s4, s5, -, -, -⟩ := mkDataset_ok g4
  have hall : ∀ {α : Type} (f : Row K (forestDepth (forest.map FullTree.toSkTree) + 1) → α),
      (∀ r, f { r with tree := 0 } = f r) → ∀ l, l = pr.rows.map f → ∀ l',
      l' = (pr.rows.map fun r => { r with tree := 0 }).map f → maskSel all.tVec 0 l' = l := by
    rintro α f hf l rfl l' rfl
    rw [s5, maskSel_map, List.filter_eq_self.2 (by simp), List.map_map]
    exact List.map_congr_left fun r _ => hf r
  have hf : all.feats = out.data.feats := by
    unfold mkDataset at g3 g4
    rw [List.length_map] at g4
    obtain ⟨z, z1, z2⟩ := bind_ok g3
    obtain ⟨z', z3, z4⟩ := bind_ok g4
    rw [z1] at z3
    cases z3
    simp only [pure, Except.pure, Except.ok.injEq] at z2 z4
    rw [← z2, ← z4]
  have hfe : (all.item 0).feats = (List.range out.data.y.length).map out.data.feats := by
    show maskSel all.tVec 0 _ = _
    rw [s5, hf, List.map_map, List.length_map, r1, List.length_map]
    exact maskSel_zero pr.rows out.data.feats
  refine ⟨by rw [r7]; exact g5, by rw [e1]; exact I.loss,
    hall Row.y (fun _ => rfl) _ r1 _ s1, hall Row.w (fun _ => rfl) _ r4 _ s4,
    hall Row.gam (fun _ => rfl) _ r2 _ s2, hall Row.eta (fun _ => rfl) _ r3 _ s3, hfe,
    ⟨m, i, by rw [e2, k1], by rw [e1]; exact k6, by rw [e1]; exact k8, by rw [e1]; exact k9,
      _, k7, e4⟩, ?_⟩
  refine ⟨_, optFin_last env.opt env.s0 net.params xs hne, ?_, ?_⟩
  · rw [e5, congrArg Prod.snd I.fin.symm]
  · rw [e3, k3, congrArg Prod.snd I.fin.symm]
    rfl

/-- C68 (refuted): `params_min` is an alias of the live parameters. In a two-step run whose first step
has the smaller loss, `params_min` holds the level-0 bias 9 of the last step, `best_model` the bias 0 of
the first. -/
theorem C68_refuted : ¬ ∀ (env : TorchEnv ℚ ℕ) (forest : List (FullTree ℚ 1 1)) (X : List (Fin 1 → ℚ))
    (a : TorchArgs ℚ) (sources : PSrc → ℕ → List (TuneRow ℚ 1))
    (out : TorchOut ℚ 1 (forestDepth (forest.map FullTree.toSkTree) + 1)),
    smoothPytorch env (some .reg) forest X a sources = .ok out → out.paramsMin = some out.best.params := by
  intro hall
  have hrun : (match smoothPytorch exEnv (some .reg) [exFull] [![0]] exTorchArgs exSources with
      | .ok out => some (out.paramsMin.map fun q => q.bias 0, out.best.params.bias 0)
      | .error _ => none) = some (some 9, 0) := by decide +kernel
  cases h : smoothPytorch exEnv (some .reg) [exFull] [![0]] exTorchArgs exSources with
  | error e => rw [h] at hrun; cases hrun
  | ok out =>
    rw [h] at hrun
    simp only [Option.some.injEq, Prod.mk.injEq] at hrun
    rw [hall _ _ _ _ _ _ h] at hrun
    simp only [Option.map_some, Option.some.injEq] at hrun
    rw [hrun.2] at hrun
    exact absurd hrun.1 (by norm_num)

/-- Instance of C68: losses and minimum of that run. -/
example : (match smoothPytorch exEnv (some .reg) [exFull] [![0]] exTorchArgs exSources with
    | .ok out => some (out.losses, out.lossMin, valuesOf out.rf)
    | .error _ => none) = some ([5, 61 / 8], some 5, [[[5 / 2], [2], [3]]]) := by decide +kernel

/-! ### steps and batches -/

/-- C87: the number of steps is `(sgd_max_num // num_trees) * T` with `num_trees` replaced by 1 under
`all_trees`; every step is taken on the batch of a single tree (the one drawn), with or without
`all_trees`; fewer steps than trees is an error.
Missing: `sgd_max_num` steps, and steps on all trees (`C87_step_number_refuted`, `C87_all_trees_refuted`). -/
theorem C87_steps_partial (hC : 0 < C) {S : Type} {env : TorchEnv K S} {kind : Kind}
    {forest : List (FullTree K C p)} (hwf : ∀ t ∈ forest, t.toTopo.WF) {X : List (Fin p → K)}
    {a : TorchArgs K} {sources : PSrc → ℕ → List (TuneRow K C)}
    {out : TorchOut K C (forestDepth (forest.map FullTree.toSkTree) + 1)}
    (h : smoothPytorch env (some kind) forest X a sources = .ok out) :
    out.losses.length = a.sgdMax / (if a.allTrees then 1 else forest.length) * forest.length ∧
    (a.allTrees = false → forest.length ≤ a.sgdMax) ∧
    ∃ V p0, initNet out.data.numVars a.init env.rnd = .ok ⟨V, p0⟩ ∧
      out.live.params = (optFin env.opt env.s0 p0
      ((List.range out.losses.length).map fun i => out.data.item (env.draws i))).2 := by
  obtain ⟨pr, one, two, all, net, st, b, g1, -, g3, g4, g5, g6, g7, g8, -, e1, e2, e3, e4, e5⟩ :=
    smoothPytorch_ok h
  have hwf' : ∀ t ∈ forest.map FullTree.toSkTree, t.WF := by
    intro t ht
    obtain ⟨u, hu, rfl⟩ := List.mem_map.1 ht
    exact hwf u hu
  obtain ⟨src, more, -, -, -, q5, -, -⟩ := prep_ok hwf' g1
  obtain ⟨-, -, -, -, -, -, hN, hV, -⟩ := mkDataset_ok g3
  rw [q5, prepRows_ids kind _ hwf' hC, List.length_map] at hN
  have I := runLoop_inv g7
  have hlen : out.losses.length = a.sgdMax / (if a.allTrees then 1 else forest.length) * forest.length := by
    rw [e1, I.len, hN]; simp
  refine ⟨hlen, ?_, net.numVars, net.params, by rw [hV]; exact g5, ?_⟩
  · intro ha
    by_contra hlt
    have h0 : a.sgdMax / (if a.allTrees then 1 else forest.length) = 0 := by
      rw [ha]
      exact Nat.div_eq_of_lt (by simpa using hlt)
    rw [h0] at I
    have := (I.empty (by simp)).2.1
    rw [g8] at this
    cases this
  · rw [e5]
    simp only
    rw [show st.heap 0 = _ from congrArg Prod.snd I.fin, hlen, hN, List.map_map]
    rfl

/-- C87: with fewer steps than trees `best_model` is never assigned: UnboundLocalError. -/
example : (match smoothPytorch exEnv (some .reg) [exFull, exFull] [![0]] { exTorchArgs with sgdMax := 1 } exSources with
    | .ok _ => none | .error e => some e) = some .unboundLocalError := by decide +kernel

/-- Two trees, `all_trees`: an optimiser that records the number of rows it is shown. -/
abbrev exEnvRows : TorchEnv ℚ ℕ where
  exp := exExp
  opt := fun s x _ => (s + 1, ⟨fun _ _ => 0, fun k => if k = 0 then (x.y.length : ℚ) else 0⟩)
  s0 := 0
  rnd := ⟨fun _ _ => 0, fun _ => 0⟩
  draws := fun _ => 1

/-- C87 (refuted): `all_trees` does not give full gradient descent: the steps are not taken on all
rows. With two stumps (four leaves) each step sees the two rows of one tree. -/
theorem C87_all_trees_refuted :
    ¬ ∀ (env : TorchEnv ℚ ℕ) (forest : List (FullTree ℚ 1 1)) (X : List (Fin 1 → ℚ))
    (a : TorchArgs ℚ) (sources : PSrc → ℕ → List (TuneRow ℚ 1))
    (out : TorchOut ℚ 1 (forestDepth (forest.map FullTree.toSkTree) + 1)), a.allTrees = true →
    smoothPytorch env (some .reg) forest X a sources = .ok out →
    ∃ (p0 : Params ℚ) (xs : List (Item ℚ (forestDepth (forest.map FullTree.toSkTree) + 1))),
      (∀ x ∈ xs, x.y = out.data.y) ∧ xs.length = out.losses.length ∧
      out.live.params = (optFin env.opt env.s0 p0 xs).2 := by
  intro hall
  have hrun : (match smoothPytorch exEnvRows (some .reg) [exFull, exFull] [![0]]
        { exTorchArgs with allTrees := true, sgdMax := 1 } exSources with
      | .ok out => some (out.losses.length, out.live.params.bias 0, out.data.y.length)
      | .error _ => none) = some (2, 2, 4) := by decide +kernel
  cases h : smoothPytorch exEnvRows (some .reg) [exFull, exFull] [![0]]
        { exTorchArgs with allTrees := true, sgdMax := 1 } exSources with
  | error e => rw [h] at hrun; cases hrun
  | ok out =>
    rw [h] at hrun
    simp only [Option.some.injEq, Prod.mk.injEq] at hrun
    obtain ⟨p0, xs, h1, h2, h3⟩ := hall _ _ _ _ _ _ rfl h
    rw [hrun.1] at h2
    obtain ⟨x, y, rfl⟩ := List.length_eq_two.1 h2
    rw [h3] at hrun
    have e : (optFin exEnvRows.opt exEnvRows.s0 p0 [x, y]).2.bias 0 = (y.y.length : ℚ) := rfl
    rw [e, h1 y (by simp), hrun.2.2] at hrun
    exact absurd hrun.2.1 (by norm_num)

/-- C87 (refuted): nor is the number of steps `sgd_max_num`. -/
theorem C87_step_number_refuted :
    ¬ ∀ (env : TorchEnv ℚ ℕ) (forest : List (FullTree ℚ 1 1)) (X : List (Fin 1 → ℚ))
    (a : TorchArgs ℚ) (sources : PSrc → ℕ → List (TuneRow ℚ 1))
    (out : TorchOut ℚ 1 (forestDepth (forest.map FullTree.toSkTree) + 1)), a.allTrees = true →
    smoothPytorch env (some .reg) forest X a sources = .ok out → out.losses.length = a.sgdMax := by
  intro hall
  have hrun : (match smoothPytorch exEnvRows (some .reg) [exFull, exFull] [![0]]
        { exTorchArgs with allTrees := true, sgdMax := 1 } exSources with
      | .ok out => some (out.losses.length)
      | .error _ => none) = some 2 := by decide +kernel
  cases h : smoothPytorch exEnvRows (some .reg) [exFull, exFull] [![0]]
        { exTorchArgs with allTrees := true, sgdMax := 1 } exSources with
  | error e => rw [h] at hrun; cases hrun
  | ok out =>
    rw [h] at hrun
    simp only [Option.some.injEq] at hrun
    have := hall _ _ _ _ _ _ rfl h
    rw [hrun] at this
    cases this

/-! ### tuning data -/

theorem pytorchPrep_congr (rf : Option Kind) (forest : List (SkTree K C)) (s : Style) (pa : Bool)
    (a a' : DataArgs) (ha : a.xTrained = a'.xTrained ∧ a.yTrained = a'.yTrained)
    (sources sources' : PSrc → ℕ → List (TuneRow K C)) (hs : sources .train = sources' .train) :
    pytorchPrep rf forest s pa { a with xTune := false, yTune := false, resample := false } true sources =
    pytorchPrep rf forest s pa { a' with xTune := false, yTune := false, resample := false } true sources' := by
  have e : ({ a with xTune := false, yTune := false, resample := false } : DataArgs) =
      { a' with xTune := false, yTune := false, resample := false } := by
    rw [DataArgs.mk.injEq]; exact ⟨ha.1, ha.2, rfl, rfl, rfl⟩
  rw [e]
  unfold pytorchPrep
  cases rf with
  | none => rfl
  | some kind =>
    simp only
    cases h : prepSource { a' with xTune := false, yTune := false, resample := false } true with
    | error e => rfl
    | ok src =>
      have : src = .train := by
        unfold prepSource at h
        simp only at h
        split_ifs at h
        cases h; rfl
      subst this
      simp only [bind, Except.bind, hs]

/-- C69 (what holds): the result depends on the training data only: `X_tune`, `y_tune`,
`resample_tune`, and the out-of-bag, resampled and supplied tuning rows are never used.
Missing: the documented use of that data (see `C69_refuted`). -/
theorem C69_tuning_ignored_partial {S : Type} (env : TorchEnv K S) (rf : Option Kind)
    (forest : List (FullTree K C p)) (X : List (Fin p → K)) (a : TorchArgs K) (dat : DataArgs)
    (hd : dat.xTrained = a.data.xTrained ∧ dat.yTrained = a.data.yTrained)
    (sources sources' : PSrc → ℕ → List (TuneRow K C)) (hs : sources .train = sources' .train) :
    smoothPytorch env rf forest X { a with data := dat } sources = smoothPytorch env rf forest X a sources' := by
  have e := pytorchPrep_congr rf (forest.map FullTree.toSkTree) a.style a.parentsAll dat a.data hd
    sources sources' hs
  unfold smoothPytorch torchTrain updateRf
  simp only [e]
  rfl

/-- C69 (refuted): with `X_tune`, `y_tune` absent and `resample_tune=False` the responses should come
from the out-of-bag rows, and do not. -/
theorem C69_refuted : ¬ ∀ (env : TorchEnv ℚ ℕ) (t : FullTree ℚ 1 1) (X : List (Fin 1 → ℚ))
    (a : TorchArgs ℚ) (sources : PSrc → ℕ → List (TuneRow ℚ 1)) (src : PSrc)
    (out : TorchOut ℚ 1 (forestDepth ([t].map FullTree.toSkTree) + 1)),
    prepSource a.data false = .ok src → smoothPytorch env (some .reg) [t] X a sources = .ok out →
    out.data.y = (List.range t.nLeaves).map fun r => leafMean (sources src 0) r 0 := by
  intro hall
  have hrun : (match smoothPytorch exEnv (some .reg) [exFull] [![0]] exTorchArgs exSources with
      | .ok out => some out.data.y | .error _ => none) = some [1, 4] := by decide +kernel
  cases h : smoothPytorch exEnv (some .reg) [exFull] [![0]] exTorchArgs exSources with
  | error e => rw [h] at hrun; cases hrun
  | ok out =>
    rw [h] at hrun
    simp only [Option.some.injEq] at hrun
    have := hall _ _ _ _ _ .oob _ rfl h
    rw [hrun] at this
    exact absurd this (by decide +kernel)

/-! ### variables used in training and in update_rf -/

theorem mapM_congr_mem {α β ε : Type} {f g : α → Except ε β} :
    ∀ (l : List α), (∀ x ∈ l, f x = g x) → l.mapM f = l.mapM g
  | [], _ => rfl
  | a :: l, h => by
    rw [List.mapM_cons, List.mapM_cons, h a (by simp), mapM_congr_mem l fun x hx => h x (by simp [hx])]

theorem forward_same {exp : K → K} {net : Net K} {kind : Kind} {forest : List (SkTree K C)}
    {s : Style} {pa : Bool} {tune : ℕ → List (TuneRow K C)} {one one' : List (String × List K)}
    {two two' : List (String × List (List K))} {d d' : Dataset K (forestDepth forest + 1)}
    (h : mkDataset (prepRows kind forest s pa tune) one two = .ok d)
    (h' : mkDataset (prepRows kind forest s pa tune) one' two' = .ok d')
    (hv1 : net.numVars ≤ one.length + two.length) (hv2 : net.numVars ≤ one'.length + two'.length)
    (hsame : ∀ v < net.numVars, ∀ i k, varLevel one two v i k = varLevel one' two' v i k)
    {idx : ℕ} {t : SkTree K C} (ht : forest[idx]? = some t) :
    forward exp net (d.item idx) = forward exp net (d'.item idx) := by
  rw [forward_forest h ht, forward_forest h' ht]
  obtain ⟨-, -, -, -, -, -, -, e7, e8⟩ := mkDataset_ok h
  obtain ⟨-, -, -, -, -, -, -, f7, f8⟩ := mkDataset_ok h'
  have hl : ∀ i, (net.lamb exp (d.feats i) : Fin (forestDepth forest + 1) → K) = net.lamb exp (d'.feats i) := by
    intro i
    funext k
    rw [lamb_eq (x := fun v k => varLevel one two v i k) (fun v hv k hk => e8 v (by omega) i k hk) k,
      lamb_eq (x := fun v k => varLevel one two v i k)
        (fun v hv k hk => by rw [f8 v (by omega) i k hk]; exact (hsame v hv i k).symm) k]
  have c1 : (net.numVars = 0 ∨ one.length + two.length < net.numVars) ↔
      (net.numVars = 0 ∨ one'.length + two'.length < net.numVars) := by omega
  simp only [c1, hl]

/-- C70 (what holds): with `"one_d_dict"` in `which_dicts` and no `x_dicts`, the returned forest is the
best model applied to the data set it was trained on.
Missing: the other choices, for which it fails (see `C70_refuted`, `C70_x_dicts_raise`). -/
theorem C70_same_variables_partial (hC : 0 < C) {S : Type} {env : TorchEnv K S} {kind : Kind}
    {forest : List (FullTree K C p)} (hwf : ∀ t ∈ forest, t.toTopo.WF) {X : List (Fin p → K)}
    {a : TorchArgs K} {sources : PSrc → ℕ → List (TuneRow K C)}
    {out : TorchOut K C (forestDepth (forest.map FullTree.toSkTree) + 1)}
    (h : smoothPytorch env (some kind) forest X a sources = .ok out)
    (h1 : a.whichOne = true) (hx1 : a.xOne = false) (hx2 : a.xTwo = false) :
    updateTrees env.exp out.best out.data (forest.map FullTree.toSkTree) = .ok out.rf := by
  obtain ⟨pr, one, two, all, net, st, b, g1, g2, g3, -, g5, -, -, -, g9, -, -, -, e4, -⟩ :=
    smoothPytorch_ok h
  have hwf' : ∀ t ∈ forest.map FullTree.toSkTree, t.WF := by
    intro t ht
    obtain ⟨u, hu, rfl⟩ := List.mem_map.1 ht
    exact hwf u hu
  obtain ⟨pr', d', k1, k2, k3, k4, k5, k6⟩ := updateRf_ok hwf' g9
  rw [g1] at k1
  cases k1
  have hone : one = pr.one ∧ two = if a.whichTwo then pr.two else [] := by
    unfold trainDicts at g2
    simp only [h1, hx1, hx2, if_true] at g2
    cases g2
    exact ⟨rfl, rfl⟩
  rw [k2] at g3
  have hV : net.numVars = one.length + two.length := by
    unfold initNet at g5
    split at g5
    · cases g5; rfl
    · split_ifs at g5; cases g5; rfl
  have ht3 : two.length ≤ 2 := by rw [hone.2]; split_ifs <;> simp [k4]
  have hN := (mkDataset_ok g3).2.2.2.2.2.2.1
  have hN' := (mkDataset_ok k5).2.2.2.2.2.2.1
  rw [← k6, e4]
  unfold updateTrees
  rw [hN, hN']
  split_ifs
  · rfl
  · refine mapM_congr_mem _ fun tt htt => ?_
    have hm := List.mem_zipIdx htt
    have ht : (forest.map FullTree.toSkTree)[tt.2]? = some tt.1 := by
      have h2 : tt.2 < (forest.map FullTree.toSkTree).length := by omega
      rw [List.getElem?_eq_getElem h2]
      simp only [Nat.sub_zero] at hm
      rw [hm.2.2]
    rw [forward_same g3 k5 (by simp only; omega) (by simp only; rw [hone.1] at hV; omega) ?_ ht]
    intro v hv i k
    simp only at hv
    rw [hone.1]
    unfold varLevel
    split_ifs with hlt
    · rfl
    · rw [hone.2]
      split_ifs with hw
      · rfl
      · exfalso
        rw [hone.2, if_neg hw, hone.1] at hV
        simp at hV
        omega

end SmoothRF
