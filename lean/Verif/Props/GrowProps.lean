import Verif.Props.ExperimentProps
import Verif.Model.Grow

/-!
# C128–C133: string options, check_rf_grow and its frames
-/

set_option linter.unusedSectionVars false

namespace SmoothRF
open SkTree Topo

variable {K : Type} [Field K] [LinearOrder K] [IsStrictOrderedRing K] {C : ℕ}
variable {sqrt : K → K}
  {ce : (n : ℕ) → SgdOpts K → K → List (Row K n) → List K → List ℕ →
    Except PyErr ((Fin n → K) × (Fin n → K) × List K)}
  {rf : Option Kind} {forest : List (SkTree K C)} {cfg : SmoothCfg K}
  {sources : TuneSrc → ℕ → List (TuneRow K C)} {levels : Option (Levels K)}

/-! ### C128 -/

/-- The option is the string `s`, or a list of at least two entries starting with `s`. -/
def OptMeans (o : OptArg) (s : String) : Prop := o = .str s ∨ ∃ b l, o = .list (s :: b :: l)

/-- The loss option is the string `s`, or a list starting with `s`. -/
def LossMeans (o : OptArg) (s : String) : Prop := o = .str s ∨ ∃ l, o = .list (s :: l)

theorem optFirst_means {o : OptArg} {s : String} : optFirst o = .str s ↔ OptMeans o s := by
  rcases o with t | l
  · simp [optFirst, OptMeans]
  · rcases l with _ | ⟨a, _ | ⟨b, l⟩⟩
    · simp [optFirst, OptMeans]
    · simp [optFirst, OptMeans]
    · simp [optFirst, OptMeans]

theorem distOption_ok {o : OptArg} {b : Bool} :
    distOption o = .ok b ↔ OptMeans o (distStr b) := by
  rw [← optFirst_means]
  unfold distOption
  rcases optFirst o with s | l
  · by_cases h1 : s = "impurity"
    · subst h1; cases b <;> simp [distStr]
    · by_cases h2 : s = "depth"
      · subst h2; cases b <;> simp [distStr]
      · cases b <;> simp [distStr, h1, h2]
  · simp

theorem styleOption_ok {o : OptArg} {st : Style} :
    styleOption o = .ok st ↔ OptMeans o (styleStr st) := by
  rw [← optFirst_means]
  unfold styleOption
  rcases optFirst o with s | l
  · by_cases h1 : s = "standard"
    · subst h1; cases st <;> simp [styleStr]
    · by_cases h2 : s = "max"
      · subst h2; cases st <;> simp [styleStr]
      · by_cases h3 : s = "min"
        · subst h3; cases st <;> simp [styleStr]
        · cases st <;> simp [styleStr, h1, h2, h3]
  · simp

theorem lossFirst_ok {o : OptArg} {s : String} : lossFirst o = .ok s ↔ LossMeans o s := by
  rcases o with t | _ | ⟨a, l⟩ <;> simp [lossFirst, LossMeans]

/-- C128: `smooth` returns only if `distance_style` means "depth" or "impurity", `dist_mat_style` means
one of its three strings, and `class_loss` is not the empty list. -/
theorem C128_needs {o : StrOpts} {out : (n : ℕ) × SmoothOut K C (n + 1)}
    (h : smoothOpt sqrt ce rf forest levels o cfg sources = .ok out) :
    (OptMeans o.dist "depth" ∨ OptMeans o.dist "impurity") ∧
      (OptMeans o.distMat "standard" ∨ OptMeans o.distMat "max" ∨ OptMeans o.distMat "min") ∧
      o.loss ≠ .list [] := by
  unfold smoothOpt at h
  obtain ⟨-, -, h⟩ := bind_ok h
  obtain ⟨loss, h1, h⟩ := bind_ok h
  obtain ⟨-, -, h⟩ := bind_ok h
  obtain ⟨imp, h2, h⟩ := bind_ok h
  obtain ⟨st, h3, -⟩ := bind_ok h
  rw [distOption_ok] at h2
  rw [styleOption_ok] at h3
  refine ⟨?_, ?_, ?_⟩
  · cases imp
    · exact .inl h2
    · exact .inr h2
  · cases st
    · exact .inl h3
    · exact .inr (.inl h3)
    · exact .inr (.inr h3)
  · intro he
    rw [he] at h1
    cases h1

theorem smoothOpt_eq {o : StrOpts} {imp : Bool} {st : Style} {loss : String}
    (h1 : OptMeans o.dist (distStr imp)) (h2 : OptMeans o.distMat (styleStr st))
    (h3 : LossMeans o.loss loss) :
    smoothOpt sqrt ce rf forest levels o cfg sources =
      (smoothCheck rf cfg.data cfg.noConstraint >>= fun _ =>
        if imp then smoothImp sqrt ce rf forest levels
          { cfg with style := st, lossL2 := decide (loss = "l2") } sources
        else smooth sqrt ce rf forest { cfg with style := st, lossL2 := decide (loss = "l2") } sources >>=
          fun out => pure ⟨forestDepth forest, out⟩) := by
  unfold smoothOpt
  rw [distOption_ok.2 h1, styleOption_ok.2 h2, lossFirst_ok.2 h3]
  rcases rf with _ | kind
  · rfl
  · unfold smoothCheck optData
    simp only
    cases hs : tuneSource cfg.data with
    | error e => rfl
    | ok src => rfl

theorem smooth_check_error {er : PyErr} (h : smoothCheck rf cfg.data cfg.noConstraint = .error er) :
    smooth sqrt ce rf forest cfg sources = .error er := by
  unfold smooth
  rw [h]
  rfl

theorem smoothImp_check_error {er : PyErr} (h : smoothCheck rf cfg.data cfg.noConstraint = .error er) :
    smoothImp sqrt ce rf forest levels cfg sources = .error er := by
  unfold smoothImp
  rw [h]
  rfl

/-- C128: with `distance_style` meaning "depth" the call is `smooth` with the style and loss named by
the other two options: same result, same errors. -/
theorem C128_depth {o : StrOpts} {st : Style} {loss : String} (h1 : OptMeans o.dist "depth")
    (h2 : OptMeans o.distMat (styleStr st)) (h3 : LossMeans o.loss loss) :
    smoothOpt sqrt ce rf forest levels o cfg sources =
      (smooth sqrt ce rf forest { cfg with style := st, lossL2 := decide (loss = "l2") } sources).map
        fun out => ⟨forestDepth forest, out⟩ := by
  rw [smoothOpt_eq (imp := false) h1 h2 h3]
  cases hc : smoothCheck rf cfg.data cfg.noConstraint with
  | error e =>
    rw [smooth_check_error (cfg := { cfg with style := st, lossL2 := decide (loss = "l2") }) hc]
    rfl
  | ok p =>
    generalize smooth sqrt ce rf forest { cfg with style := st, lossL2 := decide (loss = "l2") } sources = r
    cases r <;> rfl

/-- C128: with `distance_style` meaning "impurity" the call is the impurity version. -/
theorem C128_impurity {o : StrOpts} {st : Style} {loss : String} (h1 : OptMeans o.dist "impurity")
    (h2 : OptMeans o.distMat (styleStr st)) (h3 : LossMeans o.loss loss) :
    smoothOpt sqrt ce rf forest levels o cfg sources =
      smoothImp sqrt ce rf forest levels { cfg with style := st, lossL2 := decide (loss = "l2") } sources := by
  rw [smoothOpt_eq (imp := true) h1 h2 h3]
  cases hc : smoothCheck rf cfg.data cfg.noConstraint with
  | error e =>
    rw [smoothImp_check_error (cfg := { cfg with style := st, lossL2 := decide (loss = "l2") }) hc]
    rfl
  | ok p => rfl

/-- C128: the defaults mean "depth", "standard" and "ce". -/
theorem C128_defaults : OptMeans distDefault "depth" ∧ OptMeans styleDefault "standard" ∧
    LossMeans lossDefault "ce" :=
  ⟨.inr ⟨_, _, rfl⟩, .inr ⟨_, _, rfl⟩, .inr ⟨_, rfl⟩⟩

/-- C128: any other `distance_style`, in particular one of the tree-distance strings or a one-entry
list, is a ValueError for every forest and all data. -/
theorem C128_rejected {o : StrOpts} (h1 : ¬ OptMeans o.dist "depth") (h2 : ¬ OptMeans o.dist "impurity")
    (h3 : o.loss ≠ .list []) {p : Kind × TuneSrc}
    (hp : smoothCheck rf cfg.data cfg.noConstraint = .ok p) :
    smoothOpt sqrt ce rf forest levels o cfg sources = .error .valueError := by
  have hd : distOption o.dist = .error .valueError := by
    rw [← optFirst_means] at h1 h2
    unfold distOption
    rcases hf : optFirst o.dist with s | l
    · rw [hf] at h1 h2
      simp only [OptArg.str.injEq] at h1 h2
      simp [h1, h2]
    · rfl
  have hl : ∃ s, lossFirst o.loss = .ok s := by
    rcases hh : o.loss with s | _ | ⟨a, l⟩
    · exact ⟨_, rfl⟩
    · exact absurd hh h3
    · exact ⟨_, rfl⟩
  obtain ⟨s, hl⟩ := hl
  have ho : ∃ src, optData rf cfg.data = .ok src := by
    rcases rf with _ | kind
    · cases hp
    · unfold smoothCheck at hp
      obtain ⟨src, hs, -⟩ := bind_ok hp
      exact ⟨src, hs⟩
  obtain ⟨src, ho⟩ := ho
  unfold smoothOpt
  rw [hd, hl, hp, ho]
  rfl

/-- C128: every loss string except "l2" is cross-entropy: a misspelt loss is not noticed. -/
theorem C128_loss_typo {o : StrOpts} {s : String} (h : LossMeans o.loss s) (hs : s ≠ "l2") :
    smoothOpt sqrt ce rf forest levels o cfg sources =
      smoothOpt sqrt ce rf forest levels { o with loss := .str "ce" } cfg sources := by
  have e1 := lossFirst_ok.2 h
  have e2 : lossFirst (.str "ce") = .ok "ce" := rfl
  have e3 : decide (s = "l2") = decide ("ce" = "l2") := by simp [hs]
  unfold smoothOpt
  simp only [e1, e2]
  simp only [bind, Except.bind, e3]

/-- C128: `smooth_clean` on a regressor treats its two options in the same way. -/
theorem C128_clean {approxOne : K → Bool} {forest : List (SkTree K 1)} {distMat dist : OptArg}
    {y : List K} {leafOf : ℕ → ℕ → ℕ} {unsampled : ℕ → List ℕ} {cfg : CleanCfg K}
    {choices : List (List ℕ)} :
    (∀ st, OptMeans distMat (styleStr st) → OptMeans dist "impurity" →
      smoothCleanOpt sqrt approxOne (some .reg) forest levels distMat dist y leafOf unsampled cfg choices =
        smoothCleanImp sqrt approxOne (some .reg) forest levels y leafOf unsampled { cfg with style := st }
          choices) ∧
    (∀ st, OptMeans distMat (styleStr st) → OptMeans dist "depth" →
      smoothCleanOpt sqrt approxOne (some .reg) forest levels distMat dist y leafOf unsampled cfg choices =
        (smoothClean sqrt approxOne (some .reg) forest y leafOf unsampled { cfg with style := st }
          choices).map fun o => ⟨forestDepth forest, o.1, o.2.1, o.2.2⟩) ∧
    (¬ OptMeans dist "depth" → ¬ OptMeans dist "impurity" →
      smoothCleanOpt sqrt approxOne (some .reg) forest levels distMat dist y leafOf unsampled cfg choices =
        .error .valueError) := by
  refine ⟨fun st h1 h2 => ?_, fun st h1 h2 => ?_, fun h1 h2 => ?_⟩
  · unfold smoothCleanOpt
    simp only
    rw [(distOption_ok (b := true)).2 h2, styleOption_ok.2 h1]
    rfl
  · unfold smoothCleanOpt
    simp only
    rw [(distOption_ok (b := false)).2 h2, styleOption_ok.2 h1]
    simp only [bind, Except.bind, Bool.false_eq_true, if_false]
    generalize smoothClean sqrt approxOne (some .reg) forest y leafOf unsampled
      { cfg with style := st } choices = r
    cases r <;> rfl
  · have hd : distOption dist = .error .valueError := by
      rw [← optFirst_means] at h1 h2
      unfold distOption
      rcases hf : optFirst dist with s | l
      · rw [hf] at h1 h2
        simp only [OptArg.str.injEq] at h1 h2
        simp [h1, h2]
      · rfl
    unfold smoothCleanOpt
    simp only
    rw [hd]
    rfl

/-! ### C129 -/

/-- C129: main/1.2 passes `distance_style="standard"`, so its first `smooth` call raises ValueError: no
simulation is ever recorded, whatever the data set. -/
theorem C129_never_returns (regOrClass : String) (f : List (SkTree K C)) (fs : List (List (SkTree K C)))
    (steps : List ℕ) :
    compareSmooths sqrt ce regOrClass (.str "standard") (f :: fs) steps sources = .error .valueError := by
  unfold compareSmooths
  have : ∀ (kind : Kind) (cfg : SmoothCfg K), cfg.data = ⟨true, true, false, false, false⟩ →
      cfg.noConstraint = false →
      smoothOpt sqrt ce (some kind) f none ⟨styleDefault, .str "standard", lossDefault⟩ cfg sources =
        .error .valueError := by
    intro kind cfg hc hn
    refine C128_rejected (p := (kind, .oob)) ?_ ?_ ?_ ?_
    · rw [← optFirst_means]; decide
    · rw [← optFirst_means]; decide
    · decide
    · unfold smoothCheck
      rw [hc, hn]
      simp [tuneSource, bind, Except.bind, pure, Except.pure]
  rw [List.mapM_cons, this _ _ rfl rfl]
  rfl

/-- C129: the model classes are exchanged; with a correct distance option a run on regression data would
still never return, because it smooths a classifier with the cross-entropy loss. -/
theorem C129_exchanged : compareKind "class" = .reg ∧ compareKind "reg" = .cls ∧
    ∀ (sq : ℝ → ℝ) (approxOne : ℝ → Bool) {C : ℕ} (f : List (SkTree ℝ C)) (fs : List (List (SkTree ℝ C)))
      (steps : List ℕ) (sources : TuneSrc → ℕ → List (TuneRow ℝ C)), steps ≠ [] →
      ∀ out, compareSmooths sq (fun _ => sgdCe sq approxOne) "reg" (.str "depth") (f :: fs) steps sources ≠
        .ok out := by
  refine ⟨by decide, by decide, ?_⟩
  intro sq approxOne C f fs steps sources hst out h
  unfold compareSmooths at h
  rw [List.mapM_cons] at h
  obtain ⟨o, h1, -⟩ := bind_ok h
  rw [C128_depth (st := .standard) (loss := "ce") (.inl rfl) (.inr ⟨_, _, rfl⟩) (.inr ⟨_, rfl⟩)] at h1
  cases h2 : smooth sq (fun _ => sgdCe sq approxOne) (some (compareKind "reg")) f
      { data := ⟨true, true, false, false, false⟩, noConstraint := false, sanityCheck := false
        steps := steps, tFix := 1, allTrees := false, seed := none, parentsAll := true
        style := .standard, classEps := 1 / 10000, lossL2 := decide ("ce" = "l2"), adam := some growAdam }
      sources with
  | error e => rw [h2] at h1; cases h1
  | ok o' =>
    exact C31_refuted sq approxOne f _ rfl (by simp) (by simpa using hst) sources ⟨o', h2⟩

/-! ### C130 -/

theorem reg_costs_length {cfg : SmoothCfg K} {out : SmoothOut K C (forestDepth forest + 1)}
    (hs : cfg.sanityCheck = false) (h : smooth sqrt ce (some .reg) forest cfg sources = .ok out) :
    out.costs.length = cfg.steps.length + 1 := by
  obtain ⟨kind', src, yw, lamb, h0, h1, -, -, h4, -, -⟩ := smooth_ok h
  cases h0
  unfold smoothOptimise at h4
  rw [if_neg (by simp [hs]), if_pos (.inl rfl)] at h4
  obtain ⟨l0, vs, -, -, hc, -⟩ := C27_sgd_returns_best _ _ _ _ _ _ _ _ h4
  exact hc

variable {nm : DataNames} {a : GrowArgs K} {e : GrowEnv K C}

/-- The call of `smooth` in cell `(i, j)` of an element-based run. -/
def cellSmooth (a : GrowArgs K) (e : GrowEnv K C) (kind : Kind) (i j : ℕ) (given allTrees random : Bool) :=
  smooth e.sqrt e.ce (some kind) (e.forest i j) (growCfg a e i j given allTrees random) (e.sources i j)

theorem growCell_eb {kind : Kind} {i j : ℕ} {cell : GrowCell K} (hs : a.style = "element-based")
    (h : growCell nm a e kind i j = .ok cell) :
    ∃ given allTrees random o c s0 s1 s2, growData nm a = .ok given ∧ growBatch a.batch = .ok allTrees ∧
      growInit a.initialLamb = .ok random ∧ cellSmooth a e kind i j given allTrees random = .ok o ∧
      assignRow (a.maxIter + 1) o.costs = .ok c ∧
      assessRf (some kind) (e.forest i j) (e.test i j) = .ok s0 ∧
      assessRf (some kind) o.rf1 (e.test i j) = .ok s1 ∧
      assessRf (some kind) o.rf2 (e.test i j) = .ok s2 ∧ cell = ⟨[s0, s1, s2], some c⟩ := by
  unfold growCell at h
  obtain ⟨given, h1, h⟩ := bind_ok h
  rw [if_neg (by rw [hs]; decide), if_pos hs] at h
  obtain ⟨allTrees, h2, h⟩ := bind_ok h
  obtain ⟨random, h3, h⟩ := bind_ok h
  obtain ⟨o, h4, h⟩ := bind_ok h
  obtain ⟨c, h5, h⟩ := bind_ok h
  obtain ⟨s0, h6, h⟩ := bind_ok h
  obtain ⟨s1, h7, h⟩ := bind_ok h
  obtain ⟨s2, h8, h⟩ := bind_ok h
  cases h
  rw [C128_depth (st := .standard) (loss := "ce") (.inr ⟨_, _, rfl⟩) (.inr ⟨_, _, rfl⟩) (.inr ⟨_, rfl⟩)] at h4
  cases h9 : cellSmooth a e kind i j given allTrees random with
  | error er =>
    unfold cellSmooth at h9
    have : growCfg a e i j given allTrees random =
        { growCfg a e i j given allTrees random with style := .standard, lossL2 := decide ("ce" = "l2") } := by
      simp [growCfg]
    rw [this] at h9
    rw [h9] at h4
    cases h4
  | ok o' =>
    have h9' := h9
    unfold cellSmooth at h9'
    have : growCfg a e i j given allTrees random =
        { growCfg a e i j given allTrees random with style := .standard, lossL2 := decide ("ce" = "l2") } := by
      simp [growCfg]
    rw [this] at h9'
    rw [h9'] at h4
    cases h4
    exact ⟨given, allTrees, random, o', c, s0, s1, s2, h1, h2, h3, h9, h5, h6, h7, h8, rfl⟩

theorem checkRfGrow_cells {kind : Kind} {cells : List (List (GrowCell K))}
    (hk : growKind a.regOrClass = .ok kind) (h : checkRfGrow nm a e = .ok cells) :
    cells.length = a.nDepth ∧ ∀ i < a.nDepth, ∃ row, cells[i]? = some row ∧ row.length = a.nDraws ∧
      ∀ j < a.nDraws, ∃ cell, row[j]? = some cell ∧ growCell nm a e kind i j = .ok cell := by
  unfold checkRfGrow at h
  rw [hk] at h
  obtain ⟨k', h0, h⟩ := bind_ok h
  cases h0
  obtain ⟨cs, h1, h⟩ := bind_ok h
  split_ifs at h
  cases h
  obtain ⟨hl, f1⟩ := mapM_get h1
  rw [List.length_range] at hl
  refine ⟨hl, fun i hi => ?_⟩
  obtain ⟨row, g1, g2⟩ := f1 i i (by simp [hi])
  obtain ⟨hl2, f2⟩ := mapM_get g2
  rw [List.length_range] at hl2
  refine ⟨row, g1, hl2, fun j hj => ?_⟩
  exact f2 j j (by simp [hj])

/-- The `smooth` call that cell `(i, j)` of an element-based run is meant to make, read off the arguments:
tuning data are given exactly for a generated data set with the "oracle" option, they are resampled
exactly with the "resample" option, all trees form one batch exactly with "all-trees", and the start is
drawn exactly with "random-init". -/
def GrowSmoothIs (nm : DataNames) (a : GrowArgs K) (e : GrowEnv K C) (kind : Kind) (i j : ℕ)
    (o : SmoothOut K C (forestDepth (e.forest i j) + 1)) : Prop :=
  ∃ cfg : SmoothCfg K, smooth e.sqrt e.ce (some kind) (e.forest i j) cfg (e.sources i j) = .ok o ∧
    cfg.data.xTrained = true ∧ cfg.data.yTrained = true ∧
    (cfg.data.xTune = true ↔ a.dataSet ∉ nm.files ∧ a.dataSet ∈ nm.gens ∧ a.tuning = "oracle") ∧
    cfg.data.yTune = cfg.data.xTune ∧ (cfg.data.resample = true ↔ a.tuning = "resample") ∧
    (cfg.noConstraint = true ↔ a.constrained = false) ∧ cfg.sanityCheck = false ∧
    cfg.steps = e.steps i j ∧ cfg.tFix = a.t ∧ (cfg.allTrees = true ↔ a.batch = "all-trees") ∧
    (a.initialLamb = "rf-init" → cfg.seed = none) ∧
    (a.initialLamb = "random-init" → cfg.seed = some (e.uniform i j)) ∧
    cfg.parentsAll = a.parentsAll ∧ cfg.style = .standard ∧ cfg.lossL2 = false ∧
    cfg.adam = some ⟨1 / 1000, 9 / 10, 999 / 1000, 1 / 100000000⟩

theorem cellSmooth_is {kind : Kind} {i j : ℕ} {given allTrees random : Bool}
    {o : SmoothOut K C (forestDepth (e.forest i j) + 1)} (h1 : growData nm a = .ok given)
    (h2 : growBatch a.batch = .ok allTrees) (h3 : growInit a.initialLamb = .ok random)
    (h4 : cellSmooth a e kind i j given allTrees random = .ok o) : GrowSmoothIs nm a e kind i j o := by
  refine ⟨growCfg a e i j given allTrees random, h4, rfl, rfl, ?_, rfl, by simp [growCfg], by simp [growCfg],
    rfl, rfl, rfl, ?_, ?_, ?_, rfl, rfl, rfl, rfl⟩
  · simp only [growCfg]
    unfold growData at h1
    split_ifs at h1 with g1 g2 g3
    · cases h1; simp [g1]
    · cases h1; simp [g1, g3]
  · simp only [growCfg]
    unfold growBatch at h2
    split_ifs at h2 with g1 g2
    · cases h2; simp [g1]
    · cases h2; simp [g2]
  · intro hi
    simp only [growCfg]
    rw [hi] at h3
    cases h3
    rfl
  · intro hi
    simp only [growCfg]
    rw [hi] at h3
    cases h3
    rfl

/-- C130: a returning element-based regression run has one cell per depth and draw. In every cell the
three scores are those of the fitted forest and of the two forests returned by `smooth` on that cell's
data, and the stored cost row is the cost list of that call, which has exactly the width of the array:
the start and one entry per step. -/
theorem C130_cells {cells : List (List (GrowCell K))} (hr : a.regOrClass = "reg")
    (hs : a.style = "element-based") (hst : ∀ i j, (e.steps i j).length = a.maxIter)
    (h : checkRfGrow nm a e = .ok cells) :
    cells.length = a.nDepth ∧ ∀ i < a.nDepth, ∃ row, cells[i]? = some row ∧ row.length = a.nDraws ∧
      ∀ j < a.nDraws, ∃ cell o s0 s1 s2, row[j]? = some cell ∧
        GrowSmoothIs nm a e .reg i j o ∧
        assessRf (some .reg) (e.forest i j) (e.test i j) = .ok s0 ∧
        assessRf (some .reg) o.rf1 (e.test i j) = .ok s1 ∧
        assessRf (some .reg) o.rf2 (e.test i j) = .ok s2 ∧
        cell.scores = [s0, s1, s2] ∧ cell.costs = some o.costs ∧ o.costs.length = a.maxIter + 1 := by
  have hk : growKind a.regOrClass = .ok .reg := by rw [hr]; rfl
  obtain ⟨hl, hc⟩ := checkRfGrow_cells hk h
  refine ⟨hl, fun i hi => ?_⟩
  obtain ⟨row, h1, h2, h3⟩ := hc i hi
  refine ⟨row, h1, h2, fun j hj => ?_⟩
  obtain ⟨cell, h4, h5⟩ := h3 j hj
  obtain ⟨given, allTrees, random, o, c, s0, s1, s2, d1, d2, d3, g1, g2, g3, g4, g5, rfl⟩ := growCell_eb hs h5
  have hlen : o.costs.length = a.maxIter + 1 := by
    have := reg_costs_length (by rfl) g1
    rw [this]
    exact congrArg (· + 1) (hst i j)
  unfold assignRow at g2
  rw [if_pos hlen] at g2
  cases g2
  exact ⟨_, o, s0, s1, s2, h4, cellSmooth_is d1 d2 d3 g1, g3, g4, g5, rfl, rfl, hlen⟩

/-- C130: a returning level-base run has one cell per depth and draw, holding the scores of the fitted
forest and of the forest returned by `smooth_all`; no costs are stored. -/
theorem C130_level_cells {kind : Kind} {cells : List (List (GrowCell K))}
    (hr : growKind a.regOrClass = .ok kind) (hs : a.style = "level-base")
    (h : checkRfGrow nm a e = .ok cells) :
    cells.length = a.nDepth ∧ ∀ i < a.nDepth, ∃ row, cells[i]? = some row ∧ row.length = a.nDraws ∧
      ∀ j < a.nDraws, ∃ cell d rf s0 s1, row[j]? = some cell ∧
        e.smoothAll i j d (!a.constrained) a.parentsAll = .ok rf ∧
        d.xTrained = true ∧ d.yTrained = true ∧
        (d.xTune = true ↔ a.dataSet ∉ nm.files ∧ a.dataSet ∈ nm.gens ∧ a.tuning = "oracle") ∧
        d.yTune = d.xTune ∧ (d.resample = true ↔ a.tuning = "resample") ∧
        assessRf (some kind) (e.forest i j) (e.test i j) = .ok s0 ∧
        assessRf (some kind) rf (e.test i j) = .ok s1 ∧ cell.scores = [s0, s1] ∧ cell.costs = none := by
  obtain ⟨hl, hc⟩ := checkRfGrow_cells hr h
  refine ⟨hl, fun i hi => ?_⟩
  obtain ⟨row, h1, h2, h3⟩ := hc i hi
  refine ⟨row, h1, h2, fun j hj => ?_⟩
  obtain ⟨cell, h4, h5⟩ := h3 j hj
  unfold growCell at h5
  obtain ⟨given, g1, h5⟩ := bind_ok h5
  rw [if_pos hs] at h5
  obtain ⟨rf, g2, h5⟩ := bind_ok h5
  obtain ⟨s0, g3, h5⟩ := bind_ok h5
  obtain ⟨s1, g4, h5⟩ := bind_ok h5
  cases h5
  refine ⟨_, _, rf, s0, s1, h4, g2, rfl, rfl, ?_, rfl, by simp, g3, g4, rfl, rfl⟩
  unfold growData at g1
  split_ifs at g1 with k1 k2 k3
  · cases g1; simp [k1]
  · cases g1; simp [k1, k3]

/-! ### C131 -/

/-- C131: on the data sets read from files the tuning option "oracle" is not refused: the run is the
out-of-bag run. -/
theorem C131_oracle_file (hd : a.dataSet ∈ nm.files) (ht : a.tuning = "oracle") :
    checkRfGrow nm a e = checkRfGrow nm { a with tuning := "oob" } e := by
  have h : ∀ kind i j, growCell nm a e kind i j = growCell nm { a with tuning := "oob" } e kind i j := by
    intro kind i j
    unfold growCell growData growCfg
    simp [hd, ht]
  unfold checkRfGrow
  simp only [h]

/-- C131: a misspelt tuning option is not noticed: every string except "resample" and "oracle" gives the
out-of-bag run. -/
theorem C131_tuning_typo (h1 : a.tuning ≠ "resample") (h2 : a.tuning ≠ "oracle") :
    checkRfGrow nm a e = checkRfGrow nm { a with tuning := "oob" } e := by
  have h : ∀ kind i j, growCell nm a e kind i j = growCell nm { a with tuning := "oob" } e kind i j := by
    intro kind i j
    unfold growCell growData growCfg
    simp [h1, h2]
  unfold checkRfGrow
  simp only [h]

/-- C131: the data sets main/1.0 and main/1.1 know, and those for which `tuning='oracle'` has an effect. -/
theorem C131_known :
    (growData names10 a = .error .unboundLocalError ↔
      a.dataSet ∉ ["microsoft", "knn", "online_news", "splice", "prgeng"]) ∧
    (growData names11 a = .error .unboundLocalError ↔
      a.dataSet ∉ ["microsoft", "knn", "moon", "online_news", "splice", "titantic"]) ∧
    (growData names10 a = .ok true ↔ a.dataSet ∈ ["microsoft", "knn"] ∧ a.tuning = "oracle") ∧
    (growData names11 a = .ok true ↔ a.dataSet ∈ ["microsoft", "knn", "moon"] ∧ a.tuning = "oracle") := by
  unfold growData names10 names11
  dsimp only
  refine ⟨?_, ?_, ?_, ?_⟩
  all_goals
    split_ifs with h1 h2 h2
    · simp only [List.mem_cons, List.not_mem_nil, or_false] at h1 ⊢
      rcases h1 with h | h | h <;> simp [h]
    · simp only [List.mem_cons, List.not_mem_nil, or_false] at h1 ⊢
      rcases h1 with h | h | h <;> simp [h]
    · simp only [List.mem_cons, List.not_mem_nil, or_false] at h2 ⊢
      simp [h2]
      try tauto
    · simp only [List.mem_cons, List.not_mem_nil, or_false] at h1 h2 ⊢
      simp [h1, h2]
      try tauto

/-- C131: the other option errors are built but not raised. If there is at least one cell, an unknown
data set, and for an element-based run an unknown batch or start option, is an unbound name; an unknown
style is one in any case. -/
theorem C131_unbound {kind : Kind} (hk : growKind a.regOrClass = .ok kind) (hi : 0 < a.nDepth)
    (hj : 0 < a.nDraws) :
    ((a.dataSet ∉ nm.files ∧ a.dataSet ∉ nm.gens) → checkRfGrow nm a e = .error .unboundLocalError) ∧
    (∀ given, growData nm a = .ok given → a.style = "element-based" →
      (a.batch ∉ ["single-tree", "all-trees"] ∨ a.initialLamb ∉ ["rf-init", "random-init"]) →
      checkRfGrow nm a e = .error .unboundLocalError) ∧
    (a.style ∉ ["level-base", "element-based"] → ∀ cells, checkRfGrow nm a e ≠ .ok cells) := by
  have first : growCell nm a e kind 0 0 = .error .unboundLocalError →
      checkRfGrow nm a e = .error .unboundLocalError := by
    intro h
    unfold checkRfGrow
    rw [hk]
    obtain ⟨n, hn⟩ := Nat.exists_eq_succ_of_ne_zero hi.ne'
    obtain ⟨m, hm⟩ := Nat.exists_eq_succ_of_ne_zero hj.ne'
    have r : (List.range a.nDraws).mapM (fun j => growCell nm a e kind 0 j) = .error .unboundLocalError := by
      rw [hm, Nat.succ_eq_add_one, List.range_succ_eq_map, List.mapM_cons, h]
      rfl
    have r2 : ((List.range a.nDepth).mapM fun i => (List.range a.nDraws).mapM fun j =>
        growCell nm a e kind i j) = .error .unboundLocalError := by
      rw [hn, Nat.succ_eq_add_one, List.range_succ_eq_map, List.mapM_cons, r]
      rfl
    simp only [bind, Except.bind] at r2 ⊢
    rw [r2]
  refine ⟨fun ⟨h1, h2⟩ => first ?_, fun given hg hs hb => first ?_, fun hs cells h => ?_⟩
  · unfold growCell growData
    simp [h1, h2, bind, Except.bind]
  · unfold growCell
    rw [hg]
    simp only [bind, Except.bind]
    rw [if_neg (by rw [hs]; decide), if_pos hs]
    unfold growBatch growInit
    simp only [List.mem_cons, List.not_mem_nil, or_false, not_or] at hb
    by_cases b1 : a.batch = "single-tree"
    · have hb' : a.initialLamb ≠ "rf-init" ∧ a.initialLamb ≠ "random-init" := by
        rcases hb with hb | hb
        · exact absurd b1 hb.1
        · exact hb
      simp [b1, hb'.1, hb'.2]
    · by_cases b2 : a.batch = "all-trees"
      · have hb' : a.initialLamb ≠ "rf-init" ∧ a.initialLamb ≠ "random-init" := by
          rcases hb with hb | hb
          · exact absurd b2 hb.2
          · exact hb
        simp [b2, hb'.1, hb'.2]
      · simp [b1, b2]
  · unfold checkRfGrow at h
    obtain ⟨k, -, h⟩ := bind_ok h
    obtain ⟨cs, -, h⟩ := bind_ok h
    rw [if_pos (by simpa using hs)] at h
    cases h

/-- C131: the loss option of main/1.1 is not handed on; and an element-based classification run with at
least one cell and at least one step never returns. -/
theorem C131_loss_ignored (s : String) :
    checkRfGrow nm { a with lossClass := s } e = checkRfGrow nm a e := rfl

@[inherit_doc C131_loss_ignored]
theorem C131_class_never_returns (sq : ℝ → ℝ) (approxOne : ℝ → Bool) {C : ℕ} {a : GrowArgs ℝ}
    {e : GrowEnv ℝ C} (hce : e.ce = fun _ => sgdCe sq approxOne) (hsq : e.sqrt = sq)
    (hr : a.regOrClass = "class") (hs : a.style = "element-based") (hi : 0 < a.nDepth) (hj : 0 < a.nDraws)
    (hst : e.steps 0 0 ≠ []) (cells : List (List (GrowCell ℝ))) : checkRfGrow nm a e ≠ .ok cells := by
  intro h
  have hk : growKind a.regOrClass = .ok .cls := by rw [hr]; rfl
  obtain ⟨-, hc⟩ := checkRfGrow_cells hk h
  obtain ⟨row, -, -, h3⟩ := hc 0 hi
  obtain ⟨cell, -, h5⟩ := h3 0 hj
  obtain ⟨given, allTrees, random, o, c, s0, s1, s2, -, -, -, g1, -⟩ := growCell_eb hs h5
  unfold cellSmooth at g1
  rw [hce, hsq] at g1
  exact C31_refuted sq approxOne _ _ rfl rfl hst _ ⟨o, g1⟩

/-- C131: the inner-distance argument of main/1.0 is used for the file name only: with the same random
draws, runs that differ in it hold the same numbers under different names. -/
theorem C131_inner_ignored {str : K → String} {s : ScriptArgs K} {d1 d2 : String} (hne : d1 ≠ d2)
    {f : String} {cells : List (List (GrowCell K))}
    (h : growScript str { s with innerDist := d1 } e = .ok (f, cells)) :
    ∃ f', growScript str { s with innerDist := d2 } e = .ok (f', cells) ∧ f' ≠ f := by
  unfold growScript at h
  obtain ⟨g, h1, h⟩ := bind_ok h
  obtain ⟨cs, h2, h⟩ := bind_ok h
  cases h
  refine ⟨scriptFile str { s with innerDist := d2 }, ?_, ?_⟩
  · unfold growScript
    have h1' : scriptGrowArgs { s with innerDist := d2 } = .ok g := h1
    rw [h1']
    simp only [bind, Except.bind] at h2 ⊢
    rw [h2]
    rfl
  · intro he
    apply hne
    unfold scriptFile at he
    simp only [String.append_assoc, String.append_right_inj] at he
    exact (String.append_left_inj _).1 he.symm

/-- C131: main/1.0 with an unknown two-valued option ends in NameError. -/
theorem C131_script_options {str : K → String} {s : ScriptArgs K} (h : s.cIn ∉ ["c", "nc"]) :
    growScript str s e = .error .nameError := by
  unfold growScript scriptGrowArgs scriptOption
  simp only [List.mem_cons, List.not_mem_nil, or_false, not_or] at h
  simp [h.1, h.2, bind, Except.bind]

/-! ### C133 -/

/-- The options of main/1.0 that are accepted. -/
structure ValidScript (r : ScriptArgs K) : Prop where
  dataSet : r.dataSet ∈ ["online_news", "splice", "prgeng", "microsoft", "knn"]
  tuning : r.tuning ∈ ["oob", "resample", "oracle"]
  cIn : r.cIn ∈ ["c", "nc"]
  style : r.s ∈ ["lb", "eb"]
  dist : r.d ∈ ["l", "p"]
  inner : r.innerDist ∈ ["standard", "max", "min"]
  init : r.s = "eb" → r.init ∈ ["rf", "r"]
  batch : r.s = "eb" → r.batch ∈ ["tree", "all"]

theorem split_under {lab a b x y : List Char} (hl : lab.head? = some '_') (ha : '_' ∉ a) (hb : '_' ∉ b)
    (h : a ++ (lab ++ x) = b ++ (lab ++ y)) : a = b ∧ x = y := by
  cases lab with
  | nil => cases hl
  | cons c l =>
    cases hl
    obtain ⟨h1, h2⟩ := split_at ha hb h
    exact ⟨h1, List.append_cancel_left h2⟩

theorem split_dataSet {a b : String} {x y : List Char}
    (ha : a ∈ ["online_news", "splice", "prgeng", "microsoft", "knn"])
    (hb : b ∈ ["online_news", "splice", "prgeng", "microsoft", "knn"])
    (h : a.toList ++ x = b.toList ++ y) : a = b ∧ x = y := by
  by_cases hab : a = b
  · subst hab
    exact ⟨rfl, List.append_cancel_left h⟩
  · have key : ∀ a ∈ ["online_news", "splice", "prgeng", "microsoft", "knn"],
        ∀ b ∈ ["online_news", "splice", "prgeng", "microsoft", "knn"], a ≠ b →
          a.toList ≠ [] ∧ b.toList ≠ [] ∧ a.toList.head? ≠ b.toList.head? := by decide
    obtain ⟨h1, h2, h3⟩ := key a ha b hb hab
    have hh := congrArg List.head? h
    rw [List.head?_append_of_ne_nil _ h1, List.head?_append_of_ne_nil _ h2] at hh
    exact absurd hh h3

theorem repr_under (n : ℕ) : '_' ∉ n.repr.toList := fun h => absurd (repr_digits h) (by decide)

theorem mem_under {l : List String} (hl : ∀ s ∈ l, '_' ∉ s.toList) {s : String} (h : s ∈ l) :
    '_' ∉ s.toList := hl s h

/-- C133: two runs of main/1.0 with accepted options write to the same file of scores only if they agree
on every option; for the level-base style the four options it does not use are excepted. -/
theorem C133_files {str : K → String} (hstr : GoodStr str) {a b : ScriptArgs K} (ha : ValidScript a)
    (hb : ValidScript b) (h : scriptFile str a = scriptFile str b) :
    a.dataSet = b.dataSet ∧ a.numTrees = b.numTrees ∧ a.tuning = b.tuning ∧ a.cIn = b.cIn ∧ a.s = b.s ∧
      a.d = b.d ∧ a.innerDist = b.innerDist ∧
      (a.s = "eb" → a.init = b.init ∧ a.t = b.t ∧ a.batch = b.batch ∧ a.maxIter = b.maxIter) := by
  have h := congrArg String.toList h
  unfold scriptFile at h
  simp only [String.toList_append, List.append_assoc] at h
  have h := List.append_cancel_left h
  obtain ⟨h1, h⟩ := split_dataSet ha.dataSet hb.dataSet h
  have h := List.append_cancel_left h
  obtain ⟨h2, h⟩ := split_under (by decide) (repr_under _) (repr_under _) h
  have t3 : ∀ s ∈ ["oob", "resample", "oracle"], '_' ∉ s.toList := by decide
  obtain ⟨h3, h⟩ := split_under (by decide) (t3 _ ha.tuning) (t3 _ hb.tuning) h
  have t4 : ∀ s ∈ ["c", "nc"], '_' ∉ s.toList := by decide
  obtain ⟨h4, h⟩ := split_under (by decide) (t4 _ ha.cIn) (t4 _ hb.cIn) h
  have t5 : ∀ s : String, '_' ∉ (if s = "eb" then "element-based" else "level-base").toList := by
    intro s; split_ifs <;> decide
  obtain ⟨h5, h⟩ := split_under (by decide) (t5 _) (t5 _) h
  have e5 : a.s = b.s := by
    have ha5 := ha.style
    have hb5 := hb.style
    simp only [List.mem_cons, List.not_mem_nil, or_false] at ha5 hb5
    rcases ha5 with ha5 | ha5 <;> rcases hb5 with hb5 | hb5 <;> rw [ha5, hb5] at h5 ⊢ <;>
      exact absurd h5 (by decide)
  have t6 : ∀ s ∈ ["l", "p"], '_' ∉ s.toList := by decide
  obtain ⟨h6, h⟩ := split_under (by decide) (t6 _ ha.dist) (t6 _ hb.dist) h
  have e2 := Nat.repr_injective (String.toList_injective h2)
  have e3 := String.toList_injective h3
  have e4 := String.toList_injective h4
  have e6 := String.toList_injective h6
  have hi := ha.init
  have hbt := ha.batch
  have hi' := hb.init
  have hbt' := hb.batch
  rw [← e5] at h hi' hbt'
  by_cases hs : a.s = "eb"
  · simp only [if_pos hs, String.toList_append, List.append_assoc] at h
    have t7 : ∀ s ∈ ["standard", "max", "min"], '_' ∉ s.toList := by decide
    obtain ⟨h7, h⟩ := split_under (by decide) (t7 _ ha.inner) (t7 _ hb.inner) h
    have t8 : ∀ s : String, '_' ∉ (if s = "rf" then "rf-init" else "random-init").toList := by
      intro s; split_ifs <;> decide
    obtain ⟨h8, h⟩ := split_under (by decide) (t8 _) (t8 _) h
    obtain ⟨h9, h⟩ := split_under (by decide) (hstr.clean _).2 (hstr.clean _).2 h
    have t10 : ∀ s : String, '_' ∉ (if s = "tree" then "single-tree" else "all-trees").toList := by
      intro s; split_ifs <;> decide
    obtain ⟨h10, h⟩ := split_under (by decide) (t10 _) (t10 _) h
    obtain ⟨h11, -⟩ := split_under (by decide) (repr_under _) (repr_under _) h
    refine ⟨h1, e2, e3, e4, e5, e6, String.toList_injective h7, fun _ => ⟨?_, ?_, ?_, ?_⟩⟩
    · have g1 := hi hs
      have g2 := hi' hs
      simp only [List.mem_cons, List.not_mem_nil, or_false] at g1 g2
      rcases g1 with g1 | g1 <;> rcases g2 with g2 | g2 <;> rw [g1, g2] at h8 ⊢ <;>
        exact absurd h8 (by decide)
    · exact hstr.inj (String.toList_injective h9)
    · have g1 := hbt hs
      have g2 := hbt' hs
      simp only [List.mem_cons, List.not_mem_nil, or_false] at g1 g2
      rcases g1 with g1 | g1 <;> rcases g2 with g2 | g2 <;> rw [g1, g2] at h10 ⊢ <;>
        exact absurd h10 (by decide)
    · exact Nat.repr_injective (String.toList_injective h11)
  · simp only [if_neg hs] at h
    refine ⟨h1, e2, e3, e4, e5, e6, String.toList_injective (List.append_cancel_right h), fun h' => absurd h' hs⟩

/-- C133: two runs with accepted options that report the same file agree on these options. -/
theorem C133_runs {C : ℕ} {str : K → String} (hstr : GoodStr str) {a b : ScriptArgs K} (ha : ValidScript a)
    (hb : ValidScript b) {ea eb : GrowEnv K C} {f : String} {ca cb : List (List (GrowCell K))}
    (h1 : growScript str a ea = .ok (f, ca)) (h2 : growScript str b eb = .ok (f, cb)) :
    a.dataSet = b.dataSet ∧ a.numTrees = b.numTrees ∧ a.tuning = b.tuning ∧ a.cIn = b.cIn ∧ a.s = b.s ∧
      a.d = b.d ∧ a.innerDist = b.innerDist ∧
      (a.s = "eb" → a.init = b.init ∧ a.t = b.t ∧ a.batch = b.batch ∧ a.maxIter = b.maxIter) := by
  unfold growScript at h1 h2
  obtain ⟨_, _, h1⟩ := bind_ok h1
  obtain ⟨_, _, h1⟩ := bind_ok h1
  obtain ⟨_, _, h2⟩ := bind_ok h2
  obtain ⟨_, _, h2⟩ := bind_ok h2
  cases h1
  exact C133_files hstr ha hb (congrArg Prod.fst (Except.ok.inj h2)).symm

/-- C133: with accepted options the script calls `check_rf_grow` with the options they stand for. -/
theorem C133_arguments {s : ScriptArgs K} (h : ValidScript s) :
    ∃ g, scriptGrowArgs s = .ok g ∧ g.dataSet = s.dataSet ∧ g.tuning = s.tuning ∧ g.nDepth = 24 ∧
      g.nDraws = 20 ∧ (g.constrained = true ↔ s.cIn = "c") ∧ (g.style = "level-base" ↔ s.s = "lb") ∧
      (g.style = "element-based" ↔ s.s = "eb") ∧ (g.parentsAll = true ↔ s.d = "p") ∧
      (s.s = "eb" → (g.batch = "all-trees" ↔ s.batch = "all") ∧ (g.batch = "single-tree" ↔ s.batch = "tree") ∧
        (g.initialLamb = "random-init" ↔ s.init = "r") ∧ (g.initialLamb = "rf-init" ↔ s.init = "rf")) ∧
      (g.regOrClass = "class" ↔ s.dataSet = "splice") ∧ (g.regOrClass = "reg" ↔ s.dataSet ≠ "splice") ∧
      g.maxIter = s.maxIter ∧ g.t = s.t ∧ g.dataGiven = s.dataGiven := by
  obtain ⟨-, -, h1, h2, h3, -, h4, h5⟩ := h
  simp only [List.mem_cons, List.not_mem_nil, or_false] at h1 h2 h3 h4 h5
  have e1 : ∃ c, scriptOption s.cIn "c" "nc" true false = .ok c ∧ (c = true ↔ s.cIn = "c") := by
    rcases h1 with h1 | h1 <;> rw [h1] <;> exact ⟨_, rfl, by decide⟩
  have e3 : ∃ c, scriptOption s.d "l" "p" false true = .ok c ∧ (c = true ↔ s.d = "p") := by
    rcases h3 with h1 | h1 <;> rw [h1] <;> exact ⟨_, rfl, by decide⟩
  obtain ⟨c, hc, hc'⟩ := e1
  obtain ⟨p, hp, hp'⟩ := e3
  unfold scriptGrowArgs
  rw [hc, hp]
  rcases h2 with h2 | h2
  · rw [h2]
    refine ⟨_, rfl, rfl, rfl, rfl, rfl, hc', by simp, by simp, hp', fun h => absurd h (by decide), ?_, ?_,
      rfl, rfl, rfl⟩
    all_goals
      by_cases hd : s.dataSet = "splice" <;> simp [hd]
  · have e4 : ∃ c, scriptOption s.init "rf" "r" "rf-init" "random-init" = .ok c ∧
        (c = "random-init" ↔ s.init = "r") ∧ (c = "rf-init" ↔ s.init = "rf") := by
      rcases h4 h2 with h1 | h1 <;> rw [h1] <;> exact ⟨_, rfl, by decide, by decide⟩
    have e5 : ∃ c, scriptOption s.batch "tree" "all" "single-tree" "all-trees" = .ok c ∧
        (c = "all-trees" ↔ s.batch = "all") ∧ (c = "single-tree" ↔ s.batch = "tree") := by
      rcases h5 h2 with h1 | h1 <;> rw [h1] <;> exact ⟨_, rfl, by decide, by decide⟩
    obtain ⟨i, hi, hi1, hi2⟩ := e4
    obtain ⟨b, hb, hb1, hb2⟩ := e5
    rw [h2, hi, hb]
    refine ⟨_, rfl, rfl, rfl, rfl, rfl, hc', by simp, by simp, hp', fun _ => ⟨hb1, hb2, hi1, hi2⟩, ?_, ?_,
      rfl, rfl, rfl⟩
    all_goals
      by_cases hd : s.dataSet = "splice" <;> simp [hd]

/-! ### C132 -/

theorem sum_sq_dev {l : List ℝ} (h : (l.map fun x => (x - rowMean l) ^ 2).sum = 0) :
    ∀ x ∈ l, x = rowMean l := fun x hx => sub_eq_zero.1 (sum_sq_zero h x hx)

theorem sum_sq_dev_nonneg (l : List ℝ) (m : ℝ) : 0 ≤ (l.map fun x => (x - m) ^ 2).sum := by
  refine List.sum_nonneg ?_
  simp only [List.mem_map]
  rintro x ⟨r, -, rfl⟩
  positivity

/-- C132: every row of the frame of `depth_error_vis` belongs to one method and one depth. `mu` is the
mean of the draws; the column "lower" is never below `mu` and "upper" never above it (the names are
exchanged); they coincide exactly when all draws are equal; and the half-width is the standard deviation
over the square root of the number of depths. -/
theorem C132_band {nDepth : ℕ} (hd : 0 < nDepth) {cv : List (List (List ℝ))} {idx : Option (List ℝ)}
    {out : List (VisRow ℝ)} (h : depthErrorVis Real.sqrt nDepth cv idx = .ok out) {row : VisRow ℝ}
    (hr : row ∈ out) :
    ∃ (block : List (List ℝ)) (draws : List ℝ), cv[row.model]? = some block ∧ draws ∈ block ∧
      draws ≠ [] ∧ row.mu * (draws.length : ℝ) = draws.sum ∧ row.upper ≤ row.mu ∧ row.mu ≤ row.lower ∧
      row.lower - row.mu = row.mu - row.upper ∧ (row.lower = row.upper ↔ ∀ x ∈ draws, x = row.mu) ∧
      (row.lower - row.mu) ^ 2 * (nDepth : ℝ) * (draws.length : ℝ) =
        (draws.map fun x => (x - row.mu) ^ 2).sum := by
  unfold depthErrorVis at h
  obtain ⟨frames, h1, h⟩ := bind_ok h
  cases h
  obtain ⟨frame, hf, hrow⟩ := List.mem_flatten.1 hr
  obtain ⟨hl, hg⟩ := mapM_get h1
  obtain ⟨m, hm, hfm⟩ := List.getElem_of_mem hf
  have hm' : m < cv.length := by simpa [hl] using hm
  obtain ⟨fr, g1, g2⟩ := hg m (cv[m], m) (by simp [hm'])
  rw [List.getElem?_eq_getElem hm, hfm] at g1
  cases g1
  simp only at g2
  split_ifs at g2 with e1 e2
  cases g2
  obtain ⟨d, hd1, hd2⟩ := List.getElem_of_mem hrow
  rw [List.getElem_zipWith] at hd2
  rw [List.length_zipWith] at hd1
  have hdm : d < cv[m].length := lt_of_lt_of_le hd1 (min_le_left _ _)
  generalize hdr : (cv[m])[d] = draws at hd2
  have hmem : draws ∈ cv[m] := hdr ▸ List.getElem_mem hdm
  have hne : draws ≠ [] := fun hh => e2 ⟨draws, hmem, hh⟩
  have hlen : (0 : ℝ) < draws.length := by
    exact_mod_cast List.length_pos_iff.2 hne
  have hD : (0 : ℝ) < nDepth := by exact_mod_cast hd
  subst hd2
  have hsd : 0 ≤ rowStd Real.sqrt draws := Real.sqrt_nonneg _
  have hsd2 : rowStd Real.sqrt draws ^ 2 * (draws.length : ℝ) =
      (draws.map fun x => (x - rowMean draws) ^ 2).sum := by
    unfold rowStd
    rw [Real.sq_sqrt]
    · rw [rowMean, List.length_map]
      field_simp
    · rw [rowMean]
      exact div_nonneg (sum_sq_dev_nonneg _ _) (by positivity)
  have hw : 0 ≤ rowStd Real.sqrt draws / Real.sqrt (nDepth : ℝ) := by positivity
  refine ⟨cv[m], draws, List.getElem?_eq_getElem hm', hmem, hne, ?_, ?_, ?_, ?_, ?_, ?_⟩
  · simp only [rowMean]
    field_simp
  · simp only
    linarith
  · simp only
    linarith
  · simp only
    ring
  · simp only
    constructor
    · intro he
      have h0 : rowStd Real.sqrt draws / Real.sqrt (nDepth : ℝ) = 0 := by linarith
      have hs : rowStd Real.sqrt draws = 0 := by
        rcases div_eq_zero_iff.1 h0 with h0 | h0
        · exact h0
        · exact absurd h0 (Real.sqrt_pos.2 hD).ne'
      rw [hs] at hsd2
      refine sum_sq_dev ?_
      rw [← hsd2]
      ring
    · intro hall
      have : (draws.map fun x => (x - rowMean draws) ^ 2).sum = 0 := by
        refine List.sum_eq_zero ?_
        simp only [List.mem_map]
        rintro y ⟨x, hx, rfl⟩
        rw [hall x hx]
        ring
      rw [this] at hsd2
      have hs : rowStd Real.sqrt draws = 0 := by
        have := (mul_eq_zero.1 hsd2).resolve_right hlen.ne'
        exact pow_eq_zero_iff two_ne_zero |>.1 this
      rw [hs]
      ring
  · simp only
    rw [← hsd2]
    have : (rowMean draws + rowStd Real.sqrt draws / Real.sqrt (nDepth : ℝ) - rowMean draws) ^ 2 * (nDepth : ℝ) =
        rowStd Real.sqrt draws ^ 2 := by
      rw [add_sub_cancel_left, div_pow, Real.sq_sqrt hD.le]
      field_simp
    rw [this]

/-- C132: the half-width is the standard error of the mean (standard deviation over the square root of
the number of draws) only if there are as many draws as depths, or all draws are equal. -/
theorem C132_not_standard_error {nDepth : ℕ} (hd : 0 < nDepth) {cv : List (List (List ℝ))}
    {idx : Option (List ℝ)} {out : List (VisRow ℝ)} (h : depthErrorVis Real.sqrt nDepth cv idx = .ok out)
    {row : VisRow ℝ} (hr : row ∈ out) {nDraws : ℕ} (hn : ∀ block ∈ cv, ∀ l ∈ block, l.length = nDraws) :
    ∃ block draws, cv[row.model]? = some block ∧ draws ∈ block ∧
      ((row.lower - row.mu) ^ 2 * (nDraws : ℝ) * (nDraws : ℝ) = (draws.map fun x => (x - row.mu) ^ 2).sum ↔
        nDraws = nDepth ∨ ∀ x ∈ draws, x = row.mu) := by
  obtain ⟨block, draws, h1, h2, h3, -, -, -, h5, h6, h7⟩ := C132_band hd h hr
  have hlen : draws.length = nDraws := hn block (List.mem_of_getElem? h1) draws h2
  have hpos : (0 : ℝ) < nDraws := by
    rw [← hlen]
    exact_mod_cast List.length_pos_iff.2 h3
  refine ⟨block, draws, h1, h2, ?_⟩
  rw [← h7, hlen, ← h6]
  constructor
  · intro he
    by_cases hw : row.lower - row.mu = 0
    · right
      linarith
    · left
      have hne : (row.lower - row.mu) ^ 2 ≠ 0 := pow_ne_zero _ hw
      have := mul_left_cancel₀ hne (mul_right_cancel₀ hpos.ne' he)
      exact_mod_cast this
  · rintro (rfl | he)
    · rfl
    · have : row.lower - row.mu = 0 := by linarith
      rw [this]
      ring

/-- Rows of the frame for one draw. -/
def costMk (x : K) (s : ℕ) (cs : List K) : List (CostRow K) :=
  cs.zipIdx.map fun ck => { depth := x, sim := s, step := ck.2, c := ck.1 }

/-- Rows of the frame for one depth. -/
def costBlk (x : K) (b : List (List K)) : List (List (CostRow K)) := b.zipIdx.map fun cs => costMk x cs.2 cs.1

theorem cost_cell {nSim : ℕ} {cm : List (List (List K))} (hn : ∀ b ∈ cm, b.length = nSim) {d : ℕ}
    (hlt : d < cm.length) (x : K) :
    ((List.range nSim).mapM fun s => do
      let row ← pyGet cm d
      let cs ← pyGet row s
      pure (cs.zipIdx.map fun ck => ({ depth := x, sim := s, step := ck.2, c := ck.1 } : CostRow K)) :
        Except PyErr _) = .ok (costBlk x cm[d]) := by
  have hb : cm[d].length = nSim := hn _ (List.getElem_mem hlt)
  rw [mapM_pure_of (g := fun s => costMk x s (cm[d].getD s []))]
  · congr 1
    unfold costBlk
    apply List.ext_getElem
    · simp [hb]
    · intro s h1 h2
      simp only [List.length_map, List.length_range, List.length_zipIdx] at h1 h2
      simp [h2]
  · intro s hs
    have hs' : s < cm[d].length := by rw [hb]; simpa using hs
    simp [pyGet, hlt, hs', bind, Except.bind, pure, Except.pure, costMk]

theorem costVis_ok {nSim : ℕ} {cm : List (List (List K))} {depthRange : Option (List K)} {range : List K}
    (he : depthRange.getD ((List.range nSim).map fun i : ℕ => (i : K)) = range)
    (hl : range.length ≤ cm.length) (hn : ∀ b ∈ cm, b.length = nSim) :
    costVis nSim cm depthRange = .ok ((range.zipIdx.map fun dd => costBlk dd.1 (cm.getD dd.2 [])).flatten.flatten) := by
  unfold costVis
  simp only [he]
  rw [mapM_pure_of (g := fun dd : K × ℕ => costBlk dd.1 (cm.getD dd.2 []))]
  · rfl
  · intro dd hdd
    have hlt : dd.2 < cm.length := lt_of_lt_of_le (List.snd_lt_of_mem_zipIdx hdd) hl
    rw [cost_cell hn hlt]
    simp [hlt]

theorem mem_costVis {cm : List (List (List K))} {range : List K} (hl : range.length ≤ cm.length)
    (r : CostRow K) :
    r ∈ (range.zipIdx.map fun dd => costBlk dd.1 (cm.getD dd.2 [])).flatten.flatten ↔
      ∃ (d : ℕ) (block : List (List K)) (cs : List K), range[d]? = some r.depth ∧
        cm[d]? = some block ∧ block[r.sim]? = some cs ∧ cs[r.step]? = some r.c := by
  simp only [List.mem_flatten, List.mem_map]
  constructor
  · rintro ⟨l, ⟨ll, ⟨⟨x, d⟩, hdd, rfl⟩, hl1⟩, hr⟩
    obtain ⟨⟨cs, s⟩, hcs, rfl⟩ := List.mem_map.1 hl1
    obtain ⟨⟨c, k⟩, hck, rfl⟩ := List.mem_map.1 hr
    have hd := List.mem_zipIdx_iff_getElem?.1 hdd
    have hs := List.mem_zipIdx_iff_getElem?.1 hcs
    have hk := List.mem_zipIdx_iff_getElem?.1 hck
    simp only at hd hs hk
    have hlt : d < cm.length := lt_of_lt_of_le (List.getElem?_eq_some_iff.1 hd).1 hl
    refine ⟨d, cm[d], cs, hd, List.getElem?_eq_getElem hlt, ?_, hk⟩
    simpa [List.getD_eq_getElem?_getD, hlt] using hs
  · rintro ⟨d, block, cs, h1, h2, h3, h4⟩
    refine ⟨costMk r.depth r.sim cs, ⟨costBlk r.depth block,
      ⟨(r.depth, d), List.mem_zipIdx_iff_getElem?.2 h1, ?_⟩, ?_⟩, ?_⟩
    · simp only [List.getD_eq_getElem?_getD, h2, Option.getD_some]
    · exact List.mem_map.2 ⟨(cs, r.sim), List.mem_zipIdx_iff_getElem?.2 h3, rfl⟩
    · exact List.mem_map.2 ⟨(r.c, r.step), List.mem_zipIdx_iff_getElem?.2 h4, rfl⟩

/-- C132: with one depth value per block of the cost array, the frame of `cost_vis` holds one row for
every entry: `(depth value, draw, step, cost)`. -/
theorem C132_cost_rows {nSim : ℕ} {cm : List (List (List K))} {range : List K}
    (hl : range.length = cm.length) (hn : ∀ b ∈ cm, b.length = nSim) :
    ∃ out, costVis nSim cm (some range) = .ok out ∧
      out.length = (cm.map fun b => (b.map List.length).sum).sum ∧
      ∀ r : CostRow K, r ∈ out ↔ ∃ (d : ℕ) (block : List (List K)) (cs : List K), range[d]? = some r.depth ∧
        cm[d]? = some block ∧ block[r.sim]? = some cs ∧ cs[r.step]? = some r.c := by
  refine ⟨_, costVis_ok rfl hl.le hn, ?_, mem_costVis hl.le⟩
  have e1 : (range.zipIdx.map fun dd => costBlk dd.1 (cm.getD dd.2 [])) = List.zipWith costBlk range cm := by
    apply List.ext_getElem
    · simp [hl]
    · intro d h1 h2
      simp only [List.length_zipWith] at h2
      have : d < cm.length := lt_of_lt_of_le h2 (min_le_right _ _)
      simp [this]
  simp only [Option.getD_some]
  rw [e1]
  clear e1 hn
  induction range generalizing cm with
  | nil =>
    obtain rfl : cm = [] := List.length_eq_zero_iff.1 (by simpa using hl.symm)
    rfl
  | cons x range ih =>
    obtain ⟨b, cm, rfl⟩ := List.exists_cons_of_length_eq_add_one (n := range.length) (by simpa using hl.symm)
    simp only [List.zipWith_cons_cons, List.flatten_cons, List.flatten_append, List.length_append,
      List.map_cons, List.sum_cons]
    rw [ih (by simpa using hl)]
    congr 1
    simp only [costBlk, costMk, List.length_flatten, List.map_map]
    congr 1
    apply List.ext_getElem
    · simp
    · intro s h1 h2
      simp

theorem mapM_error_of {α β : Type} {f : α → Except PyErr β} {er : PyErr} : ∀ {l : List α},
    (∀ a ∈ l, (∃ b, f a = .ok b) ∨ f a = .error er) → (∃ a ∈ l, f a = .error er) → l.mapM f = .error er
  | [], _, ⟨a, ha, _⟩ => by cases ha
  | a :: l, h1, ⟨b, hb, hb2⟩ => by
    rw [List.mapM_cons]
    rcases h1 a (by simp) with ⟨v, hv⟩ | he
    · rw [hv]
      have : b ∈ l := by
        rcases List.mem_cons.1 hb with rfl | hb
        · rw [hv] at hb2; cases hb2
        · exact hb
      have ih := mapM_error_of (fun c hc => h1 c (by simp [hc])) ⟨b, this, hb2⟩
      simp only [bind, Except.bind] at ih ⊢
      rw [ih]
    · rw [he]
      rfl

/-- C132: without a range of depths the number of draws is taken for the number of depths: with more
draws than depths `cost_vis` raises IndexError, with fewer the frame has no row for the later depths. -/
theorem C132_cost_default {nSim : ℕ} {cm : List (List (List K))} (hn : ∀ b ∈ cm, b.length = nSim) :
    (cm.length < nSim → costVis nSim cm none = .error .indexError) ∧
    (nSim ≤ cm.length → ∃ out, costVis nSim cm none = .ok out ∧
      ∀ r : CostRow K, r ∈ out ↔ ∃ (d : ℕ) (block : List (List K)) (cs : List K), d < nSim ∧
        r.depth = (d : K) ∧ cm[d]? = some block ∧ block[r.sim]? = some cs ∧ cs[r.step]? = some r.c) := by
  constructor
  · intro h
    have herr : ∀ dd : K × ℕ, cm.length ≤ dd.2 → ((List.range nSim).mapM fun s => do
        let row ← pyGet cm dd.2
        let cs ← pyGet row s
        pure (cs.zipIdx.map fun ck => ({ depth := dd.1, sim := s, step := ck.2, c := ck.1 } : CostRow K)) :
          Except PyErr _) = .error .indexError := by
      intro dd hdd
      have hg : pyGet cm dd.2 = .error .indexError := by
        simp [pyGet, hdd]
      refine mapM_error_of (fun s _ => .inr ?_) ⟨0, by simp; omega, ?_⟩
      all_goals
        rw [hg]
        rfl
    unfold costVis
    simp only [Option.getD_none]
    rw [mapM_error_of (er := .indexError)]
    · rfl
    · intro dd _
      rcases lt_or_ge dd.2 cm.length with hlt | hge
      · exact .inl ⟨_, cost_cell hn hlt dd.1⟩
      · exact .inr (herr dd hge)
    · refine ⟨((cm.length : ℕ), cm.length), ?_, herr _ le_rfl⟩
      rw [List.mem_zipIdx_iff_getElem?]
      simp [h]
  · intro h
    refine ⟨_, costVis_ok rfl (by simpa using h) hn, fun r => ?_⟩
    simp only [Option.getD_none]
    rw [mem_costVis (by simpa using h)]
    constructor
    · rintro ⟨d, block, cs, h1, h2⟩
      obtain ⟨hd, he⟩ := List.getElem?_eq_some_iff.1 h1
      simp only [List.length_map, List.length_range] at hd
      exact ⟨d, block, cs, hd, by simpa using he.symm, h2⟩
    · rintro ⟨d, block, cs, h0, h1, h2⟩
      exact ⟨d, block, cs, by simp [h0, h1], h2⟩

/-! ### Concrete cases -/

/-- The two-leaf stump in every cell, one gradient step. -/
abbrev exGrowEnv : GrowEnv ℚ 1 :=
  { sqrt := fun x => x, ce := noCe, forest := fun _ _ => [exStump26]
    sources := fun _ j _ _ => [⟨0, fun _ => 4 + j⟩, ⟨1, fun _ => 5⟩]
    test := fun _ _ => [⟨fun _ => 0, 4⟩, ⟨fun _ => 1, 5⟩], uniform := fun _ _ _ => 1
    steps := fun _ _ => [0], smoothAll := fun _ _ _ _ _ => .ok [exStump26] }

/-- Two depths, two draws. -/
abbrev exGrowArgs : GrowArgs ℚ :=
  { regOrClass := "reg", nDepth := 2, nDraws := 2, dataSet := "prgeng", tuning := "oracle"
    style := "element-based", batch := "single-tree", initialLamb := "rf-init", lossClass := "ce"
    constrained := false, parentsAll := false, maxIter := 1, t := 1 / 8, dataGiven := true }

/-- An "oracle" run on file data returns (it is the out-of-bag run): the scores before smoothing and the
lengths of the cost rows. -/
example : (match checkRfGrow names10 exGrowArgs exGrowEnv with
    | .ok cells => some (cells.map fun (r : List (GrowCell ℚ)) => r.map fun (c : GrowCell ℚ) =>
        (c.scores.take 1, c.scores.length, (c.costs.getD []).length))
    | .error _ => none) =
      some [[([5/2], 3, 2), ([5/2], 3, 2)], [([5/2], 3, 2), ([5/2], 3, 2)]] := by decide +kernel

example : (match checkRfGrow names10 { exGrowArgs with style := "level-base" } exGrowEnv with
    | .ok cells => some (cells.map fun (r : List (GrowCell ℚ)) => r.map fun (c : GrowCell ℚ) =>
        (c.scores, c.costs))
    | .error _ => none) =
      some [[([5/2, 5/2], none), ([5/2, 5/2], none)], [([5/2, 5/2], none), ([5/2, 5/2], none)]] := by
  decide +kernel

/-- The hypotheses of `C131_unbound` and of `C131_oracle_file`. -/
example : checkRfGrow names10 { exGrowArgs with dataSet := "microsft" } exGrowEnv =
    .error .unboundLocalError := (C131_unbound rfl (by decide) (by decide)).1 (by decide)

example : exGrowArgs.dataSet ∈ names10.files ∧ exGrowArgs.tuning = "oracle" := by decide

/-- A misspelt loss and a list of tree distances are accepted, a one-entry list is not. -/
example : (match smoothOpt (fun x : ℚ => x) noCe (some .reg) [exStump26] none
      ⟨.list ["max", "min"], .str "depth", .str "oops"⟩ exCfg (exGrowEnv.sources 0 0) with
    | .ok o => some (o.1, List.ofFn o.2.lamb1)
    | .error _ => none) = some (1, [1, 0]) := by decide +kernel

example : (match smoothOpt (fun x : ℚ => x) noCe (some .reg) [exStump26] none
      ⟨styleDefault, .list ["depth"], lossDefault⟩ exCfg (exGrowEnv.sources 0 0) with
    | .ok _ => none
    | .error e => some e) = some .valueError := by decide +kernel

example : (match depthErrorVis (fun x : ℚ => x) 2 [[[1, 3], [2, 2]]] none with
    | .ok rows => some (rows.map fun (r : VisRow ℚ) => (r.mu, r.lower, r.upper, r.idx, r.model))
    | .error _ => none) = some [(2, 5 / 2, 3 / 2, 0, 0), (2, 2, 2, 1, 0)] := by decide +kernel

/-- One draw, two depths: the default range leaves the second depth out. -/
example : (match costVis (K := ℚ) 1 [[[1, 3]], [[2, 2]]] none with
    | .ok rows => some (rows.map fun (r : CostRow ℚ) => (r.depth, r.sim, r.step, r.c))
    | .error _ => none) = some [(0, 0, 0, 1), (0, 0, 1, 3)] := by decide +kernel

example : costVis (K := ℚ) 2 [[[1, 3], [2, 2]]] none = .error .indexError :=
  (C132_cost_default (by simp)).1 (by decide)

/-- A script run in which the hypotheses of `C131_inner_ignored` hold. -/
example : (match scriptGrowArgs (K := ℚ) ⟨"prgeng", 10, "oob", "nc", "eb", "l", "max", "rf", "tree", 1, 1, true⟩ with
    | .ok g => some (g.style, g.batch, g.initialLamb, g.constrained, g.parentsAll)
    | .error _ => none) = some ("element-based", "single-tree", "rf-init", false, false) := by decide +kernel

/-- The hypotheses of `C133_files` and `C133_arguments`; changing one option changes the file. -/
example : ValidScript (K := ℚ) ⟨"online_news", 10, "oob", "nc", "eb", "l", "max", "rf", "tree", 1, 1, true⟩ :=
  ⟨by decide, by decide, by decide, by decide, by decide, by decide, fun _ => by decide, fun _ => by decide⟩

example : scriptFile (K := ℚ) (fun _ => "1") ⟨"knn", 10, "oob", "nc", "eb", "l", "max", "rf", "tree", 7, 1, true⟩ =
    "images/data_vis_depth_knn_trees10_oob_nc_element-based_distance-l_tree_depth_dist-max_init_lamb-rf-init_fix_t-1_single-tree_7_adam.csv" := by
  decide +kernel

end SmoothRF
