import Verif.Props.TorchRunProps

/-!
# C117: which observations pytorch_numpy_prep summarises
-/

set_option linter.unusedSectionVars false

namespace SmoothRF
open SkTree Topo

variable {K : Type} [Field K] [LinearOrder K] {C p : ℕ}

/-- C117: `pytorch_numpy_prep` refuses exactly the following by TypeError or ValueError of its own:
an object that is no random forest, and absent training data unless both `X_tune` and `y_tune` are given and
neither `resample_tune` nor `train_only` is set. -/
theorem C117_refuses (forest : List (SkTree K C)) (s : Style) (pa : Bool) (a : DataArgs) (tO : Bool)
    (sources : PSrc → ℕ → List (TuneRow K C)) :
    pytorchPrep none forest s pa a tO sources = .error .valueError ∧
    ∀ kind, ¬ (a.xTrained = true ∧ a.yTrained = true) →
      ¬ (a.xTune = true ∧ a.yTune = true ∧ a.resample = false ∧ tO = false) →
      pytorchPrep (some kind) forest s pa a tO sources = .error .typeError := by
  refine ⟨rfl, fun kind h1 h2 => ?_⟩
  have : prepSource a tO = .error .typeError := by
    obtain ⟨b1, b2, b3, b4, b5⟩ := a
    revert h1 h2
    unfold prepSource
    revert b1 b2 b3 b4 b5 tO
    decide
  unfold pytorchPrep
  rw [this]
  rfl

/-- C117: otherwise the rows summarise, for every leaf of every tree, the bootstrap sample if
`train_only` is set, else a fresh resample if `resample_tune` is set, else the given tuning data if both
parts are there, else the out-of-bag observations; and the training data is there whenever it is used. -/
theorem C117_rows {forest : List (SkTree K C)} (hwf : ∀ t ∈ forest, t.WF) {kind : Kind} {s : Style} {pa : Bool}
    {a : DataArgs} {tO : Bool} {sources : PSrc → ℕ → List (TuneRow K C)} {pr : Prep K (forestDepth forest + 1)}
    (h : pytorchPrep (some kind) forest s pa a tO sources = .ok pr) :
    pr.rows = prepRows kind forest s pa (sources (if tO then .train else if a.resample then .resample else
      if a.xTune && a.yTune then .given else .oob)) ∧
    (tO = true ∨ a.resample = true ∨ a.xTune = false ∨ a.yTune = false →
      a.xTrained = true ∧ a.yTrained = true) := by
  obtain ⟨src, more, h1, -, -, h4, -, -⟩ := prep_ok hwf h
  have key : src = (if tO then .train else if a.resample then .resample else
      if a.xTune && a.yTune then .given else .oob) ∧
      (tO = true ∨ a.resample = true ∨ a.xTune = false ∨ a.yTune = false →
        a.xTrained = true ∧ a.yTrained = true) := by
    obtain ⟨b1, b2, b3, b4, b5⟩ := a
    unfold prepSource at h1
    clear h h4
    cases tO <;> cases b1 <;> cases b2 <;> cases b3 <;> cases b4 <;> cases b5 <;>
      simp_all
  rw [← key.1]
  exact ⟨h4, key.2⟩

/-- C117: `smooth_pytorch` and `update_rf` need the training data whatever else they are given. -/
theorem C117_smooth_needs_training {S : Type} (env : TorchEnv K S) (kind : Kind)
    (forest : List (FullTree K C p)) (X : List (Fin p → K)) (a : TorchArgs K)
    (sources : PSrc → ℕ → List (TuneRow K C)) (h : ¬ (a.data.xTrained = true ∧ a.data.yTrained = true))
    (exp : K → K) (net : Net K) :
    smoothPytorch env (some kind) forest X a sources = .error .typeError ∧
    updateRf exp net (some kind) (forest.map FullTree.toSkTree) a.style a.parentsAll a.data sources =
      .error .typeError := by
  have := (C117_refuses (forest.map FullTree.toSkTree) a.style a.parentsAll
    { a.data with xTune := false, yTune := false, resample := false } true sources).2 kind h (by simp)
  constructor
  · unfold smoothPytorch torchTrain
    rw [this]
    rfl
  · unfold updateRf
    rw [this]
    rfl

/-- Instances: tuning data only, and no data at all. -/
example : (match pytorchPrep (some .reg) [exFull.toSkTree] .standard false ⟨false, false, true, true, false⟩ false
      exSources with | .ok pr => some (pr.rows.map fun r => r.y) | .error _ => none) = some [1, 4] ∧
    (match pytorchPrep (some .reg) [exFull.toSkTree] .standard false ⟨true, true, true, false, false⟩ false
      exSources with | .ok pr => some (pr.rows.map fun r => r.y) | .error _ => none) = some [7, 8] ∧
    (match pytorchPrep (some .reg) [exFull.toSkTree] .standard false ⟨false, false, true, true, false⟩ true
      exSources with | .ok _ => none | .error e => some e) = some .typeError := by
  decide +kernel

end SmoothRF
