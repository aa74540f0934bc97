import Verif.Props.SmoothAllProps
import Verif.Props.DepthTuneProps
import Verif.Props.TorchProps

/-!
# C114: what the tuning observations are used for
-/

set_option linter.unusedSectionVars false

namespace SmoothRF
open SkTree Topo

variable {K : Type} [Field K] [LinearOrder K] [IsStrictOrderedRing K] {C : ℕ}

/-- Every leaf receives equally many observations with the same column totals. -/
def SameLeafTotals (rows rows' : List (TuneRow K C)) : Prop :=
  ∀ i, (rows.filter fun r => r.leaf == i).length = (rows'.filter fun r => r.leaf == i).length ∧
    ∀ c, ((rows.filter fun r => r.leaf == i).map fun r => r.y c).sum =
      ((rows'.filter fun r => r.leaf == i).map fun r => r.y c).sum

theorem sameLeafTotals_of_perm {rows rows' : List (TuneRow K C)} (h : rows.Perm rows') :
    SameLeafTotals rows rows' := fun i =>
  ⟨(h.filter _).length_eq, fun c => ((h.filter _).map _).sum_eq⟩

theorem SameLeafTotals.weight {rows rows' : List (TuneRow K C)} (h : SameLeafTotals rows rows') (i : ℕ) :
    leafWeight rows i = leafWeight rows' i := by
  unfold leafWeight
  rw [(h i).1]

theorem SameLeafTotals.mean {rows rows' : List (TuneRow K C)} (h : SameLeafTotals rows rows') (i : ℕ)
    (c : Fin C) : leafMean rows i c = leafMean rows' i c := by
  unfold leafMean
  rw [h.weight, (h i).2]

theorem SameLeafTotals.nil {rows rows' : List (TuneRow K C)} (h : SameLeafTotals rows rows') :
    rows = [] ↔ rows' = [] := by
  have aux : ∀ (l l' : List (TuneRow K C)), SameLeafTotals l l' → l = [] → l' = [] := by
    intro l l' hl e
    subst e
    cases l' with
    | nil => rfl
    | cons r l' =>
      have := (hl r.leaf).1
      simp at this
  exact ⟨aux _ _ h, aux _ _ fun i => ⟨(h i).1.symm, fun c => ((h i).2 c).symm⟩⟩

theorem tuneSummaries_congr {d : Bool} {forest : List (SkTree K C)} {tune tune' : ℕ → List (TuneRow K C)}
    (h : ∀ i, SameLeafTotals (tune i) (tune' i))
    (hd : d = true → ∀ i, (∃ c, ∀ r ∈ tune i, r.y c = 0) ↔ ∃ c, ∀ r ∈ tune' i, r.y c = 0) :
    tuneSummaries d forest tune = tuneSummaries d forest tune' := by
  unfold tuneSummaries
  congr 1
  funext acc tt
  have e1 : (d && decide (∃ c, ∀ r ∈ tune tt.2, r.y c = 0)) =
      (d && decide (∃ c, ∀ r ∈ tune' tt.2, r.y c = 0)) := by
    cases d
    · rfl
    · rw [Bool.true_and, Bool.true_and, decide_eq_decide]
      exact hd rfl tt.2
  have e2 : (tune tt.2).isEmpty = (tune' tt.2).isEmpty := by
    rw [Bool.eq_iff_iff, List.isEmpty_iff, List.isEmpty_iff]
    exact (h tt.2).nil
  dsimp only
  rw [e1, e2]
  simp only [(h tt.2).weight, (h tt.2).mean]

theorem bind_congr_ok {α β : Type} {x : Except PyErr α} {f g : α → Except PyErr β}
    (h : ∀ a, x = .ok a → f a = g a) : (x >>= f) = (x >>= g) := by
  cases x with
  | error e => rfl
  | ok a => exact h a rfl

/-- C114, smooth: for a regression forest the tuning data enters only through the number of
observations and the response total of every leaf. -/
theorem C114_smooth_totals (sqrt : K → K)
    (ce : (n : ℕ) → SgdOpts K → K → List (Row K n) → List K → List ℕ →
      Except PyErr ((Fin n → K) × (Fin n → K) × List K))
    (forest : List (SkTree K C)) (cfg : SmoothCfg K) (sources sources' : TuneSrc → ℕ → List (TuneRow K C))
    (h : ∀ src i, SameLeafTotals (sources src i) (sources' src i)) :
    smooth sqrt ce (some .reg) forest cfg sources = smooth sqrt ce (some .reg) forest cfg sources' := by
  unfold smooth
  refine bind_congr_ok fun ks hks => ?_
  obtain ⟨kind, src⟩ := ks
  obtain ⟨rfl, -⟩ := smoothCheck_ok.1 hks
  dsimp only
  rw [tuneSummaries_congr (h src) (by simp)]

/-- C114, smooth: the order of the tuning observations does not matter, for both kinds of forest. -/
theorem C114_smooth_order (sqrt : K → K)
    (ce : (n : ℕ) → SgdOpts K → K → List (Row K n) → List K → List ℕ →
      Except PyErr ((Fin n → K) × (Fin n → K) × List K))
    (rf : Option Kind) (forest : List (SkTree K C)) (cfg : SmoothCfg K)
    (sources sources' : TuneSrc → ℕ → List (TuneRow K C))
    (h : ∀ src i, (sources src i).Perm (sources' src i)) :
    smooth sqrt ce rf forest cfg sources = smooth sqrt ce rf forest cfg sources' := by
  unfold smooth
  refine bind_congr_ok fun ks _ => ?_
  obtain ⟨kind, src⟩ := ks
  dsimp only
  rw [tuneSummaries_congr (fun i => sameLeafTotals_of_perm (h src i)) fun _ i =>
    exists_congr fun c => ⟨fun hh r hr => hh r ((h src i).mem_iff.2 hr), fun hh r hr => hh r ((h src i).mem_iff.1 hr)⟩]

/-- C114, pytorch_numpy_prep: the same. -/
theorem C114_prep_order (rf : Option Kind) (forest : List (SkTree K C)) (s : Topo.Style) (pa : Bool)
    (a : DataArgs) (trainOnly : Bool) (sources sources' : PSrc → ℕ → List (TuneRow K C))
    (h : ∀ src i, (sources src i).Perm (sources' src i)) :
    pytorchPrep rf forest s pa a trainOnly sources = pytorchPrep rf forest s pa a trainOnly sources' := by
  unfold pytorchPrep
  cases rf with
  | none => rfl
  | some kind =>
    refine bind_congr_ok fun src _ => ?_
    dsimp only
    rw [tuneSummaries_congr (fun i => sameLeafTotals_of_perm (h src i)) fun _ i =>
      exists_congr fun c => ⟨fun hh r hr => hh r ((h src i).mem_iff.2 hr),
        fun hh r hr => hh r ((h src i).mem_iff.1 hr)⟩]

/-- C114, smooth_all: the tuning data enters only through the number of observations and the response
total of every leaf. -/
theorem C114_all_totals (o : AllOracles K) (fuel : ℕ) (forest : List (SkTree K 1)) (c : AllCfg)
    (sources sources' : TuneSrc → ℕ → List (TuneRow K 1))
    (h : ∀ src i, SameLeafTotals (sources src i) (sources' src i)) :
    smoothAll o fuel forest c sources = smoothAll o fuel forest c sources' := by
  have he : ∀ src i, sources src i = [] ↔ sources' src i = [] := fun src i => (h src i).nil
  have hp : ∀ n eps src i, processTuning n eps (sources src i) = processTuning n eps (sources' src i) := by
    intro n eps src i
    unfold processTuning
    simp only [he src i, (h src i).mean, funext (h src i).weight]
  unfold smoothAll
  congr 1
  unfold allPrepare allTune
  simp only [hp]

theorem mapM_sum_perm {α : Type} {f : α → Except PyErr K} {e : PyErr} (hf : ∀ x e', f x = .error e' → e' = e)
    {l l' : List α} (h : l.Perm l') :
    (l.mapM f >>= fun ls => pure ls.sum) = (l'.mapM f >>= fun ls => (pure ls.sum : Except PyErr K)) := by
  have hm : ∀ (l : List α) e', l.mapM f = .error e' → e' = e := by
    intro l
    induction l with
    | nil => intro e' h; cases h
    | cons a l ih =>
      intro e' h
      rw [List.mapM_cons] at h
      rcases bind_error h with h | ⟨b, -, h⟩
      · exact hf a e' h
      · rcases bind_error h with h | ⟨b, -, h⟩
        · exact ih e' h
        · cases h
  induction h with
  | nil => rfl
  | cons a _ ih =>
    rename_i l1 l2 _
    rw [List.mapM_cons, List.mapM_cons]
    cases f a with
    | error e' => rfl
    | ok x =>
      simp only [bind, Except.bind, pure, Except.pure] at ih ⊢
      cases h1 : l1.mapM f with
      | error e1 =>
        rw [h1] at ih
        cases h2 : l2.mapM f with
        | error e2 => rw [h2] at ih; simpa using ih
        | ok y2 => rw [h2] at ih; cases ih
      | ok y1 =>
        rw [h1] at ih
        cases h2 : l2.mapM f with
        | error e2 => rw [h2] at ih; cases ih
        | ok y2 =>
          rw [h2] at ih
          simp only [Except.ok.injEq] at ih
          simp [ih]
  | swap a b l =>
    simp only [List.mapM_cons]
    cases ha : f a with
    | error e1 =>
      cases hb : f b with
      | error e2 => rw [hf a e1 ha, hf b e2 hb]
      | ok y =>
        rw [hf a e1 ha]
        cases hl : l.mapM f with
        | error e3 => rfl
        | ok z => rfl
    | ok x =>
      cases hb : f b with
      | error e2 => rfl
      | ok y =>
        cases hl : l.mapM f with
        | error e3 => rfl
        | ok z =>
          simp only [bind, Except.bind, pure, Except.pure, List.sum_cons, Except.ok.injEq]
          ring
  | trans _ _ ih1 ih2 => rw [ih1, ih2]

theorem pyGet_error {α : Type} {l : List α} {i : ℕ} {e : PyErr} (h : pyGet l i = .error e) : e = .indexError := by
  unfold pyGet at h
  cases hh : l[i]? with
  | none => rw [hh] at h; cases h; rfl
  | some x => rw [hh] at h; cases h

theorem treeLoss_perm (kind : Kind) {rows rows' : List (LossRow K)} (h : rows.Perm rows')
    (pred : List (Fin C → K)) : treeLoss kind rows pred = treeLoss kind rows' pred := by
  unfold treeLoss
  have e : rows.isEmpty = rows'.isEmpty := by
    rw [Bool.eq_iff_iff, List.isEmpty_iff, List.isEmpty_iff]
    exact ⟨fun e => by subst e; exact h.nil_eq.symm, fun e => by subst e; exact h.eq_nil⟩
  rw [e]
  split
  · rfl
  cases kind with
  | reg =>
    refine mapM_sum_perm (e := .indexError) (fun r e' he => ?_) h
    rcases bind_error he with he | ⟨v, -, he⟩
    · exact pyGet_error he
    · rcases bind_error he with he | ⟨v, -, he⟩
      · exact pyGet_error he
      · cases he
  | cls =>
    refine mapM_sum_perm (e := .indexError) (fun r e' he => ?_) h
    rcases bind_error he with he | ⟨v, -, he⟩
    · exact pyGet_error he
    · cases he

/-- C114, depth_tune: the order of the tuning observations does not matter. -/
theorem C114_depth_order (rf : Option Kind) (forest : List (SkTree K C)) (data : DataArgs)
    (sources sources' : TuneSrc → ℕ → List (LossRow K))
    (h : ∀ src i, (sources src i).Perm (sources' src i)) :
    depthTune rf forest data sources = depthTune rf forest data sources' := by
  unfold depthTune
  cases rf with
  | none => rfl
  | some kind =>
    dsimp only
    refine bind_congr_ok fun src _ => ?_
    have : (depthTuneStep kind (forestDepth forest) (sources src) : _ → SkTree K C × ℕ → _) =
        depthTuneStep kind (forestDepth forest) (sources' src) := by
      funext s tt
      unfold depthTuneStep
      have : treeLoss (C := C) kind (sources src tt.2) = treeLoss kind (sources' src tt.2) :=
        funext (treeLoss_perm kind (h src tt.2))
      rw [this]
    rw [this]

/-- Instance of C114: responses 5, 6 in one leaf against 4, 7, in another order. -/
example : SameLeafTotals (exTune 0) ([⟨1, fun _ => 7⟩, ⟨0, fun _ => 2⟩, ⟨1, fun _ => 4⟩] : List (TuneRow ℚ 1)) ∧
    (match smooth (fun x => x) noCe (some .reg) [exTree]
      { exCfg with sanityCheck := false, parentsAll := true, steps := [0] } (fun _ => exTune) with
    | .ok out => some (List.ofFn out.lamb2, out.costs) | .error _ => none) =
      some ([0, 0, 73], [11 / 2, 89 / 4]) ∧
    (match smooth (fun x => x) noCe (some .reg) [exTree]
      { exCfg with sanityCheck := false, parentsAll := true, steps := [0] }
      (fun _ _ => [⟨1, fun _ => 7⟩, ⟨0, fun _ => 2⟩, ⟨1, fun _ => 4⟩]) with
    | .ok out => some (List.ofFn out.lamb2, out.costs) | .error _ => none) =
      some ([0, 0, 73], [11 / 2, 89 / 4]) := by
  refine ⟨fun i => ?_, by decide +kernel, by decide +kernel⟩
  match i with
  | 0 => decide +kernel
  | 1 => decide +kernel
  | i + 2 => exact ⟨by simp, fun c => by simp⟩

/-- Instance of C114 for depth_tune. -/
example : (match depthTune (some .reg) [exTree] ⟨false, false, true, true, false⟩
      (fun _ _ => [(⟨0, 2⟩ : LossRow ℚ), ⟨1, 5⟩, ⟨2, 6⟩]) with
    | .ok r => some r.2 | .error _ => none) = some [91 / 4, 21] ∧
    (match depthTune (some .reg) [exTree] ⟨false, false, true, true, false⟩
      (fun _ _ => [(⟨2, 6⟩ : LossRow ℚ), ⟨0, 2⟩, ⟨1, 5⟩]) with
    | .ok r => some r.2 | .error _ => none) = some [91 / 4, 21] :=
  ⟨by decide +kernel, by decide +kernel⟩

end SmoothRF
