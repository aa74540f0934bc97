import Verif.Props.DepthTuneProps
import Verif.Props.SmoothImpProps
import Verif.Props.SmoothAllProps
import Verif.Props.TorchProps
import Verif.Props.OobProps
import Verif.Props.CleanReturnProps

/-!
# C150: trees without tuning rows, forests without observations
-/

set_option linter.unusedSectionVars false

namespace SmoothRF
open SkTree Topo

variable {K : Type} [Field K] [LinearOrder K] [IsStrictOrderedRing K] {C : ℕ}

theorem mem_zipIdx_of_lt {α : Type} {l : List α} {i : ℕ} (h : i < l.length) : (l[i], i) ∈ l.zipIdx := by
  rw [List.mem_zipIdx_iff_getElem?, List.getElem?_eq_getElem h]

theorem tuneSummaries_empty {d : Bool} {forest : List (SkTree K C)} {tune : ℕ → List (TuneRow K C)} {i : ℕ}
    (hi : i < forest.length) (he : tune i = []) : tuneSummaries d forest tune = .error .valueError := by
  rw [tuneSummaries_eq, if_pos]
  exact .inl ⟨_, mem_zipIdx_of_lt hi, he⟩

section
variable {sqrt : K → K} {ce : (n : ℕ) → SgdOpts K → K → List (Row K n) → List K → List ℕ →
  Except PyErr ((Fin n → K) × (Fin n → K) × List K)}

/-- C150, smooth: one tree without tuning rows (for out-of-bag tuning: a tree that has drawn every
observation) makes `smooth` raise ValueError, whatever the other settings. -/
theorem C150_smooth {kind : Kind} {forest : List (SkTree K C)} {cfg : SmoothCfg K} {src : TuneSrc}
    (hsrc : tuneSource cfg.data = .ok src) {sources : TuneSrc → ℕ → List (TuneRow K C)} {i : ℕ}
    (hi : i < forest.length) (he : sources src i = []) :
    smooth sqrt ce (some kind) forest cfg sources = .error .valueError := by
  unfold smooth smoothCheck
  rw [hsrc]
  simp only [bind, Except.bind]
  split_ifs
  · rfl
  · simp only [pure, Except.pure]
    rw [tuneSummaries_empty hi he]

/-- C150, smooth with impurity distances: it does not return, and the error is ValueError once the
matrices exist. -/
theorem C150_smooth_impurity {kind : Kind} {forest : List (SkTree K C)} {levels : Option (Levels K)}
    {cfg : SmoothCfg K} {src : TuneSrc}
    (hsrc : tuneSource cfg.data = .ok src) {sources : TuneSrc → ℕ → List (TuneRow K C)} {i : ℕ}
    (hi : i < forest.length) (he : sources src i = []) :
    (∃ e, smoothImp sqrt ce (some kind) forest levels cfg sources = .error e) ∧
    ∀ ge, gammaEtaForestImp kind forest cfg.style cfg.parentsAll levels = .ok ge →
      smoothImp sqrt ce (some kind) forest levels cfg sources = .error .valueError := by
  have key : ∀ ge, gammaEtaForestImp kind forest cfg.style cfg.parentsAll levels = .ok ge →
      smoothImp sqrt ce (some kind) forest levels cfg sources = .error .valueError := by
    intro ge hge
    unfold smoothImp smoothCheck
    rw [hsrc]
    simp only [bind, Except.bind]
    split_ifs
    · rfl
    · simp only [pure, Except.pure]
      rw [hge]
      unfold smoothFrom
      rw [tuneSummaries_empty hi he]
      rfl
  refine ⟨?_, key⟩
  cases hge : gammaEtaForestImp kind forest cfg.style cfg.parentsAll levels with
  | ok ge => exact ⟨_, key ge hge⟩
  | error e =>
    unfold smoothImp smoothCheck
    rw [hsrc]
    simp only [bind, Except.bind]
    split_ifs
    · exact ⟨_, rfl⟩
    · simp only [pure, Except.pure]
      rw [hge]
      exact ⟨_, rfl⟩
end

/-- C150, pytorch_numpy_prep: the same. -/
theorem C150_prep {kind : Kind} {forest : List (SkTree K C)} {s : Style} {pa : Bool} {a : DataArgs}
    {trainOnly : Bool} {src : PSrc} (hsrc : prepSource a trainOnly = .ok src)
    {sources : PSrc → ℕ → List (TuneRow K C)} {i : ℕ} (hi : i < forest.length) (he : sources src i = []) :
    (∃ e, pytorchPrep (some kind) forest s pa a trainOnly sources = .error e) ∧
    ∀ more, forestMore forest s = .ok more →
      pytorchPrep (some kind) forest s pa a trainOnly sources = .error .valueError := by
  unfold pytorchPrep
  simp only [hsrc, bind, Except.bind]
  rw [tuneSummaries_empty hi he]
  constructor
  · cases forestMore forest s with
    | error e => exact ⟨e, rfl⟩
    | ok more => exact ⟨_, rfl⟩
  · intro more h
    rw [h]

theorem foldlM_mem_error {α β : Type} {f : β → α → Except PyErr β} {a : α} (h : ∀ b, ∃ e, f b a = .error e) :
    ∀ (l : List α) (b : β), a ∈ l → ∃ e, l.foldlM f b = .error e := by
  intro l
  induction l with
  | nil => intro b hm; simp at hm
  | cons x l ih =>
    intro b hm
    rw [List.foldlM_cons]
    rcases List.mem_cons.1 hm with rfl | hm
    · obtain ⟨e, he⟩ := h b
      rw [he]
      exact ⟨e, rfl⟩
    · cases f b x with
      | error e => exact ⟨e, rfl⟩
      | ok b' => exact ih b' hm

theorem foldlM_only_error {α β : Type} {f : β → α → Except PyErr β} {e : PyErr}
    (h : ∀ b a e', f b a = .error e' → e' = e) : ∀ (l : List α) (b : β) (e' : PyErr),
      l.foldlM f b = .error e' → e' = e := by
  intro l
  induction l with
  | nil => intro b e' he; cases he
  | cons x l ih =>
    intro b e' he
    rw [List.foldlM_cons] at he
    cases hx : f b x with
    | error e'' =>
      rw [hx] at he
      cases he
      exact h _ _ _ hx
    | ok b' =>
      rw [hx] at he
      exact ih b' e' he

/-- C150, smooth_all: it does not return, and the error is ValueError when the earlier checks pass. -/
theorem C150_all {o : AllOracles K} {fuel : ℕ} {forest : List (SkTree K 1)} {c : AllCfg}
    {sources : TuneSrc → ℕ → List (TuneRow K 1)} {i : ℕ} (hi : i < forest.length)
    (he : sources (allSource c) i = []) :
    (∃ e, smoothAll o fuel forest c sources = .error e) ∧
    (c.nTrained ≠ 0 → smoothAll o fuel forest c sources = .error .valueError) := by
  have ht : allTune forest (sources (allSource c)) = .error .valueError := by
    unfold allTune
    have h1 := foldlM_mem_error (f := fun (acc : List (K × K)) (tt : SkTree K 1 × ℕ) => do
      let l ← processTuning tt.1.nLeaves (-1) (sources (allSource c) tt.2)
      pure (acc ++ l)) (a := (forest[i], i)) (by
        intro b
        refine ⟨.valueError, ?_⟩
        simp only [processTuning, he]
        rfl) forest.zipIdx [] (mem_zipIdx_of_lt hi)
    obtain ⟨e, h1⟩ := h1
    rw [h1]
    congr 1
    refine foldlM_only_error (fun b a e' h => ?_) _ _ _ h1
    unfold processTuning at h
    by_cases hr : sources (allSource c) a.2 = []
    · rw [if_pos hr] at h
      cases h
      rfl
    · rw [if_neg hr] at h
      cases h
  have hp : ∃ e, allPrepare forest c sources = .error e ∧ (c.nTrained ≠ 0 → e = .valueError) := by
    unfold allPrepare
    split_ifs with h1 h2
    · exact ⟨_, rfl, fun h => absurd h1 h⟩
    · exact ⟨_, rfl, fun _ => rfl⟩
    · cases hs : readSanity c.sanity with
      | error e =>
        refine ⟨e, rfl, fun _ => ?_⟩
        unfold readSanity at hs
        split at hs <;> cases hs <;> rfl
      | ok p =>
        refine ⟨.valueError, ?_, fun _ => rfl⟩
        simp only [bind, Except.bind]
        rw [ht]
  obtain ⟨e, hp, hv⟩ := hp
  unfold smoothAll
  rw [hp]
  exact ⟨⟨e, rfl⟩, fun h => by rw [hv h]; rfl⟩

theorem mapM_head_error {α β : Type} {f : α → Except PyErr β} {e : PyErr} :
    ∀ {l : List α}, l ≠ [] → (∀ a, f a = .error e) → l.mapM f = .error e := by
  intro l hl h
  cases l with
  | nil => exact absurd rfl hl
  | cons a l =>
    rw [List.mapM_cons, h a]
    rfl

theorem depthTuneStep_empty {kind : Kind} {maxDepth : ℕ} {tune : ℕ → List (LossRow K)} {s : List K × Option ℕ}
    {tt : SkTree K C × ℕ} (hwf : tt.1.WF) (hpos : 0 < npMax tt.1.depthPerNode) (he : tune tt.2 = []) :
    depthTuneStep kind maxDepth tune s tt = .error .valueError := by
  unfold depthTuneStep
  rw [leafPredictedValues_eq hwf (isTreeDepth_npMax hwf)
    (tr := fun d i => (exists_deepest hwf d i).choose) fun d i => (exists_deepest hwf d i).choose_spec]
  simp only [bind, Except.bind]
  rw [mapM_head_error (by simp; omega)]
  intro p
  rw [he]
  rfl

theorem depthFold_empty [NeZero C] {kind : Kind} {maxDepth : ℕ} {tune : ℕ → List (LossRow K)}
    (l : List (SkTree K C × ℕ))
    (hl : ∀ tt ∈ l, tt.1.WF ∧ 0 < npMax tt.1.depthPerNode ∧ npMax tt.1.depthPerNode ≤ maxDepth ∧
      ∀ r ∈ tune tt.2, r.leaf < tt.1.nLeaves) (he : ∃ tt ∈ l, tune tt.2 = [])
    (A : ℕ → K) (i : Option ℕ) :
    l.foldlM (depthTuneStep kind maxDepth tune) ((List.range maxDepth).map A, i) = .error .valueError := by
  classical
  induction l generalizing A i with
  | nil => obtain ⟨_, h, -⟩ := he; simp at h
  | cons tt l ih =>
    obtain ⟨h1, h2, h3, h4⟩ := hl tt (by simp)
    rw [List.foldlM_cons]
    by_cases h : tune tt.2 = []
    · rw [depthTuneStep_empty h1 h2 h]
      rfl
    · obtain ⟨j, hj⟩ := depthFold kind maxDepth tune (fun t => npMax t.depthPerNode)
        (fun t d i => if h : t.WF then (exists_deepest h d i).choose else i) [tt] (by
          intro t ht
          rw [List.mem_singleton.1 ht]
          refine ⟨h1, isTreeDepth_npMax h1, h2, h3, fun d i => ?_, h4, h⟩
          simp only [dif_pos h1]
          exact (exists_deepest h1 d i).choose_spec) A i
      rw [List.foldlM_cons] at hj
      obtain ⟨s, hs, hj⟩ := bind_ok hj
      cases hj
      rw [hs]
      refine ih (fun t ht => hl t (by simp [ht])) ?_ _ _
      obtain ⟨t, ht, h5⟩ := he
      rcases List.mem_cons.1 ht with rfl | ht
      · exact absurd h5 h
      · exact ⟨t, ht, h5⟩

/-- C150, depth_tune: a tree without tuning rows makes it fail, whatever the trees; for trees of depth at
least one and rows that reach leaves the error is ValueError. -/
theorem C150_depth [NeZero C] {kind : Kind} {forest : List (SkTree K C)} (hwf : ∀ t ∈ forest, t.WF)
    {data : DataArgs} {src : TuneSrc} (hsrc : tuneSource data = .ok src)
    {sources : TuneSrc → ℕ → List (LossRow K)} {i : ℕ} (hi : i < forest.length) (he : sources src i = []) :
    (∃ e, depthTune (some kind) forest data sources = .error e) ∧
    ((∀ t ∈ forest, ∀ D, t.IsTreeDepth D → 0 < D) →
      (∀ tt ∈ forest.zipIdx, ∀ r ∈ sources src tt.2, r.leaf < tt.1.nLeaves) →
      depthTune (some kind) forest data sources = .error .valueError) := by
  have hw : forest[i].WF := hwf _ (List.getElem_mem hi)
  constructor
  · by_cases h0 : npMax forest[i].depthPerNode = 0
    · exact C51_any_single_node_raises hw (h0 ▸ isTreeDepth_npMax hw) (List.getElem_mem hi) data sources
    · obtain ⟨e, h⟩ := foldlM_mem_error (f := depthTuneStep kind (forestDepth forest) (sources src))
        (a := (forest[i], i)) (fun b => ⟨.valueError, depthTuneStep_empty hw (Nat.pos_of_ne_zero h0) he⟩) forest.zipIdx
        (List.replicate (forestDepth forest) 0, none) (mem_zipIdx_of_lt hi)
      refine ⟨e, ?_⟩
      simp only [depthTune, hsrc, bind, Except.bind]
      rw [h]
  · intro hpos hrows
    have hle : ∀ t ∈ forest, npMax t.depthPerNode ≤ forestDepth forest := fun t ht => by
      unfold forestDepth
      rw [calcDepthForForest_eq]
      exact (foldl_max_le _ 0).2.1 _ (List.mem_map.2 ⟨t.toTopo, List.mem_map.2 ⟨t, ht, rfl⟩, rfl⟩)
    have := depthFold_empty (kind := kind) (maxDepth := forestDepth forest) (tune := sources src) forest.zipIdx
      (fun tt htt => ⟨hwf _ (List.fst_mem_of_mem_zipIdx htt), hpos _ (List.fst_mem_of_mem_zipIdx htt) _
        (isTreeDepth_npMax (hwf _ (List.fst_mem_of_mem_zipIdx htt))), hle _ (List.fst_mem_of_mem_zipIdx htt), hrows tt htt⟩)
      ⟨_, mem_zipIdx_of_lt hi, he⟩ (fun _ => 0) none
    simp only [depthTune, hsrc, bind, Except.bind]
    rw [show List.replicate (forestDepth forest) (0 : K) = (List.range (forestDepth forest)).map fun _ => 0 by
      simp, this]

/-- C150, _append_oob_values: a tree with no out-of-bag observation. -/
theorem C150_append (t : SkTree K C) (df : PDf K t.toTopo) (s : SkTree K 1) (df' : PDf K s.toTopo) :
    appendOobCls t df [] = .error .valueError ∧ appendOobReg s df' [] = .error .valueError := ⟨rfl, rfl⟩

/-- C150, smooth_clean: no training observations, with either distance. -/
theorem C150_clean {sqrt : K → K} {approxOne : K → Bool} (rf : Option Kind) (forest : List (SkTree K 1))
    (levels : Option (Levels K)) (leafOf : ℕ → ℕ → ℕ) (uns : ℕ → List ℕ) (cfg : CleanCfg K)
    (choices : List (List ℕ)) :
    smoothClean sqrt approxOne rf forest [] leafOf uns cfg choices = .error .valueError ∧
    ∃ e, smoothCleanImp sqrt approxOne rf forest levels [] leafOf uns cfg choices = .error e := by
  constructor
  · unfold smoothClean
    split <;> rfl
  · unfold smoothCleanImp
    split
    · cases gammaEtaForestImp .reg forest cfg.style cfg.parentsAll levels with
      | error e => exact ⟨e, rfl⟩
      | ok ge => exact ⟨.valueError, rfl⟩
    · exact ⟨_, rfl⟩

/-- Two stumps, the second without rows: every entry point fails with ValueError; with a row it returns. -/
example : tuneSource exData = .ok .given ∧
    (match smooth (fun x : ℚ => x) noCe (some .reg) [exStump, exStump] exCfg
      (fun _ i => if i = 0 then [⟨0, fun _ => 2⟩] else []) with
    | .ok _ => none | .error e => some e) = some .valueError ∧
    (match depthTune (some .reg) [exStump, exStump] exData (fun _ i => if i = 0 then [⟨0, 2⟩] else []) with
    | .ok _ => none | .error e => some e) = some .valueError ∧
    (match depthTune (some .reg) [exStump, exStump] exData (fun _ _ => [⟨0, 2⟩]) with
    | .ok (_, l) => some l | .error _ => none) = some [1 / 2] ∧
    (match smooth (fun x : ℚ => x) noCe (some .reg) [exStump, exStump] exCfg
      (fun _ _ => [⟨0, fun _ => 2⟩]) with
    | .ok out => some out.costs | .error _ => none) = some [] := by
  decide +kernel

end SmoothRF
