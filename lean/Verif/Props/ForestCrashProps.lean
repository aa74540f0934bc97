import Verif.Model.ForestCrash
import Verif.Props.ForestHeapProps

/-!
# C226: the caller's forest after an exception
-/

set_option linter.unusedSectionVars false

namespace SmoothRF
open SkTree

variable {K : Type} [Field K] [LinearOrder K] {C : ℕ} {α β : Type}

/-- The memory when the function has returned or raised. -/
def memAfter (m : Mem K C α) (h : VHeap K C) : VHeap K C :=
  match m h with
  | .ok _ h' => h'
  | .error _ h' => h'

/-- The exception, if one is raised. -/
def memRaises (m : Mem K C α) (h : VHeap K C) : Option PyErr :=
  match m h with
  | .ok _ _ => none
  | .error e _ => some e

/-- Keeps the first `n` arrays, whatever happens, and returns only results with `P`. -/
def Keeps (n : ℕ) (m : Mem K C α) (P : α → Prop) : Prop :=
  ∀ h : VHeap K C, n ≤ h.length → match m h with
    | .ok a h' => P a ∧ n ≤ h'.length ∧ ∀ r < n, h'.arr r = h.arr r
    | .error _ h' => ∀ r < n, h'.arr r = h.arr r

theorem keeps_bind {n : ℕ} {m : Mem K C α} {f : α → Mem K C β} {P : α → Prop} {Q : β → Prop} (h1 : Keeps n m P)
    (h2 : ∀ a, P a → Keeps n (f a) Q) : Keeps n (m >>= f) Q := by
  intro h hn
  show match EStateM.bind m f h with | .ok a h' => _ | .error _ h' => _
  unfold EStateM.bind
  have e1 := h1 h hn
  cases em : m h with
  | error e h' =>
    rw [em] at e1
    exact e1
  | ok a h' =>
    rw [em] at e1
    obtain ⟨p, l, k⟩ := e1
    have e2 := h2 a p h' l
    dsimp only
    cases ef : f a h' with
    | error e h'' =>
      rw [ef] at e2
      exact fun r hr => (e2 r hr).trans (k r hr)
    | ok b h'' =>
      rw [ef] at e2
      exact ⟨e2.1, e2.2.1, fun r hr => (e2.2.2 r hr).trans (k r hr)⟩

theorem keeps_pure {n : ℕ} {P : α → Prop} {a : α} (hp : P a) : Keeps n (pure a : Mem K C α) P :=
  fun _ hn => ⟨hp, hn, fun _ _ => rfl⟩

theorem keeps_step {n : ℕ} (x : VHeap K C → Except PyErr α) : Keeps n (readStep x : Mem K C α) fun _ => True := by
  intro h hn
  unfold readStep
  cases x h with
  | ok a => exact ⟨trivial, hn, fun _ _ => rfl⟩
  | error e => exact fun _ _ => rfl

theorem keeps_step' {n : ℕ} (x : Except PyErr α) : Keeps n (pureStep x : Mem K C α) fun _ => True :=
  keeps_step fun _ => x

theorem keeps_read {n : ℕ} (objs : List (TreeObj K C)) : Keeps n (memRead objs) fun _ => True :=
  fun _ hn => ⟨trivial, hn, fun _ _ => rfl⟩

theorem keeps_write {n : ℕ} {o : TreeObj K C} (ho : n ≤ o.ref) (vals : List (Fin C → K)) :
    Keeps n (memWrite o vals) fun _ => True := by
  intro h hn
  unfold memWrite
  cases e : writeObj h o vals with
  | error e => exact fun _ _ => rfl
  | ok h' =>
    obtain ⟨a, b⟩ := writeObj_frame e
    exact ⟨trivial, by rw [a]; exact hn, fun r hr => b r (by omega)⟩

theorem keeps_copy {n : ℕ} {objs : List (TreeObj K C)} (ho : ∀ o ∈ objs, o.ref < n) :
    Keeps n (memCopy objs) fun c => ∀ o ∈ c, n ≤ o.ref := by
  intro h hn
  obtain ⟨-, -, a3, a4, a5, -⟩ := copyForest_facts h objs fun o h' => lt_of_lt_of_le (ho o h') hn
  exact ⟨fun o h' => le_trans hn (a3 o h').1, le_trans hn a5, fun r hr => a4 r (by omega)⟩

theorem keeps_write1 {n : ℕ} (all : List (Fin C → K)) : ∀ (s : ℕ) (os : List (TreeObj K C)), (∀ o ∈ os, n ≤ o.ref) →
    Keeps n (memWrite1 all s os) fun _ => True
  | _, [], _ => keeps_pure trivial
  | _, o :: os, h => keeps_bind (keeps_write (h o (List.mem_cons_self ..)) _) fun _ _ =>
    keeps_write1 all _ os fun o' h' => h o' (List.mem_cons_of_mem _ h')

theorem keeps_write2 {n : ℕ} (all : List (Fin C → K)) : ∀ (s : ℕ) (os : List (TreeObj K C)), (∀ o ∈ os, n ≤ o.ref) →
    Keeps n (memWrite2 all s os) fun _ => True
  | _, [], _ => keeps_pure trivial
  | _, o :: os, h => keeps_bind (keeps_write (h o (List.mem_cons_self ..)) _) fun _ _ =>
    keeps_write2 all _ os fun o' h' => h o' (List.mem_cons_of_mem _ h')

theorem keeps_losses {n : ℕ} (kind : Kind) (rows : List (LossRow K)) {o : TreeObj K C} (ho : n ≤ o.ref) :
    ∀ ps, Keeps n (memLosses kind rows o ps) fun _ => True
  | [] => keeps_pure trivial
  | _ :: ps => keeps_bind (keeps_write ho _) fun _ _ => keeps_bind (keeps_step _) fun _ _ =>
    keeps_bind (keeps_losses kind rows ho ps) fun _ _ => keeps_pure trivial

theorem keeps_tune {n : ℕ} (kind : Kind) (md : ℕ) (tune : ℕ → List (LossRow K)) :
    ∀ (os : List (TreeObj K C × ℕ)) (s : List K × Option ℕ), (∀ o ∈ os, n ≤ o.1.ref) →
      Keeps n (memTuneLoop kind md tune os s) fun _ => True
  | [], _, _ => keeps_pure trivial
  | o :: os, _, h => keeps_bind (P := fun _ => True)
      (keeps_bind (keeps_step fun h => leafPredictedValues (o.1.read h)) fun _ _ =>
        keeps_bind (keeps_losses kind _ (h o (List.mem_cons_self ..)) _) fun _ _ =>
        keeps_bind (keeps_step' _) fun _ _ => keeps_pure trivial) fun _ _ =>
    keeps_tune kind md tune os _ fun o' h' => h o' (List.mem_cons_of_mem _ h')

theorem keeps_truncate {n : ℕ} (best : ℕ) : ∀ (os : List (TreeObj K C)), (∀ o ∈ os, n ≤ o.ref) →
    Keeps n (memTruncate best os) fun _ => True
  | [], _ => keeps_pure trivial
  | o :: os, h => keeps_bind (keeps_step fun h => leafPredictedValues (o.read h)) fun _ _ =>
    keeps_bind (keeps_step' _) fun _ _ => keeps_bind (keeps_write (h o (List.mem_cons_self ..)) _) fun _ _ =>
    keeps_truncate best os fun o' h' => h o' (List.mem_cons_of_mem _ h')

theorem keeps_after {n : ℕ} {m : Mem K C α} {P : α → Prop} (hk : Keeps n m P) {h : VHeap K C} (hn : n ≤ h.length) :
    ∀ r < n, (memAfter m h).arr r = h.arr r := by
  have := hk h hn
  unfold memAfter
  cases e : m h with
  | ok a h' => rw [e] at this; exact this.2.2
  | error a h' => rw [e] at this; exact this

theorem keeps_reads {m : Mem K C α} {P : α → Prop} {h : VHeap K C} (hk : Keeps h.length m P) {objs : List (TreeObj K C)}
    (hin : ∀ o ∈ objs, o.ref < h.length) :
    objs.map (TreeObj.read (memAfter m h)) = objs.map (TreeObj.read h) :=
  reads_congr fun o ho => keeps_after hk le_rfl _ (hin o ho)

/-! ### the claims -/

/-- C226: after `smooth` or `depth_tune`, whether it returned or raised, and wherever it raised, every value array that
existed before the call is unchanged. In particular the caller's forest is the one handed in. -/
theorem C226_unchanged (h : VHeap K C) (objs : List (TreeObj K C)) (hin : ∀ o ∈ objs, o.ref < h.length) :
    (∀ sqrt ce rf cfg sources,
      (∀ r < h.length, (memAfter (memSmooth sqrt ce rf objs cfg sources) h).arr r = h.arr r) ∧
      objs.map (TreeObj.read (memAfter (memSmooth sqrt ce rf objs cfg sources) h)) = objs.map (TreeObj.read h)) ∧
    (∀ rf data sources,
      (∀ r < h.length, (memAfter (memDepthTune rf objs data sources) h).arr r = h.arr r) ∧
      objs.map (TreeObj.read (memAfter (memDepthTune rf objs data sources) h)) = objs.map (TreeObj.read h)) := by
  constructor
  · intro sqrt ce rf cfg sources
    have hk : Keeps h.length (memSmooth sqrt ce rf objs cfg sources) fun _ => True :=
      keeps_bind (keeps_step' _) fun _ _ => keeps_bind (keeps_copy hin) fun c1 h1 => keeps_bind (keeps_copy hin) fun c2 h2 =>
        keeps_bind (keeps_read _) fun _ _ => keeps_bind (keeps_read _) fun _ _ => keeps_bind (keeps_step' _) fun _ _ =>
        keeps_bind (keeps_write1 _ _ _ h1) fun _ _ => keeps_bind (keeps_write2 _ _ _ h2) fun _ _ => keeps_pure trivial
    exact ⟨keeps_after hk le_rfl, keeps_reads hk hin⟩
  · intro rf data sources
    have hk : Keeps h.length (memDepthTune rf objs data sources) fun _ => True := by
      cases rf with
      | none => exact keeps_step' (.error .valueError)
      | some kind =>
        refine keeps_bind (keeps_step' _) fun _ _ => keeps_bind (keeps_copy hin) fun c1 h1 =>
          keeps_bind (keeps_read _) fun _ _ => keeps_bind (keeps_tune _ _ _ _ _ fun o ho => ?_) fun _ _ =>
          keeps_bind (keeps_step' _) fun _ _ => keeps_bind (keeps_copy hin) fun c2 h2 =>
          keeps_bind (keeps_truncate _ _ h2) fun _ _ => keeps_pure trivial
        exact h1 _ (List.fst_mem_of_mem_zipIdx ho)
    exact ⟨keeps_after hk le_rfl, keeps_reads hk hin⟩

/-- C226 for `smooth_clean` and `smooth_all`. -/
theorem C226_unchanged_reg (h : VHeap K 1) (objs : List (TreeObj K 1)) (hin : ∀ o ∈ objs, o.ref < h.length) :
    (∀ sqrt approxOne rf y leafOf uns cfg choices,
      (∀ r < h.length, (memAfter (memClean sqrt approxOne rf objs y leafOf uns cfg choices) h).arr r = h.arr r) ∧
      objs.map (TreeObj.read (memAfter (memClean sqrt approxOne rf objs y leafOf uns cfg choices) h)) =
        objs.map (TreeObj.read h)) ∧
    (∀ o fuel c sources, (∀ r < h.length, (memAfter (memAll o fuel objs c sources) h).arr r = h.arr r) ∧
      objs.map (TreeObj.read (memAfter (memAll o fuel objs c sources) h)) = objs.map (TreeObj.read h)) := by
  constructor
  · intro sqrt approxOne rf y leafOf uns cfg choices
    have hk : Keeps h.length (memClean sqrt approxOne rf objs y leafOf uns cfg choices) fun _ => True := by
      match rf with
      | none => exact keeps_step' (.error .valueError)
      | some .cls => exact keeps_step' (.error .valueError)
      | some .reg =>
        exact keeps_bind (keeps_copy hin) fun c1 h1 => keeps_bind (keeps_read _) fun _ _ =>
          keeps_bind (keeps_step' _) fun _ _ => keeps_bind (keeps_write1 _ _ _ h1) fun _ _ => keeps_pure trivial
    exact ⟨keeps_after hk le_rfl, keeps_reads hk hin⟩
  · intro o fuel c sources
    have hk : Keeps h.length (memAll o fuel objs c sources) fun _ => True := by
      refine keeps_bind (keeps_copy hin) fun c1 h1 => keeps_bind (keeps_read _) fun _ _ =>
        keeps_bind (keeps_step' _) fun r _ => ?_
      match r with
      | none => exact keeps_pure trivial
      | some q => exact keeps_bind (keeps_write1 _ _ _ h1) fun _ _ => keeps_pure trivial
    exact ⟨keeps_after hk le_rfl, keeps_reads hk hin⟩

/-! ### the same functions as in C142 -/

/-- Outcome without the memory of an exception. -/
def memOut (m : Mem K C α) (h : VHeap K C) : Except PyErr (VHeap K C × α) :=
  match m h with
  | .ok a h' => .ok (h', a)
  | .error e _ => .error e

theorem memOut_bind (m : Mem K C α) (f : α → Mem K C β) (h : VHeap K C) :
    memOut (m >>= f) h = (memOut m h >>= fun p => memOut (f p.2) p.1) := by
  unfold memOut
  show (match EStateM.bind m f h with | .ok a h' => _ | .error e _ => _) = _
  unfold EStateM.bind
  cases m h <;> rfl

theorem memOut_pure (a : α) (h : VHeap K C) : memOut (pure a : Mem K C α) h = .ok (h, a) := rfl

theorem memOut_step (x : VHeap K C → Except PyErr α) (h : VHeap K C) :
    memOut (readStep x : Mem K C α) h = (x h >>= fun a => .ok (h, a)) := by
  unfold memOut readStep pureStep
  cases x h <;> rfl

theorem memOut_step' (x : Except PyErr α) (h : VHeap K C) :
    memOut (pureStep x : Mem K C α) h = (x >>= fun a => .ok (h, a)) := memOut_step (fun _ => x) h

theorem memOut_write (o : TreeObj K C) (vals : List (Fin C → K)) (h : VHeap K C) :
    memOut (memWrite o vals) h = (writeObj h o vals >>= fun h' => .ok (h', ())) := by
  unfold memOut memWrite
  cases writeObj h o vals <;> rfl

theorem memOut_write1 (all : List (Fin C → K)) : ∀ (os : List (TreeObj K C)) (s : ℕ) (h : VHeap K C),
    memOut (memWrite1 all s os) h = (heapWrite1 all s os h >>= fun h' => .ok (h', ()))
  | [], _, _ => rfl
  | o :: os, s, h => by
    rw [memWrite1, heapWrite1, memOut_bind, memOut_write]
    cases writeObj h o ((all.drop s).take o.shape.nLeaves) with
    | error e => rfl
    | ok h' => exact memOut_write1 all os _ h'

theorem memOut_write2 (all : List (Fin C → K)) : ∀ (os : List (TreeObj K C)) (s : ℕ) (h : VHeap K C),
    memOut (memWrite2 all s os) h = (heapWrite2 all s os h >>= fun h' => .ok (h', ()))
  | [], _, _ => rfl
  | o :: os, s, h => by
    rw [memWrite2, heapWrite2, memOut_bind, memOut_write]
    cases writeObj h o ((all.drop s).take o.shape.nLeaves) with
    | error e => rfl
    | ok h' => exact memOut_write2 all os _ h'

/-- C226: without exception or in the exception, `memSmooth` is the `smooth` of C142. -/
theorem C226_smooth_agrees (sqrt : K → K)
    (ce : (n : ℕ) → SgdOpts K → K → List (Row K n) → List K → List ℕ →
      Except PyErr ((Fin n → K) × (Fin n → K) × List K))
    (rf : Option Kind) (h : VHeap K C) (objs : List (TreeObj K C)) (cfg : SmoothCfg K)
    (sources : TuneSrc → ℕ → List (TuneRow K C)) :
    heapSmooth sqrt ce rf h objs cfg sources = (memOut (memSmooth sqrt ce rf objs cfg sources) h).map
      fun p => ⟨p.1, p.2.1, p.2.2.1, p.2.2.2.1, p.2.2.2.2.1, p.2.2.2.2.2⟩ := by
  unfold heapSmooth memSmooth
  rw [memOut_bind, memOut_step']
  cases smoothCheck rf cfg.data cfg.noConstraint with
  | error e => rfl
  | ok ks =>
    simp only [bind, Except.bind]
    show _ = (memOut (memCopy objs >>= _) h).map _
    rw [memOut_bind]
    show _ = (memOut (memCopy objs >>= _) _).map _
    rw [memOut_bind]
    show _ = (memOut (memRead objs >>= _) _).map _
    rw [memOut_bind]
    show _ = (memOut (memRead _ >>= _) _).map _
    rw [memOut_bind]
    show _ = (memOut (pureStep _ >>= _) _).map _
    rw [memOut_bind, memOut_step']
    cases smoothCompute sqrt ce ks.1 ks.2 (objs.map (TreeObj.read (copyForest (copyForest h [] objs).1 [] objs).1))
        ((copyForest h [] objs).2.map (TreeObj.read (copyForest (copyForest h [] objs).1 [] objs).1)) cfg sources with
    | error e => rfl
    | ok r =>
      simp only [bind, Except.bind]
      show _ = (memOut (memWrite1 _ _ _ >>= _) _).map _
      rw [memOut_bind, memOut_write1]
      cases heapWrite1 r.1 0 (copyForest h [] objs).2 (copyForest (copyForest h [] objs).1 [] objs).1 with
      | error e => rfl
      | ok h3 =>
        simp only [bind, Except.bind]
        show _ = (memOut (memWrite2 _ _ _ >>= _) _).map _
        rw [memOut_bind, memOut_write2]
        cases heapWrite2 r.2.1 0 (copyForest (copyForest h [] objs).1 [] objs).2 h3 with
        | error e => rfl
        | ok h4 => rfl

/-- C226: `memClean` and `memAll` are the functions of C142. -/
theorem C226_reg_agrees (h : VHeap K 1) (objs : List (TreeObj K 1)) :
    (∀ sqrt approxOne rf y leafOf uns cfg choices, heapClean sqrt approxOne rf h objs y leafOf uns cfg choices =
      memOut (memClean sqrt approxOne rf objs y leafOf uns cfg choices) h) ∧
    (∀ o fuel c sources, heapAll o fuel h objs c sources =
      (memOut (memAll o fuel objs c sources) h).map fun p => p.2.map fun q => (p.1, q.1, q.2)) := by
  constructor
  · intro sqrt approxOne rf y leafOf uns cfg choices
    match rf with
    | none => rfl
    | some .cls => rfl
    | some .reg =>
      unfold heapClean memClean
      dsimp only
      rw [memOut_bind]
      show _ = memOut (memRead objs >>= _) _
      rw [memOut_bind]
      show _ = memOut (pureStep _ >>= _) _
      rw [memOut_bind, memOut_step']
      cases cleanCompute sqrt approxOne (objs.map (TreeObj.read (copyForest h [] objs).1)) y leafOf uns cfg choices with
      | error e => rfl
      | ok r =>
        simp only [bind, Except.bind]
        show _ = memOut (memWrite1 _ _ _ >>= _) _
        rw [memOut_bind, memOut_write1]
        cases heapWrite1 r.1 0 (copyForest h [] objs).2 (copyForest h [] objs).1 with
        | error e => rfl
        | ok h3 => rfl
  · intro o fuel c sources
    unfold heapAll memAll
    dsimp only
    rw [memOut_bind]
    show _ = (memOut (memRead _ >>= _) _).map _
    rw [memOut_bind]
    show _ = (memOut (pureStep _ >>= _) _).map _
    rw [memOut_bind, memOut_step']
    cases allCompute o fuel ((copyForest h [] objs).2.map (TreeObj.read (copyForest h [] objs).1)) c sources with
    | error e => rfl
    | ok r =>
      match r with
      | none => rfl
      | some q =>
        simp only [bind, Except.bind]
        show _ = (memOut (memWrite1 _ _ _ >>= _) _).map _
        rw [memOut_bind, memOut_write1]
        cases heapWrite1 q.1 0 (copyForest h [] objs).2 (copyForest h [] objs).1 with
        | error e => rfl
        | ok h3 => rfl

theorem memOut_losses (kind : Kind) (rows : List (LossRow K)) (o : TreeObj K C) :
    ∀ (ps : List (List (Fin C → K))) (h : VHeap K C),
      memOut (memLosses kind rows o ps) h = (heapLosses kind rows o ps h).map fun p => (p.2, p.1)
  | [], _ => rfl
  | pred :: ps, h => by
    rw [memLosses, heapLosses, memOut_bind, memOut_write]
    cases writeObj h o pred with
    | error e => rfl
    | ok h' =>
      simp only [bind, Except.bind]
      show memOut (_ >>= _) h' = _
      rw [memOut_bind, memOut_step]
      cases treeLoss kind rows ((List.finRange o.shape.nLeaves).map fun r =>
          (o.read h').value (o.shape.leafNode r)) with
      | error e => rfl
      | ok l =>
        simp only [bind, Except.bind]
        show memOut (_ >>= _) h' = _
        rw [memOut_bind, memOut_losses kind rows o ps h']
        cases heapLosses kind rows o ps h' <;> rfl

theorem memOut_tune (kind : Kind) (md : ℕ) (tune : ℕ → List (LossRow K)) :
    ∀ (os : List (TreeObj K C × ℕ)) (s : List K × Option ℕ) (h : VHeap K C),
      memOut (memTuneLoop kind md tune os s) h =
        (os.foldlM (heapTuneStep kind md tune) (s, h)).map fun p => (p.2, p.1)
  | [], _, _ => rfl
  | o :: os, s, h => by
    have step : memOut (memTuneStep kind md tune s o) h = (heapTuneStep kind md tune (s, h) o).map fun p => (p.2, p.1) := by
      unfold memTuneStep heapTuneStep
      rw [memOut_bind, memOut_step]
      dsimp only
      cases leafPredictedValues (o.1.read h) with
      | error e => rfl
      | ok pred =>
        simp only [bind, Except.bind]
        show memOut (_ >>= _) h = _
        rw [memOut_bind, memOut_losses]
        cases heapLosses kind (tune o.2) o.1 pred h with
        | error e => rfl
        | ok lh =>
          simp only [bind, Except.bind, Except.map]
          show memOut (_ >>= _) lh.2 = _
          rw [memOut_bind, memOut_step']
          cases treeLossVec md s.2 lh.1 <;> rfl
    rw [memTuneLoop, List.foldlM_cons, memOut_bind, step]
    cases heapTuneStep kind md tune (s, h) o with
    | error e => rfl
    | ok s' => exact memOut_tune kind md tune os s'.1 s'.2

theorem memOut_truncate (best : ℕ) : ∀ (os : List (TreeObj K C)) (h : VHeap K C),
    memOut (memTruncate best os) h = (heapTruncate best os h >>= fun h' => .ok (h', ()))
  | [], _ => rfl
  | o :: os, h => by
    rw [memTruncate, heapTruncate, memOut_bind, memOut_step]
    cases leafPredictedValues (o.read h) with
    | error e => rfl
    | ok pred =>
      simp only [bind, Except.bind]
      show memOut (_ >>= _) h = _
      rw [memOut_bind, memOut_step']
      by_cases hl : pred.length = 0
      · rw [if_pos hl, if_pos hl]
        rfl
      · rw [if_neg hl, if_neg hl]
        cases pyGet pred (min (pred.length - 1) best) with
        | error e => rfl
        | ok v =>
          simp only [bind, Except.bind]
          show memOut (_ >>= _) h = _
          rw [memOut_bind, memOut_write]
          cases writeObj h o v with
          | error e => rfl
          | ok h' => exact memOut_truncate best os h'

/-- C226: `memDepthTune` is the `depth_tune` of C142. -/
theorem C226_depth_tune_agrees (rf : Option Kind) (h : VHeap K C) (objs : List (TreeObj K C)) (data : DataArgs)
    (sources : TuneSrc → ℕ → List (LossRow K)) :
    heapDepthTune rf h objs data sources = memOut (memDepthTune rf objs data sources) h := by
  cases rf with
  | none => rfl
  | some kind =>
    unfold heapDepthTune memDepthTune
    dsimp only
    rw [memOut_bind, memOut_step']
    cases tuneSource data with
    | error e => rfl
    | ok src =>
      simp only [bind, Except.bind]
      show _ = memOut (memCopy objs >>= _) h
      rw [memOut_bind]
      show _ = memOut (memRead objs >>= _) _
      rw [memOut_bind]
      show _ = memOut (memTuneLoop _ _ _ _ _ >>= _) _
      rw [memOut_bind, memOut_tune]
      cases List.foldlM (heapTuneStep kind (forestDepth (objs.map (TreeObj.read (copyForest h [] objs).1))) (sources src))
          ((List.replicate (forestDepth (objs.map (TreeObj.read (copyForest h [] objs).1))) 0, none),
            (copyForest h [] objs).1) (copyForest h [] objs).2.zipIdx with
      | error e => rfl
      | ok s =>
        simp only [bind, Except.bind, Except.map]
        show _ = memOut (pureStep _ >>= _) _
        rw [memOut_bind, memOut_step']
        cases npArgmin s.1.1 with
        | error e => rfl
        | ok best =>
          simp only [bind, Except.bind]
          show _ = memOut (memCopy objs >>= _) _
          rw [memOut_bind]
          show _ = memOut (memTruncate _ _ >>= _) _
          rw [memOut_bind, memOut_truncate]
          cases heapTruncate best (copyForest s.2 [] objs).2 (copyForest s.2 [] objs).1 <;> rfl

/-- C226, `depth_tune` raising in the second tree: the copy of the first tree is already cut off, the caller's
arrays 0 to 2 are as before. -/
example : memRaises (memDepthTune (some .reg) exObjs exData fun s t => if t = 0 then exLossRows s t else []) exHeap =
      some .valueError ∧
    exDump (memAfter (memDepthTune (some .reg) exObjs exData
        fun s t => if t = 0 then exLossRows s t else []) exHeap) =
      [[100, 0, 0, 0, 0], [5 / 2, 1, 4, 0, 0], [13 / 2, 3, 1, 4, 10],
        [5 / 2, 5 / 2, 5 / 2, 0, 0], [13 / 2, 3, 13 / 2, 13 / 2, 13 / 2]] := by
  decide +kernel

/-- C226, `smooth` with a second tree without tuning rows raises after both copies are made. -/
example : memRaises (memSmooth (fun x => x) noCe (some .reg) exObjs { exCfg with sanityCheck := false, steps := [0] }
      fun _ t => if t = 0 then exTune t else []) exHeap = some .valueError ∧
    exDump (memAfter (memSmooth (fun x => x) noCe (some .reg) exObjs { exCfg with sanityCheck := false, steps := [0] }
      fun _ t => if t = 0 then exTune t else []) exHeap) =
        exDump exHeap ++ (exDump exHeap).drop 1 ++ (exDump exHeap).drop 1 := by
  decide +kernel

end SmoothRF
