import Verif.Model.ForestHeap
import Verif.Props.SmoothProps
import Verif.Props.DepthTuneProps
import Verif.Props.CleanProps
import Verif.Props.SmoothAllProps

/-!
# C142: the caller's forest is never written

`smooth`, `smooth_clean`, `smooth_all` and `depth_tune` overwrite value arrays in place. On the heap of
value arrays they give the results of the pure models, leave every array of the caller alone, and hand
back trees whose arrays are new.
-/

set_option linter.unusedSectionVars false

namespace SmoothRF
open SkTree

variable {K : Type} [Field K] [LinearOrder K] {C : ℕ} {α β γ δ : Type}

/-- Two computations raise the same exception or both return, with related results. -/
def Alike (P : α → β → Prop) : Except PyErr α → Except PyErr β → Prop
  | .ok a, .ok b => P a b
  | .error e, .error e' => e = e'
  | _, _ => False

theorem Alike.bind {P : α → β → Prop} {Q : γ → δ → Prop} {x : Except PyErr α} {y : Except PyErr β}
    {f : α → Except PyErr γ} {g : β → Except PyErr δ} (h : Alike P x y)
    (hf : ∀ a b, P a b → Alike Q (f a) (g b)) : Alike Q (x >>= f) (y >>= g) := by
  cases x <;> cases y <;> first | exact h | exact (h : False).elim | exact hf _ _ h

theorem Alike.rfl' {P : α → α → Prop} {x : Except PyErr α} (h : ∀ a, x = .ok a → P a a) : Alike P x x := by
  cases x with
  | error e => exact rfl
  | ok a => exact h a rfl

theorem arr_append {h : VHeap K C} {e : List (ℕ → Fin C → K)} {r : ℕ} (hr : r < h.length) :
    VHeap.arr (h ++ e) r = h.arr r := by
  unfold VHeap.arr
  simp [List.getD_eq_getElem?_getD, List.getElem?_append_left hr]

theorem read_congr {h h' : VHeap K C} {o : TreeObj K C} (e : h'.arr o.ref = h.arr o.ref) :
    o.read h' = o.read h := by
  unfold TreeObj.read; rw [e]

theorem reads_congr {h h' : VHeap K C} {os : List (TreeObj K C)}
    (e : ∀ o ∈ os, h'.arr o.ref = h.arr o.ref) : os.map (TreeObj.read h') = os.map (TreeObj.read h) :=
  List.map_congr_left fun o ho => read_congr (e o ho)

/-- What a deep copy does: the old arrays stay, the copies read as the originals, their addresses are new. -/
theorem copyForest_spec (b : ℕ) : ∀ (os : List (TreeObj K C)) (h : VHeap K C) (memo : List (ℕ × ℕ)),
    b ≤ h.length → (∀ o ∈ os, o.ref < h.length) →
    (∀ p ∈ memo, b ≤ p.2 ∧ p.2 < h.length ∧ p.1 < h.length ∧ h.arr p.2 = h.arr p.1) →
    (∃ e, (copyForest h memo os).1 = h ++ e) ∧
    (copyForest h memo os).2.map (TreeObj.read (copyForest h memo os).1) = os.map (TreeObj.read h) ∧
    (∀ o ∈ (copyForest h memo os).2, b ≤ o.ref ∧ o.ref < (copyForest h memo os).1.length) := by
  intro os
  induction os with
  | nil => intro h memo _ _ _; exact ⟨⟨[], by simp [copyForest]⟩, rfl, by simp [copyForest]⟩
  | cons o os ih =>
    intro h memo hb hr hm
    rw [copyForest]
    cases hl : memo.lookup o.ref with
    | some r =>
      have hmem : (o.ref, r) ∈ memo := by
        obtain ⟨l1, l2, e, -⟩ := List.lookup_eq_some_iff.1 hl
        rw [e]; simp
      obtain ⟨⟨e, h1⟩, h2, h3⟩ := ih h memo hb (fun x hx => hr x (by simp [hx])) hm
      obtain ⟨m1, m2, -, m3⟩ := hm _ hmem
      refine ⟨⟨e, h1⟩, ?_, ?_⟩
      · simp only [List.map_cons]
        rw [h2]
        congr 1
        unfold TreeObj.read
        simp only
        rw [h1, arr_append m2, m3]
      · intro x hx
        simp only [List.mem_cons] at hx
        rcases hx with rfl | hx
        · refine ⟨m1, ?_⟩
          show r < (copyForest h memo os).1.length
          rw [h1]; simp only [List.length_append]; exact lt_of_lt_of_le m2 (Nat.le_add_right _ _)
        · exact h3 x hx
    | none =>
      have ho : o.ref < h.length := hr o (by simp)
      obtain ⟨⟨e, h1⟩, h2, h3⟩ := ih (h ++ [h.arr o.ref]) ((o.ref, h.length) :: memo) (by simp; omega)
        (fun x hx => by have := hr x (by simp [hx]); simp; omega) (by
          intro p hp
          simp only [List.mem_cons] at hp
          rcases hp with rfl | hp
          · refine ⟨hb, by simp, by simp only [List.length_append]; omega, ?_⟩
            rw [arr_append ho]
            unfold VHeap.arr; simp
          · obtain ⟨m1, m2, m0, m3⟩ := hm p hp
            refine ⟨m1, by simp only [List.length_append]; omega, by simp only [List.length_append]; omega, ?_⟩
            rw [arr_append m2, arr_append m0, m3])
      refine ⟨⟨[h.arr o.ref] ++ e, by simp only; rw [h1, List.append_assoc]⟩, ?_, ?_⟩
      · simp only [List.map_cons]
        rw [h2, reads_congr (h := h) (fun x hx => arr_append (hr x (by simp [hx])))]
        congr 1
        unfold TreeObj.read
        simp only
        rw [h1, arr_append (by simp)]
        congr 1
        unfold VHeap.arr; simp
      · intro x hx
        simp only [List.mem_cons] at hx
        rcases hx with rfl | hx
        · refine ⟨hb, ?_⟩
          simp only
          rw [h1]; simp
        · exact h3 x hx

/-- Without repeated objects every copied tree has an array of its own. -/
theorem copyForest_nodup : ∀ (os : List (TreeObj K C)) (h : VHeap K C) (memo : List (ℕ × ℕ)),
    (os.map TreeObj.ref).Nodup → (∀ o ∈ os, ∀ p ∈ memo, p.1 ≠ o.ref) →
    (copyForest h memo os).2.map TreeObj.ref = List.range' h.length os.length := by
  intro os
  induction os with
  | nil => intro h memo _ _; rfl
  | cons o os ih =>
    intro h memo hn hm
    simp only [List.map_cons, List.nodup_cons] at hn
    have hl : memo.lookup o.ref = none := by
      rw [List.lookup_eq_none_iff]
      intro p hp
      have := hm o (by simp) p hp
      simpa using fun e : o.ref = p.1 => this e.symm
    rw [copyForest, hl]
    simp only [List.map_cons, List.length_cons, List.range'_succ]
    rw [ih]
    · simp
    · exact hn.2
    · intro x hx p hp
      simp only [List.mem_cons] at hp
      rcases hp with rfl | hp
      · intro e
        exact hn.1 (by rw [show o.ref = x.ref from e]; exact List.mem_map_of_mem hx)
      · exact hm x (by simp [hx]) p hp

/-- An in-place write does to its own tree what `writeLeaves` does, and nothing else. -/
theorem writeObj_spec {h : VHeap K C} {o : TreeObj K C} (hr : o.ref < h.length) (vals : List (Fin C → K)) :
    Alike (fun h' t' => o.read h' = t' ∧ h'.length = h.length ∧ ∀ r, r ≠ o.ref → h'.arr r = h.arr r)
      (writeObj h o vals) (writeLeaves (o.read h) vals) := by
  unfold writeObj writeLeaves
  have e : (o.read h).nLeaves = o.shape.nLeaves := rfl
  rw [e]
  split_ifs with hv
  · refine ⟨?_, by simp, fun r hne => ?_⟩
    · have key : (fun i : o.shape.Node => VHeap.arr (h.set o.ref fun n c =>
          if hn : n < o.shape.m + 1 then newValue (o.read h) vals ⟨n, hn⟩ c else h.arr o.ref n c) o.ref i.val) =
          newValue (o.read h) vals := by
        funext i c
        unfold VHeap.arr
        rw [List.getD_eq_getElem?_getD, List.getElem?_set_self hr]
        simp only [Option.getD_some]
        rw [dif_pos i.2]
        rfl
      exact congrArg (fun v => ({ o.shape with value := v } : SkTree K C)) key
    · unfold VHeap.arr
      rw [List.getD_eq_getElem?_getD, List.getElem?_set_ne hne.symm, List.getD_eq_getElem?_getD]
  · exact rfl

/-- After a successful write the rest of the heap is as before, whatever the object. -/
theorem writeObj_frame {h h' : VHeap K C} {o : TreeObj K C} {vals : List (Fin C → K)}
    (hw : writeObj h o vals = .ok h') : h'.length = h.length ∧ ∀ r, r ≠ o.ref → h'.arr r = h.arr r := by
  unfold writeObj at hw
  split_ifs at hw with hv
  cases hw
  refine ⟨by simp, fun r hne => ?_⟩
  unfold VHeap.arr
  rw [List.getD_eq_getElem?_getD, List.getElem?_set_ne hne.symm, List.getD_eq_getElem?_getD]

theorem heapWrite1_spec (all : List (Fin C → K)) : ∀ (os : List (TreeObj K C)) (s : ℕ) (h : VHeap K C),
    (os.map TreeObj.ref).Nodup → (∀ o ∈ os, o.ref < h.length) →
    Alike (fun h' ts => os.map (TreeObj.read h') = ts ∧ h'.length = h.length ∧
        ∀ r, r ∉ os.map TreeObj.ref → h'.arr r = h.arr r)
      (heapWrite1 all s os h) (writeBack1 all s (os.map (TreeObj.read h))) := by
  intro os
  induction os with
  | nil => intro s h _ _; exact ⟨rfl, rfl, fun _ _ => rfl⟩
  | cons o os ih =>
    intro s h hn hr
    simp only [List.map_cons, List.nodup_cons] at hn
    rw [heapWrite1]
    show Alike _ _ (writeBack1 all s (o.read h :: os.map (TreeObj.read h)))
    rw [writeBack1]
    refine (writeObj_spec (hr o (by simp)) _).bind ?_
    rintro h1 t1 ⟨e1, e2, e3⟩
    have hk : os.map (TreeObj.read h1) = os.map (TreeObj.read h) := by
      refine reads_congr fun x hx => e3 _ fun e => hn.1 ?_
      rw [← e]; exact List.mem_map_of_mem hx
    have := ih (s + o.shape.nLeaves) h1 hn.2 (fun x hx => by rw [e2]; exact hr x (by simp [hx]))
    rw [hk] at this
    have e0 : (o.read h).nLeaves = o.shape.nLeaves := rfl
    rw [e0, ← bind_pure (heapWrite1 _ _ _ _)]
    refine this.bind ?_
    rintro h2 ts ⟨f1, f2, f3⟩
    refine ⟨?_, by rw [f2, e2], fun r hr' => ?_⟩
    · rw [List.map_cons, f1, ← e1]
      congr 1
      exact read_congr (f3 _ hn.1)
    · simp only [List.map_cons, List.mem_cons, not_or] at hr'
      rw [f3 r hr'.2, e3 r hr'.1]

theorem heapWrite2_spec (all : List (Fin C → K)) : ∀ (os : List (TreeObj K C)) (s : ℕ) (h : VHeap K C),
    (os.map TreeObj.ref).Nodup → (∀ o ∈ os, o.ref < h.length) →
    Alike (fun h' ts => os.map (TreeObj.read h') = ts ∧ h'.length = h.length ∧
        ∀ r, r ∉ os.map TreeObj.ref → h'.arr r = h.arr r)
      (heapWrite2 all s os h) (writeBack2 all s (os.map (TreeObj.read h))) := by
  intro os
  induction os with
  | nil => intro s h _ _; exact ⟨rfl, rfl, fun _ _ => rfl⟩
  | cons o os ih =>
    intro s h hn hr
    simp only [List.map_cons, List.nodup_cons] at hn
    rw [heapWrite2]
    show Alike _ _ (writeBack2 all s (o.read h :: os.map (TreeObj.read h)))
    rw [writeBack2]
    refine (writeObj_spec (hr o (by simp)) _).bind ?_
    rintro h1 t1 ⟨e1, e2, e3⟩
    have hk : os.map (TreeObj.read h1) = os.map (TreeObj.read h) := by
      refine reads_congr fun x hx => e3 _ fun e => hn.1 ?_
      rw [← e]; exact List.mem_map_of_mem hx
    have := ih s h1 hn.2 (fun x hx => by rw [e2]; exact hr x (by simp [hx]))
    rw [hk] at this
    rw [← bind_pure (heapWrite2 _ _ _ _)]
    refine this.bind ?_
    rintro h2 ts ⟨f1, f2, f3⟩
    refine ⟨?_, by rw [f2, e2], fun r hr' => ?_⟩
    · rw [List.map_cons, f1, ← e1]
      congr 1
      exact read_congr (f3 _ hn.1)
    · simp only [List.map_cons, List.mem_cons, not_or] at hr'
      rw [f3 r hr'.2, e3 r hr'.1]

theorem heapWrite1_frame (all : List (Fin C → K)) : ∀ (os : List (TreeObj K C)) (s : ℕ) (h h' : VHeap K C),
    heapWrite1 all s os h = .ok h' →
    h'.length = h.length ∧ ∀ r, r ∉ os.map TreeObj.ref → h'.arr r = h.arr r := by
  intro os
  induction os with
  | nil => intro s h h' hw; cases hw; exact ⟨rfl, fun _ _ => rfl⟩
  | cons o os ih =>
    intro s h h' hw
    rw [heapWrite1] at hw
    obtain ⟨h1, hw1, hw2⟩ := bind_ok hw
    obtain ⟨a1, a2⟩ := writeObj_frame hw1
    obtain ⟨b1, b2⟩ := ih _ _ _ hw2
    refine ⟨b1.trans a1, fun r hr => ?_⟩
    simp only [List.map_cons, List.mem_cons, not_or] at hr
    rw [b2 r hr.2, a2 r hr.1]

theorem heapWrite2_frame (all : List (Fin C → K)) : ∀ (os : List (TreeObj K C)) (s : ℕ) (h h' : VHeap K C),
    heapWrite2 all s os h = .ok h' →
    h'.length = h.length ∧ ∀ r, r ∉ os.map TreeObj.ref → h'.arr r = h.arr r := by
  intro os
  induction os with
  | nil => intro s h h' hw; cases hw; exact ⟨rfl, fun _ _ => rfl⟩
  | cons o os ih =>
    intro s h h' hw
    rw [heapWrite2] at hw
    obtain ⟨h1, hw1, hw2⟩ := bind_ok hw
    obtain ⟨a1, a2⟩ := writeObj_frame hw1
    obtain ⟨b1, b2⟩ := ih _ _ _ hw2
    refine ⟨b1.trans a1, fun r hr => ?_⟩
    simp only [List.map_cons, List.mem_cons, not_or] at hr
    rw [b2 r hr.2, a2 r hr.1]

/-- C142 (`smooth`): for a forest of distinct tree objects the in-place program raises what the pure model
raises; otherwise the two returned forests read as the pure ones, weights and costs agree, every array that
existed before the call is unchanged, and the returned trees have new arrays, no two shared. -/
theorem C142_smooth (sqrt : K → K)
    (ce : (n : ℕ) → SgdOpts K → K → List (Row K n) → List K → List ℕ →
      Except PyErr ((Fin n → K) × (Fin n → K) × List K))
    (rf : Option Kind) (h : VHeap K C) (objs : List (TreeObj K C)) (cfg : SmoothCfg K)
    (sources : TuneSrc → ℕ → List (TuneRow K C))
    (hin : ∀ o ∈ objs, o.ref < h.length) (hn : (objs.map TreeObj.ref).Nodup) :
    match heapSmooth sqrt ce rf h objs cfg sources,
      smooth sqrt ce rf (objs.map (TreeObj.read h)) cfg sources with
    | .ok o, .ok out =>
        o.rf1.map (TreeObj.read o.heap) = out.rf1 ∧ o.lamb1 = List.ofFn out.lamb1 ∧
        o.rf2.map (TreeObj.read o.heap) = out.rf2 ∧ o.lamb2 = List.ofFn out.lamb2 ∧ o.costs = out.costs ∧
        (∀ r < h.length, o.heap.arr r = h.arr r) ∧ (∀ x ∈ o.rf1 ++ o.rf2, h.length ≤ x.ref) ∧
        ((o.rf1 ++ o.rf2).map TreeObj.ref).Nodup
    | .error e, .error e' => e = e'
    | _, _ => False := by
  obtain ⟨⟨x1, a1⟩, a2, a3⟩ := copyForest_spec h.length objs h [] le_rfl hin (by simp)
  have a4 := copyForest_nodup objs h [] hn (by simp)
  have hin1 : ∀ o ∈ objs, o.ref < (copyForest h [] objs).1.length := fun o ho => by
    rw [a1, List.length_append]; exact lt_of_lt_of_le (hin o ho) (Nat.le_add_right _ _)
  obtain ⟨⟨x2, b1⟩, b2, b3⟩ := copyForest_spec (copyForest h [] objs).1.length objs
    (copyForest h [] objs).1 [] le_rfl hin1 (by simp)
  have b4 := copyForest_nodup objs (copyForest h [] objs).1 [] hn (by simp)
  have r0 : objs.map (TreeObj.read (copyForest h [] objs).1) = objs.map (TreeObj.read h) :=
    reads_congr fun o ho => by rw [a1, arr_append (hin o ho)]
  have r1 : objs.map (TreeObj.read (copyForest (copyForest h [] objs).1 [] objs).1) =
      objs.map (TreeObj.read h) := by
    rw [← r0]; exact reads_congr fun o ho => by rw [b1, arr_append (hin1 o ho)]
  have r2 : (copyForest h [] objs).2.map (TreeObj.read (copyForest (copyForest h [] objs).1 [] objs).1) =
      objs.map (TreeObj.read h) := by
    rw [← a2]; exact reads_congr fun o ho => by rw [b1, arr_append (a3 o ho).2]
  rw [r0] at b2
  have hlen1 : h.length ≤ (copyForest h [] objs).1.length := by rw [a1]; simp
  have hlen2 : (copyForest h [] objs).1.length ≤ (copyForest (copyForest h [] objs).1 [] objs).1.length := by
    rw [b1]; simp
  have old : ∀ r < h.length, VHeap.arr (copyForest (copyForest h [] objs).1 [] objs).1 r = h.arr r :=
    fun r hr => by rw [b1, arr_append (lt_of_lt_of_le hr hlen1), a1, arr_append hr]
  suffices H : Alike (fun (o : HeapOut K C) (out : SmoothOut K C (forestDepth (objs.map (TreeObj.read h)) + 1)) =>
        o.rf1.map (TreeObj.read o.heap) = out.rf1 ∧ o.lamb1 = List.ofFn out.lamb1 ∧
        o.rf2.map (TreeObj.read o.heap) = out.rf2 ∧ o.lamb2 = List.ofFn out.lamb2 ∧ o.costs = out.costs ∧
        (∀ r < h.length, o.heap.arr r = h.arr r) ∧ (∀ x ∈ o.rf1 ++ o.rf2, h.length ≤ x.ref) ∧
        ((o.rf1 ++ o.rf2).map TreeObj.ref).Nodup) (heapSmooth sqrt ce rf h objs cfg sources)
      (smooth sqrt ce rf (objs.map (TreeObj.read h)) cfg sources) by
    revert H
    generalize heapSmooth sqrt ce rf h objs cfg sources = a
    generalize smooth sqrt ce rf (objs.map (TreeObj.read h)) cfg sources = b
    cases a <;> cases b <;> exact fun H => H
  generalize hf : objs.map (TreeObj.read h) = forest at *
  generalize hc1 : copyForest h [] objs = c1 at *
  generalize hc2 : copyForest c1.1 [] objs = c2 at *
  unfold heapSmooth smooth
  simp only [hc1, hc2, r1, r2]
  refine Alike.bind (P := fun a b => a = b) (Alike.rfl' fun _ _ => rfl) ?_
  rintro ⟨kind, src⟩ _ rfl
  unfold smoothCompute
  simp only [bind_assoc, pure_bind]
  refine Alike.bind (P := fun a b => a = b) (Alike.rfl' fun _ _ => rfl) ?_
  rintro yw _ rfl
  refine Alike.bind (P := fun a b => a = b) (Alike.rfl' fun _ _ => rfl) ?_
  rintro lamb _ rfl
  refine Alike.bind (P := fun a b => a = b) (Alike.rfl' fun _ _ => rfl) ?_
  rintro ⟨l1, l2, costs⟩ _ rfl
  simp only [pure_bind]
  have n1 : (c1.2.map TreeObj.ref).Nodup := by rw [a4]; exact List.nodup_range'
  have n2 : (c2.2.map TreeObj.ref).Nodup := by rw [b4]; exact List.nodup_range'
  have w1 := heapWrite1_spec (reshapeF C ((flatRows (forestDepth forest + 1) cfg.allTrees
    (gammaEtaForest kind forest cfg.style cfg.parentsAll) yw).map fun r => smoothValue r l1)) c1.2 0 c2.1 n1
    (fun o ho => lt_of_lt_of_le (a3 o ho).2 hlen2)
  rw [r2] at w1
  refine w1.bind ?_
  rintro h3 t1 ⟨e1, e2, e3⟩
  have hk : c2.2.map (TreeObj.read h3) = forest := by
    rw [← b2]
    refine reads_congr fun x hx => e3 _ fun hm => ?_
    obtain ⟨y, hy, e⟩ := List.mem_map.1 hm
    have := (a3 y hy).2
    have := (b3 x hx).1
    omega
  have w2 := heapWrite2_spec (reshapeF C ((flatRows (forestDepth forest + 1) cfg.allTrees
    (gammaEtaForest kind forest cfg.style cfg.parentsAll) yw).map fun r => smoothValue r l2)) c2.2 0 h3 n2
    (fun o ho => by rw [e2]; exact (b3 o ho).2)
  rw [hk] at w2
  refine w2.bind ?_
  rintro h4 t2 ⟨f1, f2, f3⟩
  refine ⟨?_, rfl, f1, rfl, rfl, ?_, ?_, ?_⟩
  · rw [← e1]
    refine reads_congr fun x hx => f3 _ fun hm => ?_
    obtain ⟨y, hy, e⟩ := List.mem_map.1 hm
    have := (a3 x hx).2
    have := (b3 y hy).1
    omega
  · intro r hr
    show h4.arr r = _
    rw [f3 r, e3 r, old r hr]
    · intro hm
      obtain ⟨y, hy, e⟩ := List.mem_map.1 hm
      have := (a3 y hy).1
      omega
    · intro hm
      obtain ⟨y, hy, e⟩ := List.mem_map.1 hm
      have := (b3 y hy).1
      omega
  · intro x hx
    rcases List.mem_append.1 hx with hx | hx
    · exact (a3 x hx).1
    · exact hlen1.trans (b3 x hx).1
  · rw [List.map_append, List.nodup_append]
    refine ⟨n1, n2, ?_⟩
    intro a ha b hb
    obtain ⟨y, hy, rfl⟩ := List.mem_map.1 ha
    obtain ⟨z, hz, rfl⟩ := List.mem_map.1 hb
    have := (a3 y hy).2
    have := (b3 z hz).1
    omega

/-- The facts about one deep copy used below. -/
theorem copyForest_facts (h : VHeap K C) (objs : List (TreeObj K C)) (hin : ∀ o ∈ objs, o.ref < h.length) :
    objs.map (TreeObj.read (copyForest h [] objs).1) = objs.map (TreeObj.read h) ∧
    (copyForest h [] objs).2.map (TreeObj.read (copyForest h [] objs).1) = objs.map (TreeObj.read h) ∧
    (∀ o ∈ (copyForest h [] objs).2, h.length ≤ o.ref ∧ o.ref < (copyForest h [] objs).1.length) ∧
    (∀ r < h.length, (copyForest h [] objs).1.arr r = h.arr r) ∧
    h.length ≤ (copyForest h [] objs).1.length ∧
    ((objs.map TreeObj.ref).Nodup → ((copyForest h [] objs).2.map TreeObj.ref).Nodup) := by
  obtain ⟨⟨x1, a1⟩, a2, a3⟩ := copyForest_spec h.length objs h [] le_rfl hin (by simp)
  refine ⟨reads_congr fun o ho => by rw [a1, arr_append (hin o ho)], a2, a3,
    fun r hr => by rw [a1, arr_append hr], by rw [a1]; simp, fun hn => ?_⟩
  rw [copyForest_nodup objs h [] hn (by simp)]
  exact List.nodup_range'

/-- C142 (`smooth_clean`). -/
theorem C142_clean (sqrt : K → K) (approxOne : K → Bool) (rf : Option Kind) (h : VHeap K 1)
    (objs : List (TreeObj K 1)) (y : List K) (leafOf : ℕ → ℕ → ℕ) (uns : ℕ → List ℕ)
    (cfg : CleanCfg K) (choices : List (List ℕ))
    (hin : ∀ o ∈ objs, o.ref < h.length) (hn : (objs.map TreeObj.ref).Nodup) :
    match heapClean sqrt approxOne rf h objs y leafOf uns cfg choices,
      smoothClean sqrt approxOne rf (objs.map (TreeObj.read h)) y leafOf uns cfg choices with
    | .ok (h', rf1, lamb, costs), .ok out =>
        rf1.map (TreeObj.read h') = out.1 ∧ lamb = List.ofFn out.2.1 ∧ costs = out.2.2 ∧
        (∀ r < h.length, h'.arr r = h.arr r) ∧ (∀ x ∈ rf1, h.length ≤ x.ref) ∧ (rf1.map TreeObj.ref).Nodup
    | .error e, .error e' => e = e'
    | _, _ => False := by
  obtain ⟨a1, a2, a3, a4, a5, a6⟩ := copyForest_facts h objs hin
  have a6 := a6 hn
  suffices H : Alike (fun (o : VHeap K 1 × List (TreeObj K 1) × List K × List K)
      (out : List (SkTree K 1) × (Fin (forestDepth (objs.map (TreeObj.read h)) + 1) → K) × List K) =>
        o.2.1.map (TreeObj.read o.1) = out.1 ∧ o.2.2.1 = List.ofFn out.2.1 ∧ o.2.2.2 = out.2.2 ∧
        (∀ r < h.length, o.1.arr r = h.arr r) ∧ (∀ x ∈ o.2.1, h.length ≤ x.ref) ∧
        (o.2.1.map TreeObj.ref).Nodup) (heapClean sqrt approxOne rf h objs y leafOf uns cfg choices)
      (smoothClean sqrt approxOne rf (objs.map (TreeObj.read h)) y leafOf uns cfg choices) by
    revert H
    generalize heapClean sqrt approxOne rf h objs y leafOf uns cfg choices = a
    generalize smoothClean sqrt approxOne rf (objs.map (TreeObj.read h)) y leafOf uns cfg choices = b
    cases a <;> cases b <;> exact fun H => H
  generalize hf : objs.map (TreeObj.read h) = forest at *
  generalize hc1 : copyForest h [] objs = c1 at *
  unfold heapClean smoothClean
  match rf with
  | none => exact rfl
  | some .cls => exact rfl
  | some .reg =>
    simp only [hc1, a1]
    unfold cleanCompute
    simp only [bind_assoc, pure_bind]
    refine Alike.bind (P := fun a b => a = b) (Alike.rfl' fun _ _ => rfl) ?_
    rintro p _ rfl
    have w1 := fun vals => heapWrite1_spec vals c1.2 0 c1.1 a6 (fun o ho => (a3 o ho).2)
    simp only [a2] at w1
    refine (w1 _).bind ?_
    rintro h3 t1 ⟨e1, e2, e3⟩
    refine ⟨e1, rfl, rfl, fun r hr => ?_, fun x hx => (a3 x hx).1, a6⟩
    show h3.arr r = _
    rw [e3 r, a4 r hr]
    intro hm
    obtain ⟨x, hx, e⟩ := List.mem_map.1 hm
    have := (a3 x hx).1
    omega

/-- Agreement of the results of `smooth_all`. -/
def AllSame (h : VHeap K 1) (n : ℕ) : Option (VHeap K 1 × List (TreeObj K 1) × List K) →
    Option (List (SkTree K 1) × (Fin n → K)) → Prop
  | some o, some out =>
    o.2.1.map (TreeObj.read o.1) = out.1 ∧ o.2.2 = List.ofFn out.2 ∧
    (∀ r < h.length, o.1.arr r = h.arr r) ∧ (∀ x ∈ o.2.1, h.length ≤ x.ref) ∧
    (o.2.1.map TreeObj.ref).Nodup
  | none, none => True
  | _, _ => False

/-- C142 (`smooth_all`; `none`: a loop has not stopped within the fuel). -/
theorem C142_all (o : AllOracles K) (fuel : ℕ) (h : VHeap K 1) (objs : List (TreeObj K 1)) (c : AllCfg)
    (sources : TuneSrc → ℕ → List (TuneRow K 1))
    (hin : ∀ o ∈ objs, o.ref < h.length) (hn : (objs.map TreeObj.ref).Nodup) :
    match heapAll o fuel h objs c sources, smoothAll o fuel (objs.map (TreeObj.read h)) c sources with
    | .ok (some (h', rf1, lamb)), .ok (some out) =>
        rf1.map (TreeObj.read h') = out.1 ∧ lamb = List.ofFn out.2 ∧
        (∀ r < h.length, h'.arr r = h.arr r) ∧ (∀ x ∈ rf1, h.length ≤ x.ref) ∧ (rf1.map TreeObj.ref).Nodup
    | .ok none, .ok none => True
    | .error e, .error e' => e = e'
    | _, _ => False := by
  obtain ⟨a1, a2, a3, a4, a5, a6⟩ := copyForest_facts h objs hin
  have a6 := a6 hn
  suffices H : Alike (AllSame h (forestDepth (objs.map (TreeObj.read h)) + 1)) (heapAll o fuel h objs c sources)
      (smoothAll o fuel (objs.map (TreeObj.read h)) c sources) by
    revert H
    generalize heapAll o fuel h objs c sources = a
    generalize smoothAll o fuel (objs.map (TreeObj.read h)) c sources = b
    rcases a with a | a | a <;> rcases b with b | b | b <;> exact fun H => H
  generalize hf : objs.map (TreeObj.read h) = forest at *
  generalize hc1 : copyForest h [] objs = c1 at *
  unfold heapAll smoothAll
  simp only [hc1, a2]
  unfold allCompute
  simp only [bind_assoc]
  refine Alike.bind (P := fun a b => a = b) (Alike.rfl' fun _ _ => rfl) ?_
  rintro p _ rfl
  refine Alike.bind (P := fun a b => a = b) (Alike.rfl' fun _ _ => rfl) ?_
  rintro r _ rfl
  match r with
  | none => exact trivial
  | some (g, l) =>
    simp only [bind_assoc, pure_bind]
    refine Alike.bind (P := fun a b => a = b) (Alike.rfl' fun _ _ => rfl) ?_
    rintro _ _ -
    have w1 := fun vals => heapWrite1_spec vals c1.2 0 c1.1 a6 (fun o ho => (a3 o ho).2)
    simp only [a2] at w1
    refine (w1 _).bind ?_
    rintro h3 t1 ⟨e1, e2, e3⟩
    refine ⟨e1, rfl, fun r hr => ?_, fun x hx => (a3 x hx).1, a6⟩
    show h3.arr r = _
    rw [e3 r, a4 r hr]
    intro hm
    obtain ⟨x, hx, e⟩ := List.mem_map.1 hm
    have := (a3 x hx).1
    omega

theorem mapM_collected {α β : Type} {f : α → Except PyErr β} : ∀ {l : List α} {ys : List β},
    l.mapM f = .ok ys → ys.length = l.length ∧ ∀ y ∈ ys, ∃ x ∈ l, f x = .ok y := by
  intro l
  induction l with
  | nil =>
    intro ys h
    cases h
    simp
  | cons a l ih =>
    intro ys h
    rw [List.mapM_cons] at h
    obtain ⟨b, h1, h⟩ := bind_ok h
    obtain ⟨bs, h2, h⟩ := bind_ok h
    cases h
    obtain ⟨e1, e2⟩ := ih h2
    refine ⟨by simp [e1], fun y hy => ?_⟩
    rcases List.mem_cons.1 hy with rfl | hy
    · exact ⟨a, by simp, h1⟩
    · obtain ⟨x, hx, e⟩ := e2 y hy
      exact ⟨x, by simp [hx], e⟩

/-- Every candidate prediction has one entry per leaf. -/
theorem leafPredicted_length {t : SkTree K C} {L : List (List (Fin C → K))}
    (hL : leafPredictedValues t = .ok L) : ∀ row ∈ L, row.length = t.nLeaves := by
  intro row hrow
  obtain ⟨d, -, hd⟩ := (mapM_collected hL).2 row hrow
  simpa using (mapM_collected hd).1

/-- After a full-length write the leaves hold what was written. -/
theorem writeObj_leaves {h h' : VHeap K C} {o : TreeObj K C} (hr : o.ref < h.length)
    {vals : List (Fin C → K)} (hl : vals.length = o.shape.nLeaves) (hw : writeObj h o vals = .ok h') :
    ((List.finRange o.shape.nLeaves).map fun r => (o.read h').value (o.shape.leafNode r)) = vals := by
  have w := writeObj_spec hr vals
  rw [hw, writeLeaves, if_pos (Or.inl (show vals.length = (o.read h).nLeaves from hl))] at w
  obtain ⟨e, -, -⟩ := w
  have ev : (o.read h').value = newValue (o.read h) vals := by
    unfold TreeObj.read at e ⊢
    injection e
  have key : ∀ r : Fin o.shape.nLeaves, (o.read h').value (o.shape.leafNode r) = vals[r.1]'(by omega) := by
    intro r
    refine (congrFun ev (o.shape.leafNode r)).trans ?_
    have e1 : (o.read h).right (o.shape.leafNode r) = none := o.shape.leafNode_right r
    have e2 : (o.read h).leafIdx (o.shape.leafNode r) = (r.1 : ℤ) := o.shape.leafIdx_leafNode r
    have e3 : (if vals.length = 1 then 0 else ((o.read h).leafIdx (o.shape.leafNode r)).toNat) = r.1 := by
      rw [e2]
      split_ifs with h3
      · omega
      · simp
    unfold newValue
    funext c
    rw [if_pos e1, e3, List.getElem?_eq_getElem (by omega)]
    rfl
  apply List.ext_getElem
  · simp [hl]
  · intro i h1 h2
    rw [List.getElem_map, key]
    simp

theorem heapLosses_spec (kind : Kind) (rows : List (LossRow K)) (o : TreeObj K C) :
    ∀ (preds : List (List (Fin C → K))) (h : VHeap K C), o.ref < h.length →
      (∀ p ∈ preds, p.length = o.shape.nLeaves) →
      Alike (fun p ls => p.1 = ls ∧ p.2.length = h.length ∧ ∀ r, r ≠ o.ref → p.2.arr r = h.arr r)
        (heapLosses kind rows o preds h) (preds.mapM (treeLoss kind rows)) := by
  intro preds
  induction preds with
  | nil => intro h _ _; exact ⟨rfl, rfl, fun _ _ => rfl⟩
  | cons p ps ih =>
    intro h hr hl
    rw [heapLosses, List.mapM_cons]
    cases hw : writeObj h o p with
    | error e =>
      unfold writeObj at hw
      rw [if_pos (Or.inl (hl p (by simp)))] at hw
      cases hw
    | ok h1 =>
      obtain ⟨w1, w2⟩ := writeObj_frame hw
      have hv := writeObj_leaves hr (hl p (by simp)) hw
      show Alike _ (treeLoss kind rows _ >>= _) _
      rw [hv]
      refine Alike.bind (P := fun a b => a = b) (Alike.rfl' fun _ _ => rfl) ?_
      rintro l _ rfl
      refine (ih h1 (by rw [w1]; exact hr) (fun q hq => hl q (by simp [hq]))).bind ?_
      rintro ⟨ls, h2⟩ _ ⟨rfl, f2, f3⟩
      exact ⟨rfl, f2.trans w1, fun r hr' => (f3 r hr').trans (w2 r hr')⟩

theorem heapTune_spec (kind : Kind) (D : ℕ) (tune : ℕ → List (LossRow K)) :
    ∀ (os : List (TreeObj K C)) (n : ℕ) (h : VHeap K C) (s : List K × Option ℕ),
      (os.map TreeObj.ref).Nodup → (∀ o ∈ os, o.ref < h.length) →
      Alike (fun a b => a.1 = b ∧ a.2.length = h.length ∧ ∀ r, r ∉ os.map TreeObj.ref → a.2.arr r = h.arr r)
        ((os.zipIdx n).foldlM (heapTuneStep kind D tune) (s, h))
        (((os.map (TreeObj.read h)).zipIdx n).foldlM (depthTuneStep kind D tune) s) := by
  intro os
  induction os with
  | nil => intro n h s _ _; exact ⟨rfl, rfl, fun _ _ => rfl⟩
  | cons o os ih =>
    intro n h s hn hr
    simp only [List.map_cons, List.nodup_cons] at hn
    rw [List.zipIdx_cons, List.foldlM_cons]
    show Alike _ _ (((o.read h :: os.map (TreeObj.read h)).zipIdx n).foldlM (depthTuneStep kind D tune) s)
    rw [List.zipIdx_cons, List.foldlM_cons]
    have hstep : Alike (fun a b => a.1 = b ∧ a.2.length = h.length ∧ ∀ r, r ≠ o.ref → a.2.arr r = h.arr r)
        (heapTuneStep kind D tune (s, h) (o, n)) (depthTuneStep kind D tune s (o.read h, n)) := by
      unfold heapTuneStep depthTuneStep
      refine Alike.bind (P := fun a b => a = b ∧ leafPredictedValues (o.read h) = .ok a)
        (Alike.rfl' fun _ h => ⟨rfl, h⟩) ?_
      rintro pred _ ⟨rfl, hp⟩
      refine (heapLosses_spec kind (tune n) o pred h (hr o (by simp)) (leafPredicted_length (t := o.read h) hp)).bind ?_
      rintro ⟨ls, h2⟩ _ ⟨rfl, f2, f3⟩
      refine Alike.bind (P := fun a b => a = b) (Alike.rfl' fun _ _ => rfl) ?_
      rintro ⟨v, i⟩ _ rfl
      exact ⟨rfl, f2, f3⟩
    refine hstep.bind ?_
    rintro ⟨s1, h1⟩ _ ⟨rfl, e2, e3⟩
    have hk : os.map (TreeObj.read h1) = os.map (TreeObj.read h) := by
      refine reads_congr fun x hx => e3 _ fun e => hn.1 ?_
      rw [← e]; exact List.mem_map_of_mem hx
    have := ih (n + 1) h1 s1 hn.2 (fun x hx => by
      have := hr x (by simp [hx])
      simp only at e2; omega)
    rw [hk] at this
    rw [← bind_pure (List.foldlM _ _ _), ← bind_pure (List.foldlM (depthTuneStep kind D tune) _ _)]
    refine this.bind ?_
    rintro ⟨a, h2⟩ b ⟨f1, f2, f3⟩
    refine ⟨f1, f2.trans e2, fun r hr' => ?_⟩
    simp only [List.map_cons, List.mem_cons, not_or] at hr'
    exact (f3 r hr'.2).trans (e3 r hr'.1)

theorem heapTruncate_spec (best : ℕ) : ∀ (os : List (TreeObj K C)) (h : VHeap K C),
    (os.map TreeObj.ref).Nodup → (∀ o ∈ os, o.ref < h.length) →
    Alike (fun h' ts => os.map (TreeObj.read h') = ts ∧ h'.length = h.length ∧
        ∀ r, r ∉ os.map TreeObj.ref → h'.arr r = h.arr r)
      (heapTruncate best os h) ((os.map (TreeObj.read h)).mapM (truncateTree best)) := by
  intro os
  induction os with
  | nil => intro h _ _; exact ⟨rfl, rfl, fun _ _ => rfl⟩
  | cons o os ih =>
    intro h hn hr
    simp only [List.map_cons, List.nodup_cons] at hn
    rw [heapTruncate]
    show Alike _ _ ((o.read h :: os.map (TreeObj.read h)).mapM (truncateTree best))
    rw [List.mapM_cons, truncateTree, bind_assoc]
    refine Alike.bind (P := fun a b => a = b) (Alike.rfl' fun _ _ => rfl) ?_
    rintro pred _ rfl
    split_ifs with h0
    · exact rfl
    rw [bind_assoc]
    refine Alike.bind (P := fun a b => a = b) (Alike.rfl' fun _ _ => rfl) ?_
    rintro v _ rfl
    refine (writeObj_spec (hr o (by simp)) _).bind ?_
    rintro h1 t1 ⟨e1, e2, e3⟩
    have hk : os.map (TreeObj.read h1) = os.map (TreeObj.read h) := by
      refine reads_congr fun x hx => e3 _ fun e => hn.1 ?_
      rw [← e]; exact List.mem_map_of_mem hx
    have := ih h1 hn.2 (fun x hx => by rw [e2]; exact hr x (by simp [hx]))
    rw [hk] at this
    rw [← bind_pure (heapTruncate _ _ _)]
    refine this.bind ?_
    rintro h2 ts ⟨f1, f2, f3⟩
    refine ⟨?_, by rw [f2, e2], fun r hr' => ?_⟩
    · rw [List.map_cons, f1, ← e1]
      congr 1
      exact read_congr (f3 _ hn.1)
    · simp only [List.map_cons, List.mem_cons, not_or] at hr'
      rw [f3 r hr'.2, e3 r hr'.1]

/-- C142 (`depth_tune`): the copy on which the losses are computed is overwritten, but the result is built
from a new copy of the caller's forest. -/
theorem C142_depth_tune (rf : Option Kind) (h : VHeap K C) (objs : List (TreeObj K C)) (data : DataArgs)
    (sources : TuneSrc → ℕ → List (LossRow K))
    (hin : ∀ o ∈ objs, o.ref < h.length) (hn : (objs.map TreeObj.ref).Nodup) :
    match heapDepthTune rf h objs data sources, depthTune rf (objs.map (TreeObj.read h)) data sources with
    | .ok (h', out, loss), .ok (out', loss') =>
        out.map (TreeObj.read h') = out' ∧ loss = loss' ∧
        (∀ r < h.length, h'.arr r = h.arr r) ∧ (∀ x ∈ out, h.length ≤ x.ref) ∧ (out.map TreeObj.ref).Nodup
    | .error e, .error e' => e = e'
    | _, _ => False := by
  suffices H : Alike (fun o out => o.2.1.map (TreeObj.read o.1) = out.1 ∧ o.2.2 = out.2 ∧
        (∀ r < h.length, o.1.arr r = h.arr r) ∧ (∀ x ∈ o.2.1, h.length ≤ x.ref) ∧
        (o.2.1.map TreeObj.ref).Nodup) (heapDepthTune rf h objs data sources)
      (depthTune rf (objs.map (TreeObj.read h)) data sources) by
    revert H
    generalize heapDepthTune rf h objs data sources = a
    generalize depthTune rf (objs.map (TreeObj.read h)) data sources = b
    cases a <;> cases b <;> exact fun H => H
  match rf with
  | none => exact rfl
  | some kind =>
    obtain ⟨a1, a2, a3, a4, a5, a6⟩ := copyForest_facts h objs hin
    have a6 := a6 hn
    unfold heapDepthTune depthTune
    simp only [a1]
    refine Alike.bind (P := fun a b => a = b) (Alike.rfl' fun _ _ => rfl) ?_
    rintro src _ rfl
    have w := heapTune_spec kind (forestDepth (objs.map (TreeObj.read h))) (sources src)
      (copyForest h [] objs).2 0 (copyForest h [] objs).1
      (List.replicate (forestDepth (objs.map (TreeObj.read h))) 0, none) a6 (fun o ho => (a3 o ho).2)
    rw [a2] at w
    refine w.bind ?_
    rintro ⟨s, h1⟩ _ ⟨rfl, e2, e3⟩
    have e3' : ∀ r < h.length, h1.arr r = h.arr r := fun r hr => by
      refine (e3 r fun hm => ?_).trans (a4 r hr)
      obtain ⟨x, hx, e⟩ := List.mem_map.1 hm
      have := (a3 x hx).1
      omega
    simp only at e2
    have hin1 : ∀ o ∈ objs, o.ref < h1.length := fun o ho => by
      have := hin o ho; omega
    obtain ⟨b1, b2, b3, b4, b5, b6⟩ := copyForest_facts h1 objs hin1
    have b6 := b6 hn
    refine Alike.bind (P := fun a b => a = b) (Alike.rfl' fun _ _ => rfl) ?_
    rintro best _ rfl
    have w2 := heapTruncate_spec best (copyForest h1 [] objs).2 (copyForest h1 [] objs).1 b6
      (fun o ho => (b3 o ho).2)
    rw [b2, reads_congr (h := h) (fun o ho => e3' _ (hin o ho))] at w2
    refine w2.bind ?_
    rintro h3 t1 ⟨f1, f2, f3⟩
    refine ⟨f1, rfl, fun r hr => ?_, fun x hx => ?_, b6⟩
    · show h3.arr r = _
      rw [f3 r, b4 r (by omega), e3' r hr]
      intro hm
      obtain ⟨x, hx, e⟩ := List.mem_map.1 hm
      have := (b3 x hx).1
      omega
    · have := (b3 x hx).1
      omega

/-! ### Forests in which a tree object occurs more than once -/

theorem heapLosses_frame (kind : Kind) (rows : List (LossRow K)) (o : TreeObj K C) :
    ∀ (preds : List (List (Fin C → K))) (h : VHeap K C) (p : List K × VHeap K C),
      heapLosses kind rows o preds h = .ok p → p.2.length = h.length ∧ ∀ r, r ≠ o.ref → p.2.arr r = h.arr r := by
  intro preds
  induction preds with
  | nil => intro h p hp; cases hp; exact ⟨rfl, fun _ _ => rfl⟩
  | cons q qs ih =>
    intro h p hp
    rw [heapLosses] at hp
    obtain ⟨h1, hw, hp⟩ := bind_ok hp
    obtain ⟨l, -, hp⟩ := bind_ok hp
    obtain ⟨⟨ls, h2⟩, hr, hp⟩ := bind_ok hp
    cases hp
    obtain ⟨a1, a2⟩ := writeObj_frame hw
    obtain ⟨b1, b2⟩ := ih _ _ hr
    exact ⟨b1.trans a1, fun r hr' => (b2 r hr').trans (a2 r hr')⟩

theorem heapTune_frame (kind : Kind) (D : ℕ) (tune : ℕ → List (LossRow K)) :
    ∀ (os : List (TreeObj K C × ℕ)) (s p : (List K × Option ℕ) × VHeap K C),
      os.foldlM (heapTuneStep kind D tune) s = .ok p →
      p.2.length = s.2.length ∧ ∀ r, r ∉ os.map (fun x => x.1.ref) → p.2.arr r = s.2.arr r := by
  intro os
  induction os with
  | nil => intro s p hp; cases hp; exact ⟨rfl, fun _ _ => rfl⟩
  | cons o os ih =>
    intro s p hp
    rw [List.foldlM_cons] at hp
    obtain ⟨s1, hs, hp⟩ := bind_ok hp
    unfold heapTuneStep at hs
    obtain ⟨pred, -, hs⟩ := bind_ok hs
    obtain ⟨⟨ls, h1⟩, hl, hs⟩ := bind_ok hs
    obtain ⟨⟨v, i⟩, -, hs⟩ := bind_ok hs
    cases hs
    obtain ⟨a1, a2⟩ := heapLosses_frame _ _ _ _ _ _ hl
    obtain ⟨b1, b2⟩ := ih _ _ hp
    refine ⟨b1.trans a1, fun r hr => ?_⟩
    simp only [List.map_cons, List.mem_cons, not_or] at hr
    exact (b2 r hr.2).trans (a2 r hr.1)

theorem heapTruncate_frame (best : ℕ) : ∀ (os : List (TreeObj K C)) (h h' : VHeap K C),
    heapTruncate best os h = .ok h' →
    h'.length = h.length ∧ ∀ r, r ∉ os.map TreeObj.ref → h'.arr r = h.arr r := by
  intro os
  induction os with
  | nil => intro h h' hp; cases hp; exact ⟨rfl, fun _ _ => rfl⟩
  | cons o os ih =>
    intro h h' hp
    rw [heapTruncate] at hp
    obtain ⟨pred, -, hp⟩ := bind_ok hp
    split_ifs at hp
    obtain ⟨v, -, hp⟩ := bind_ok hp
    obtain ⟨h1, hw, hp⟩ := bind_ok hp
    obtain ⟨a1, a2⟩ := writeObj_frame hw
    obtain ⟨b1, b2⟩ := ih _ _ hp
    refine ⟨b1.trans a1, fun r hr => ?_⟩
    simp only [List.map_cons, List.mem_cons, not_or] at hr
    exact (b2 r hr.2).trans (a2 r hr.1)

theorem old_not_new {n : ℕ} {os : List (TreeObj K C)} {P : TreeObj K C → Prop}
    (h : ∀ o ∈ os, n ≤ o.ref ∧ P o) {r : ℕ} (hr : r < n) : r ∉ os.map TreeObj.ref := by
  intro hm
  obtain ⟨x, hx, e⟩ := List.mem_map.1 hm
  have := (h x hx).1
  omega

/-- C142 (any forest, also with one tree object at several places): whenever one of the four functions
returns, every value array that existed before the call is unchanged and no returned tree uses one. -/
theorem C142_input (h : VHeap K C) (objs : List (TreeObj K C)) (hin : ∀ o ∈ objs, o.ref < h.length) :
    (∀ sqrt ce rf cfg sources o, heapSmooth sqrt ce rf h objs cfg sources = .ok o →
      (∀ r < h.length, o.heap.arr r = h.arr r) ∧ ∀ x ∈ o.rf1 ++ o.rf2, h.length ≤ x.ref) ∧
    (∀ rf data sources o, heapDepthTune rf h objs data sources = .ok o →
      (∀ r < h.length, o.1.arr r = h.arr r) ∧ ∀ x ∈ o.2.1, h.length ≤ x.ref) := by
  obtain ⟨a1, a2, a3, a4, a5, -⟩ := copyForest_facts h objs hin
  constructor
  · intro sqrt ce rf cfg sources o ho
    unfold heapSmooth at ho
    obtain ⟨⟨kind, src⟩, -, ho⟩ := bind_ok ho
    obtain ⟨b1, b2, b3, b4, b5, -⟩ := copyForest_facts (copyForest h [] objs).1 objs
      (fun o ho => lt_of_lt_of_le (hin o ho) a5)
    obtain ⟨rr, -, ho⟩ := bind_ok ho
    obtain ⟨h3, hw1, ho⟩ := bind_ok ho
    obtain ⟨h4, hw2, ho⟩ := bind_ok ho
    cases ho
    obtain ⟨-, c2⟩ := heapWrite1_frame _ _ _ _ _ hw1
    obtain ⟨-, d2⟩ := heapWrite2_frame _ _ _ _ _ hw2
    refine ⟨fun r hr => ?_, fun x hx => ?_⟩
    · show h4.arr r = _
      rw [d2 r (old_not_new b3 (by omega)), c2 r (old_not_new a3 hr), b4 r (by omega), a4 r hr]
    · rcases List.mem_append.1 hx with hx | hx
      · exact (a3 x hx).1
      · exact le_trans a5 (b3 x hx).1
  · intro rf data sources o ho
    match rf with
    | none => cases ho
    | some kind =>
      unfold heapDepthTune at ho
      obtain ⟨src, -, ho⟩ := bind_ok ho
      obtain ⟨⟨s, h1⟩, hs, ho⟩ := bind_ok ho
      obtain ⟨best, -, ho⟩ := bind_ok ho
      obtain ⟨h', ht, ho⟩ := bind_ok ho
      cases ho
      obtain ⟨c1, c2⟩ := heapTune_frame _ _ _ _ _ _ hs
      obtain ⟨d1, d2⟩ := heapTruncate_frame _ _ _ _ ht
      simp only at c1
      obtain ⟨b1, b2, b3, b4, b5, -⟩ := copyForest_facts h1 objs (fun o ho => by have := hin o ho; omega)
      refine ⟨fun r hr => ?_, fun x hx => ?_⟩
      · show h'.arr r = _
        rw [d2 r (old_not_new b3 (by omega)), b4 r (by omega), c2 r, a4 r hr]
        have e : (copyForest h [] objs).2.zipIdx.map (fun x => x.1.ref) =
            (copyForest h [] objs).2.map TreeObj.ref := by
          have := congrArg (List.map TreeObj.ref) (List.zipIdx_map_fst 0 (copyForest h [] objs).2)
          rwa [List.map_map] at this
        rw [e]
        exact old_not_new a3 hr
      · have := (b3 x hx).1
        omega

/-- C142 (any forest) for `smooth_clean` and `smooth_all`. -/
theorem C142_input_reg (h : VHeap K 1) (objs : List (TreeObj K 1)) (hin : ∀ o ∈ objs, o.ref < h.length) :
    (∀ sqrt approxOne rf y leafOf uns cfg choices o,
      heapClean sqrt approxOne rf h objs y leafOf uns cfg choices = .ok o →
      (∀ r < h.length, o.1.arr r = h.arr r) ∧ ∀ x ∈ o.2.1, h.length ≤ x.ref) ∧
    (∀ orc fuel c sources o, heapAll orc fuel h objs c sources = .ok (some o) →
      (∀ r < h.length, o.1.arr r = h.arr r) ∧ ∀ x ∈ o.2.1, h.length ≤ x.ref) := by
  obtain ⟨a1, a2, a3, a4, a5, -⟩ := copyForest_facts h objs hin
  constructor
  · intro sqrt approxOne rf y leafOf uns cfg choices o ho
    match rf with
    | none => cases ho
    | some .cls => cases ho
    | some .reg =>
      unfold heapClean at ho
      obtain ⟨rr, -, ho⟩ := bind_ok ho
      obtain ⟨h3, hw1, ho⟩ := bind_ok ho
      cases ho
      obtain ⟨-, c2⟩ := heapWrite1_frame _ _ _ _ _ hw1
      exact ⟨fun r hr => (c2 r (old_not_new a3 hr)).trans (a4 r hr), fun x hx => (a3 x hx).1⟩
  · intro orc fuel c sources o ho
    unfold heapAll at ho
    obtain ⟨rr, -, ho⟩ := bind_ok ho
    match rr with
    | none => cases ho
    | some (vals, lamb) =>
      obtain ⟨h3, hw1, ho⟩ := bind_ok ho
      cases ho
      obtain ⟨-, c2⟩ := heapWrite1_frame _ _ _ _ _ hw1
      exact ⟨fun r hr => (c2 r (old_not_new a3 hr)).trans (a4 r hr), fun x hx => (a3 x hx).1⟩

/-! ### Concrete forests -/

/-- Row `i` of a value array given as a list. -/
abbrev exArr (v : List ℚ) : ℕ → Fin 1 → ℚ := fun i _ => v.getD i 0

/-- An unrelated array, then those of a stump and of a tree with three leaves. -/
abbrev exHeap : VHeap ℚ 1 := [exArr [100], exArr [5 / 2, 1, 4], exArr [13 / 2, 3, 1, 4, 10]]

/-- A forest in that memory. -/
abbrev exObjs : List (TreeObj ℚ 1) := [⟨exStump, 1⟩, ⟨exTree, 2⟩]

/-- The rows of the first few arrays. -/
abbrev exDump (h : VHeap ℚ 1) : List (List ℚ) := h.map fun a => (List.range 5).map fun i => a i 0

example : (∀ o ∈ exObjs, o.ref < exHeap.length) ∧ (exObjs.map TreeObj.ref).Nodup ∧
    exObjs.map (fun o => (o.read exHeap).nLeaves) = [2, 3] := by decide +kernel

/-- C142 on that forest, `depth_tune`: arrays 3 and 4 are the copy on which losses were computed, 5 and 6
the result, 0 to 2 are as before. -/
example : (match heapDepthTune (some .reg) exHeap exObjs exData exLossRows with
    | .ok (h, out, loss) => some (exDump h, out.map TreeObj.ref, loss)
    | .error _ => none) =
      some ([[100, 0, 0, 0, 0], [5 / 2, 1, 4, 0, 0], [13 / 2, 3, 1, 4, 10],
        [5 / 2, 5 / 2, 5 / 2, 0, 0], [13 / 2, 3, 3, 3, 10],
        [5 / 2, 5 / 2, 5 / 2, 0, 0], [13 / 2, 3, 3, 3, 10]], [5, 6], [83 / 2, 19 / 4]) := by
  decide +kernel

/-- C142 on that forest, `smooth` with one step. -/
example : (match heapSmooth (fun x => x) noCe (some .reg) exHeap exObjs
      { exCfg with
        sanityCheck := false
        steps := [0]
        tFix := 1 / 8 } (fun _ => exTune) with
    | .ok o => some ((exDump o.heap).take 3, o.rf1.map TreeObj.ref, o.rf2.map TreeObj.ref,
        decide ((exDump o.heap).drop 3 = (exDump exHeap).drop 1 ++ (exDump exHeap).drop 1))
    | .error _ => none) =
      some ([[100, 0, 0, 0, 0], [5 / 2, 1, 4, 0, 0], [13 / 2, 3, 1, 4, 10]], [3, 4], [5, 6], false) := by
  decide +kernel

/-- C142, `smooth_clean`: arrays 3 and 4 are the result. -/
example : (match heapClean (fun x => x) (fun x => decide (x = 1)) (some .reg)
      [exArr [100], exArr [4, 2, 6], exArr [5 / 2, 1, 4]] [⟨exStump26, 1⟩, ⟨exStump, 2⟩] [4] exLeafOf exUns
      { exClean with allObs := false } [[0]] with
    | .ok (h, out, _, _) => some ((exDump h).take 3, out.map TreeObj.ref,
        decide ((exDump h).drop 3 = [[4, 2, 6, 0, 0], [5 / 2, 1, 4, 0, 0]]))
    | .error _ => none) =
      some ([[100, 0, 0, 0, 0], [4, 2, 6, 0, 0], [5 / 2, 1, 4, 0, 0]], [3, 4], false) := by
  decide +kernel

/-- C142, `smooth_all`. -/
example : (match heapAll exAllOracles 5 [exArr [100], exArr [5 / 2, 1, 4]] [⟨exStump, 1⟩]
      (exAllCfg false (.bool false)) exAllRows with
    | .ok (some (h, out, _)) => some ((exDump h).take 2, out.map TreeObj.ref,
        decide ((exDump h).drop 2 = [[5 / 2, 1, 4, 0, 0]]))
    | _ => none) = some ([[100, 0, 0, 0, 0], [5 / 2, 1, 4, 0, 0]], [2], false) := by
  decide +kernel

/-- A forest holding one object twice: `deepcopy` keeps it a single object. -/
example : (copyForest exHeap [] [⟨exStump, 1⟩, ⟨exTree, 2⟩, ⟨exStump, 1⟩]).2.map TreeObj.ref = [3, 4, 3] := by
  decide +kernel

end SmoothRF
