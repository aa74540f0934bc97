import Verif.Model.SgdHeap
import Verif.Proofs.Sgd

set_option linter.unusedSectionVars false

namespace SmoothRF

variable {K : Type} [Field K] [LinearOrder K] {k : ℕ}

namespace Heap

theorem read_alloc_old (h : Heap K k) (v : Fin k → K) {r : ℕ} (hr : r < h.length) :
    (h.alloc v).read r = h.read r := by
  unfold alloc read
  simp [List.getD_eq_getElem?_getD, List.getElem?_append_left hr]

theorem read_alloc_new (h : Heap K k) (v : Fin k → K) : (h.alloc v).read h.length = v := by
  unfold alloc read
  simp [List.getD_eq_getElem?_getD]

theorem read_write_ne (h : Heap K k) (v : Fin k → K) {r r' : ℕ} (hr : r' ≠ r) :
    (h.write r v).read r' = h.read r' := by
  unfold write read
  simp [List.getD_eq_getElem?_getD, List.getElem?_set_ne hr.symm]

theorem length_alloc (h : Heap K k) (v : Fin k → K) : (h.alloc v).length = h.length + 1 := by
  simp [alloc]

theorem length_write (h : Heap K k) (r : ℕ) (v : Fin k → K) : (h.write r v).length = h.length := by
  simp [write]

end Heap

/-- forgetting the stored lamb -/
def ivCore (iv : Option (Iv K k)) : Option (ℕ × (Fin k → K) × (Fin k → K)) :=
  iv.map fun i => (i.t, i.m1, i.m2)

/-- forgetting the stored reference -/
def hivCore (iv : Option (HIv K k)) : Option (ℕ × (Fin k → K) × (Fin k → K)) :=
  iv.map fun i => (i.t, i.m1, i.m2)

/-- simulation relation, with the protected initial heap `h0` -/
structure Sim (h0 : Heap K k) (s : SgdState K k) (S : HState K k) : Prop where
  len : h0.length ≤ S.heap.length
  keep : ∀ r < h0.length, S.heap.read r = h0.read r
  lamb : S.heap.read S.lambRef = s.lamb
  lambLt : S.lambRef < S.heap.length
  best : S.heap.read S.bestRef = s.lambBest
  bestLt : S.bestRef < S.heap.length
  iv : hivCore S.iv = ivCore s.iv
  cb : S.costBest = s.costBest
  ca : S.costAll = s.costAll

/-- results agree: both raise the same exception, or both succeed in related states -/
def Rel {α β : Type} (R : α → β → Prop) : Except PyErr α → Except PyErr β → Prop
  | .ok a, .ok b => R a b
  | .error e, .error e' => e = e'
  | _, _ => False

theorem Rel.bind {α β γ δ : Type} {R : α → β → Prop} {Q : γ → δ → Prop} {x : Except PyErr α}
    {y : Except PyErr β} {f : α → Except PyErr γ} {g : β → Except PyErr δ} (h : Rel R x y)
    (hfg : ∀ a b, R a b → Rel Q (f a) (g b)) : Rel Q (x >>= f) (y >>= g) := by
  cases x <;> cases y <;> simp only [Rel] at h
  · subst h; rfl
  · exact hfg _ _ h

theorem Rel.refl {α : Type} (x : Except PyErr α) : Rel (· = ·) x x := by
  cases x <;> simp [Rel]

theorem adamStep_core (sqrt : K → K) (gf : (Fin k → K) → Except PyErr (Fin k → K)) (l : Fin k → K)
    (a : AdamOpts K) (iv : Option (Iv K k)) (hiv : Option (HIv K k)) (lr : ℕ)
    (he : hivCore hiv = ivCore iv) (h : Heap K k) (hl : h.read lr = l) :
    let iv0 := hivInit hiv lr
    adamBody sqrt gf a ⟨iv0.t, h.read iv0.lambRef, iv0.m1, iv0.m2⟩ = adamStep sqrt gf (some l) a iv := by
  cases hiv with
  | none =>
    cases iv with
    | none => simp [adamStep, hivInit, hl]
    | some iv => simp [hivCore, ivCore] at he
  | some hiv =>
    cases iv with
    | none => simp [hivCore, ivCore] at he
    | some iv =>
      simp only [hivCore, ivCore, Option.map_some, Option.some.injEq, Prod.mk.injEq] at he
      obtain ⟨h1, h2, h3⟩ := he
      simp [adamStep, hivInit, hl, h1, h2, h3]

theorem heapPre_sim (sqrt : K → K) (grad : List (Row K k) → (Fin k → K) → Except PyErr (Fin k → K))
    (o : SgdOpts K) (rows : List (Row K k)) (c : ℕ) (h : Heap K k) (lr : ℕ) (hiv : Option (HIv K k))
    (iv : Option (Iv K k)) (he : hivCore hiv = ivCore iv) :
    Rel (fun (x : Heap K k × ℕ × Option (HIv K k)) (y : (Fin k → K) × Option (Iv K k)) =>
        x.1 = h.alloc y.1 ∧ x.2.1 = h.length ∧ hivCore x.2.2 = ivCore y.2)
      (heapPre sqrt grad o rows c h lr hiv) (sgdPre sqrt grad o rows c (h.read lr) iv) := by
  unfold heapPre sgdPre
  cases o.adam with
  | none =>
    refine Rel.bind (Rel.refl _) ?_
    rintro g _ rfl
    exact ⟨rfl, rfl, he⟩
  | some a =>
    simp only
    rw [adamStep_core sqrt _ (h.read lr) a iv hiv lr he h rfl]
    refine Rel.bind (Rel.refl _) ?_
    rintro ⟨l, iv'⟩ _ rfl
    exact ⟨rfl, rfl, rfl⟩

theorem heapStep_sim (sqrt : K → K) (o : SgdOpts K) (rows : List (Row K k)) (h0 : Heap K k) (c : ℕ)
    (s : SgdState K k) (S : HState K k) (hs : Sim h0 s S) :
    Rel (fun S s => Sim h0 s S) (heapStep sqrt o rows S c)
      (sgdStep sqrt takeGradient calcCost proxProject o rows s c) := by
  unfold heapStep sgdStep sgdMove
  rw [bind_assoc]
  have hp := heapPre_sim sqrt takeGradient o rows c S.heap S.lambRef S.iv s.iv hs.iv
  rw [hs.lamb] at hp
  refine Rel.bind hp ?_
  rintro ⟨h1, r1, iv1⟩ ⟨l1, iv1'⟩ ⟨e1, e2, e3⟩
  simp only at e1 e2 e3
  subst e1 e2
  -- the state after the optional projection
  have hq : Rel (fun (x : Heap K k × ℕ) (y : (Fin k → K) × Option (Iv K k)) =>
      x.1.read x.2 = y.1 ∧ x.2 < x.1.length ∧ S.heap.length ≤ x.1.length ∧
      (∀ r < S.heap.length, x.1.read r = S.heap.read r) ∧ y.2 = iv1')
      (heapMaybeProx o (S.heap.alloc l1) S.heap.length)
      (if o.constrained then (do let l2 ← proxProject l1; pure (l2, iv1')) else pure (l1, iv1')) := by
    unfold heapMaybeProx
    split_ifs
    · unfold heapProx
      simp only [Heap.read_alloc_new]
      refine Rel.bind (Rel.refl _) ?_
      rintro x _ rfl
      refine ⟨Heap.read_alloc_new _ _, ?_, ?_, ?_, rfl⟩
      · simp [Heap.length_alloc]
      · simp [Heap.length_alloc, Heap.length_write]; omega
      · intro r hr
        simp only
        rw [Heap.read_alloc_old _ _ (by simp [Heap.length_alloc, Heap.length_write]; omega),
          Heap.read_write_ne _ _ hr.ne, Heap.read_alloc_old _ _ hr]
    · refine ⟨Heap.read_alloc_new _ _, ?_, ?_, ?_, rfl⟩
      · simp [Heap.length_alloc]
      · simp [Heap.length_alloc]
      · intro r hr; exact Heap.read_alloc_old _ _ hr
  refine Rel.bind hq ?_
  rintro ⟨h2, r2⟩ ⟨l2, iv2⟩ ⟨e4, e5, e6, e7, e8⟩
  simp only at e4 e5 e6 e7 e8
  subst e8
  simp only [e4]
  refine Rel.bind (Rel.refl _) ?_
  rintro x _ rfl
  rw [hs.cb]
  split_ifs
  · exact ⟨hs.len.trans e6, fun r hr => (e7 r (hr.trans_le hs.len)).trans (hs.keep r hr), e4, e5, e4, e5,
      e3, rfl, by simp [hs.ca]⟩
  · exact ⟨hs.len.trans e6, fun r hr => (e7 r (hr.trans_le hs.len)).trans (hs.keep r hr), e4, e5,
      (e7 _ hs.bestLt).trans hs.best, hs.bestLt.trans_le e6, e3, rfl, by simp [hs.ca]⟩

theorem heapFold_sim (sqrt : K → K) (o : SgdOpts K) (rows : List (Row K k)) (h0 : Heap K k)
    (choices : List ℕ) : ∀ (s : SgdState K k) (S : HState K k), Sim h0 s S →
    Rel (fun S s => Sim h0 s S) (choices.foldlM (heapStep sqrt o rows) S)
      (choices.foldlM (sgdStep sqrt takeGradient calcCost proxProject o rows) s) := by
  induction choices with
  | nil => intro s S h; exact h
  | cons c cs ih =>
    intro s S h
    rw [List.foldlM_cons, List.foldlM_cons]
    exact Rel.bind (heapStep_sim sqrt o rows h0 c s S h) fun S' s' h' => ih s' S' h'

theorem heapSgd_sim (sqrt : K → K) (o : SgdOpts K) (rows : List (Row K k)) (h0 : Heap K k)
    (r0 : ℕ) (hr : r0 < h0.length) (choices : List ℕ) :
    Rel (fun (S : HState K k) (x : (Fin k → K) × (Fin k → K) × List K) =>
        S.heap.read S.bestRef = x.1 ∧ S.heap.read S.lambRef = x.2.1 ∧ S.costAll = x.2.2 ∧
        ∀ r < h0.length, S.heap.read r = h0.read r)
      (heapSgd sqrt o rows h0 r0 choices)
      (sgdRun sqrt takeGradient calcCost proxProject o rows (h0.read r0) choices) := by
  unfold heapSgd sgdRun
  refine Rel.bind (Rel.refl _) ?_
  rintro c0 _ rfl
  split_ifs
  · rfl
  · have := heapFold_sim sqrt o rows h0 choices
      ⟨h0.read r0, none, h0.read r0, c0, [c0]⟩ ⟨h0, r0, none, r0, c0, [c0]⟩
      ⟨le_rfl, fun _ _ => rfl, rfl, hr, rfl, hr, rfl, rfl, rfl⟩
    revert this
    generalize List.foldlM (heapStep sqrt o rows) _ choices = X
    generalize List.foldlM (sgdStep sqrt takeGradient calcCost proxProject o rows) _ choices = Y
    cases X <;> cases Y <;> intro h
    · exact h
    · exact h
    · exact h
    · exact ⟨h.best, h.lamb, h.ca, h.keep⟩

end SmoothRF
