import Verif.Model.Sgd
import Verif.Spec.Sgd
import Verif.Proofs.Prox
import Verif.Proofs.Cost

set_option linter.unusedSectionVars false

namespace SmoothRF

variable {K : Type} [Field K] [LinearOrder K] {k : ℕ}

theorem bind_ok {α β : Type} {x : Except PyErr α} {f : α → Except PyErr β} {b : β}
    (h : (x >>= f) = .ok b) : ∃ a, x = .ok a ∧ f a = .ok b := by
  cases x with
  | error e => cases h
  | ok a => exact ⟨a, rfl, h⟩

variable (sqrt : K → K) (grad : List (Row K k) → (Fin k → K) → Except PyErr (Fin k → K))
    (cost : List (Row K k) → (Fin k → K) → Except PyErr K)
    (prox : (Fin k → K) → Except PyErr (Fin k → K)) (o : SgdOpts K) (rows : List (Row K k))

/-- The move as a step on (lamb, iv) pairs. -/
def moveStep (c : ℕ) (s : (Fin k → K) × Option (Iv K k)) :
    Except PyErr ((Fin k → K) × Option (Iv K k)) := sgdMove sqrt grad prox o rows c s.1 s.2

theorem sgdStep_ok {s s' : SgdState K k} {c : ℕ}
    (h : sgdStep sqrt grad cost prox o rows s c = .ok s') :
    ∃ x, moveStep sqrt grad prox o rows c (s.lamb, s.iv) = .ok (s'.lamb, s'.iv) ∧
      cost rows s'.lamb = .ok x ∧ s'.costAll = s.costAll ++ [x] ∧
      ((x < s.costBest ∧ s'.lambBest = s'.lamb ∧ s'.costBest = x) ∨
       (s.costBest ≤ x ∧ s'.lambBest = s.lambBest ∧ s'.costBest = s.costBest)) := by
  unfold sgdStep at h
  obtain ⟨⟨l, iv⟩, h1, h⟩ := bind_ok h
  obtain ⟨x, h2, h⟩ := bind_ok h
  split_ifs at h with hlt
  · cases h; exact ⟨x, h1, h2, rfl, Or.inl ⟨hlt, rfl, rfl⟩⟩
  · cases h; exact ⟨x, h1, h2, rfl, Or.inr ⟨not_lt.1 hlt, rfl, rfl⟩⟩

theorem sgd_fold {choices : List ℕ} : ∀ {s s' : SgdState K k},
    choices.foldlM (sgdStep sqrt grad cost prox o rows) s = .ok s' →
    ∃ (vs : List ((Fin k → K) × Option (Iv K k))) (cs : List K), Visits (moveStep sqrt grad prox o rows) (s.lamb, s.iv) choices vs ∧
      List.Forall₂ (fun v c => cost rows v.1 = .ok c) vs cs ∧
      s'.costAll = s.costAll ++ cs ∧
      ((s.lamb, s.iv) :: vs).getLast? = some (s'.lamb, s'.iv) ∧
      ((s'.lambBest = s.lambBest ∧ s'.costBest = s.costBest ∧ ∀ c ∈ cs, s.costBest ≤ c) ∨
       (∃ (i : ℕ) (v : (Fin k → K) × Option (Iv K k)) (c : K), vs[i]? = some v ∧ cs[i]? = some c ∧ v.1 = s'.lambBest ∧ c = s'.costBest ∧
          c < s.costBest ∧ (∀ c' ∈ cs, c ≤ c') ∧ ∀ (i' : ℕ) (c' : K), i' < i → cs[i']? = some c' → c < c')) := by
  induction choices with
  | nil =>
    intro s s' h
    cases h
    exact ⟨[], [], .nil _, .nil, by simp, by simp, Or.inl ⟨rfl, rfl, by simp⟩⟩
  | cons c choices ih =>
    intro s s' h
    rw [List.foldlM_cons] at h
    obtain ⟨s1, h1, h⟩ := bind_ok h
    obtain ⟨x, hm, hx, hall, hb⟩ := sgdStep_ok sqrt grad cost prox o rows h1
    obtain ⟨vs, cs, hv, hf, hc, hl, hbest⟩ := ih h
    refine ⟨(s1.lamb, s1.iv) :: vs, x :: cs, .cons hm hv, .cons hx hf, ?_, ?_, ?_⟩
    · rw [hc, hall]; simp
    · rw [List.getLast?_cons_cons]; exact hl
    · rcases hb with ⟨hlt, hb1, hb2⟩ | ⟨hge, hb1, hb2⟩
      · rcases hbest with ⟨e1, e2, e3⟩ | ⟨i, v, c', a1, a2, a3, a4, a5, a6, a7⟩
        · refine Or.inr ⟨0, _, x, rfl, rfl, by rw [e1, hb1], by rw [e2, hb2], hlt, ?_, ?_⟩
          · intro c' hc'
            rcases List.mem_cons.1 hc' with rfl | hc'
            · exact le_rfl
            · rw [← hb2]; exact e3 c' hc'
          · intro i' c' hi'; omega
        · refine Or.inr ⟨i + 1, v, c', by simpa using a1, by simpa using a2, a3, a4, ?_, ?_, ?_⟩
          · rw [hb2] at a5; exact a5.trans hlt
          · intro c'' hc''
            rcases List.mem_cons.1 hc'' with rfl | hc''
            · rw [hb2] at a5; exact a5.le
            · exact a6 c'' hc''
          · intro i' c'' hi' he
            cases i' with
            | zero =>
              simp only [List.getElem?_cons_zero, Option.some.injEq] at he
              subst he; rw [hb2] at a5; exact a5
            | succ i' => exact a7 i' c'' (by omega) (by simpa using he)
      · rcases hbest with ⟨e1, e2, e3⟩ | ⟨i, v, c', a1, a2, a3, a4, a5, a6, a7⟩
        · refine Or.inl ⟨by rw [e1, hb1], by rw [e2, hb2], ?_⟩
          intro c' hc'
          rcases List.mem_cons.1 hc' with rfl | hc'
          · exact hge
          · rw [← hb2]; exact e3 c' hc'
        · rw [hb2] at a5
          refine Or.inr ⟨i + 1, v, c', by simpa using a1, by simpa using a2, a3, a4, a5, ?_, ?_⟩
          · intro c'' hc''
            rcases List.mem_cons.1 hc'' with rfl | hc''
            · exact (a5.trans_le hge).le
            · exact a6 c'' hc''
          · intro i' c'' hi' he
            cases i' with
            | zero =>
              simp only [List.getElem?_cons_zero, Option.some.injEq] at he
              subst he; exact a5.trans_le hge
            | succ i' => exact a7 i' c'' (by omega) (by simpa using he)

/-- The facts about a successful run. -/
theorem sgdRun_spec {lamb best last : Fin k → K} {costs : List K} {choices : List ℕ}
    (h : sgdRun sqrt grad cost prox o rows lamb choices = .ok (best, last, costs)) :
    ∃ vs : List ((Fin k → K) × Option (Iv K k)), Visits (moveStep sqrt grad prox o rows) (lamb, none) choices vs ∧
      List.Forall₂ (fun v c => cost rows v.1 = .ok c) ((lamb, none) :: vs) costs ∧
      (((lamb, none) :: vs).getLast?).map Prod.fst = some last ∧
      ∃ (i : ℕ) (v : (Fin k → K) × Option (Iv K k)) (c : K), ((lamb, none) :: vs)[i]? = some v ∧ costs[i]? = some c ∧ v.1 = best ∧
        (∀ c' ∈ costs, c ≤ c') ∧ ∀ (i' : ℕ) (c' : K), i' < i → costs[i']? = some c' → c < c' := by
  unfold sgdRun at h
  obtain ⟨c0, h0, h⟩ := bind_ok h
  split_ifs at h
  obtain ⟨s, hs, h⟩ := bind_ok h
  cases h
  obtain ⟨vs, cs, hv, hf, hc, hl, hb⟩ := sgd_fold sqrt grad cost prox o rows hs
  have hc : s.costAll = c0 :: cs := by rw [hc]; rfl
  refine ⟨vs, hv, by rw [hc]; exact .cons h0 hf, ?_, ?_⟩
  · have hl : ((lamb, none) :: vs).getLast? = some (s.lamb, s.iv) := hl
    rw [hl]; rfl
  · rw [hc]
    rcases hb with ⟨e1, e2, e3⟩ | ⟨i, v, c', a1, a2, a3, a4, a5, a6, a7⟩
    · refine ⟨0, _, c0, rfl, rfl, e1.symm, ?_, ?_⟩
      · intro c' hc'
        rcases List.mem_cons.1 hc' with rfl | hc'
        · exact le_rfl
        · exact e3 c' hc'
      · intro i' c' hi'; omega
    · refine ⟨i + 1, v, c', by simpa using a1, by simpa using a2, a3, ?_, ?_⟩
      · intro c'' hc''
        rcases List.mem_cons.1 hc'' with rfl | hc''
        · exact le_of_lt a5
        · exact a6 c'' hc''
      · intro i' c'' hi' he
        cases i' with
        | zero =>
          simp only [List.getElem?_cons_zero, Option.some.injEq] at he
          subst he; exact a5
        | succ i' => exact a7 i' c'' (by omega) (by simpa using he)

/-- An invariant of the visited points. -/
theorem visits_inv {S : Type} {step : ℕ → S → Except PyErr S} (P : S → Prop)
    (hP : ∀ c s s', P s → step c s = .ok s' → P s') {s : S} {cs : List ℕ} {vs : List S}
    (h : Visits step s cs vs) (hs : P s) : ∀ v ∈ vs, P v := by
  induction h with
  | nil => simp
  | cons h1 _ ih =>
    have := hP _ _ _ hs h1
    intro v hv
    rcases List.mem_cons.1 hv with rfl | hv
    · exact this
    · exact ih this v hv

theorem moveStep_constrained (ho : o.constrained = true) {c : ℕ}
    {s s' : (Fin k → K) × Option (Iv K k)}
    (h : moveStep sqrt grad prox o rows c s = .ok s') : ∃ l1, prox l1 = .ok s'.1 := by
  unfold moveStep sgdMove at h
  obtain ⟨⟨l1, iv1⟩, -, h⟩ := bind_ok h
  simp only [ho, if_true] at h
  obtain ⟨l2, h2, h⟩ := bind_ok h
  cases h
  exact ⟨l1, h2⟩

theorem fillAssert_of_nonneg [IsStrictOrderedRing K] (rows : List (Row K k)) (lamb : Fin k → K)
    (h : ∀ r ∈ rows, ∀ j, 0 ≤ r.eta j ∧ (r.eta j = 0 → r.gam j = 0)) (hl : ∀ j, 0 ≤ lamb j) :
    fillAssert rows lamb = true := by
  rw [fillAssert_iff]
  intro r hr h0
  have := (Finset.sum_eq_zero_iff_of_nonneg fun j _ => mul_nonneg (h r hr j).1 (hl j)).1 h0
  refine Finset.sum_eq_zero fun j _ => ?_
  rcases mul_eq_zero.1 (this j (Finset.mem_univ _)) with h' | h'
  · rw [(h r hr j).2 h', zero_mul]
  · rw [h', mul_zero]

/-! ### which exceptions the loop can raise -/

theorem bind_error {α β : Type} {x : Except PyErr α} {f : α → Except PyErr β} {e : PyErr}
    (h : (x >>= f) = .error e) : x = .error e ∨ ∃ a, x = .ok a ∧ f a = .error e := by
  cases x with
  | error e' => left; cases h; rfl
  | ok a => exact Or.inr ⟨a, rfl, h⟩

theorem takeGradient_error {rows : List (Row K k)} {l : Fin k → K} {e : PyErr}
    (h : takeGradient rows l = .error e) : e = .assertionError := by
  unfold takeGradient at h; split_ifs at h; cases h; rfl

theorem calcCost_error {rows : List (Row K k)} {l : Fin k → K} {e : PyErr}
    (h : calcCost rows l = .error e) : e = .assertionError := by
  unfold calcCost at h; split_ifs at h; cases h; rfl

theorem npMaxE_error {l : List K} {e : PyErr} (h : npMaxE l = .error e) : e = .valueError := by
  cases l with
  | nil => cases h; rfl
  | cons a l => cases h

theorem proxProject_error {y : Fin k → K} {e : PyErr} (h : proxProject y = .error e) :
    e = .valueError := by
  unfold proxProject at h
  rcases bind_error h with h | ⟨a, -, h⟩
  · exact npMaxE_error h
  · cases h

theorem adamBody_error {sqrt : K → K} {gf : (Fin k → K) → Except PyErr (Fin k → K)} {a : AdamOpts K}
    {iv : Iv K k} {e : PyErr} (h : adamBody sqrt gf a iv = .error e) :
    e = .nonFinite ∨ gf iv.lamb = .error e := by
  unfold adamBody at h
  rcases bind_error h with h | ⟨g, -, h⟩
  · exact Or.inr h
  · dsimp only at h
    split_ifs at h <;> cases h <;> exact Or.inl rfl

theorem sgdPre_error {sqrt : K → K} {o : SgdOpts K} {rows : List (Row K k)} {c : ℕ} {l : Fin k → K}
    {iv : Option (Iv K k)} {e : PyErr} (h : sgdPre sqrt takeGradient o rows c l iv = .error e) :
    e = .assertionError ∨ e = .nonFinite := by
  unfold sgdPre at h
  cases ha : o.adam with
  | none =>
    simp only [ha] at h
    rcases bind_error h with h | ⟨g, -, h⟩
    · exact Or.inl (takeGradient_error h)
    · cases h
  | some a =>
    simp only [ha] at h
    rcases bind_error h with h | ⟨g, -, h⟩
    · have : ∀ i, adamBody sqrt (takeGradient (rows.filter fun r => r.tree == c)) a i = .error e →
          e = .assertionError ∨ e = .nonFinite := fun i hi => by
        rcases adamBody_error hi with h | h
        · exact Or.inr h
        · exact Or.inl (takeGradient_error h)
      cases iv with
      | none => exact this _ h
      | some i => exact this _ h
    · cases h

theorem sgdStep_error {sqrt : K → K} {o : SgdOpts K} {rows : List (Row K k)} {c : ℕ}
    {s : SgdState K k} {e : PyErr}
    (h : sgdStep sqrt takeGradient calcCost proxProject o rows s c = .error e) :
    e = .assertionError ∨ e = .nonFinite ∨ e = .valueError := by
  unfold sgdStep sgdMove at h
  rcases bind_error h with h | ⟨p, -, h⟩
  · rcases bind_error h with h | ⟨q, -, h⟩
    · rcases sgdPre_error h with h | h
      · exact Or.inl h
      · exact Or.inr (Or.inl h)
    · split_ifs at h
      · rcases bind_error h with h | ⟨q, -, h⟩
        · exact Or.inr (Or.inr (proxProject_error h))
        · cases h
      · cases h
  · rcases bind_error h with h | ⟨q, -, h⟩
    · exact Or.inl (calcCost_error h)
    · split_ifs at h <;> cases h

theorem sgdFold_error {sqrt : K → K} {o : SgdOpts K} {rows : List (Row K k)} {e : PyErr} :
    ∀ (choices : List ℕ) (s : SgdState K k),
    choices.foldlM (sgdStep sqrt takeGradient calcCost proxProject o rows) s = .error e →
    e = .assertionError ∨ e = .nonFinite ∨ e = .valueError := by
  intro choices
  induction choices with
  | nil => intro s h; cases h
  | cons c cs ih =>
    intro s h
    rw [List.foldlM_cons] at h
    rcases bind_error h with h | ⟨s', -, h⟩
    · exact sgdStep_error h
    · exact ih s' h

theorem sgdRun_error {sqrt : K → K} {o : SgdOpts K} {rows : List (Row K k)} {l : Fin k → K}
    {choices : List ℕ} {e : PyErr}
    (h : sgdRun sqrt takeGradient calcCost proxProject o rows l choices = .error e) :
    e = .assertionError ∨ e = .nonFinite ∨ e = .valueError := by
  unfold sgdRun at h
  rcases bind_error h with h | ⟨c0, -, h⟩
  · exact Or.inl (calcCost_error h)
  · split_ifs at h
    · cases h; exact Or.inr (Or.inr rfl)
    · rcases bind_error h with h | ⟨s, -, h⟩
      · exact sgdFold_error _ _ h
      · cases h

theorem sgdRun_ne_typeError (sqrt : K → K) (o : SgdOpts K) (rows : List (Row K k)) (l : Fin k → K)
    (choices : List ℕ) :
    sgdRun sqrt takeGradient calcCost proxProject o rows l choices ≠ .error .typeError := by
  intro h
  rcases sgdRun_error h with h | h | h <;> cases h

end SmoothRF
