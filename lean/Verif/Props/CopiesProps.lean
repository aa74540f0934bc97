import Verif.Props.RepeatProps

/-!
# C182: forests in which every tree occurs several times
-/

set_option linter.unusedSectionVars false

namespace SmoothRF
open SkTree Topo

variable {K : Type} [Field K] [LinearOrder K] [IsStrictOrderedRing K] {k : ℕ}

/-- `m` copies of the rows, the tree numbers of copy `j` shifted by `j * T`. -/
def copies (T m : ℕ) (rows : List (Row K k)) : List (Row K k) :=
  (List.range m).flatMap fun j => rows.map (relabel (· + j * T))

theorem copies_succ (T m : ℕ) (rows : List (Row K k)) :
    copies T (m + 1) rows = copies T m rows ++ rows.map (relabel (· + m * T)) := by
  unfold copies
  rw [List.range_succ, List.flatMap_append]
  simp

theorem mem_copies_lt {T m : ℕ} {rows : List (Row K k)} (h : ∀ r ∈ rows, r.tree < T) {r : Row K k}
    (hr : r ∈ copies T m rows) : r.tree < m * T := by
  unfold copies at hr
  obtain ⟨j, hj, hr⟩ := List.mem_flatMap.1 hr
  obtain ⟨r0, h0, rfl⟩ := List.mem_map.1 hr
  have h1 := h r0 h0
  have h2 : j + 1 ≤ m := List.mem_range.1 hj
  have h3 : (j + 1) * T ≤ m * T := Nat.mul_le_mul_right T h2
  show r0.tree + j * T < m * T
  rw [Nat.add_mul, one_mul] at h3
  omega

/-- The rows of tree `c` of the copies are those of tree `c % T`. -/
theorem filter_copies {T m : ℕ} {rows : List (Row K k)} (h : ∀ r ∈ rows, r.tree < T) {c : ℕ} (hc : c < m * T) :
    (copies T m rows).filter (fun r => r.tree == c) =
      (rows.filter fun r => r.tree == c % T).map (relabel (· + c / T * T)) := by
  induction m with
  | zero => simp at hc
  | succ m ih =>
    rw [copies_succ, List.filter_append]
    by_cases hm : c < m * T
    · have e : (rows.map (relabel (· + m * T))).filter (fun r => r.tree == c) = [] := by
        rw [List.filter_eq_nil_iff]
        intro r hr
        obtain ⟨r0, h0, rfl⟩ := List.mem_map.1 hr
        have : r0.tree + m * T ≠ c := by omega
        simpa [relabel] using this
      rw [ih hm, e, List.append_nil]
    · have e : (copies T m rows).filter (fun r => r.tree == c) = [] := by
        rw [List.filter_eq_nil_iff]
        intro r hr
        have := mem_copies_lt h hr
        have : r.tree ≠ c := by omega
        simpa using this
      have hT : c - m * T < T := by
        rw [Nat.add_mul, one_mul] at hc
        omega
      obtain ⟨d, rfl⟩ : ∃ d, c = d + m * T := ⟨c - m * T, by omega⟩
      have hd : d < T := by omega
      have e1 : (d + m * T) % T = d := by rw [Nat.add_mul_mod_self_right, Nat.mod_eq_of_lt hd]
      have e2 : (d + m * T) / T = m := by
        rw [Nat.add_mul_div_right _ _ (by omega : 0 < T), Nat.div_eq_of_lt hd, zero_add]
      rw [e, List.nil_append, e1, e2, List.filter_map]
      congr 1
      refine List.filter_congr fun r _ => ?_
      rw [Bool.eq_iff_iff]
      simp only [Function.comp, relabel, beq_iff_eq]
      omega

theorem filter_copies_zero (m : ℕ) (rows : List (Row K k)) (c : ℕ) :
    (copies 0 m rows).filter (fun r => r.tree == c) = copies 0 m (rows.filter fun r => r.tree == c) := by
  unfold copies
  rw [List.filter_flatMap]
  refine List.flatMap_congr fun j _ => ?_
  rw [List.filter_map]
  rfl

theorem fillAssert_append (a b : List (Row K k)) (lamb : Fin k → K) :
    fillAssert (a ++ b) lamb = (fillAssert a lamb && fillAssert b lamb) := by
  unfold fillAssert
  rw [List.all_append]

theorem calcCost_append {a b : List (Row K k)} {lamb : Fin k → K} {x y : K} (ha : calcCost a lamb = .ok x)
    (hb : calcCost b lamb = .ok y) : calcCost (a ++ b) lamb = .ok (x + y) := by
  unfold calcCost at ha hb ⊢
  split_ifs at ha hb with h1 h2
  rw [fillAssert_append, h1, h2, if_pos (by rfl), List.map_append, List.sum_append]
  cases ha
  cases hb
  rfl

theorem takeGradient_append {a b : List (Row K k)} {lamb x y : Fin k → K} (ha : takeGradient a lamb = .ok x)
    (hb : takeGradient b lamb = .ok y) : takeGradient (a ++ b) lamb = .ok fun j => x j + y j := by
  unfold takeGradient at ha hb ⊢
  split_ifs at ha hb with h1 h2
  rw [fillAssert_append, h1, h2, if_pos (by rfl)]
  cases ha
  cases hb
  congr 1
  funext j
  rw [List.map_append, List.sum_append]

theorem takeGradientCe_append {a b : List (Row K k)} {lamb x y : Fin k → K} (ha : takeGradientCe a lamb = .ok x)
    (hb : takeGradientCe b lamb = .ok y) : takeGradientCe (a ++ b) lamb = .ok fun j => x j + y j := by
  unfold takeGradientCe at ha hb ⊢
  split_ifs at ha hb with h1 h2 h3 h4
  rw [fillAssert_append, h1, h3, if_pos (by rfl), List.any_append, if_neg (by simp_all)]
  cases ha
  cases hb
  congr 1
  funext j
  rw [List.map_append, List.sum_append]

theorem calcCostCe_append {k : ℕ} {a b : List (Row ℝ k)} {lamb : Fin k → ℝ} {x y : ℝ}
    (ha : calcCostCe a lamb = .ok x) (hb : calcCostCe b lamb = .ok y) :
    calcCostCe (a ++ b) lamb = .ok (x + y) := by
  unfold calcCostCe at ha hb ⊢
  dsimp only at ha hb ⊢
  split_ifs at ha hb with h1 h2 h3 h4
  rw [if_pos ⟨fun r hr => (List.mem_append.1 hr).elim (h1.1 r) (h3.1 r), h1.2⟩, List.filter_append, if_neg]
  · cases ha
    cases hb
    congr 1
    rw [List.map_append, List.sum_append]
    ring
  · rintro ⟨r, hr, hp⟩
    rcases List.mem_append.1 hr with hr | hr
    · exact h2 ⟨r, hr, hp⟩
    · exact h4 ⟨r, hr, hp⟩

/-- Anything additive over lists of rows is `m` times as large on `m` copies. -/
theorem copies_additive {α : Type} {f : List (Row K k) → Except PyErr α} {add : α → α → α} {smul : ℕ → α → α}
    (h1 : ∀ x, smul 1 x = x) (hs : ∀ n x, add (smul n x) x = smul (n + 1) x)
    (hadd : ∀ a b x y, f a = .ok x → f b = .ok y → f (a ++ b) = .ok (add x y))
    (hrel : ∀ (τ : ℕ → ℕ) a, f (a.map (relabel τ)) = f a) (T : ℕ) {m : ℕ} (hm : 0 < m) {rows : List (Row K k)} {x : α}
    (h : f rows = .ok x) : f (copies T m rows) = .ok (smul m x) := by
  induction m, hm using Nat.le_induction with
  | base =>
    rw [copies_succ, h1]
    show f (copies T 0 rows ++ _) = _
    rw [show copies T 0 rows = [] from rfl, List.nil_append, hrel, h]
  | succ m _ ih => rw [copies_succ, hadd _ _ _ _ ih ((hrel _ _).trans h), hs]

theorem calcCost_copies (T : ℕ) {m : ℕ} (hm : 0 < m) {rows : List (Row K k)} {lamb : Fin k → K} {x : K}
    (h : calcCost rows lamb = .ok x) : calcCost (copies T m rows) lamb = .ok (m * x) :=
  copies_additive (f := fun r => calcCost r lamb) (smul := fun n x => n * x) (by simp)
    (fun n x => by push_cast; ring) (fun _ _ _ _ => calcCost_append) (fun τ a => by rw [calcCost_relabel]) T hm h

theorem takeGradient_copies (T : ℕ) {m : ℕ} (hm : 0 < m) {rows : List (Row K k)} {lamb g : Fin k → K}
    (h : takeGradient rows lamb = .ok g) : takeGradient (copies T m rows) lamb = .ok fun j => m * g j :=
  copies_additive (f := fun r => takeGradient r lamb) (smul := fun n x => fun j => n * x j) (by simp)
    (fun n x => by funext j; push_cast; ring) (fun _ _ _ _ => takeGradient_append)
    (fun τ a => by rw [takeGradient_relabel]) T hm h

theorem takeGradientCe_copies (T : ℕ) {m : ℕ} (hm : 0 < m) {rows : List (Row K k)} {lamb g : Fin k → K}
    (h : takeGradientCe rows lamb = .ok g) : takeGradientCe (copies T m rows) lamb = .ok fun j => m * g j :=
  copies_additive (f := fun r => takeGradientCe r lamb) (smul := fun n x => fun j => n * x j) (by simp)
    (fun n x => by funext j; push_cast; ring) (fun _ _ _ _ => takeGradientCe_append)
    (fun τ a => by rw [takeGradientCe_relabel]) T hm h

theorem calcCostCe_copies {k : ℕ} (T : ℕ) {m : ℕ} (hm : 0 < m) {rows : List (Row ℝ k)} {lamb : Fin k → ℝ} {x : ℝ}
    (h : calcCostCe rows lamb = .ok x) : calcCostCe (copies T m rows) lamb = .ok (m * x) :=
  copies_additive (f := fun r => calcCostCe r lamb) (smul := fun n x => n * x) (by simp)
    (fun n x => by push_cast; ring) (fun _ _ _ _ => calcCostCe_append)
    (fun τ a => by rw [calcCostCe_relabel]) T hm h

theorem copies_isEmpty (T : ℕ) {m : ℕ} (hm : 0 < m) (rows : List (Row K k)) :
    (copies T m rows).isEmpty = rows.isEmpty := by
  obtain ⟨m, rfl⟩ := Nat.exists_eq_succ_of_ne_zero hm.ne'
  rw [Nat.succ_eq_add_one, copies_succ]
  cases rows with
  | nil =>
    have : copies T m ([] : List (Row K k)) = [] := by
      unfold copies; simp
    rw [this]; rfl
  | cons r rows => simp

/-- A descent whose steps see the same gradients and whose costs are all multiplied by `s > 0` visits the same
weights. -/
theorem sgdRun_costs {sqrt : K → K} {s : K} (hs : 0 < s)
    {grad : List (Row K k) → (Fin k → K) → Except PyErr (Fin k → K)}
    {cost : List (Row K k) → (Fin k → K) → Except PyErr K}
    {prox : (Fin k → K) → Except PyErr (Fin k → K)} {o : SgdOpts K} {rows rows' : List (Row K k)} (τ : ℕ → ℕ)
    (hemp : rows'.isEmpty = rows.isEmpty) {choices : List ℕ}
    (hg : ∀ c ∈ choices, grad (rows'.filter fun r => r.tree == c) = grad (rows.filter fun r => r.tree == τ c))
    (hc : ∀ l x, cost rows l = .ok x → cost rows' l = .ok (s * x))
    {lamb best last : Fin k → K} {costs : List K}
    (h : sgdRun sqrt grad cost prox o rows lamb (choices.map τ) = .ok (best, last, costs)) :
    sgdRun sqrt grad cost prox o rows' lamb choices = .ok (best, last, costs.map (s * ·)) := by
  have fold : ∀ (cs : List ℕ) (_ : ∀ c ∈ cs, c ∈ choices) (st st' : SgdState K k)
      (_ : (cs.map τ).foldlM (sgdStep sqrt grad cost prox o rows) st = .ok st'),
      cs.foldlM (sgdStep sqrt grad cost prox o rows')
        ⟨st.lamb, st.iv, st.lambBest, s * st.costBest, st.costAll.map (s * ·)⟩ =
        .ok ⟨st'.lamb, st'.iv, st'.lambBest, s * st'.costBest, st'.costAll.map (s * ·)⟩ := by
    intro cs
    induction cs with
    | nil => intro _ st st' h; cases h; rfl
    | cons c cs ih =>
      intro hcs st st' h
      rw [List.map_cons, List.foldlM_cons] at h
      obtain ⟨st1, h1, h2⟩ := bind_ok h
      rw [List.foldlM_cons]
      have hmove : sgdMove sqrt grad prox o rows' c st.lamb st.iv =
          sgdMove sqrt grad prox o rows (τ c) st.lamb st.iv := by
        unfold sgdMove sgdPre
        dsimp only
        rw [hg c (hcs c (by simp))]
      have hstep : sgdStep sqrt grad cost prox o rows'
          ⟨st.lamb, st.iv, st.lambBest, s * st.costBest, st.costAll.map (s * ·)⟩ c =
          .ok ⟨st1.lamb, st1.iv, st1.lambBest, s * st1.costBest, st1.costAll.map (s * ·)⟩ := by
        unfold sgdStep at h1 ⊢
        dsimp only at h1 ⊢
        rw [hmove]
        obtain ⟨⟨l, iv⟩, h3, h4⟩ := bind_ok h1
        rw [h3]
        dsimp only at h4
        obtain ⟨x, h5, h6⟩ := bind_ok h4
        show (cost rows' l >>= _) = _
        rw [hc l x h5]
        show (if s * x < s * st.costBest then _ else _) = _
        have hlt : s * x < s * st.costBest ↔ x < st.costBest := mul_lt_mul_iff_right₀ hs
        by_cases hx : x < st.costBest
        · rw [if_pos hx] at h6
          rw [if_pos (hlt.2 hx)]
          cases h6
          simp [pure, Except.pure]
        · rw [if_neg hx] at h6
          rw [if_neg (fun q => hx (hlt.1 q))]
          cases h6
          simp [pure, Except.pure]
      rw [hstep]
      exact ih (fun c' h' => hcs c' (by simp [h'])) st1 st' h2
  unfold sgdRun at h ⊢
  obtain ⟨c0, h1, h2⟩ := bind_ok h
  rw [hc lamb c0 h1]
  show (if rows'.isEmpty = true then _ else _) = _
  rw [hemp]
  split_ifs at h2 ⊢
  obtain ⟨st, h3, h4⟩ := bind_ok h2
  have := fold choices (fun _ h => h) _ st h3
  simp only [List.map_cons, List.map_nil] at this
  rw [this]
  cases h4
  rfl

/-- A descent that treats copies of trees as it should. -/
def CopyFree (sqrt : K → K) (ce : (n : ℕ) → SgdOpts K → K → List (Row K n) → List K → List ℕ →
    Except PyErr ((Fin n → K) × (Fin n → K) × List K)) : Prop :=
  (∀ n o eps (rows rows' : List (Row K n)) (T m : ℕ), 0 < m → (∀ r ∈ rows, r.tree < T) →
    rows'.Perm (copies T m rows) → ∀ init choices best last costs, (∀ c ∈ choices, c < m * T) →
      ce n o eps rows init (choices.map (· % T)) = .ok (best, last, costs) →
      ce n o eps rows' init choices = .ok (best, last, costs.map ((m : K) * ·))) ∧
  ∀ n o eps (rows rows' : List (Row K n)) (m : ℕ), 0 < m → rows'.Perm (copies 0 m rows) →
    (o.adam ≠ none → ∀ x, 0 ≤ x → 0 ≤ sqrt x ∧ sqrt x ^ 2 = x) → ∀ init choices best last costs,
      ce n o eps rows init choices = .ok (best, last, costs) →
      ce n ⟨o.tFix / m, o.constrained, o.adam.map fun A => { A with eps := m * A.eps }⟩ eps rows' init choices =
        .ok (best, last, costs.map ((m : K) * ·))

theorem perm_isEmpty {α : Type} {a b : List α} (h : a.Perm b) : a.isEmpty = b.isEmpty := by
  have := h.length_eq
  cases a <;> cases b <;> simp_all

/-- C182, descent on the squared loss: copies of a tree share its steps, and the costs are multiplied by the number of
copies; without separate trees the step size has to be divided by it. -/
theorem C182_descent (sqrt : K → K) : CopyFree sqrt fun _ o _ rows init choices => sgd sqrt o rows init choices := by
  constructor
  · intro n o eps rows rows' T m hm hT hp init choices best last costs hch h
    have hs : (0 : K) < m := Nat.cast_pos.2 hm
    unfold sgd at h ⊢
    dsimp only at h ⊢
    split_ifs at h ⊢ with h1 h2
    refine sgdRun_costs hs _ ((perm_isEmpty hp).trans (copies_isEmpty T hm rows)) (fun c hc => ?_)
      (fun l x hx => ?_) h
    · rw [takeGradient_perm (hp.filter _), filter_copies hT (hch c hc), takeGradient_relabel]
    · rw [calcCost_perm hp]
      exact calcCost_copies T hm hx
  · intro n o eps rows rows' m hm hp hsq init choices best last costs h
    have hs : (0 : K) < m := Nat.cast_pos.2 hm
    unfold sgd at h ⊢
    dsimp only at h ⊢
    split_ifs at h ⊢ with h1 h2
    refine sgdRun_scale hs (fun hA x hx => sqrt_scale (hsq hA) hs x hx)
      ((perm_isEmpty hp).trans (copies_isEmpty 0 hm rows)) (fun _ => True)
      (fun l _ c g hg => ?_) (fun l _ x hx => ?_) trivial (fun _ _ _ _ => trivial) h
    · rw [takeGradient_perm (hp.filter _), filter_copies_zero]
      exact takeGradient_copies 0 hm hg
    · rw [calcCost_perm hp]
      exact calcCost_copies 0 hm hx

/-- C182, cross-entropy descent: the same. -/
theorem C182_descent_ce (sqrt : ℝ → ℝ) (approxOne : ℝ → Bool) :
    CopyFree sqrt fun _ o eps rows init choices => sgdCe sqrt approxOne o eps rows init choices := by
  constructor
  · intro n o eps rows rows' T m hm hT hp init choices best last costs hch h
    have hs : (0 : ℝ) < m := Nat.cast_pos.2 hm
    unfold sgdCe at h ⊢
    dsimp only at h ⊢
    split_ifs at h ⊢ with h1 h2
    refine sgdRun_costs hs _ ((perm_isEmpty hp).trans (copies_isEmpty T hm rows)) (fun c hc => ?_)
      (fun l x hx => ?_) h
    · rw [takeGradientCe_perm (hp.filter _), filter_copies hT (hch c hc), takeGradientCe_relabel]
    · rw [calcCostCe_perm hp]
      exact calcCostCe_copies T hm hx
  · intro n o eps rows rows' m hm hp hsq init choices best last costs h
    have hs : (0 : ℝ) < m := Nat.cast_pos.2 hm
    unfold sgdCe at h ⊢
    dsimp only at h ⊢
    split_ifs at h ⊢ with h1 h2
    refine sgdRun_scale hs (fun hA x hx => sqrt_scale (hsq hA) hs x hx)
      ((perm_isEmpty hp).trans (copies_isEmpty 0 hm rows)) (fun _ => True)
      (fun l _ c g hg => ?_) (fun l _ x hx => ?_) trivial (fun _ _ _ _ => trivial) h
    · rw [takeGradientCe_perm (hp.filter _), filter_copies_zero]
      exact takeGradientCe_copies 0 hm hg
    · rw [calcCostCe_perm hp]
      exact calcCostCe_copies 0 hm hx

/-! ### The whole procedure -/

variable {C : ℕ}

/-- The forest `m` times in a row. -/
def repForest (m : ℕ) (forest : List (SkTree K C)) : List (SkTree K C) := (List.replicate m forest).flatten

theorem repForest_succ (m : ℕ) (forest : List (SkTree K C)) :
    repForest (m + 1) forest = repForest m forest ++ forest := by
  unfold repForest
  rw [List.replicate_succ', List.flatten_append]
  simp

theorem repForest_length (m : ℕ) (forest : List (SkTree K C)) :
    (repForest m forest).length = m * forest.length := by
  induction m with
  | zero => simp [repForest]
  | succ m ih => rw [repForest_succ, List.length_append, ih, Nat.add_mul, one_mul]

theorem mem_repForest {m : ℕ} {forest : List (SkTree K C)} {t : SkTree K C} (h : t ∈ repForest m forest) :
    t ∈ forest := by
  unfold repForest at h
  obtain ⟨l, hl, ht⟩ := List.mem_flatten.1 h
  rw [List.eq_of_mem_replicate hl] at ht
  exact ht

theorem leafListI_copy (m : ℕ) (forest : List (SkTree K C)) :
    leafListI (repForest (m + 1) forest) = leafListI (repForest m forest) ++
      (leafListI forest).map fun q => (q.1, q.2 + m * forest.length) := by
  unfold leafListI
  rw [repForest_succ, List.zipIdx_append, List.flatMap_append, repForest_length]
  congr 1
  rw [List.map_flatMap, Nat.zero_add, List.zipIdx_eq_map_add, List.flatMap_map]
  refine List.flatMap_congr fun tt _ => ?_
  rw [List.map_map]
  simp only [Function.comp_def, Nat.add_comm]

theorem specRows_copy {forest : List (SkTree K C)} (kind : Kind) (s : Style) (pa al : Bool)
    {tune tune' : ℕ → List (TuneRow K C)} (n m : ℕ)
    (ht : ∀ i < m * forest.length, tune' i = tune (i % forest.length)) :
    ((List.finRange C).flatMap fun c => (leafListI (repForest m forest)).map (specRow kind s pa al tune' n c)).Perm
      (copies (if al then 0 else forest.length) m
        ((List.finRange C).flatMap fun c => (leafListI forest).map (specRow kind s pa al tune n c))) := by
  induction m with
  | zero => simp [copies, repForest, leafListI]
  | succ m ih =>
    rw [copies_succ]
    simp only [leafListI_copy, List.map_append]
    refine (List.flatMap_append_perm _ _ _).symm.trans (List.Perm.append (ih fun i hi => ht i ?_) ?_)
    · rw [Nat.add_mul]; omega
    · rw [List.map_flatMap]
      refine List.Perm.of_eq (List.flatMap_congr fun c _ => ?_)
      rw [List.map_map, List.map_map]
      refine List.map_congr_left fun q hq => ?_
      have hlt := leafListI_lt hq
      have := ht (q.2 + m * forest.length) (by rw [Nat.add_mul]; omega)
      rw [Nat.add_mul_mod_self_right, Nat.mod_eq_of_lt hlt] at this
      cases al <;> simp [specRow, relabel, this]

theorem forestDepth_copy {m : ℕ} (hm : 0 < m) (forest : List (SkTree K C)) :
    forestDepth (repForest m forest) = forestDepth forest := by
  unfold forestDepth
  rw [calcDepthForForest_eq, calcDepthForForest_eq]
  dsimp only
  have hmem : ∀ x, x ∈ (((repForest m forest).map SkTree.toTopo).map fun t => npMax t.depthPerNode) ↔
      x ∈ ((forest.map SkTree.toTopo).map fun t => npMax t.depthPerNode) := by
    intro x
    simp only [List.map_map, List.mem_map]
    refine exists_congr fun t => and_congr_left fun _ => ⟨mem_repForest, fun ht => ?_⟩
    unfold repForest
    exact List.mem_flatten.2 ⟨forest, List.mem_replicate.2 ⟨hm.ne', rfl⟩, ht⟩
  obtain ⟨-, a2, a3⟩ := foldl_max_le (((repForest m forest).map SkTree.toTopo).map fun t => npMax t.depthPerNode) 0
  obtain ⟨-, b2, b3⟩ := foldl_max_le ((forest.map SkTree.toTopo).map fun t => npMax t.depthPerNode) 0
  refine le_antisymm ?_ ?_
  · rcases a3 with a3 | a3
    · rw [a3]; exact Nat.zero_le _
    · exact b2 _ ((hmem _).1 a3)
  · rcases b3 with b3 | b3
    · rw [b3]; exact Nat.zero_le _
    · exact a2 _ ((hmem _).2 b3)

/-- `cfg` for the copied forest: with `all_trees` the step size is divided by the number of copies. -/
def copyCfg (m : ℕ) (steps : List ℕ) (cfg : SmoothCfg K) : SmoothCfg K :=
  if cfg.allTrees then
    { cfg with steps := steps, tFix := cfg.tFix / m, adam := cfg.adam.map fun A => { A with eps := m * A.eps } }
  else { cfg with steps := steps }

theorem optimise_copies {sqrt : K → K}
    {ce : (n : ℕ) → SgdOpts K → K → List (Row K n) → List K → List ℕ →
      Except PyErr ((Fin n → K) × (Fin n → K) × List K)}
    {kind : Kind} {cfg : SmoothCfg K} (hL : kind = .reg ∨ cfg.lossL2 = true ∨ CopyFree sqrt ce)
    (hsq : cfg.allTrees = true → cfg.adam ≠ none → ∀ x, 0 ≤ x → 0 ≤ sqrt x ∧ sqrt x ^ 2 = x)
    {n n' : ℕ} (e : n' = n) {rows : List (Row K n)} {rows' : (m : ℕ) → List (Row K m)} {m T : ℕ} (hm : 0 < m)
    (hp : (rows' n).Perm (copies (if cfg.allTrees then 0 else T) m rows)) (hT : cfg.allTrees = false → ∀ r ∈ rows, r.tree < T)
    {steps : List ℕ} (hst : cfg.allTrees = false → ∀ c ∈ steps, c < m * T)
    (hcfg : cfg.steps = if cfg.allTrees then steps else steps.map (· % T))
    {lamb l1 l2 : Fin n → K} {cs : List K}
    (h : smoothOptimise sqrt (ce n) kind cfg rows lamb = .ok (l1, l2, cs)) :
    smoothOptimise sqrt (ce n') kind (copyCfg m steps cfg) (rows' n') (fun j => lamb (Fin.cast e j)) =
      .ok (fun j => l1 (Fin.cast e j), fun j => l2 (Fin.cast e j), cs.map ((m : K) * ·)) := by
  subst e
  unfold smoothOptimise at h ⊢
  cases hal : cfg.allTrees with
  | false =>
    have hT := hT hal
    have hst := hst hal
    rw [hal] at hp hcfg
    simp only [Bool.false_eq_true, if_false] at hp hcfg
    simp only [copyCfg, hal, Bool.false_eq_true, if_false]
    rw [hcfg] at h
    split_ifs at h ⊢ with h1 h2
    · cases h; rfl
    · exact (C182_descent sqrt).1 _ _ 0 _ _ T m hm hT hp _ _ _ _ _ hst h
    · refine (?_ : CopyFree sqrt ce).1 _ _ _ _ _ T m hm hT hp _ _ _ _ _ hst h
      rcases hL with hL | hL | hL
      · exact absurd (Or.inl hL) h2
      · exact absurd (Or.inr hL) h2
      · exact hL
  | true =>
    have hsq := hsq hal
    rw [hal] at hp hcfg
    simp only [if_true] at hp hcfg
    simp only [copyCfg, hal, if_true]
    rw [hcfg] at h
    split_ifs at h ⊢ with h1 h2
    · cases h; rfl
    · exact (C182_descent sqrt).2 _ _ 0 _ _ m hm hp hsq _ _ _ _ _ h
    · refine (?_ : CopyFree sqrt ce).2 _ _ _ _ _ m hm hp hsq _ _ _ _ _ h
      rcases hL with hL | hL | hL
      · exact absurd (Or.inl hL) h2
      · exact absurd (Or.inr hL) h2
      · exact hL

theorem leafList_copy (m : ℕ) (forest : List (SkTree K C)) :
    leafList (repForest (m + 1) forest) = leafList forest ++ leafList (repForest m forest) := by
  unfold leafList repForest
  rw [List.replicate_succ, List.flatten_cons, List.flatMap_append]

/-- C182: a forest in which every tree occurs `m` times, each copy with the tuning data of its original, is smoothed as
the forest itself: with separate trees, a history of random choices acts as the history of the originals chosen; with
`all_trees` the step size has to be divided by `m`. The weights are the same, the costs `m` times as large, and both
returned forests are `m` copies. -/
theorem C182_copies (hC : 0 < C) {sqrt : K → K}
    {ce : (n : ℕ) → SgdOpts K → K → List (Row K n) → List K → List ℕ →
      Except PyErr ((Fin n → K) × (Fin n → K) × List K)}
    {kind : Kind} {forest : List (SkTree K C)} (hwf : ∀ t ∈ forest, t.WF) {cfg : SmoothCfg K}
    (hL : kind = .reg ∨ cfg.lossL2 = true ∨ CopyFree sqrt ce)
    (hsq : cfg.allTrees = true → cfg.adam ≠ none → ∀ x, 0 ≤ x → 0 ≤ sqrt x ∧ sqrt x ^ 2 = x)
    {m : ℕ} (hm : 0 < m) {steps : List ℕ} (hst : cfg.allTrees = false → ∀ c ∈ steps, c < m * forest.length)
    (hcfg : cfg.steps = if cfg.allTrees then steps else steps.map (· % forest.length))
    {sources sources' : TuneSrc → ℕ → List (TuneRow K C)}
    (htune : ∀ src, ∀ i < m * forest.length, sources' src i = sources src (i % forest.length))
    {out : SmoothOut K C (forestDepth forest + 1)}
    (h : smooth sqrt ce (some kind) forest cfg sources = .ok out) :
    ∃ out', smooth sqrt ce (some kind) (List.replicate m forest).flatten
        (if cfg.allTrees then
          { cfg with steps := steps, tFix := cfg.tFix / m, adam := cfg.adam.map fun A => { A with eps := m * A.eps } }
        else { cfg with steps := steps }) sources' = .ok out' ∧
      out'.rf1 = (List.replicate m out.rf1).flatten ∧ out'.rf2 = (List.replicate m out.rf2).flatten ∧
      List.ofFn out'.lamb1 = List.ofFn out.lamb1 ∧ List.ofFn out'.lamb2 = List.ofFn out.lamb2 ∧
      out'.costs = out.costs.map ((m : K) * ·) := by
  change ∃ out' : SmoothOut K C (forestDepth (repForest m forest) + 1),
    smooth sqrt ce (some kind) (repForest m forest) (copyCfg m steps cfg) sources' = .ok out' ∧ _
  have hwf' : ∀ t ∈ repForest m forest, t.WF := fun t ht => hwf t (mem_repForest ht)
  have hf := smooth_forests hC hwf h
  obtain ⟨kind', src, yw, lamb, h0, h1, h2, h3, h4, -, -⟩ := smooth_ok h
  cases h0
  rw [tuneSummaries_eq] at h2
  split_ifs at h2 with hd
  cases h2
  rw [flatRows_eq kind forest hwf] at h4
  have e0 := forestDepth_copy hm forest
  have e : forestDepth (repForest m forest) + 1 = forestDepth forest + 1 := by rw [e0]
  have hopt := optimise_copies (ce := ce) hL hsq e (T := forest.length) hm
    (rows' := fun w => (List.finRange C).flatMap fun c => (leafListI (repForest m forest)).map
        (specRow kind cfg.style cfg.parentsAll cfg.allTrees (sources' src) w c))
    (specRows_copy kind cfg.style cfg.parentsAll cfg.allTrees _ m (htune src))
    (by
      intro hal r hr
      obtain ⟨_, -, hr⟩ := List.mem_flatMap.1 hr
      obtain ⟨q, hq, rfl⟩ := List.mem_map.1 hr
      simp only [specRow, hal, Bool.false_eq_true, if_false]
      exact leafListI_lt hq) hst hcfg h4
  rw [← flatRows_eq kind _ hwf'] at hopt
  have hidx : ∀ tt ∈ (repForest m forest).zipIdx, tt.2 < m * forest.length := fun tt htt => by
    have := List.snd_lt_of_mem_zipIdx htt
    rwa [repForest_length, Nat.add_zero] at this
  have hback : ∀ i < m * forest.length, ∃ tt ∈ forest.zipIdx, tt.2 = i % forest.length := fun i hi => by
    have hT : 0 < forest.length := by
      rcases Nat.eq_zero_or_pos forest.length with h | h
      · rw [h] at hi; simp at hi
      · exact h
    have hlt := Nat.mod_lt i hT
    exact ⟨(forest[i % forest.length], i % forest.length), List.mem_iff_getElem.2
      ⟨i % forest.length, by simpa using hlt, by simp⟩, rfl⟩
  have hd' : ¬ ((∃ tt ∈ (repForest m forest).zipIdx, sources' src tt.2 = []) ∨
      ((decide (kind = .cls) && decide (src ≠ .given)) = true ∧
        ∃ tt ∈ (repForest m forest).zipIdx, ∃ c, ∀ r ∈ sources' src tt.2, r.y c = 0)) := by
    rintro (⟨tt, htt, hc⟩ | ⟨hk, tt, htt, hc⟩)
    · obtain ⟨q, hq, e⟩ := hback tt.2 (hidx tt htt)
      rw [htune src tt.2 (hidx tt htt), ← e] at hc
      exact hd (.inl ⟨q, hq, hc⟩)
    · obtain ⟨q, hq, e⟩ := hback tt.2 (hidx tt htt)
      rw [htune src tt.2 (hidx tt htt), ← e] at hc
      exact hd (.inr ⟨hk, q, hq, hc⟩)
  have hcc : (copyCfg m steps cfg).data = cfg.data ∧ (copyCfg m steps cfg).noConstraint = cfg.noConstraint ∧
      (copyCfg m steps cfg).seed = cfg.seed ∧ (copyCfg m steps cfg).classEps = cfg.classEps ∧
      (copyCfg m steps cfg).allTrees = cfg.allTrees ∧ (copyCfg m steps cfg).style = cfg.style ∧
      (copyCfg m steps cfg).parentsAll = cfg.parentsAll := by
    unfold copyCfg
    split_ifs <;> exact ⟨rfl, rfl, rfl, rfl, rfl, rfl, rfl⟩
  obtain ⟨c1, c2, c3, c4, c5, c6, c7⟩ := hcc
  obtain ⟨out', ho, ho1, ho2, ho3⟩ := smooth_returns hC hwf' (cfg := copyCfg m steps cfg)
    (sources := sources') (src := src) (by rw [c1, c2]; exact h1)
    (by rw [tuneSummaries_eq, if_neg hd']) (by rw [c3, c4]; exact initLamb_cast e0 h3)
    (by rw [c5, c6, c7]; exact hopt)
  have hf' := smooth_forests hC hwf' ho
  rw [c6, c7] at hf'
  have hofn : ∀ l : Fin (forestDepth forest + 1) → K,
      List.ofFn (fun j : Fin (forestDepth (repForest m forest) + 1) => l (Fin.cast e j)) = List.ofFn l := by
    intro l
    refine List.ext_getElem (by rw [List.length_ofFn, List.length_ofFn, e]) fun i h1 h2 => ?_
    rw [List.getElem_ofFn, List.getElem_ofFn]
    rfl
  have hmap : ∀ f : SkTree K C → SkTree K C,
      (repForest m forest).map f = (List.replicate m (forest.map f)).flatten := fun f => by
    unfold repForest
    rw [List.map_flatten, List.map_replicate]
  refine ⟨out', ho, ?_, ?_, (congrArg List.ofFn ho1).trans (hofn _),
    (congrArg List.ofFn ho2).trans (hofn _), ho3⟩
  · rw [forall2_leafUpdate hf.1, forall2_leafUpdate hf'.1, ho1, ← hmap]
    simp only [smoothSpec_width]
  · have hr : ∀ t ∈ forest, ∀ (r : Fin t.nLeaves),
        (leafList (repForest m forest))[r.val]? = (leafList forest)[r.val]? := by
      intro t ht r
      obtain ⟨m, rfl⟩ := Nat.exists_eq_succ_of_ne_zero hm.ne'
      rw [Nat.succ_eq_add_one, leafList_copy]
      exact List.getElem?_append_left (lt_of_lt_of_le r.isLt (nLeaves_le_leafList ht))
    rw [forall2_leafUpdate (f := fun t r c => ((leafList forest)[r.val]?).elim 0 fun p =>
        smoothSpec kind p.1 cfg.style cfg.parentsAll out.lamb2 p.2 c) hf.2,
      forall2_leafUpdate (f := fun t r c => ((leafList (repForest m forest))[r.val]?).elim 0 fun p =>
        smoothSpec kind p.1 cfg.style cfg.parentsAll out'.lamb2 p.2 c) hf'.2, ho2, ← hmap]
    refine List.map_congr_left fun t ht => ?_
    congr 1
    funext r c
    rw [hr t (mem_repForest ht) r]
    simp only [smoothSpec_width]

/-- Two trees, twice: the history 0, 3 acts as 0, 1, and the costs double. -/
example :
    (match smooth (fun x => x) noCe (some .reg) [exStump, exTree]
      { exCfg with sanityCheck := false, steps := [0, 1], tFix := 1 / 1000 } (fun _ => exTuneTwo) with
    | .ok out => some (List.ofFn out.lamb1, out.costs.map (2 * ·),
        (out.rf1 ++ out.rf1).map fun t : SkTree ℚ 1 => List.ofFn fun i => t.value i 0)
    | .error _ => none) =
    (match smooth (fun x => x) noCe (some .reg) [exStump, exTree, exStump, exTree]
      { exCfg with sanityCheck := false, steps := [0, 3], tFix := 1 / 1000 }
      (fun _ i => exTuneTwo (i % 2)) with
    | .ok out => some (List.ofFn out.lamb1, out.costs,
        out.rf1.map fun t : SkTree ℚ 1 => List.ofFn fun i => t.value i 0)
    | .error _ => none) ∧
    (match smooth (fun x => x) noCe (some .reg) [exStump, exTree, exStump, exTree]
      { exCfg with sanityCheck := false, steps := [0, 3], tFix := 1 / 1000 }
      (fun _ i => exTuneTwo (i % 2)) with
    | .ok out => some out.costs
    | .error _ => none) = some [30, 30, 775307040277 / 34623961250] := by
  decide +kernel

/-- With `all_trees` and the same step size the weights do change. -/
theorem C182_step_needed :
    (match smooth (fun x => x) noCe (some .reg) [exTree]
      { exCfg with sanityCheck := false, allTrees := true, steps := [0], seed := some fun i => i + 1, tFix := 1 / 100 }
      (fun _ => exTune) with
    | .ok out => some (List.ofFn out.lamb2)
    | .error _ => none) ≠
    (match smooth (fun x => x) noCe (some .reg) [exTree, exTree]
      { exCfg with sanityCheck := false, allTrees := true, steps := [0], seed := some fun i => i + 1, tFix := 1 / 100 }
      (fun _ _ => exTune 0) with
    | .ok out => some (List.ofFn out.lamb2)
    | .error _ => none) := by
  decide +kernel

end SmoothRF
