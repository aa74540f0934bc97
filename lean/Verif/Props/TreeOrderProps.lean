import Verif.Props.OrderProps
import Verif.Model.Cost

/-!
# C115: the order of the trees
-/

set_option linter.unusedSectionVars false

namespace SmoothRF
open SkTree Topo

variable {K : Type} [Field K] [LinearOrder K] [IsStrictOrderedRing K] {C : ℕ}

/-- `l'` holds the entries of `l`, entry `i` at position `τ i`. -/
def Rearranged {α : Type} (τ : ℕ → ℕ) (l l' : List α) : Prop :=
  l'.zipIdx.Perm (l.zipIdx.map fun p => (p.1, τ p.2))

theorem zipIdx_map_snd {α : Type} (l : List α) : l.zipIdx.map Prod.snd = List.range l.length := by
  rw [List.zipIdx_map_snd, List.range_eq_range']

theorem Rearranged.perm {α : Type} {τ : ℕ → ℕ} {l l' : List α} (h : Rearranged τ l l') : l'.Perm l := by
  have := h.map Prod.fst
  rw [List.map_map, List.zipIdx_map_fst] at this
  have e : (l.zipIdx.map (Prod.fst ∘ fun p : α × ℕ => (p.1, τ p.2))) = l := by
    conv_rhs => rw [← List.zipIdx_map_fst 0 l]
    rfl
  rwa [e] at this

theorem Rearranged.inj {α : Type} {τ : ℕ → ℕ} {l l' : List α} (h : Rearranged τ l l') {i j : ℕ}
    (hi : i < l.length) (hj : j < l.length) (e : τ i = τ j) : i = j := by
  have := h.map Prod.snd
  rw [zipIdx_map_snd, List.map_map] at this
  have e' : (l.zipIdx.map (Prod.snd ∘ fun p : α × ℕ => (p.1, τ p.2))) = (List.range l.length).map τ := by
    rw [← zipIdx_map_snd, List.map_map]
    rfl
  rw [e'] at this
  have hn : ((List.range l.length).map τ).Nodup := this.nodup_iff.1 List.nodup_range
  exact List.inj_on_of_nodup_map hn (List.mem_range.2 hi) (List.mem_range.2 hj) e

theorem Rearranged.map {α β : Type} {τ : ℕ → ℕ} {l l' : List α} (h : Rearranged τ l l') (f : α → β) :
    Rearranged τ (l.map f) (l'.map f) := by
  unfold Rearranged at h ⊢
  rw [List.zipIdx_map, List.zipIdx_map, List.map_map]
  have := h.map (Prod.map f id)
  rw [List.map_map] at this
  exact this

theorem takeGradient_perm {k : ℕ} {rows rows' : List (Row K k)} (h : rows'.Perm rows) :
    takeGradient rows' = takeGradient rows := by
  funext lamb
  unfold takeGradient
  have e : fillAssert rows' lamb = fillAssert rows lamb := by
    unfold fillAssert
    rw [Bool.eq_iff_iff, List.all_eq_true, List.all_eq_true]
    exact ⟨fun hh r hr => hh r (h.mem_iff.2 hr), fun hh r hr => hh r (h.mem_iff.1 hr)⟩
  rw [e]
  split_ifs
  · congr 1
    funext j
    exact (h.map _).sum_eq
  · rfl

theorem calcCost_perm {k : ℕ} {rows rows' : List (Row K k)} (h : rows'.Perm rows) :
    calcCost rows' = calcCost rows := by
  funext lamb
  unfold calcCost
  have e : fillAssert rows' lamb = fillAssert rows lamb := by
    unfold fillAssert
    rw [Bool.eq_iff_iff, List.all_eq_true, List.all_eq_true]
    exact ⟨fun hh r hr => hh r (h.mem_iff.2 hr), fun hh r hr => hh r (h.mem_iff.1 hr)⟩
  rw [e]
  split_ifs
  · congr 1
    exact (h.map _).sum_eq
  · rfl

/-- The row with another tree number. -/
def relabel {k : ℕ} (τ : ℕ → ℕ) (r : Row K k) : Row K k := { r with tree := τ r.tree }

theorem takeGradient_relabel {k : ℕ} (τ : ℕ → ℕ) (rows : List (Row K k)) :
    takeGradient (rows.map (relabel τ)) = takeGradient rows := by
  funext lamb
  unfold takeGradient fillAssert
  simp only [List.all_map, List.map_map]
  rfl

theorem calcCost_relabel {k : ℕ} (τ : ℕ → ℕ) (rows : List (Row K k)) :
    calcCost (rows.map (relabel τ)) = calcCost rows := by
  funext lamb
  unfold calcCost fillAssert
  simp only [List.all_map, List.map_map]
  rfl

theorem filter_relabel {k : ℕ} (τ : ℕ → ℕ) (rows : List (Row K k)) (c : ℕ)
    (h : ∀ r ∈ rows, τ r.tree = τ c → r.tree = c) :
    (rows.map (relabel τ)).filter (fun r => r.tree == τ c) =
      (rows.filter fun r => r.tree == c).map (relabel τ) := by
  rw [List.filter_map]
  congr 1
  refine List.filter_congr fun r hr => ?_
  rw [Bool.eq_iff_iff]
  simp only [Function.comp, relabel, beq_iff_eq]
  exact ⟨h r hr, fun e => by rw [e]⟩

/-- The descent does not depend on the order of the rows and the numbers of the trees, if cost and
gradient do not. -/
theorem sgdRun_order {k : ℕ} (sqrt : K → K) {tg : List (Row K k) → (Fin k → K) → Except PyErr (Fin k → K)}
    {cc : List (Row K k) → (Fin k → K) → Except PyErr K} (prox : (Fin k → K) → Except PyErr (Fin k → K))
    (htp : ∀ a b : List (Row K k), b.Perm a → tg b = tg a)
    (htr : ∀ (τ : ℕ → ℕ) (a : List (Row K k)), tg (a.map (relabel τ)) = tg a)
    (hcp : ∀ a b : List (Row K k), b.Perm a → cc b = cc a)
    (hcr : ∀ (τ : ℕ → ℕ) (a : List (Row K k)), cc (a.map (relabel τ)) = cc a)
    (o : SgdOpts K) {rows rows' : List (Row K k)} (τ : ℕ → ℕ)
    (hp : rows'.Perm (rows.map (relabel τ))) (init : Fin k → K) (choices : List ℕ)
    (hinj : ∀ r ∈ rows, ∀ c ∈ choices, τ r.tree = τ c → r.tree = c) :
    sgdRun sqrt tg cc prox o rows' init (choices.map τ) = sgdRun sqrt tg cc prox o rows init choices := by
  have hc : cc rows' = cc rows := by rw [hcp _ _ hp, hcr]
  have hg : ∀ c ∈ choices, tg (rows'.filter fun r => r.tree == τ c) =
      tg (rows.filter fun r => r.tree == c) := by
    intro c hcm
    rw [htp _ _ (hp.filter _), filter_relabel τ rows c fun r hr => hinj r hr c hcm, htr]
  have hstep : ∀ c ∈ choices, ∀ s, sgdStep sqrt tg cc prox o rows' s (τ c) =
      sgdStep sqrt tg cc prox o rows s c := by
    intro c hcm s
    unfold sgdStep sgdMove sgdPre
    dsimp only
    rw [hg c hcm, hc]
  have hfold : ∀ (cs : List ℕ), (∀ c ∈ cs, c ∈ choices) → ∀ s,
      (cs.map τ).foldlM (sgdStep sqrt tg cc prox o rows') s =
      cs.foldlM (sgdStep sqrt tg cc prox o rows) s := by
    intro cs
    induction cs with
    | nil => intro _ s; rfl
    | cons c cs ih =>
      intro h s
      rw [List.map_cons, List.foldlM_cons, List.foldlM_cons, hstep c (h c (by simp))]
      exact bind_congr_ok fun s' _ => ih (fun c' hc' => h c' (by simp [hc'])) s'
  have hemp : rows'.isEmpty = rows.isEmpty := by
    have := hp.length_eq
    rw [List.length_map] at this
    cases rows' <;> cases rows <;> simp_all
  unfold sgdRun
  simp only [hc, hemp, hfold choices fun c h => h]

/-- C115, descent: rows in another order, trees renumbered, and the same trees chosen: same result. -/
theorem C115_descent {k : ℕ} (sqrt : K → K) (o : SgdOpts K) {rows rows' : List (Row K k)} (τ : ℕ → ℕ)
    (hp : rows'.Perm (rows.map (relabel τ))) (lambInit : List K) (choices : List ℕ)
    (hinj : ∀ r ∈ rows, ∀ c ∈ choices, τ r.tree = τ c → r.tree = c) :
    sgd sqrt o rows' lambInit (choices.map τ) = sgd sqrt o rows lambInit choices := by
  unfold sgd
  simp only [sgdRun_order sqrt proxProject (fun _ _ => takeGradient_perm) takeGradient_relabel
    (fun _ _ => calcCost_perm) calcCost_relabel o τ hp _ choices hinj]

theorem fillAssert_perm {k : ℕ} {rows rows' : List (Row K k)} (h : rows'.Perm rows) (lamb : Fin k → K) :
    fillAssert rows' lamb = fillAssert rows lamb := by
  unfold fillAssert
  rw [Bool.eq_iff_iff, List.all_eq_true, List.all_eq_true]
  exact ⟨fun hh r hr => hh r (h.mem_iff.2 hr), fun hh r hr => hh r (h.mem_iff.1 hr)⟩

theorem takeGradientCe_perm {k : ℕ} {rows rows' : List (Row K k)} (h : rows'.Perm rows) :
    takeGradientCe rows' = takeGradientCe rows := by
  funext lamb
  unfold takeGradientCe
  have e2 : (rows'.any fun r => decide (pHat r lamb = 0)) = rows.any fun r => decide (pHat r lamb = 0) := by
    rw [Bool.eq_iff_iff, List.any_eq_true, List.any_eq_true]
    exact exists_congr fun r => and_congr_left fun _ => h.mem_iff
  rw [fillAssert_perm h, e2]
  split_ifs
  · rfl
  · congr 1
    funext j
    exact (h.map _).sum_eq
  · rfl

theorem takeGradientCe_relabel {k : ℕ} (τ : ℕ → ℕ) (rows : List (Row K k)) :
    takeGradientCe (rows.map (relabel τ)) = takeGradientCe rows := by
  funext lamb
  unfold takeGradientCe fillAssert
  simp only [List.all_map, List.any_map, List.map_map]
  rfl

theorem calcCostCe_perm {k : ℕ} {rows rows' : List (Row ℝ k)} (h : rows'.Perm rows) :
    calcCostCe rows' = calcCostCe rows := by
  funext lamb
  unfold calcCostCe
  dsimp only
  have h2 := h.filter fun r => !decide (r.w = 0) && !decide (r.y = 0)
  simp only [h.mem_iff, h2.mem_iff, (h2.map fun r => r.w * r.y * Real.log (pHat r lamb)).sum_eq]

theorem calcCostCe_relabel {k : ℕ} (τ : ℕ → ℕ) (rows : List (Row ℝ k)) :
    calcCostCe (rows.map (relabel τ)) = calcCostCe rows := by
  funext lamb
  have e : (rows.map (relabel τ)).filter (fun r => !decide (r.w = 0) && !decide (r.y = 0)) =
      (rows.filter fun r => !decide (r.w = 0) && !decide (r.y = 0)).map (relabel τ) := by
    rw [List.filter_map]
    rfl
  unfold calcCostCe
  dsimp only
  rw [e]
  simp only [List.map_map, List.mem_map, exists_exists_and_eq_and, forall_exists_index, and_imp,
    forall_apply_eq_imp_iff₂]
  rfl

/-- A descent that does not depend on the order of the rows and the numbers of the trees. -/
def OrderFree (ce : (n : ℕ) → SgdOpts K → K → List (Row K n) → List K → List ℕ →
    Except PyErr ((Fin n → K) × (Fin n → K) × List K)) : Prop :=
  ∀ n o eps (rows rows' : List (Row K n)) (τ : ℕ → ℕ), rows'.Perm (rows.map (relabel τ)) →
    ∀ init choices, (∀ r ∈ rows, ∀ c ∈ choices, τ r.tree = τ c → r.tree = c) →
      ce n o eps rows' init (choices.map τ) = ce n o eps rows init choices

/-- C115, cross-entropy descent: the same. -/
theorem C115_descent_ce (sqrt : ℝ → ℝ) (approxOne : ℝ → Bool) :
    OrderFree fun _ o eps rows init choices => sgdCe sqrt approxOne o eps rows init choices := by
  intro n o eps rows rows' τ hp init choices hinj
  unfold sgdCe
  simp only [sgdRun_order sqrt (proxProjectCe · eps) (fun _ _ => takeGradientCe_perm)
    takeGradientCe_relabel (fun _ _ => calcCostCe_perm) calcCostCe_relabel o τ hp _ choices hinj]

theorem optimise_order {sqrt : K → K}
    {ce : (n : ℕ) → SgdOpts K → K → List (Row K n) → List K → List ℕ →
      Except PyErr ((Fin n → K) × (Fin n → K) × List K)}
    {kind : Kind} {cfg : SmoothCfg K} (hL : kind = .reg ∨ cfg.lossL2 = true ∨ OrderFree ce) {n n' : ℕ} (e : n' = n)
    {rows : List (Row K n)} {rows' : (m : ℕ) → List (Row K m)} (τ : ℕ → ℕ)
    (hp : (rows' n).Perm (rows.map (relabel τ)))
    (hinj : ∀ r ∈ rows, ∀ c ∈ cfg.steps, τ r.tree = τ c → r.tree = c)
    {lamb l1 l2 : Fin n → K} {cs : List K}
    (h : smoothOptimise sqrt (ce n) kind cfg rows lamb = .ok (l1, l2, cs)) :
    smoothOptimise sqrt (ce n') kind { cfg with steps := cfg.steps.map τ } (rows' n')
      (fun j => lamb (Fin.cast e j)) =
      .ok (fun j => l1 (Fin.cast e j), fun j => l2 (Fin.cast e j), cs) := by
  subst e
  unfold smoothOptimise at h ⊢
  dsimp only at h ⊢
  split_ifs at h ⊢ with h1
  · cases h; rfl
  · exact (C115_descent sqrt _ τ hp _ _ hinj).trans h
  · rename_i h2
    refine ((?_ : OrderFree ce) _ _ _ _ _ τ hp _ _ hinj).trans h
    rcases hL with hL | hL | hL
    · exact absurd (Or.inl hL) h2
    · exact absurd (Or.inr hL) h2
    · exact hL

theorem leafListI_rearranged {τ : ℕ → ℕ} {forest forest' : List (SkTree K C)} (h : Rearranged τ forest forest') :
    (leafListI forest').Perm ((leafListI forest).map fun q => (q.1, τ q.2)) := by
  unfold leafListI
  refine (h.flatMap_right _).trans ?_
  rw [List.flatMap_map, List.map_flatMap]
  refine List.Perm.of_eq ?_
  apply List.flatMap_congr
  intro tt _
  rw [List.map_map]
  rfl

theorem leafListI_lt {forest : List (SkTree K C)} {q : ((t : SkTree K C) × Fin t.nLeaves) × ℕ}
    (h : q ∈ leafListI forest) : q.2 < forest.length := by
  unfold leafListI at h
  obtain ⟨tt, h1, h2⟩ := List.mem_flatMap.1 h
  obtain ⟨r, -, rfl⟩ := List.mem_map.1 h2
  have := List.snd_lt_of_mem_zipIdx h1
  simpa using this

theorem specRows_rearranged {τ : ℕ → ℕ} {forest forest' : List (SkTree K C)}
    (h : Rearranged τ forest forest') (kind : Kind) (s : Style) (pa al : Bool)
    {tune tune' : ℕ → List (TuneRow K C)} (ht : ∀ i < forest.length, tune' (τ i) = tune i) (n : ℕ) :
    ((List.finRange C).flatMap fun c => (leafListI forest').map (specRow kind s pa al tune' n c)).Perm
      (((List.finRange C).flatMap fun c => (leafListI forest).map (specRow kind s pa al tune n c)).map
        (relabel (if al then id else τ))) := by
  rw [List.map_flatMap]
  refine List.Perm.flatMap_left _ fun c _ => ?_
  refine ((leafListI_rearranged h).map _).trans ?_
  rw [List.map_map, List.map_map]
  refine List.Perm.of_eq (List.map_congr_left fun q hq => ?_)
  have := ht q.2 (leafListI_lt hq)
  cases al <;> simp [specRow, relabel, this]

theorem forestDepth_perm {forest forest' : List (SkTree K C)} (h : forest'.Perm forest) :
    forestDepth forest' = forestDepth forest := by
  unfold forestDepth
  rw [calcDepthForForest_eq, calcDepthForForest_eq]
  exact ((h.map _).map _).foldl_eq (rcomm := ⟨fun a b c => by omega⟩) 0

theorem initLamb_cast {kind : Kind} {seed : Option (ℕ → K)} {eps : K} {n n' : ℕ} (e : n' = n)
    {lamb : Fin (n + 1) → K} (h : initLamb kind seed eps = .ok lamb) :
    initLamb kind seed eps = .ok (fun j : Fin (n' + 1) => lamb (Fin.cast (by rw [e]) j)) := by
  subst e
  exact h

/-- The tree `t` with the leaf values `f`. -/
noncomputable def withLeaves (t : SkTree K C) (f : Fin t.nLeaves → Fin C → K) : SkTree K C :=
  { t with value := fun i c => open Classical in
      if h : ∃ r, t.leafNode r = i then f h.choose c else t.value i c }

theorem leafUpdate_eq {t t' : SkTree K C} {f : Fin t.nLeaves → Fin C → K} (h : LeafUpdate t t' f) :
    t' = withLeaves t f := by
  obtain ⟨v, rfl, h1, h2⟩ := h
  unfold withLeaves
  congr 1
  funext i c
  split_ifs with hi
  · obtain e := hi.choose_spec
    rw [← h1 hi.choose c, e]
  · refine h2 i c fun hl => hi ?_
    refine exists_leafNode (t := t.toTopo) (i := i) ?_
    cases hh : t.right i with
    | none => rfl
    | some c => exact absurd (Or.inr hh) (hl c)

theorem forall2_leafUpdate {forest rf : List (SkTree K C)}
    {f : (t : SkTree K C) → Fin t.nLeaves → Fin C → K}
    (h : List.Forall₂ (fun t t' => LeafUpdate t t' (f t)) forest rf) :
    rf = forest.map fun t => withLeaves t (f t) := by
  induction h with
  | nil => rfl
  | cons h1 _ ih => rw [List.map_cons, ih, leafUpdate_eq h1]

theorem smoothSpec_width (kind : Kind) (t : SkTree K C) (s : Style) (pa : Bool) {n n' : ℕ} (e : n' = n)
    (lamb : Fin n → K) : smoothSpec kind t s pa (fun j => lamb (Fin.cast e j)) = smoothSpec kind t s pa lamb := by
  subst e; rfl

/-- C115: smoothing (squared loss, or cross-entropy by `C115_descent_ce`) does not depend on the order of
the trees: if tree `i` moves to
position `τ i`, together with its tuning data and its random choices, `smooth` returns the same
weights and costs and the same first forest in the new order. -/
theorem C115_tree_order (hC : 0 < C) {sqrt : K → K}
    {ce : (n : ℕ) → SgdOpts K → K → List (Row K n) → List K → List ℕ →
      Except PyErr ((Fin n → K) × (Fin n → K) × List K)}
    {kind : Kind} {forest forest' : List (SkTree K C)} (hwf : ∀ t ∈ forest, t.WF) {τ : ℕ → ℕ}
    (hτ : Rearranged τ forest forest') {cfg : SmoothCfg K}
    (hL : kind = .reg ∨ cfg.lossL2 = true ∨ OrderFree ce)
    (hst : ∀ c ∈ cfg.steps, c < forest.length) {sources sources' : TuneSrc → ℕ → List (TuneRow K C)}
    (htune : ∀ src, ∀ i < forest.length, sources' src (τ i) = sources src i)
    {out : SmoothOut K C (forestDepth forest + 1)}
    (h : smooth sqrt ce (some kind) forest cfg sources = .ok out) :
    ∃ out', smooth sqrt ce (some kind) forest'
        { cfg with steps := if cfg.allTrees then cfg.steps else cfg.steps.map τ } sources' = .ok out' ∧
      Rearranged τ out.rf1 out'.rf1 ∧ List.ofFn out'.lamb1 = List.ofFn out.lamb1 ∧
      List.ofFn out'.lamb2 = List.ofFn out.lamb2 ∧ out'.costs = out.costs := by
  have hwf' : ∀ t ∈ forest', t.WF := fun t ht => hwf t (hτ.perm.mem_iff.1 ht)
  have hf := smooth_forests hC hwf h
  obtain ⟨kind', src, yw, lamb, h0, h1, h2, h3, h4, -, -⟩ := smooth_ok h
  cases h0
  rw [tuneSummaries_eq] at h2
  split_ifs at h2 with hd
  cases h2
  rw [flatRows_eq kind forest hwf] at h4
  have e0 := forestDepth_perm hτ.perm
  have e : forestDepth forest' + 1 = forestDepth forest + 1 := by rw [e0]
  have hsteps : (if cfg.allTrees then cfg.steps else cfg.steps.map τ) =
      cfg.steps.map (if cfg.allTrees then id else τ) := by
    cases cfg.allTrees <;> simp
  have hopt := optimise_order (ce := ce) hL e (τ := if cfg.allTrees then id else τ)
    (rows' := fun m => (List.finRange C).flatMap fun c => (leafListI forest').map
        (specRow kind cfg.style cfg.parentsAll cfg.allTrees (sources' src) m c))
    (specRows_rearranged hτ kind cfg.style cfg.parentsAll cfg.allTrees (htune src) _)
    (by
      intro r hr c hc
      obtain ⟨_, -, hr⟩ := List.mem_flatMap.1 hr
      obtain ⟨q, hq, rfl⟩ := List.mem_map.1 hr
      cases hal : cfg.allTrees with
      | true => simp
      | false =>
        simp only [specRow, Bool.false_eq_true, if_false]
        exact hτ.inj (leafListI_lt hq) (hst c hc)) h4
  rw [← flatRows_eq kind _ hwf', ← hsteps] at hopt
  have hd' : ¬ ((∃ tt ∈ forest'.zipIdx, sources' src tt.2 = []) ∨
      ((decide (kind = .cls) && decide (src ≠ .given)) = true ∧
        ∃ tt ∈ forest'.zipIdx, ∃ c, ∀ r ∈ sources' src tt.2, r.y c = 0)) := by
    rintro (⟨tt, htt, hc⟩ | ⟨hk, tt, htt, hc⟩)
    · obtain ⟨q, hq, rfl⟩ := List.mem_map.1 (hτ.mem_iff.1 htt)
      have hlt : q.2 < forest.length := by simpa using List.snd_lt_of_mem_zipIdx hq
      rw [htune src q.2 hlt] at hc
      exact hd (.inl ⟨q, hq, hc⟩)
    · obtain ⟨q, hq, rfl⟩ := List.mem_map.1 (hτ.mem_iff.1 htt)
      have hlt : q.2 < forest.length := by simpa using List.snd_lt_of_mem_zipIdx hq
      rw [htune src q.2 hlt] at hc
      exact hd (.inr ⟨hk, q, hq, hc⟩)
  obtain ⟨out', ho, ho1, ho2, ho3⟩ := smooth_returns hC hwf'
    (cfg := { cfg with steps := if cfg.allTrees then cfg.steps else cfg.steps.map τ })
    (sources := sources') (src := src) h1
    (by rw [tuneSummaries_eq, if_neg hd']) (initLamb_cast e0 h3) hopt
  have hf' := smooth_forests hC hwf' ho
  have hofn : ∀ l : Fin (forestDepth forest + 1) → K,
      List.ofFn (fun j : Fin (forestDepth forest' + 1) => l (Fin.cast e j)) = List.ofFn l := by
    intro l
    refine List.ext_getElem (by rw [List.length_ofFn, List.length_ofFn, e]) fun i h1 h2 => ?_
    rw [List.getElem_ofFn, List.getElem_ofFn]
    rfl
  refine ⟨out', ho, ?_, by rw [ho1, hofn], by rw [ho2, hofn], ho3⟩
  rw [forall2_leafUpdate hf.1, forall2_leafUpdate hf'.1, ho1]
  have := hτ.map fun t => withLeaves t fun r => smoothSpec kind t cfg.style cfg.parentsAll out.lamb1 r
  simp only [smoothSpec_width]
  exact this

/-- Tuning data of two trees. -/
abbrev exTuneTwo : ℕ → List (TuneRow ℚ 1) := fun i =>
  if i = 0 then [⟨0, fun _ => 2⟩, ⟨1, fun _ => 5⟩] else [⟨0, fun _ => 3⟩, ⟨2, fun _ => 7⟩]

/-- Instance of C115: two trees swapped, two steps; the second one lowers the cost. -/
example : Rearranged (fun i => 1 - i) [exStump, exTree] [exTree, exStump] ∧
    (match smooth (fun x => x) noCe (some .reg) [exStump, exTree]
      { exCfg with sanityCheck := false, steps := [0, 1], tFix := 1 / 1000 } (fun _ => exTuneTwo) with
    | .ok out => some out.costs
    | .error _ => none) = some [15, 15, 775307040277 / 69247922500] ∧
    (match smooth (fun x => x) noCe (some .reg) [exStump, exTree]
      { exCfg with sanityCheck := false, steps := [0, 1], tFix := 1 / 1000 } (fun _ => exTuneTwo) with
    | .ok out => some (List.ofFn out.lamb1, out.costs,
        out.rf1.map fun t : SkTree ℚ 1 => List.ofFn fun i => t.value i 0)
    | .error _ => none) =
    (match smooth (fun x => x) noCe (some .reg) [exTree, exStump]
      { exCfg with sanityCheck := false, steps := [1, 0], tFix := 1 / 1000 }
      (fun _ i => exTuneTwo (1 - i)) with
    | .ok out => some (List.ofFn out.lamb1, out.costs,
        (out.rf1.map fun t : SkTree ℚ 1 => List.ofFn fun i => t.value i 0).reverse)
    | .error _ => none) :=
  ⟨(List.Perm.swap _ _ _), by decide +kernel, by decide +kernel⟩

/-- The second returned forest does depend on the order of the trees: with weights that change
nothing, the trees of the swapped forest receive other values than before (line 1416 advances the wrong
counter, so every tree gets the leaves of the first one). -/
theorem C115_second_forest_depends_on_order :
    ∃ (forest forest' : List (SkTree ℚ 1)) (cfg : SmoothCfg ℚ) (sources sources' : TuneSrc → ℕ → List (TuneRow ℚ 1))
      (out : SmoothOut ℚ 1 (forestDepth forest + 1)) (out' : SmoothOut ℚ 1 (forestDepth forest' + 1)),
      Rearranged (fun i => 1 - i) forest forest' ∧ cfg.steps = [] ∧
      (∀ src, ∀ i < forest.length, sources' src (1 - i) = sources src i) ∧
      smooth (fun x => x) noCe (some .reg) forest cfg sources = .ok out ∧
      smooth (fun x => x) noCe (some .reg) forest' cfg sources' = .ok out' ∧
      ¬ Rearranged (fun i => 1 - i) out.rf2 out'.rf2 := by
  have k1 : (match smooth (fun x => x) noCe (some .reg) [exStump, exTree] exCfg (fun _ => exTuneTwo) with
    | .ok out => some (out.rf2.map fun t : SkTree ℚ 1 => List.ofFn fun i => t.value i 0)
    | .error _ => none) = some [[5 / 2, 1, 4], [13 / 2, 3, 1, 4, 1]] := by decide +kernel
  have k2 : (match smooth (fun x => x) noCe (some .reg) [exTree, exStump] exCfg
      (fun _ i => exTuneTwo (1 - i)) with
    | .ok out => some (out.rf2.map fun t : SkTree ℚ 1 => List.ofFn fun i => t.value i 0)
    | .error _ => none) = some [[13 / 2, 3, 1, 4, 10], [5 / 2, 1, 4]] := by decide +kernel
  cases h1 : smooth (fun x => x) noCe (some .reg) [exStump, exTree] exCfg (fun _ => exTuneTwo) with
  | error e => rw [h1] at k1; cases k1
  | ok out =>
    cases h2 : smooth (fun x => x) noCe (some .reg) [exTree, exStump] exCfg (fun _ i => exTuneTwo (1 - i)) with
    | error e => rw [h2] at k2; cases k2
    | ok out' =>
      rw [h1] at k1
      rw [h2] at k2
      simp only [Option.some.injEq] at k1 k2
      refine ⟨_, _, exCfg, _, _, out, out', List.Perm.swap _ _ _, rfl, ?_, h1, h2, fun hp => ?_⟩
      · intro src i hi
        have : 1 - (1 - i) = i := by
          simp only [List.length_cons, List.length_nil] at hi
          omega
        rw [this]
      · have := hp.perm.map fun t : SkTree ℚ 1 => List.ofFn fun i => t.value i 0
        rw [k1, k2] at this
        exact absurd this (by decide +kernel)

end SmoothRF
