import Verif.Props.TreeOrderProps
import Verif.Props.SmoothImpProps

/-!
# C140: the order of the trees under the impurity distance
-/

set_option linter.unusedSectionVars false

namespace SmoothRF
open SkTree Topo

variable {K : Type} [Field K] [LinearOrder K] [IsStrictOrderedRing K] {C : ℕ}

theorem insertionSort_perm {l l' : List K} (h : l'.Perm l) :
    l'.insertionSort (· ≤ ·) = l.insertionSort (· ≤ ·) :=
  List.Perm.eq_of_pairwise (le := (· ≤ ·)) (fun _ _ _ _ => le_antisymm)
    (List.pairwise_insertionSort _ _) (List.pairwise_insertionSort _ _)
    ((List.perm_insertionSort _ l').trans (h.trans (List.perm_insertionSort _ l).symm))

theorem quantileBreaks_perm {l l' : List K} (h : l'.Perm l) (n : ℕ) :
    quantileBreaks l' n = quantileBreaks l n := by
  have e : quantileAt l' n = quantileAt l n := by
    funext k
    unfold quantileAt
    rw [insertionSort_perm h]
  have e2 : l' = [] ↔ l = [] := by
    constructor
    · rintro rfl; exact h.symm.eq_nil
    · rintro rfl; exact h.eq_nil
  unfold quantileBreaks
  simp only [e, e2]

theorem tuneRowsBy_rearranged {τ : ℕ → ℕ} {forest forest' : List (SkTree K C)}
    (h : Rearranged τ forest forest') (kind : Kind)
    (D : (t : SkTree K C) → Fin t.nLeaves → Fin t.nLeaves → ℤ) (pa al : Bool)
    {tune tune' : ℕ → List (TuneRow K C)} (ht : ∀ i < forest.length, tune' (τ i) = tune i) (n : ℕ) :
    ((List.finRange C).flatMap fun c => (leafListI forest').map (tuneRowBy kind D pa al tune' n c)).Perm
      (((List.finRange C).flatMap fun c => (leafListI forest).map (tuneRowBy kind D pa al tune n c)).map
        (relabel (if al then id else τ))) := by
  rw [List.map_flatMap]
  refine List.Perm.flatMap_left _ fun c _ => ?_
  refine ((leafListI_rearranged h).map _).trans ?_
  rw [List.map_map, List.map_map]
  refine List.Perm.of_eq (List.map_congr_left fun q hq => ?_)
  have := ht q.2 (leafListI_lt hq)
  cases al <;> simp [tuneRowBy, relabel, this]

theorem StackedBy.congr {kind : Kind} {forest : List (SkTree K C)} {pa : Bool} {n : ℕ}
    {D D' : (t : SkTree K C) → Fin t.nLeaves → Fin t.nLeaves → ℤ} {ge : GE K C}
    (S : StackedBy kind forest pa n D ge) (h : ∀ t ∈ forest, D t = D' t) :
    StackedBy kind forest pa n D' ge where
  gamma c := by
    rw [S.gamma c]
    exact List.flatMap_congr fun t ht => by rw [h t ht]
  eta := by
    rw [S.eta]
    exact List.flatMap_congr fun t ht => by rw [h t ht]
  tIdx := S.tIdx

/-- The matrices of the rearranged forest: same levels and same width, if tree 0 stays and the breaks
come from the same trees. -/
theorem imp_matrices_order {kind : Kind} {forest forest' : List (SkTree K C)} (hwf : ∀ t ∈ forest, t.WF)
    (hp : forest'.Perm forest) (hhead : forest'.head? = forest.head?) {s : Style} {pa : Bool}
    {levels : Option (Levels K)} (hq : (∃ l, levels = some (.arr l)) ∨ (forest'.take 5).Perm (forest.take 5))
    {ge : GE K C} (h : gammaEtaForestImp kind forest s pa levels = .ok ge) :
    ∃ ge' D, gammaEtaForestImp kind forest' s pa levels = .ok ge' ∧ lastLevel ge' = lastLevel ge ∧
      StackedBy kind forest pa (lastLevel ge + 1) D ge ∧ StackedBy kind forest' pa (lastLevel ge + 1) D ge' := by
  have hwf' : ∀ t ∈ forest', t.WF := fun t ht => hwf t (hp.mem_iff.1 ht)
  obtain ⟨lev, hI, S⟩ := imp_stacked hwf h
  have hex : ∃ ge', gammaEtaForestImp kind forest' s pa levels = .ok ge' := by
    have hne : forest ≠ [] → forest' ≠ [] := fun hn e => hn (by subst e; exact hp.symm.eq_nil)
    have hd : (∀ t ∈ forest, ∃ i j, 0 < t.distImpurity t.impurity s i j) →
        ∀ t ∈ forest', ∃ i j, 0 < t.distImpurity t.impurity s i j :=
      fun hh t ht => hh t (hp.mem_iff.1 ht)
    rcases levels with _ | l | n
    · rw [(C94_returns kind forest s pa).2.2] at h; cases h
    · rcases Nat.eq_zero_or_pos l with rfl | hn
      · unfold gammaEtaForestImp at h
        obtain ⟨lv, hlv, -⟩ := bind_ok h
        cases hlv
      · obtain ⟨a, b⟩ := ((C94_returns kind forest s pa).2.1 l hn).1 ⟨ge, h⟩
        exact ((C94_returns kind forest' s pa).2.1 l hn).2 ⟨hne a, hd b⟩
    · obtain ⟨a, b, c⟩ := ((C94_returns kind forest s pa).1 n).1 ⟨ge, h⟩
      exact ((C94_returns kind forest' s pa).1 n).2 ⟨hne a, b, hd c⟩
  obtain ⟨ge', h'⟩ := hex
  obtain ⟨lev', hI', S'⟩ := imp_stacked hwf' h'
  obtain ⟨⟨lv, b1, ⟨t0, ht0, b2⟩, b3⟩, -⟩ := hI
  obtain ⟨⟨lv', b1', ⟨t0', ht0', b2'⟩, b3'⟩, -⟩ := hI'
  have hlv : lv' = lv := by
    rcases b1 with b1 | ⟨m, b1, hm⟩
    · rcases b1' with b1' | ⟨m', b1', -⟩
      · rw [b1] at b1'; cases b1'; rfl
      · rw [b1] at b1'; cases b1'
    · rcases b1' with b1' | ⟨m', b1', hm'⟩
      · rw [b1] at b1'; cases b1'
      · rw [b1] at b1'
        cases b1'
        rcases hq with ⟨l, hq⟩ | hq
        · rw [b1] at hq; cases hq
        · rw [quantileBreaks_perm (hq.flatMap_right _) m, hm] at hm'
          cases hm'; rfl
  subst hlv
  have ht : t0' = t0 := by
    rw [hhead, ht0] at ht0'
    cases ht0'; rfl
  subst ht
  rw [b2] at b2'
  have hL : lastLevel ge' = lastLevel ge := by
    have := congrArg (fun x : Except PyErr (_ × ℕ) => match x with | .ok p => p.2 | .error _ => 0) b2'
    simp only at this
    omega
  rw [hL] at S'
  refine ⟨ge', _, h', hL, S, S'.congr fun t ht => ?_⟩
  obtain ⟨L1, c1⟩ := b3 t (hp.mem_iff.1 ht)
  obtain ⟨L2, c2⟩ := b3' t ht
  rw [c1] at c2
  have : lev t = lev' t := by
    have := Except.ok.inj c2
    exact (Prod.mk.inj this).1
  rw [this]

theorem valueBy_width (kind : Kind) (t : SkTree K C) (D : Fin t.nLeaves → Fin t.nLeaves → ℤ) (pa : Bool)
    {n n' : ℕ} (e : n' = n) (lamb : Fin n → K) :
    valueBy kind t D pa (fun j => lamb (Fin.cast e j)) = valueBy kind t D pa lamb := by
  subst e; rfl

/-- C140: under the impurity distance smoothing (squared loss, or cross-entropy by
`C115_descent_ce`) does not depend on the order of the trees if tree 0 stays at its place and either the
breaks are given as an array or the same trees remain among the first five.
Both provisos are needed (`C140_refuted_first`, `C140_refuted_five`). -/
theorem C140_impurity_order (hC : 0 < C) {sqrt : K → K}
    {ce : (n : ℕ) → SgdOpts K → K → List (Row K n) → List K → List ℕ →
      Except PyErr ((Fin n → K) × (Fin n → K) × List K)}
    {kind : Kind} {forest forest' : List (SkTree K C)} (hwf : ∀ t ∈ forest, t.WF) {τ : ℕ → ℕ}
    (hτ : Rearranged τ forest forest') (hhead : forest'.head? = forest.head?)
    {levels : Option (Levels K)} (hq : (∃ l, levels = some (.arr l)) ∨ (forest'.take 5).Perm (forest.take 5))
    {cfg : SmoothCfg K} (hL : kind = .reg ∨ cfg.lossL2 = true ∨ OrderFree ce)
    (hst : ∀ c ∈ cfg.steps, c < forest.length) {sources sources' : TuneSrc → ℕ → List (TuneRow K C)}
    (htune : ∀ src, ∀ i < forest.length, sources' src (τ i) = sources src i)
    {out : (n : ℕ) × SmoothOut K C (n + 1)}
    (h : smoothImp sqrt ce (some kind) forest levels cfg sources = .ok out) :
    ∃ out', smoothImp sqrt ce (some kind) forest' levels
        { cfg with steps := if cfg.allTrees then cfg.steps else cfg.steps.map τ } sources' = .ok out' ∧
      Rearranged τ out.2.rf1 out'.2.rf1 ∧ List.ofFn out'.2.lamb1 = List.ofFn out.2.lamb1 ∧
      List.ofFn out'.2.lamb2 = List.ofFn out.2.lamb2 ∧ out'.2.costs = out.2.costs := by
  have hwf' : ∀ t ∈ forest', t.WF := fun t ht => hwf t (hτ.perm.mem_iff.1 ht)
  obtain ⟨kind', src, ge, h0, h1, hge, hn, h2⟩ := smoothImp_ok h
  cases h0
  obtain ⟨m, out⟩ := out
  dsimp only at hn h2
  subst hn
  obtain ⟨ge', D, hge', hL', S, S'⟩ := imp_matrices_order hwf hτ.perm hhead hq hge
  have hf := smoothFrom_forests hC hwf S h2
  obtain ⟨yw, lamb, h3, h4, h5, -, -⟩ := smoothFrom_ok h2
  rw [tuneSummaries_eq] at h3
  split_ifs at h3 with hd
  cases h3
  rw [flatRowsBy_eq S] at h5
  have e : lastLevel ge' + 1 = lastLevel ge + 1 := by rw [hL']
  have hsteps : (if cfg.allTrees then cfg.steps else cfg.steps.map τ) =
      cfg.steps.map (if cfg.allTrees then id else τ) := by
    cases cfg.allTrees <;> simp
  have hopt := optimise_order (ce := ce) hL e (τ := if cfg.allTrees then id else τ)
    (rows' := fun m => (List.finRange C).flatMap fun c => (leafListI forest').map
        (tuneRowBy kind D cfg.parentsAll cfg.allTrees (sources' src) m c))
    (tuneRowsBy_rearranged hτ kind D cfg.parentsAll cfg.allTrees (htune src) _)
    (by
      intro r hr c hc
      obtain ⟨_, -, hr⟩ := List.mem_flatMap.1 hr
      obtain ⟨q, hq, rfl⟩ := List.mem_map.1 hr
      cases hal : cfg.allTrees with
      | true => simp
      | false =>
        simp only [tuneRowBy, Bool.false_eq_true, if_false]
        exact hτ.inj (leafListI_lt hq) (hst c hc)) h5
  rw [← e] at S'
  rw [← flatRowsBy_eq S', ← hsteps] at hopt
  have hd' : ¬ ((∃ tt ∈ forest'.zipIdx, sources' src tt.2 = []) ∨
      ((decide (kind = .cls) && decide (src ≠ .given)) = true ∧
        ∃ tt ∈ forest'.zipIdx, ∃ c, ∀ r ∈ sources' src tt.2, r.y c = 0)) := by
    rintro (⟨tt, htt, hc⟩ | ⟨hk, tt, htt, hc⟩)
    · obtain ⟨q, hq, rfl⟩ := List.mem_map.1 (hτ.mem_iff.1 htt)
      have hlt : q.2 < forest.length := by simpa using List.snd_lt_of_mem_zipIdx hq
      rw [htune src q.2 hlt] at hc
      exact hd (.inl ⟨q, hq, hc⟩)
    · obtain ⟨q, hq, rfl⟩ := List.mem_map.1 (hτ.mem_iff.1 htt)
      have hlt : q.2 < forest.length := by simpa using List.snd_lt_of_mem_zipIdx hq
      rw [htune src q.2 hlt] at hc
      exact hd (.inr ⟨hk, q, hq, hc⟩)
  obtain ⟨out', ho, ho1, ho2, ho3⟩ := smoothFrom_returns hC hwf' S'
    (cfg := { cfg with steps := if cfg.allTrees then cfg.steps else cfg.steps.map τ })
    (sources := sources') (src := src) (sqrt := sqrt) (ce := ce _)
    (by rw [tuneSummaries_eq, if_neg hd']) (initLamb_cast hL' h4) hopt
  have hf' := smoothFrom_forests hC hwf' S' ho
  have hofn : ∀ l : Fin (lastLevel ge + 1) → K,
      List.ofFn (fun j : Fin (lastLevel ge' + 1) => l (Fin.cast e j)) = List.ofFn l := by
    intro l
    refine List.ext_getElem (by rw [List.length_ofFn, List.length_ofFn, e]) fun i h1 h2 => ?_
    rw [List.getElem_ofFn, List.getElem_ofFn]
    rfl
  refine ⟨⟨lastLevel ge', out'⟩, ?_, ?_, by rw [ho1, hofn], by rw [ho2, hofn], ho3⟩
  · unfold smoothImp
    simp only [h1, hge', ho, bind, Except.bind, pure, Except.pure]
  · dsimp only
    rw [forall2_leafUpdate hf.1, forall2_leafUpdate hf'.1, ho1]
    have := hτ.map fun t => withLeaves t fun r => valueBy kind t (D t) cfg.parentsAll out.lamb1 r
    simp only [valueBy_width]
    exact this

/-- A configuration with equal starting weights for the levels above 0. -/
abbrev exImpCfg : SmoothCfg ℚ :=
  { exCfg with
    sanityCheck := false, steps := [0, 1], tFix := 1 / 1000
    seed := some fun i => if i = 0 then 1 else 1 / 2 }

/-- Instance of `C140_impurity_order`: the last two of three trees change places. -/
example : Rearranged (fun i => if i = 0 then 0 else 3 - i) [exTree, exStump, exStump26]
      [exTree, exStump26, exStump] ∧
    (match smoothImp (fun x => x) noCe (some .reg) [exTree, exStump, exStump26] (some (.int 2)) exImpCfg
      (fun _ => exTuneTwo) with
    | .ok out => some out.2.costs.length | .error _ => none) = some 3 ∧
    (match smoothImp (fun x => x) noCe (some .reg) [exTree, exStump, exStump26] (some (.int 2)) exImpCfg
      (fun _ => exTuneTwo) with
    | .ok out => some (List.ofFn out.2.lamb1, out.2.costs) | .error _ => none) =
    (match smoothImp (fun x => x) noCe (some .reg) [exTree, exStump26, exStump] (some (.int 2))
      { exImpCfg with steps := [0, 2] } (fun _ i => exTuneTwo (if i = 0 then 0 else 3 - i)) with
    | .ok out => some (List.ofFn out.2.lamb1, out.2.costs) | .error _ => none) :=
  ⟨List.Perm.cons _ (List.Perm.swap _ _ _), by decide +kernel, by decide +kernel⟩

/-- C140 (refuted): the order of the trees matters. The number of weights is that of the first tree, so
with the breaks `[1, 3]` and no training step the forest of a four-level and a three-level tree has four
weights and the same forest in the other order has three. -/
theorem C140_refuted_first :
    ¬ ∀ (forest forest' : List (SkTree ℚ 1)) (τ : ℕ → ℕ) (levels : Option (Levels ℚ)) (cfg : SmoothCfg ℚ)
      (sources sources' : TuneSrc → ℕ → List (TuneRow ℚ 1)) (out out' : (n : ℕ) × SmoothOut ℚ 1 (n + 1)),
      (∀ t ∈ forest, t.WF) → Rearranged τ forest forest' → cfg.steps = [] →
      (∀ src, ∀ i < forest.length, sources' src (τ i) = sources src i) →
      (∃ l, levels = some (.arr l)) →
      smoothImp (fun x => x) noCe (some .reg) forest levels cfg sources = .ok out →
      smoothImp (fun x => x) noCe (some .reg) forest' levels cfg sources' = .ok out' →
      List.ofFn out'.2.lamb1 = List.ofFn out.2.lamb1 := by
  intro hall
  have k1 : (match smoothImp (fun x => x) noCe (some .reg) [exTree, exStump] (some (.arr [1, 3]))
      { exImpCfg with steps := [] } (fun _ => exTuneTwo) with
    | .ok out => some (List.ofFn out.2.lamb1) | .error _ => none) =
      some [2 / 5, 1 / 5, 1 / 5, 1 / 5] := by decide +kernel
  have k2 : (match smoothImp (fun x => x) noCe (some .reg) [exStump, exTree] (some (.arr [1, 3]))
      { exImpCfg with steps := [] } (fun _ i => exTuneTwo (1 - i)) with
    | .ok out => some (List.ofFn out.2.lamb1) | .error _ => none) =
      some [1 / 2, 1 / 4, 1 / 4] := by decide +kernel
  cases h1 : smoothImp (fun x => x) noCe (some .reg) [exTree, exStump] (some (.arr [1, 3]))
      { exImpCfg with steps := [] } (fun _ => exTuneTwo) with
  | error e => rw [h1] at k1; cases k1
  | ok out =>
    cases h2 : smoothImp (fun x => x) noCe (some .reg) [exStump, exTree] (some (.arr [1, 3]))
      { exImpCfg with steps := [] } (fun _ i => exTuneTwo (1 - i)) with
    | error e => rw [h2] at k2; cases k2
    | ok out' =>
      rw [h1] at k1
      rw [h2] at k2
      simp only [Option.some.injEq] at k1 k2
      have hp : Rearranged (fun i => 1 - i) [exTree, exStump] [exStump, exTree] := List.Perm.swap _ _ _
      have := hall _ _ _ _ _ _ _ out out' (by simp; decide) hp rfl
        (fun src i hi => by
          have : 1 - (1 - i) = i := by
            simp only [List.length_cons, List.length_nil] at hi
            omega
          simp only [this]) ⟨_, rfl⟩ h1 h2
      rw [k1, k2] at this
      exact absurd this (by decide +kernel)

theorem swap_ends {α : Type} (a b : α) (l : List α) : (a :: (l ++ [b])).Perm (b :: (l ++ [a])) :=
  ((List.perm_append_singleton b l).cons a).trans
    ((List.Perm.swap b a l).trans ((List.perm_append_singleton a l).symm.cons b))

/-- C140 (refuted): it also matters when tree 0 stays: an integer `levels` takes the quantiles of the
first five trees only, so moving the sixth tree forward changes the levels of the whole forest. -/
theorem C140_refuted_five :
    ¬ ∀ (forest forest' : List (SkTree ℚ 1)) (τ : ℕ → ℕ) (levels : Option (Levels ℚ)) (cfg : SmoothCfg ℚ)
      (sources sources' : TuneSrc → ℕ → List (TuneRow ℚ 1)) (out out' : (n : ℕ) × SmoothOut ℚ 1 (n + 1)),
      (∀ t ∈ forest, t.WF) → Rearranged τ forest forest' → cfg.steps = [] →
      (∀ src, ∀ i < forest.length, sources' src (τ i) = sources src i) →
      forest'.head? = forest.head? →
      smoothImp (fun x => x) noCe (some .reg) forest levels cfg sources = .ok out →
      smoothImp (fun x => x) noCe (some .reg) forest' levels cfg sources' = .ok out' →
      List.ofFn out'.2.lamb1 = List.ofFn out.2.lamb1 := by
  intro hall
  have k1 : (match smoothImp (fun x => x) noCe (some .reg)
      [exStump, exStump, exStump, exStump, exStump, exTree] (some (.int 2))
      { exImpCfg with steps := [] } (fun _ => exTuneTwo) with
    | .ok out => some (List.ofFn out.2.lamb1) | .error _ => none) =
      some [1 / 2, 1 / 4, 1 / 4] := by decide +kernel
  have k2 : (match smoothImp (fun x => x) noCe (some .reg)
      [exStump, exTree, exStump, exStump, exStump, exStump] (some (.int 2))
      { exImpCfg with steps := [] } (fun _ => exTuneTwo) with
    | .ok out => some (List.ofFn out.2.lamb1) | .error _ => none) =
      some [2 / 5, 1 / 5, 1 / 5, 1 / 5] := by decide +kernel
  cases h1 : smoothImp (fun x => x) noCe (some .reg)
      [exStump, exStump, exStump, exStump, exStump, exTree] (some (.int 2))
      { exImpCfg with steps := [] } (fun _ => exTuneTwo) with
  | error e => rw [h1] at k1; cases k1
  | ok out =>
    cases h2 : smoothImp (fun x => x) noCe (some .reg)
      [exStump, exTree, exStump, exStump, exStump, exStump] (some (.int 2))
      { exImpCfg with steps := [] } (fun _ => exTuneTwo) with
    | error e => rw [h2] at k2; cases k2
    | ok out' =>
      rw [h1] at k1
      rw [h2] at k2
      simp only [Option.some.injEq] at k1 k2
      have hp : Rearranged (fun i => if i = 1 then 5 else if i = 5 then 1 else i)
          [exStump, exStump, exStump, exStump, exStump, exTree]
          [exStump, exTree, exStump, exStump, exStump, exStump] :=
        List.Perm.cons _ (swap_ends (exTree, 1) (exStump, 5) [(exStump, 2), (exStump, 3), (exStump, 4)])
      have := hall _ _ _ _ _ _ _ out out' (by simp; decide) hp rfl
        (fun src i hi => by
          simp only [List.length_cons, List.length_nil] at hi
          interval_cases i <;> rfl) rfl h1 h2
      rw [k1, k2] at this
      exact absurd this (by decide +kernel)

end SmoothRF
