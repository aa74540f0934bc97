import Verif.Props.AffineProps
import Verif.Props.RenameProps

/-!
# C137: repeated tuning data
-/

set_option linter.unusedSectionVars false

namespace SmoothRF
open SkTree Topo

variable {K : Type} [Field K] [LinearOrder K] [IsStrictOrderedRing K] {k : ℕ}

/-- The row with its weight multiplied by `s`. -/
def heavier (s : K) (r : Row K k) : Row K k := { r with w := s * r.w }

theorem filter_heavier (s : K) (rows : List (Row K k)) (c : ℕ) :
    (rows.map (heavier s)).filter (fun r => r.tree == c) = (rows.filter fun r => r.tree == c).map (heavier s) :=
  List.filter_map

theorem fillAssert_heavier (s : K) (rows : List (Row K k)) (lamb : Fin k → K) :
    fillAssert (rows.map (heavier s)) lamb = fillAssert rows lamb := by
  unfold fillAssert
  rw [List.all_map]
  rfl

theorem takeGradient_heavier (s : K) {rows : List (Row K k)} {lamb g : Fin k → K}
    (h : takeGradient rows lamb = .ok g) :
    takeGradient (rows.map (heavier s)) lamb = .ok fun j => s * g j := by
  unfold takeGradient at h ⊢
  rw [fillAssert_heavier]
  split_ifs at h ⊢
  cases h
  congr 1
  funext j
  rw [List.map_map, ← List.sum_map_mul_left]
  congr 1
  refine List.map_congr_left fun r _ => ?_
  show -2 * residual r lamb * (s * r.w) *
      (1 / etaFill r lamb * r.gam j - dot r.gam lamb / etaFill r lamb ^ 2 * r.eta j) = _
  ring

theorem calcCost_heavier (s : K) {rows : List (Row K k)} {lamb : Fin k → K} {c : K}
    (h : calcCost rows lamb = .ok c) : calcCost (rows.map (heavier s)) lamb = .ok (s * c) := by
  unfold calcCost at h ⊢
  rw [fillAssert_heavier]
  split_ifs at h ⊢
  cases h
  congr 1
  rw [List.map_map, ← List.sum_map_mul_left]
  congr 1
  refine List.map_congr_left fun r _ => ?_
  show residual r lamb ^ 2 * (s * r.w) = _
  ring

theorem takeGradientCe_heavier (s : K) {rows : List (Row K k)} {lamb g : Fin k → K}
    (h : takeGradientCe rows lamb = .ok g) :
    takeGradientCe (rows.map (heavier s)) lamb = .ok fun j => s * g j := by
  unfold takeGradientCe at h ⊢
  rw [fillAssert_heavier, List.any_map]
  split_ifs at h with h1 h2
  cases h
  rw [if_pos h1, if_neg (by exact h2)]
  congr 1
  funext j
  rw [List.map_map, ← List.sum_map_mul_left]
  congr 1
  refine List.map_congr_left fun r _ => ?_
  show (r.gam j * etaFill r lamb - r.eta j * dot r.gam lamb) / etaFill r lamb ^ 2 *
      (-(s * r.w) * r.y / pHat r lamb) = _
  ring

theorem calcCostCe_heavier {k : ℕ} {s : ℝ} (hs : s ≠ 0) {rows : List (Row ℝ k)} {lamb : Fin k → ℝ} {c : ℝ}
    (h : calcCostCe rows lamb = .ok c) : calcCostCe (rows.map (heavier s)) lamb = .ok (s * c) := by
  have ef : (rows.map (heavier s)).filter (fun r => !decide (r.w = 0) && !decide (r.y = 0)) =
      (rows.filter fun r => !decide (r.w = 0) && !decide (r.y = 0)).map (heavier s) := by
    rw [List.filter_map]
    congr 2
    funext r
    rw [Bool.eq_iff_iff]
    simp only [heavier, Function.comp, Bool.and_eq_true, Bool.not_eq_true', decide_eq_false_iff_not, mul_eq_zero,
      hs, false_or]
    exact and_congr_right fun _ => decide_eq_false_iff_not
  unfold calcCostCe at h ⊢
  dsimp only at h ⊢
  rw [ef]
  have e1 : ((∀ r ∈ rows.map (heavier s), ∀ j, 0 ≤ r.gam j) ∧ ∀ j, 0 ≤ lamb j) ↔
      ((∀ r ∈ rows, ∀ j, 0 ≤ r.gam j) ∧ ∀ j, 0 ≤ lamb j) := by
    rw [List.forall_mem_map]
    rfl
  split_ifs at h with h1 h2
  cases h
  rw [if_pos (e1.2 h1), if_neg]
  · congr 1
    rw [List.map_map, mul_neg, ← List.sum_map_mul_left]
    congr 2
    refine List.map_congr_left fun r _ => ?_
    show s * r.w * r.y * Real.log (pHat r lamb) = _
    ring
  · rintro ⟨r, hr, hp⟩
    obtain ⟨r0, h0, rfl⟩ := List.mem_map.1 hr
    exact h2 ⟨r0, h0, hp⟩

/-- C137, descent: with all weights multiplied by `s > 0`, step size `t / s` (Adam: `eps * s`), both
descents visit the same weights and record `s` times the costs. -/
theorem C137_descent {sqrt : K → K} {s : K} (hs : 0 < s) {o : SgdOpts K}
    (hsq : o.adam ≠ none → ∀ x, 0 ≤ x → 0 ≤ sqrt x ∧ sqrt x ^ 2 = x) {rows : List (Row K k)}
    {init : List K} {choices : List ℕ} {best last : Fin k → K} {costs : List K}
    (h : sgd sqrt o rows init choices = .ok (best, last, costs)) :
    sgd sqrt ⟨o.tFix / s, o.constrained, o.adam.map fun A => { A with eps := s * A.eps }⟩
      (rows.map fun r => { r with w := s * r.w }) init choices = .ok (best, last, costs.map (s * ·)) := by
  unfold sgd at h ⊢
  dsimp only at h ⊢
  split_ifs at h ⊢ with h1 h2
  exact sgdRun_scale hs (fun hA x hx => sqrt_scale (hsq hA) hs x hx) (by simp) (fun _ => True)
    (fun l _ c g hg => by
      show takeGradient ((rows.map (heavier s)).filter fun r => r.tree == c) l = _
      rw [filter_heavier]
      exact takeGradient_heavier s hg)
    (fun l _ x hx => calcCost_heavier s hx) trivial (fun _ _ _ _ => trivial) h

/-- A descent in which only the product of step size and weights matters. -/
def ScaleFree (sqrt : K → K) (ce : (n : ℕ) → SgdOpts K → K → List (Row K n) → List K → List ℕ →
    Except PyErr ((Fin n → K) × (Fin n → K) × List K)) : Prop :=
  ∀ n o eps (rows : List (Row K n)) init choices best last costs (s : K), 0 < s →
    (o.adam ≠ none → ∀ x, 0 ≤ x → 0 ≤ sqrt x ∧ sqrt x ^ 2 = x) →
    ce n o eps rows init choices = .ok (best, last, costs) →
    ce n ⟨o.tFix / s, o.constrained, o.adam.map fun A => { A with eps := s * A.eps }⟩ eps
      (rows.map fun r => { r with w := s * r.w }) init choices = .ok (best, last, costs.map (s * ·))

/-- C137, cross-entropy descent: the same. -/
theorem C137_descent_ce (sqrt : ℝ → ℝ) (approxOne : ℝ → Bool) :
    ScaleFree sqrt fun _ o eps rows init choices => sgdCe sqrt approxOne o eps rows init choices := by
  intro n o eps rows init choices best last costs s hs hsq h
  unfold sgdCe at h ⊢
  dsimp only at h ⊢
  split_ifs at h ⊢ with h1 h2
  exact sgdRun_scale hs (fun hA x hx => sqrt_scale (hsq hA) hs x hx) (by simp) (fun _ => True)
    (fun l _ c g hg => by
      show takeGradientCe ((rows.map (heavier s)).filter fun r => r.tree == c) l = _
      rw [filter_heavier]
      exact takeGradientCe_heavier s hg)
    (fun l _ x hx => calcCostCe_heavier hs.ne' hx) trivial (fun _ _ _ _ => trivial) h

variable {C : ℕ}

/-- Every tuning row occurs `m` times as often. -/
def Repeats (m : ℕ) (rows rows' : List (TuneRow K C)) : Prop := rows'.Perm (List.replicate m rows).flatten

theorem sum_repeats {m : ℕ} {rows rows' : List (TuneRow K C)} (h : Repeats m rows rows')
    (p : TuneRow K C → Bool) (f : TuneRow K C → K) :
    ((rows'.filter p).map f).sum = m * ((rows.filter p).map f).sum := by
  rw [((h.filter p).map f).sum_eq]
  clear h
  induction m with
  | zero => simp
  | succ m ih =>
    rw [List.replicate_succ, List.flatten_cons, List.filter_append, List.map_append, List.sum_append, ih]
    push_cast
    ring

theorem leafWeight_repeats {m : ℕ} {rows rows' : List (TuneRow K C)} (h : Repeats m rows rows') (i : ℕ) :
    leafWeight rows' i = m * leafWeight rows i := by
  have := sum_repeats h (fun r => r.leaf == i) fun _ => 1
  simpa [leafWeight] using this

theorem leafMean_repeats {m : ℕ} (hm : m ≠ 0) {rows rows' : List (TuneRow K C)} (h : Repeats m rows rows')
    (i : ℕ) (c : Fin C) : leafMean rows' i c = leafMean rows i c := by
  have hm' : (m : K) ≠ 0 := Nat.cast_ne_zero.2 hm
  unfold leafMean
  rw [sum_repeats h, leafWeight_repeats h]
  by_cases h0 : leafWeight rows i = 0
  · have : ((rows.filter fun r => r.leaf == i)) = [] := by
      unfold leafWeight at h0
      exact List.length_eq_zero_iff.1 (by exact_mod_cast h0)
    simp [this]
  · rw [if_neg h0, if_neg (mul_ne_zero hm' h0), mul_div_mul_left _ _ hm']

theorem mem_repeats {m : ℕ} (hm : m ≠ 0) {rows rows' : List (TuneRow K C)} (h : Repeats m rows rows')
    (r : TuneRow K C) : r ∈ rows' ↔ r ∈ rows := by
  rw [h.mem_iff, List.mem_flatten]
  simp [List.mem_replicate, hm]

/-- C137: if every tuning observation occurs `m` times as often, `smooth` with step size `t / m`
(Adam: `eps * m`) returns the same two forests and weights and `m` times the costs. -/
theorem C137_repeated (hC : 0 < C) {sqrt : K → K}
    {ce : (n : ℕ) → SgdOpts K → K → List (Row K n) → List K → List ℕ →
      Except PyErr ((Fin n → K) × (Fin n → K) × List K)}
    {kind : Kind} {forest : List (SkTree K C)} (hwf : ∀ t ∈ forest, t.WF) {cfg : SmoothCfg K}
    (hL : kind = .reg ∨ cfg.lossL2 = true ∨ ScaleFree sqrt ce)
    (hsq : cfg.adam ≠ none → ∀ x, 0 ≤ x → 0 ≤ sqrt x ∧ sqrt x ^ 2 = x)
    {m : ℕ} (hm : 0 < m) {sources sources' : TuneSrc → ℕ → List (TuneRow K C)}
    (hrep : ∀ src i, Repeats m (sources src i) (sources' src i))
    {out : SmoothOut K C (forestDepth forest + 1)}
    (h : smooth sqrt ce (some kind) forest cfg sources = .ok out) :
    smooth sqrt ce (some kind) forest
      { cfg with tFix := cfg.tFix / m, adam := cfg.adam.map fun A => { A with eps := m * A.eps } } sources' =
      .ok { out with costs := out.costs.map (m * ·) } := by
  have hs : (0 : K) < m := Nat.cast_pos.2 hm
  have hf := smooth_forests hC hwf h
  obtain ⟨kind', src, yw, lamb, h0, h1, h2, h3, h4, -, -⟩ := smooth_ok h
  cases h0
  rw [tuneSummaries_eq] at h2
  split_ifs at h2 with hd
  cases h2
  rw [flatRows_eq kind forest hwf] at h4
  have erows : ((List.finRange C).flatMap fun c => (leafListI forest).map (specRow kind cfg.style cfg.parentsAll
        cfg.allTrees (sources' src) (forestDepth forest + 1) c)) =
      ((List.finRange C).flatMap fun c => (leafListI forest).map (specRow kind cfg.style cfg.parentsAll
        cfg.allTrees (sources src) (forestDepth forest + 1) c)).map fun r => { r with w := m * r.w } := by
    rw [List.map_flatMap]
    refine List.flatMap_congr fun c _ => ?_
    rw [List.map_map]
    refine List.map_congr_left fun q _ => ?_
    simp only [specRow, Function.comp, leafWeight_repeats (hrep src q.2), leafMean_repeats hm.ne' (hrep src q.2)]
  have hopt : smoothOptimise sqrt (ce _) kind
      { cfg with tFix := cfg.tFix / m, adam := cfg.adam.map fun A => { A with eps := m * A.eps } }
      ((List.finRange C).flatMap fun c => (leafListI forest).map (specRow kind cfg.style cfg.parentsAll
        cfg.allTrees (sources' src) (forestDepth forest + 1) c)) lamb =
      .ok (out.lamb1, out.lamb2, out.costs.map (m * ·)) := by
    rw [erows]
    unfold smoothOptimise at h4 ⊢
    dsimp only at h4 ⊢
    split_ifs at h4 ⊢ with c1 c2
    · cases hcs : out with
      | mk a b c d e =>
        rw [hcs] at h4
        cases h4
        rfl
    · exact C137_descent hs hsq h4
    · refine (?_ : ScaleFree sqrt ce) _ _ _ _ _ _ _ _ _ _ hs hsq h4
      rcases hL with hL | hL | hL
      · exact absurd (Or.inl hL) c2
      · exact absurd (Or.inr hL) c2
      · exact hL
  rw [← flatRows_eq kind _ hwf] at hopt
  have hd' : ¬ ((∃ tt ∈ forest.zipIdx, sources' src tt.2 = []) ∨
      ((decide (kind = .cls) && decide (src ≠ .given)) = true ∧
        ∃ tt ∈ forest.zipIdx, ∃ c, ∀ r ∈ sources' src tt.2, r.y c = 0)) := by
    rintro (⟨tt, htt, hc⟩ | ⟨hk, tt, htt, c, hc⟩)
    · refine hd (.inl ⟨tt, htt, List.eq_nil_iff_forall_not_mem.2 fun r hr => ?_⟩)
      exact List.eq_nil_iff_forall_not_mem.1 hc r ((mem_repeats hm.ne' (hrep src tt.2) r).2 hr)
    · exact hd (.inr ⟨hk, tt, htt, c, fun r hr => hc r ((mem_repeats hm.ne' (hrep src tt.2) r).2 hr)⟩)
  obtain ⟨out', ho, ho1, ho2, ho3⟩ := smooth_returns hC hwf (sources := sources') (src := src)
    (cfg := { cfg with tFix := cfg.tFix / m, adam := cfg.adam.map fun A => { A with eps := m * A.eps } })
    h1 (by rw [tuneSummaries_eq, if_neg hd']) h3 hopt
  have hf' := smooth_forests hC hwf ho
  rw [ho]
  have e1 : out'.rf1 = out.rf1 := by
    have := forall2_map id id hf.1 (by rw [List.map_id]; exact hf'.1) fun t _ t1 t2 p1 p2 => by
      rw [ho1] at p2
      exact (leafUpdate_eq p2).trans (leafUpdate_eq p1).symm
    rwa [List.map_id] at this
  have e2 : out'.rf2 = out.rf2 := by
    have := forall2_map id id hf.2 (by rw [List.map_id]; exact hf'.2) fun t _ t1 t2 p1 p2 => by
      rw [ho2] at p2
      exact (leafUpdate_eq p2).trans (leafUpdate_eq p1).symm
    rwa [List.map_id] at this
  cases out'
  simp only at ho1 ho2 ho3 e1 e2
  rw [ho1, ho2, ho3, e1, e2]

/-- Instance of C137: every observation three times, step size a third. -/
example :
    (match smooth (fun x => x) noCe (some .reg) [exTree]
      { exCfg with sanityCheck := false, steps := [0], seed := some fun i => i + 1, tFix := 1 / 100 }
      (fun _ => exTune) with
    | .ok out => some (List.ofFn out.lamb1, out.costs.map (3 * ·))
    | .error _ => none) =
    (match smooth (fun x => x) noCe (some .reg) [exTree]
      { exCfg with sanityCheck := false, steps := [0], seed := some fun i => i + 1, tFix := 1 / 300 }
      (fun _ i => exTune i ++ exTune i ++ exTune i) with
    | .ok out => some (List.ofFn out.lamb1, out.costs)
    | .error _ => none) ∧
    (match smooth (fun x => x) noCe (some .reg) [exTree]
      { exCfg with sanityCheck := false, steps := [0], seed := some fun i => i + 1, tFix := 1 / 300 }
      (fun _ i => exTune i ++ exTune i ++ exTune i) with
    | .ok out => out.costs.head?
    | .error _ => none) = some (3 * (1373131 / 33124)) ∧
    Repeats 3 (exTune 0) (exTune 0 ++ exTune 0 ++ exTune 0) :=
  ⟨by decide +kernel, by decide +kernel, by simp [Repeats, List.replicate]⟩

end SmoothRF
