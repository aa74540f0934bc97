import Verif.Props.SmoothProps
import Verif.Spec.TuneLoss

/-!
# C107: smooth and the tuning error of the original forest
-/

set_option linter.unusedSectionVars false

namespace SmoothRF
open SkTree Topo

variable {K : Type} [Field K] [LinearOrder K] {C : ℕ}
variable {sqrt : K → K}
  {ce : (n : ℕ) → SgdOpts K → K → List (Row K n) → List K → List ℕ →
    Except PyErr ((Fin n → K) × (Fin n → K) × List K)}

/-- The part of the squared error no leaf value can remove. -/
def withinSS (n : ℕ) (rows : List (TuneRow K C)) : K :=
  ∑ r : Fin n, ((rows.filter fun q => q.leaf == r.val).map fun q =>
    ∑ c, (q.y c - leafMean rows r c) ^ 2).sum

/-- Sum of squares about any value, one leaf and class. -/
theorem sq_about [IsStrictOrderedRing K] (l : List K) (v : K) :
    (l.map fun y => (y - v) ^ 2).sum =
      (l.map fun y => (y - l.sum / (if (l.length : K) = 0 then 1 else (l.length : K))) ^ 2).sum +
        (l.sum / (if (l.length : K) = 0 then 1 else (l.length : K)) - v) ^ 2 * (l.length : K) := by
  have key : ∀ (l : List K) (a : K), (l.map fun y => (y - a) ^ 2).sum =
      (l.map fun y => y ^ 2).sum - 2 * a * l.sum + (l.length : K) * a ^ 2 := by
    intro l a
    induction l with
    | nil => simp
    | cons x l ih => simp only [List.map_cons, List.sum_cons, List.length_cons, ih]; push_cast; ring
  rw [key, key]
  by_cases h : (l.length : K) = 0
  · have hl : l = [] := by simpa using h
    subst hl; simp
  · rw [if_neg h]
    field_simp
    ring

theorem treeSSE_leaves (t : SkTree K C) (rows : List (TuneRow K C)) :
    treeSSE t rows = ∑ r : Fin t.nLeaves, ((rows.filter fun q => q.leaf == r.val).map fun q =>
      ∑ c, (q.y c - t.value (t.leafNode r) c) ^ 2).sum := by
  unfold treeSSE
  induction rows with
  | nil => simp
  | cons q rows ih =>
    rw [List.map_cons, List.sum_cons, ih]
    have e : ∀ r : Fin t.nLeaves, (((q :: rows).filter fun q => q.leaf == r.val).map fun q =>
        ∑ c, (q.y c - t.value (t.leafNode r) c) ^ 2).sum =
        (if q.leaf = r.val then ∑ c, (q.y c - t.value (t.leafNode r) c) ^ 2 else 0) +
        ((rows.filter fun q => q.leaf == r.val).map fun q =>
          ∑ c, (q.y c - t.value (t.leafNode r) c) ^ 2).sum := by
      intro r
      rw [List.filter_cons]
      by_cases h : q.leaf = r.val
      · simp [h]
      · have : (q.leaf == r.val) = false := by simpa using h
        simp [this, h]
    rw [Finset.sum_congr rfl fun r _ => e r, Finset.sum_add_distrib]
    congr 1
    by_cases h : q.leaf < t.nLeaves
    · rw [dif_pos h, Finset.sum_eq_single (⟨q.leaf, h⟩ : Fin t.nLeaves)]
      · simp
      · intro r _ hr
        rw [if_neg]
        intro e; exact hr (Fin.ext e.symm)
      · simp
    · rw [dif_neg h, Finset.sum_eq_zero]
      intro r _
      rw [if_neg]
      intro e; exact h (e ▸ r.2)

theorem treeSSE_split [IsStrictOrderedRing K] (t : SkTree K C) (rows : List (TuneRow K C)) :
    treeSSE t rows = withinSS t.nLeaves rows + ∑ r : Fin t.nLeaves, ∑ c,
      (leafMean rows r c - t.value (t.leafNode r) c) ^ 2 * leafWeight rows r := by
  rw [treeSSE_leaves, withinSS, ← Finset.sum_add_distrib]
  refine Finset.sum_congr rfl fun r _ => ?_
  rw [← sum_list_finset', ← sum_list_finset', ← Finset.sum_add_distrib]
  refine Finset.sum_congr rfl fun c _ => ?_
  have := sq_about ((rows.filter fun q => q.leaf == r.val).map fun q => q.y c) (t.value (t.leafNode r) c)
  simp only [List.map_map, Function.comp_def, List.length_map] at this
  exact this

theorem forall2_zipIdx_sum {α β : Type} {R : α → β → Prop} {l : List α} {m : List β}
    (h : List.Forall₂ R l m) (A : β × ℕ → K) (B : α × ℕ → K)
    (hAB : ∀ a b i, R a b → A (b, i) = B (a, i)) (k : ℕ) :
    ((m.zipIdx k).map A).sum = ((l.zipIdx k).map B).sum := by
  induction h generalizing k with
  | nil => rfl
  | cons hr _ ih => simp only [List.zipIdx_cons, List.map_cons, List.sum_cons, ih, hAB _ _ _ hr]

/-- The cost of a weight vector on the optimiser's rows is the squared error of the leaf means. -/
theorem cost_spec {kind : Kind} {forest : List (SkTree K C)} {s : Style} {pa al : Bool}
    {tune : ℕ → List (TuneRow K C)} {n : ℕ} {lamb : Fin n → K} {x : K}
    (h : calcCost ((List.finRange C).flatMap fun c => (leafListI forest).map
      (specRow kind s pa al tune n c)) lamb = .ok x) :
    x = (forest.zipIdx.map fun tt => ∑ r : Fin tt.1.nLeaves, ∑ c,
      (leafMean (tune tt.2) r c - smoothSpec kind tt.1 s pa lamb r c) ^ 2 *
        leafWeight (tune tt.2) r).sum := by
  unfold calcCost at h
  split_ifs at h with hA
  cases h
  rw [fillAssert_iff] at hA
  have e1 : ∀ c, ∀ q ∈ leafListI forest, residual (specRow kind s pa al tune n c q) lamb ^ 2 *
      (specRow kind s pa al tune n c q).w =
      (leafMean (tune q.2) q.1.2 c - smoothSpec kind q.1.1 s pa lamb q.1.2 c) ^ 2 *
        leafWeight (tune q.2) q.1.2 := by
    intro c q hq
    have ha := hA (specRow kind s pa al tune n c q) (List.mem_flatMap.2
      ⟨c, List.mem_finRange c, List.mem_map_of_mem hq⟩)
    have hd : dot (specRow kind s pa al tune n c q).eta lamb = smoothDen q.1.1 s pa lamb q.1.2 := rfl
    have hn : dot (specRow kind s pa al tune n c q).gam lamb = smoothNum kind q.1.1 s pa lamb q.1.2 c := rfl
    have : dot (specRow kind s pa al tune n c q).gam lamb / etaFill (specRow kind s pa al tune n c q) lamb =
        smoothSpec kind q.1.1 s pa lamb q.1.2 c := by
      unfold smoothSpec etaFill
      rw [hd] at ha ⊢
      split_ifs with h0
      · have := ha h0
        rw [show dot (specRow kind s pa al tune n c q).gam lamb = 0 from this, zero_div]
      · rw [hn]
    rw [residual, this]
    rfl
  rw [List.map_flatMap, List.flatMap, List.sum_flatten, List.map_map]
  have e2 : ∀ c, (List.sum ∘ fun c => ((leafListI forest).map (specRow kind s pa al tune n c)).map
      fun r => residual r lamb ^ 2 * r.w) c = ((leafListI forest).map fun q =>
      (leafMean (tune q.2) q.1.2 c - smoothSpec kind q.1.1 s pa lamb q.1.2 c) ^ 2 *
        leafWeight (tune q.2) q.1.2).sum := by
    intro c
    simp only [Function.comp, List.map_map]
    congr 1
    exact List.map_congr_left fun q hq => e1 c q hq
  rw [List.map_congr_left fun c _ => e2 c, ← Fin.sum_univ_def, sum_list_finset', leafListI,
    List.map_flatMap, List.flatMap, List.sum_flatten, List.map_map]
  congr 1
  refine List.map_congr_left fun tt _ => ?_
  simp only [Function.comp, List.map_map]
  rw [Fin.sum_univ_def]
  rfl

/-- C107: for a regression forest and the default start, the first returned forest's squared error on
the tuning rows is at most that of the original forest — with or without constraint or Adam, for any
step size, number of steps and random tree choices. -/
theorem C107_never_worse [IsStrictOrderedRing K] (hC : 0 < C) {forest : List (SkTree K C)}
    (hwf : ∀ t ∈ forest, t.WF) (hn : ∀ t ∈ forest, ∀ r, t.nSamp (t.leafNode r) ≠ 0)
    {cfg : SmoothCfg K} (hseed : cfg.seed = none) {src : TuneSrc}
    (hsrc : tuneSource cfg.data = .ok src) {sources : TuneSrc → ℕ → List (TuneRow K C)}
    {out : SmoothOut K C (forestDepth forest + 1)}
    (h : smooth sqrt ce (some .reg) forest cfg sources = .ok out) :
    forestSSE out.rf1 (sources src) ≤ forestSSE forest (sources src) := by
  let e0 : Fin (forestDepth forest + 1) → K := fun i => if i = 0 then 1 else 0
  let S : (Fin (forestDepth forest + 1) → K) → K := fun lamb =>
    (forest.zipIdx.map fun tt => ∑ r : Fin tt.1.nLeaves, ∑ c,
      (leafMean (sources src tt.2) r c - smoothSpec .reg tt.1 cfg.style cfg.parentsAll lamb r c) ^ 2 *
        leafWeight (sources src tt.2) r).sum
  let W : K := (forest.zipIdx.map fun tt => withinSS tt.1.nLeaves (sources src tt.2)).sum
  have hnew : forestSSE out.rf1 (sources src) = W + S out.lamb1 := by
    rw [forestSSE, forall2_zipIdx_sum (smooth_forests hC hwf h).1 _
      (fun tt => withinSS tt.1.nLeaves (sources src tt.2) + ∑ r : Fin tt.1.nLeaves, ∑ c,
      (leafMean (sources src tt.2) r c - smoothSpec .reg tt.1 cfg.style cfg.parentsAll out.lamb1 r c) ^ 2 *
        leafWeight (sources src tt.2) r)]
    · exact List.sum_map_add
    · rintro t _ i ⟨v, rfl, hv, -⟩
      rw [treeSSE_split]
      congr 1
      refine Finset.sum_congr rfl fun r _ => Finset.sum_congr rfl fun c _ => ?_
      show (_ - v (t.leafNode r) c) ^ 2 * _ = _
      rw [hv r c]
  have hold : forestSSE forest (sources src) = W + S e0 := by
    rw [forestSSE, ← List.sum_map_add]
    congr 1
    refine List.map_congr_left fun tt htt => ?_
    have ht : tt.1 ∈ forest := by
      have := List.mem_map_of_mem (f := Prod.fst) htt
      rwa [List.zipIdx_map_fst] at this
    rw [treeSSE_split]
    congr 1
    refine Finset.sum_congr rfl fun r _ => Finset.sum_congr rfl fun c _ => ?_
    have hl : ∀ i, e0 i = if i = 0 then 1 else 0 := fun i => rfl
    rw [smoothSpec, smoothDen_e0 (hwf _ ht) _ _ _ _ hl, smoothNum_e0 _ (hwf _ ht) _ _ _ _ _ hl,
      if_neg (hn _ ht r)]
    have : tt.1.mass .reg (tt.1.leafNode r) c / tt.1.nSamp (tt.1.leafNode r) =
      tt.1.value (tt.1.leafNode r) c := mul_div_cancel_left₀ _ (hn _ ht r)
    rw [this]
  rw [hnew, hold]
  gcongr
  obtain ⟨kind', src', yw, lamb, h0, h1, h2, h3, h4, -, -⟩ := smooth_ok h
  cases h0
  have hs' := (smoothCheck_ok.1 h1).2.1
  rw [hsrc] at hs'
  cases hs'
  rw [hseed] at h3
  have h3 : e0 = lamb := by
    have : (Except.ok e0 : Except PyErr _) = .ok lamb := h3
    exact Except.ok.inj this
  rw [tuneSummaries_eq] at h2
  split at h2
  · cases h2
  cases h2
  rw [flatRows_eq .reg forest hwf] at h4
  unfold smoothOptimise at h4
  split_ifs at h4 with hsan hk
  · simp only [Except.ok.injEq, Prod.mk.injEq] at h4
    rw [← h4.1, ← h3]
  · obtain ⟨l0, vs, hl0, -, -, hf, -, i, v, c, -, -, -, hb, hmin, -⟩ :=
      C27_sgd_returns_best sqrt _ _ _ _ _ _ _ h4
    have hl0 : l0 = e0 := by
      rw [h3]; exact List.ofFn_injective hl0
    obtain ⟨c0, cs, hc0, -, hcs⟩ := List.forall₂_cons_left_iff.1 hf
    have := hmin c0 (by rw [hcs]; exact List.mem_cons_self ..)
    rw [cost_spec hb, cost_spec hc0] at this
    rw [← hl0]
    exact this
  · exact absurd (Or.inl rfl) hk

/-- Tuning rows that favour averaging. -/
abbrev exTune2 : ℕ → List (TuneRow ℚ 1) := fun _ => [⟨0, fun _ => 3⟩, ⟨1, fun _ => 2⟩, ⟨1, fun _ => 3⟩]

/-- A run that lowers the tuning error from 18 to 12, and one (other tree chosen) whose only step is
worse, where the original forest is returned. -/
example : (∀ t ∈ [exStump, exTree], ∀ r, t.nSamp (t.leafNode r) ≠ 0) ∧
    forestSSE [exStump, exTree] exTune2 = 18 ∧
    (match smooth (fun x => x) noCe (some .reg) [exStump, exTree]
      { exCfg with sanityCheck := false, steps := [0], tFix := 1 / 10 } (fun _ => exTune2) with
    | .ok out => some (forestSSE out.rf1 exTune2) | .error _ => none) = some 12 ∧
    (match smooth (fun x => x) noCe (some .reg) [exStump, exTree]
      { exCfg with sanityCheck := false, steps := [1], tFix := 1 / 10 } (fun _ => exTune2) with
    | .ok out => some (forestSSE out.rf1 exTune2) | .error _ => none) = some 18 := by
  refine ⟨?_, by decide +kernel, by decide +kernel, by decide +kernel⟩
  intro t ht
  simp only [List.mem_cons, List.not_mem_nil, or_false] at ht
  rcases ht with rfl | rfl <;> decide +kernel

/-- Tuning rows that agree with the two-class stump's own class proportions. -/
abbrev exClsTune2 : ℕ → List (TuneRow ℚ 2) := fun _ =>
  [⟨0, ![1, 0]⟩, ⟨0, ![1, 0]⟩, ⟨0, ![1, 0]⟩, ⟨0, ![0, 1]⟩, ⟨1, ![0, 1]⟩]

/-- C107 does not extend to classifiers: the start is not the original forest (`class_eps`), so the
returned class probabilities can have a larger squared error than the original ones (leaf counts over
leaf weight). -/
theorem C107_class_worse : ∃ out, smooth (fun x => x) noCe (some .cls) [exClsStump]
      { exCfg with sanityCheck := false, lossL2 := true, steps := [] } (fun _ => exClsTune2) = .ok out ∧
    forestSSE [{ exClsStump with value := fun i c => exClsStump.value i c / exClsStump.nSamp i }]
      exClsTune2 < forestSSE out.rf1 exClsTune2 := by
  have key : (match smooth (fun x => x) noCe (some .cls) [exClsStump]
      { exCfg with sanityCheck := false, lossL2 := true, steps := [] } (fun _ => exClsTune2) with
    | .ok out => some (forestSSE out.rf1 exClsTune2) | .error _ => none) = some (2955765 / 1956242) := by
    decide +kernel
  have hold : forestSSE [{ exClsStump with
      value := fun i c => exClsStump.value i c / exClsStump.nSamp i }] exClsTune2 = 3 / 2 := by
    decide +kernel
  generalize smooth (fun x => x) noCe (some .cls) [exClsStump]
      { exCfg with sanityCheck := false, lossL2 := true, steps := [] } (fun _ => exClsTune2) = r at key
  rcases r with e | out
  · simp at key
  · refine ⟨out, rfl, ?_⟩
    rw [hold, Option.some.inj key]
    norm_num

end SmoothRF
