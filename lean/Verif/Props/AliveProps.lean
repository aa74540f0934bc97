import Verif.Props.NormProps
import Verif.Props.ProxProps
import Verif.Props.SmoothProps

/-!
# C112: the constrained plain descent keeps a weight on some level
-/

set_option linter.unusedSectionVars false

namespace SmoothRF
open SkTree Topo

variable {K : Type} [Field K] [LinearOrder K] [IsStrictOrderedRing K] {k : ℕ}

/-- Non-negative and not the zero vector. -/
def Alive (l : Fin k → K) : Prop := (∀ j, 0 ≤ l j) ∧ ∃ j, 0 < l j

theorem prox_alive {y x : Fin k → K} (h : proxProject y = .ok x) (hy : ∃ j, 0 < y j) : Alive x := by
  obtain ⟨j, hj⟩ := hy
  cases k with
  | zero => exact j.elim0
  | succ n =>
    have hn : ∀ i, 0 ≤ x i := by
      obtain ⟨x', e, h0, -⟩ := C19_prox_nonneg_monotone y
      rw [h] at e; cases e; exact h0
    refine ⟨hn, ?_⟩
    by_cases hs : ∑ i, max (y i) 0 ≤ 1
    · have := (C21_feasible_fixed y).1 hs
      rw [h] at this
      cases this
      exact ⟨j, lt_max_of_lt_left hj⟩
    · obtain ⟨x', e, h1, -⟩ := C20_prox_projection_partial y (le_of_not_ge hs)
      rw [h] at e; cases e
      by_contra hall
      push Not at hall
      have : ∑ i, x i ≤ 0 := Finset.sum_nonpos fun i _ => hall i
      linarith

theorem plain_alive {sqrt : K → K} {o : SgdOpts K} (ho : o.adam = none) (hc : o.constrained = true)
    {rows : List (Row K k)} {c : ℕ} {s s' : (Fin k → K) × Option (Iv K k)} (hs : Alive s.1)
    (h : moveStep sqrt takeGradient proxProject o rows c s = .ok s') : Alive s'.1 := by
  unfold moveStep sgdMove sgdPre at h
  obtain ⟨⟨l1, iv1⟩, h1, h⟩ := bind_ok h
  simp only [ho] at h1
  obtain ⟨g, hg, h1⟩ := bind_ok h1
  cases h1
  simp only [hc, if_true] at h
  obtain ⟨l2, h2, h⟩ := bind_ok h
  cases h
  refine prox_alive h2 ?_
  by_contra hall
  push Not at hall
  have horth := C25_gradient_orthogonal _ _ _ hg
  have h3 : ∑ j, s.1 j * (s.1 j - o.tFix * g j) = ∑ j, s.1 j ^ 2 := by
    have : ∀ j, s.1 j * (s.1 j - o.tFix * g j) = s.1 j ^ 2 - o.tFix * (g j * s.1 j) := fun j => by ring
    rw [Finset.sum_congr rfl fun j _ => this j, Finset.sum_sub_distrib, ← Finset.mul_sum, horth]
    ring
  have h4 : ∑ j, s.1 j * (s.1 j - o.tFix * g j) ≤ 0 :=
    Finset.sum_nonpos fun j _ => mul_nonpos_of_nonneg_of_nonpos (hs.1 j) (hall j)
  obtain ⟨j, hj⟩ := hs.2
  have h5 : 0 < ∑ j, s.1 j ^ 2 :=
    Finset.sum_pos' (fun j _ => sq_nonneg _) ⟨j, Finset.mem_univ _, by positivity⟩
  linarith

/-- C112: with constraint and without Adam, whatever the step size and the tree choices, the weights
returned by `stocastic_grad_descent` are non-negative and not all zero. -/
theorem C112_never_zero (sqrt : K → K) (o : SgdOpts K) (ho : o.adam = none) (hc : o.constrained = true)
    (rows : List (Row K k)) (lambInit : List K) (choices : List ℕ) (best last : Fin k → K)
    (costs : List K) (h : sgd sqrt o rows lambInit choices = .ok (best, last, costs)) :
    ((∀ j, 0 ≤ best j) ∧ ∃ j, 0 < best j) ∧ ((∀ j, 0 ≤ last j) ∧ ∃ j, 0 < last j) := by
  unfold sgd at h
  split_ifs at h with h1 h2
  subst h1
  have hA : Alive (fun j : Fin lambInit.length => lambInit[j]) := by
    simp only [hc, Bool.true_and, Bool.or_eq_true, decide_eq_true_eq, List.any_eq_true, not_or, not_not,
      not_exists, not_and, not_lt] at h2
    refine ⟨fun j => h2.2 _ (List.getElem_mem _), ?_⟩
    by_contra hall
    push Not at hall
    have : lambInit.sum ≤ 0 := by
      have e : lambInit.sum = ∑ j : Fin lambInit.length, lambInit[j] := by
        rw [← List.sum_ofFn]
        congr 1
        refine List.ext_getElem (by simp) fun i h1 h2 => by simp
      rw [e]
      exact Finset.sum_nonpos fun j _ => hall j
    rw [h2.1] at this
    exact absurd this (by norm_num)
  obtain ⟨vs, hv, -, hl, i, v, c, hi, -, hb, -⟩ := sgdRun_spec _ _ _ _ _ _ h
  have hall := visits_inv (fun s => Alive s.1)
    (fun c s s' hs hm => plain_alive ho hc hs hm) hv hA
  have hmem : ∀ v ∈ ((fun j : Fin lambInit.length => lambInit[j]), (none : Option (Iv K lambInit.length))) :: vs,
      Alive v.1 := by
    intro v hv
    rcases List.mem_cons.1 hv with rfl | hv
    · exact hA
    · exact hall v hv
  refine ⟨hb ▸ hmem v (List.mem_of_getElem? hi), ?_⟩
  rw [Option.map_eq_some_iff] at hl
  obtain ⟨w, hw, rfl⟩ := hl
  exact hmem w (List.mem_of_getLast? hw)

variable {C : ℕ}

theorem smoothDen_alive {t : SkTree K C} (h : t.WF) (hn : ∀ r, 0 < t.nSamp (t.leafNode r)) (s : Style)
    {n : ℕ} {lamb : Fin n → K} (hl : Alive lamb) (r : Fin t.nLeaves) : 0 < smoothDen t s true lamb r := by
  obtain ⟨j, hj⟩ := hl.2
  have hlev : ∀ k : ℕ, 0 < levelSum true (t.distDepth s) (fun j => t.nSamp (t.leafNode j)) r k := by
    intro k
    simp only [levelSum, if_true]
    refine Finset.sum_pos (fun j _ => hn j) ⟨r, ?_⟩
    simp only [Finset.mem_filter, Finset.mem_univ, true_and]
    rw [(distDepth_eq_zero h s r r).2 rfl]
    positivity
  exact Finset.sum_pos' (fun k _ => mul_nonneg (hlev k).le (hl.1 k))
    ⟨j, Finset.mem_univ _, mul_pos (hlev j) hj⟩

theorem start_alive {n : ℕ} {seed : Option (ℕ → K)} (hs : ∀ u, seed = some u → ∀ i, 0 ≤ u i) {eps : K}
    {l : Fin (n + 1) → K} (h : initLamb .reg seed eps = .ok l) : Alive l := by
  have h' : initLamb .reg seed 0 = .ok l := h
  obtain ⟨h1, h2⟩ := initLamb_feasible .reg seed 0 hs le_rfl h'
  refine ⟨h2, ?_⟩
  by_contra hcon
  push Not at hcon
  have : ∑ i, l i ≤ 0 := Finset.sum_nonpos fun i _ => hcon i
  rw [h1] at this
  linarith

theorem smooth_alive {sqrt : K → K}
    {ce : (n : ℕ) → SgdOpts K → K → List (Row K n) → List K → List ℕ →
      Except PyErr ((Fin n → K) × (Fin n → K) × List K)}
    {forest : List (SkTree K C)} {cfg : SmoothCfg K} {sources : TuneSrc → ℕ → List (TuneRow K C)}
    {out : SmoothOut K C (forestDepth forest + 1)}
    (h : smooth sqrt ce (some .reg) forest cfg sources = .ok out) (hc : cfg.noConstraint = false)
    (ha : cfg.adam = none) (hs : ∀ u, cfg.seed = some u → ∀ i, 0 ≤ u i) :
    Alive out.lamb1 ∧ Alive out.lamb2 := by
  obtain ⟨kind', src, yw, lamb, h0, -, -, h3, h4, -, -⟩ := smooth_ok h
  cases h0
  unfold smoothOptimise at h4
  by_cases hsan : cfg.sanityCheck = true
  · rw [if_pos hsan] at h4
    simp only [Except.ok.injEq, Prod.mk.injEq] at h4
    rw [← h4.1, ← h4.2.1]
    exact ⟨start_alive hs h3, start_alive hs h3⟩
  · rw [if_neg hsan] at h4
    simp only [true_or, if_true] at h4
    exact C112_never_zero sqrt _ ha (by simp [hc]) _ _ _ _ _ _ h4

/-- C112: constrained plain smoothing of a regression forest with `parents_all`, positive leaf weights and
the default or a non-negative random start: every leaf of the first returned forest holds a value between the least and the greatest
leaf value of its own tree; no leaf falls back to 0. -/
theorem C112_always_average (hC : 0 < C) {sqrt : K → K}
    {ce : (n : ℕ) → SgdOpts K → K → List (Row K n) → List K → List ℕ →
      Except PyErr ((Fin n → K) × (Fin n → K) × List K)}
    {forest : List (SkTree K C)} (hwf : ∀ t ∈ forest, t.WF)
    (hn : ∀ t ∈ forest, ∀ r, 0 < t.nSamp (t.leafNode r))
    {cfg : SmoothCfg K} {sources : TuneSrc → ℕ → List (TuneRow K C)}
    {out : SmoothOut K C (forestDepth forest + 1)}
    (h : smooth sqrt ce (some .reg) forest cfg sources = .ok out) (hc : cfg.noConstraint = false)
    (ha : cfg.adam = none) (hs : ∀ u, cfg.seed = some u → ∀ i, 0 ≤ u i) (hpa : cfg.parentsAll = true) :
    List.Forall₂ (fun t t' => ∃ v, t' = { t with value := v } ∧ ∀ (r : Fin t.nLeaves) (c : Fin C),
      ∃ j k : Fin t.nLeaves, t.value (t.leafNode j) c ≤ v (t.leafNode r) c ∧
        v (t.leafNode r) c ≤ t.value (t.leafNode k) c) forest out.rf1 := by
  obtain ⟨hl, -⟩ := smooth_alive h hc ha hs
  refine forall2_imp_mem (C35_values_between_leaves hC hwf (fun t ht r => (hn t ht r).le) h hl.1)
    fun t ht t' ⟨v, e, hv⟩ => ⟨v, e, fun r c => hv r c ?_⟩
  rw [hpa]
  exact (smoothDen_alive (hwf t ht) (hn t ht) _ hl r).ne'

/-- Instance of C112: one tree, two steps of size 1 (the weights leave the simplex, see C28, but stay
non-negative and non-zero). -/
example : exTree.WF ∧ (∀ r, 0 < exTree.nSamp (exTree.leafNode r)) ∧
    (match smooth (fun x => x) noCe (some .reg) [exTree]
      { exCfg with sanityCheck := false, parentsAll := true, steps := [0, 0] } (fun _ => exTune) with
    | .ok out => some (List.ofFn out.lamb1, List.ofFn out.lamb2)
    | .error _ => none) = some ([1, 0, 0], [0, 0, 32090 / 657]) :=
  ⟨by decide, by decide +kernel, by decide +kernel⟩

end SmoothRF
