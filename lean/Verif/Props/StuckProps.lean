import Verif.Props.TrainTuneProps
import Verif.Props.CostProps

/-!
# C190: when constrained descent leaves its default start
-/

set_option linter.unusedSectionVars false

namespace SmoothRF
open SkTree Topo

variable {K : Type} [Field K] [LinearOrder K] [IsStrictOrderedRing K] {C : ℕ}
variable {sqrt : K → K}
  {ce : (n : ℕ) → SgdOpts K → K → List (Row K n) → List K → List ℕ →
    Except PyErr ((Fin n → K) × (Fin n → K) × List K)}

/-! ### Specification -/

/-- How much the tuning rows of a tree ask its leaves to move towards their level-`k` neighbours: over
all tuning rows, the residual of the row times the difference between the leaf's neighbours at level `k`
and the leaf itself, the neighbours weighted by their sample weight relative to the leaf's. -/
def tunePull (t : SkTree K C) (rows : List (TuneRow K C)) (s : Style) (pa : Bool) (k : ℕ) : K :=
  ∑ r : Fin t.nLeaves, ∑ c, ((rows.filter fun q => q.leaf == r.val).map fun q =>
    (q.y c - t.value (t.leafNode r) c) *
      (levelSum pa (t.distDepth s) (fun j => t.nSamp (t.leafNode j) *
        (t.value (t.leafNode j) c - t.value (t.leafNode r) c)) r k / t.nSamp (t.leafNode r))).sum

/-! ### Rows -/

/-- The same for a list of optimisation rows. -/
def rowPull {n : ℕ} (rows : List (Row K (n + 1))) (j : Fin (n + 1)) : K :=
  (rows.map fun r => r.w * (r.y - r.gam 0 / r.eta 0) *
    ((r.gam j - r.gam 0 / r.eta 0 * r.eta j) / r.eta 0)).sum

theorem dot_e0 {n : ℕ} (a : Fin (n + 1) → K) : dot a (fun i => if i = 0 then 1 else 0) = a 0 := by
  simp [dot]

/-- C190: at `(1, 0, …, 0)` the gradient is minus twice the pull, and its first component is 0. -/
theorem C190_start_gradient {n : ℕ} {rows : List (Row K (n + 1))} (he : ∀ r ∈ rows, r.eta 0 ≠ 0)
    {g : Fin (n + 1) → K} (hg : takeGradient rows (fun i => if i = 0 then 1 else 0) = .ok g) :
    g 0 = 0 ∧ ∀ j, g j = -2 * rowPull rows j := by
  have h1 : g 0 = 0 := by
    have := C25_gradient_orthogonal rows _ g hg
    simpa using this
  refine ⟨h1, fun j => ?_⟩
  unfold takeGradient at hg
  split_ifs at hg
  cases hg
  unfold rowPull
  rw [← List.sum_map_mul_left]
  refine congrArg List.sum (List.map_congr_left fun r hr => ?_)
  have h0 := he r hr
  simp only [residual, etaFill, dot_e0, if_neg h0]
  field_simp

/-- Projecting a point with first entry 1. -/
theorem prox_e0_iff {n : ℕ} {y : Fin (n + 1) → K} (h0 : y 0 = 1) :
    proxProject y = .ok (fun i => if i = 0 then 1 else 0) ↔ ∀ i, i ≠ 0 → y i ≤ 0 := by
  constructor
  · intro h i hi
    obtain ⟨θ, j, hx, -, -, -⟩ := proxProject_form y
    rw [hx] at h
    have h := Except.ok.inj h
    have e0 := congrFun h 0
    have ei := congrFun h i
    simp only [clip0_eq_max, if_true, if_neg hi, h0] at e0 ei
    by_contra hc
    have hc := not_le.1 hc
    have h1 : max (1 : K) 0 = 1 := max_eq_left zero_le_one
    rw [h1] at e0
    have h2 : max θ 0 = 0 := by
      rcases le_total (1 - max θ 0) 0 with h3 | h3
      · rw [max_eq_right h3] at e0; exact absurd e0 zero_ne_one
      · rw [max_eq_left h3] at e0; linarith
    rw [h2, sub_zero, max_eq_left (le_max_right _ _), max_eq_left hc.le] at ei
    exact hc.ne' ei
  · intro h
    have hm : (fun i => max (y i) 0) = fun i => if i = 0 then (1 : K) else 0 := by
      funext i
      by_cases hi : i = 0
      · subst hi; simp [h0]
      · rw [if_neg hi, max_eq_right (h i hi)]
    rw [(C21_feasible_fixed y).1, hm]
    rw [show (∑ i, max (y i) 0) = ∑ i, (fun i => max (y i) 0) i from rfl, hm]
    simp

/-- C190: one constrained plain step from `(1, 0, …, 0)` with a positive step size stays there iff no
level of the chosen tree's rows pulls. -/
theorem C190_step_iff {n : ℕ} {o : SgdOpts K} (ho : o.adam = none) (hc : o.constrained = true)
    (ht : 0 < o.tFix) {rows : List (Row K (n + 1))} (he : ∀ r ∈ rows, r.eta 0 ≠ 0) {c : ℕ}
    {iv iv' : Option (Iv K (n + 1))} {l' : Fin (n + 1) → K}
    (h : sgdMove sqrt takeGradient proxProject o rows c (fun i => if i = 0 then 1 else 0) iv =
      .ok (l', iv')) :
    l' = (fun i => if i = 0 then 1 else 0) ↔
      ∀ j, j ≠ 0 → rowPull (rows.filter fun r => r.tree == c) j ≤ 0 := by
  obtain ⟨-, g, hg, hp⟩ := (C27_plain_step sqrt o ho rows c _ l' iv iv').1 h
  rw [if_pos hc] at hp
  obtain ⟨g0, hgj⟩ := C190_start_gradient (fun r hr => he r (List.mem_filter.1 hr).1) hg
  have hy0 : (fun j => (if j = 0 then (1 : K) else 0) - o.tFix * g j) (0 : Fin (n + 1)) = 1 := by
    simp [g0]
  have := prox_e0_iff (y := fun j => (if j = 0 then (1 : K) else 0) - o.tFix * g j) hy0
  rw [hp] at this
  refine ⟨fun e => ?_, fun hj => ?_⟩
  · subst e
    intro j hj
    have h1 := this.1 rfl j hj
    simp only [if_neg hj, hgj j] at h1
    have h2 : 0 ≤ o.tFix * (-2 * rowPull (rows.filter fun r => r.tree == c) j) := by linarith
    have h3 := nonneg_of_mul_nonneg_right h2 ht
    linarith
  · refine Except.ok.inj (this.2 fun i hi => ?_)
    simp only [if_neg hi, hgj i]
    have : 0 ≤ o.tFix * (-2 * rowPull (rows.filter fun r => r.tree == c) i) :=
      mul_nonneg ht.le (by linarith [hj i hi])
    linarith

/-- Any constrained step (plain or Adam) stays when nothing pulls. -/
theorem sgdMove_stuck {n : ℕ} {o : SgdOpts K} (hc : o.constrained = true)
    (hplain : o.adam = none → 0 ≤ o.tFix)
    (ha : ∀ a, o.adam = some a → AdamRange a ∧ 0 ≤ a.alpha) (hsq : ∀ x, 0 ≤ x → 0 ≤ sqrt x)
    {rows : List (Row K (n + 1))} (he : ∀ r ∈ rows, r.eta 0 ≠ 0) {c : ℕ}
    (hp : ∀ j, j ≠ 0 → rowPull (rows.filter fun r => r.tree == c) j ≤ 0)
    {iv iv' : Option (Iv K (n + 1))} {l' : Fin (n + 1) → K}
    (hiv : ∀ v, iv = some v → v.m1 0 = 0 ∧ ∀ j, 0 ≤ v.m1 j)
    (h : sgdMove sqrt takeGradient proxProject o rows c (fun i => if i = 0 then 1 else 0) iv =
      .ok (l', iv')) :
    l' = (fun i => if i = 0 then 1 else 0) ∧ ∀ v, iv' = some v → v.m1 0 = 0 ∧ ∀ j, 0 ≤ v.m1 j := by
  have hgrad : ∀ g, takeGradient (rows.filter fun r => r.tree == c) (fun i => if i = 0 then 1 else 0) =
      .ok g → g 0 = 0 ∧ ∀ j, 0 ≤ g j := by
    intro g hg
    obtain ⟨g0, hgj⟩ := C190_start_gradient (fun r hr => he r (List.mem_filter.1 hr).1) hg
    refine ⟨g0, fun j => ?_⟩
    by_cases hj : j = 0
    · rw [hj, g0]
    · rw [hgj j]; linarith [hp j hj]
  unfold sgdMove at h
  obtain ⟨p, hpre, h⟩ := bind_ok h
  have key : (p.1 0 = 1 ∧ ∀ j, j ≠ 0 → p.1 j ≤ 0) ∧
      ∀ v, p.2 = some v → v.m1 0 = 0 ∧ ∀ j, 0 ≤ v.m1 j := by
    unfold sgdPre at hpre
    cases hadam : o.adam with
    | none =>
      rw [hadam] at hpre
      simp only at hpre
      obtain ⟨g, hg, hpre⟩ := bind_ok hpre
      cases hpre
      obtain ⟨g0, hgn⟩ := hgrad g hg
      refine ⟨⟨by simp [g0], fun j hj => ?_⟩, hiv⟩
      simp only [if_neg hj, zero_sub, neg_nonpos]
      exact mul_nonneg (hplain hadam) (hgn j)
    | some a =>
      rw [hadam] at hpre
      simp only at hpre
      obtain ⟨q, hq, hpre⟩ := bind_ok hpre
      cases hpre
      obtain ⟨hr, hal⟩ := ha a hadam
      have body : ∀ v : Iv K (n + 1), v.lamb = (fun i => if i = 0 then 1 else 0) →
          (v.m1 0 = 0 ∧ ∀ j, 0 ≤ v.m1 j) →
          adamBody sqrt (takeGradient (rows.filter fun r => r.tree == c)) a v = .ok q →
          (q.1 0 = 1 ∧ ∀ j, j ≠ 0 → q.1 j ≤ 0) ∧ q.2.m1 0 = 0 ∧ ∀ j, 0 ≤ q.2.m1 j := by
        intro v hv hm hb
        unfold adamBody at hb
        obtain ⟨g, hg, hb⟩ := bind_ok hb
        rw [hv] at hg
        obtain ⟨g0, hgn⟩ := hgrad g hg
        simp only at hb
        split_ifs at hb with hz hs
        have h1 : 0 < 1 - a.beta1 ^ (v.t + 1) :=
          sub_pos.2 (pow_lt_one₀ hr.beta1_nonneg hr.beta1_lt (by omega))
        have hm1 : ∀ j, 0 ≤ v.m1 j * a.beta1 + (1 - a.beta1) * g j := fun j =>
          add_nonneg (mul_nonneg (hm.2 j) hr.beta1_nonneg)
            (mul_nonneg (sub_nonneg.2 hr.beta1_lt.le) (hgn j))
        cases hb
        refine ⟨⟨by simp [hv, hm.1, g0], fun j hj => ?_⟩, by simp [hm.1, g0], hm1⟩
        simp only [hv, if_neg hj, zero_sub, neg_nonpos]
        have hs := not_exists.1 hs j
        have hs := not_or.1 hs
        exact div_nonneg (mul_nonneg hal (div_nonneg (hm1 j) h1.le))
          (add_nonneg (hsq _ (not_lt.1 hs.1)) hr.eps_pos.le)
      unfold adamStep at hq
      cases hi : iv with
      | none =>
        rw [hi] at hq
        obtain ⟨h1, h2⟩ := body _ rfl ⟨rfl, fun _ => le_rfl⟩ hq
        exact ⟨h1, fun v e => by cases e; exact h2⟩
      | some v =>
        rw [hi] at hq
        obtain ⟨h1, h2⟩ := body { v with lamb := _ } rfl (hiv v hi) hq
        exact ⟨h1, fun v e => by cases e; exact h2⟩
  rw [if_pos hc] at h
  obtain ⟨x, hx, h⟩ := bind_ok h
  cases h
  rw [(prox_e0_iff key.1.1).2 key.1.2] at hx
  cases hx
  exact ⟨rfl, key.2⟩

/-- C190: if no level pulls for any chosen tree, constrained descent (plain or Adam) never leaves
`(1, 0, …, 0)`. -/
theorem C190_descent_stays {n : ℕ} {o : SgdOpts K} (hc : o.constrained = true)
    (hplain : o.adam = none → 0 ≤ o.tFix)
    (ha : ∀ a, o.adam = some a → AdamRange a ∧ 0 ≤ a.alpha) (hsq : ∀ x, 0 ≤ x → 0 ≤ sqrt x)
    {rows : List (Row K (n + 1))} (he : ∀ r ∈ rows, r.eta 0 ≠ 0) {choices : List ℕ}
    (hp : ∀ c ∈ choices, ∀ j, j ≠ 0 → rowPull (rows.filter fun r => r.tree == c) j ≤ 0)
    {best last : Fin (n + 1) → K} {costs : List K}
    (h : sgd sqrt o rows (List.ofFn fun i : Fin (n + 1) => if i = 0 then 1 else 0) choices =
      .ok (best, last, costs)) :
    best = (fun i => if i = 0 then 1 else 0) ∧ last = (fun i => if i = 0 then 1 else 0) ∧
    ∃ x, calcCost rows (fun i => if i = 0 then 1 else 0) = .ok x ∧
      costs = List.replicate (choices.length + 1) x := by
  obtain ⟨l1, vs, hl1, hv, hlen, hf, hlast, i, v, c, hvi, hci, hvb, hb, hmin, hfirst⟩ :=
    C27_sgd_returns_best sqrt _ _ _ _ _ _ _ h
  have hl1 : l1 = fun i => if i = 0 then 1 else 0 := List.ofFn_injective hl1
  subst hl1
  have hall : ∀ (s : (Fin (n + 1) → K) × Option (Iv K (n + 1))) (cs : List ℕ) ws,
      (∀ c ∈ cs, ∀ j, j ≠ 0 → rowPull (rows.filter fun r => r.tree == c) j ≤ 0) →
      s.1 = (fun i => if i = 0 then 1 else 0) → (∀ v, s.2 = some v → v.m1 0 = 0 ∧ ∀ j, 0 ≤ v.m1 j) →
      Visits (fun c s => sgdMove sqrt takeGradient proxProject o rows c s.1 s.2) s cs ws →
      ∀ x ∈ ws, x.1 = fun i => if i = 0 then 1 else 0 := by
    intro s cs ws hcs h1 h2 hvis
    induction hvis with
    | nil => simp
    | cons hstep _ ih =>
      rename_i s s' _ _ _ _
      rw [h1] at hstep
      obtain ⟨h3, h4⟩ := sgdMove_stuck (sqrt := sqrt) hc hplain ha hsq he (hcs _ (by simp)) h2
        (l' := s'.1) (iv' := s'.2) hstep
      intro x hx
      rcases List.mem_cons.1 hx with rfl | hx
      · exact h3
      · exact ih (fun c hc => hcs c (by simp [hc])) h3 h4 x hx
  have hall := hall _ _ _ hp rfl (by simp) hv
  have hin : ∀ x ∈ ((fun i => if i = 0 then 1 else 0 : Fin (n + 1) → K),
      (none : Option (Iv K (n + 1)))) :: vs, x.1 = fun i => if i = 0 then 1 else 0 := by
    intro x hx
    rcases List.mem_cons.1 hx with rfl | hx
    · rfl
    · exact hall x hx
  refine ⟨?_, ?_, c, ?_, ?_⟩
  · rw [← hvb]; exact hin v (List.mem_of_getElem? hvi)
  · obtain ⟨x, hx, hx2⟩ := Option.map_eq_some_iff.1 hlast
    rw [← hx2]; exact hin x (List.mem_of_getLast? hx)
  · rw [← hb, ← hvb, hin v (List.mem_of_getElem? hvi)]
  · rw [List.eq_replicate_iff]
    refine ⟨hlen, fun x hx => ?_⟩
    obtain ⟨j, hj, rfl⟩ := List.getElem_of_mem hx
    rw [List.forall₂_iff_get] at hf
    have hj2 := hj
    rw [← hf.1] at hj2
    have := hf.2 j hj2 hj
    simp only [List.get_eq_getElem] at this
    rw [hin _ (List.getElem_mem hj2), ← hin v (List.mem_of_getElem? hvi), hvb, hb] at this
    exact (Except.ok.inj this).symm

/-! ### `smooth` -/

theorem sum_nonpos_list {l : List K} (h : ∀ x ∈ l, x ≤ 0) : l.sum ≤ 0 := by
  induction l with
  | nil => simp
  | cons a l ih =>
    rw [List.sum_cons]
    exact add_nonpos (h a (by simp)) (ih fun x hx => h x (by simp [hx]))

theorem levelSum_zero_self {t : Topo} {C : ℕ} (pa : Bool) (D : Fin t.nLeaves → Fin t.nLeaves → ℤ)
    (m v : Fin t.nLeaves → K) (x : K) (i : Fin t.nLeaves) (k : ℕ) :
    levelSum pa D (fun j => m j * v j) i k - x * levelSum pa D m i k =
      levelSum pa D (fun j => m j * (v j - x)) i k := by
  unfold levelSum
  split_ifs <;> rw [Finset.mul_sum, ← Finset.sum_sub_distrib] <;>
    exact Finset.sum_congr rfl fun j _ => by ring

/-- Pull of one optimisation row. -/
theorem specRow_pull {t : SkTree K C} (hwf : t.WF) (s : Style) (pa al : Bool)
    (tune : ℕ → List (TuneRow K C)) (n : ℕ) (c : Fin C) (r : Fin t.nLeaves) (i : ℕ)
    (hn : t.nSamp (t.leafNode r) ≠ 0) (j : Fin (n + 1)) :
    (specRow .reg s pa al tune (n + 1) c (⟨t, r⟩, i)).w *
        ((specRow .reg s pa al tune (n + 1) c (⟨t, r⟩, i)).y -
          (specRow .reg s pa al tune (n + 1) c (⟨t, r⟩, i)).gam 0 /
            (specRow .reg s pa al tune (n + 1) c (⟨t, r⟩, i)).eta 0) *
        (((specRow .reg s pa al tune (n + 1) c (⟨t, r⟩, i)).gam j -
          (specRow .reg s pa al tune (n + 1) c (⟨t, r⟩, i)).gam 0 /
            (specRow .reg s pa al tune (n + 1) c (⟨t, r⟩, i)).eta 0 *
          (specRow .reg s pa al tune (n + 1) c (⟨t, r⟩, i)).eta j) /
            (specRow .reg s pa al tune (n + 1) c (⟨t, r⟩, i)).eta 0) =
      (((tune i).filter fun q => q.leaf == r.val).map fun q =>
        (q.y c - t.value (t.leafNode r) c) *
          (levelSum pa (t.distDepth s) (fun j => t.nSamp (t.leafNode j) *
            (t.value (t.leafNode j) c - t.value (t.leafNode r) c)) r j / t.nSamp (t.leafNode r))).sum := by
  have e0 : (specRow .reg s pa al tune (n + 1) c (⟨t, r⟩, i)).eta 0 = t.nSamp (t.leafNode r) :=
    levelSum_zero hwf s pa _ r
  have g0 : (specRow .reg s pa al tune (n + 1) c (⟨t, r⟩, i)).gam 0 =
      t.nSamp (t.leafNode r) * t.value (t.leafNode r) c := levelSum_zero hwf s pa _ r
  rw [e0, g0, mul_div_cancel_left₀ _ hn]
  rw [List.sum_map_mul_right]
  have h1 : (specRow .reg s pa al tune (n + 1) c (⟨t, r⟩, i)).gam j - t.value (t.leafNode r) c *
      (specRow .reg s pa al tune (n + 1) c (⟨t, r⟩, i)).eta j =
      levelSum pa (t.distDepth s) (fun j => t.nSamp (t.leafNode j) *
            (t.value (t.leafNode j) c - t.value (t.leafNode r) c)) r j :=
    levelSum_zero_self (C := C) pa _ (fun j => t.nSamp (t.leafNode j))
      (fun j => t.value (t.leafNode j) c) _ _ _
  rw [h1]
  congr 1
  show leafWeight (tune i) r * (leafMean (tune i) r c - t.value (t.leafNode r) c) = _
  have h2 : ∀ (l : List (TuneRow K C)) (v : K), (l.map fun q => q.y c - v).sum =
      (l.map fun q => q.y c).sum - l.length * v := by
    intro l v
    induction l with
    | nil => simp
    | cons a l ih => simp only [List.map_cons, List.sum_cons, ih, List.length_cons]; push_cast; ring
  rw [h2]
  unfold leafMean leafWeight
  by_cases h0 : (((tune i).filter fun q => q.leaf == r.val).length : K) = 0
  · have : (tune i).filter (fun q => q.leaf == r.val) = [] := by simpa using h0
    rw [this]; simp
  · rw [if_neg h0, mul_sub, mul_div_cancel₀ _ h0]

/-- Pull of the rows of `smooth`. -/
theorem flat_pull {forest : List (SkTree K C)} (hwf : ∀ t ∈ forest, t.WF)
    (hn : ∀ t ∈ forest, ∀ r, t.nSamp (t.leafNode r) ≠ 0) (s : Style) (pa al : Bool)
    (tune : ℕ → List (TuneRow K C)) (n c : ℕ) (j : Fin (n + 1)) :
    rowPull (((List.finRange C).flatMap fun c => (leafListI forest).map
      (specRow .reg s pa al tune (n + 1) c)).filter fun r => r.tree == c) j =
    ((forest.zipIdx.filter fun tt => (if al then 0 else tt.2) == c).map fun tt =>
      tunePull tt.1 (tune tt.2) s pa j).sum := by
  unfold rowPull
  rw [List.filter_flatMap, List.map_flatMap, List.flatMap, List.sum_flatten, List.map_map]
  have e2 : ∀ d : Fin C, (List.sum ∘ fun d => (((leafListI forest).map
        (specRow .reg s pa al tune (n + 1) d)).filter fun r => r.tree == c).map fun r =>
          r.w * (r.y - r.gam 0 / r.eta 0) *
            ((r.gam j - r.gam 0 / r.eta 0 * r.eta j) / r.eta 0)) d =
      ((forest.zipIdx.filter fun tt => (if al then 0 else tt.2) == c).map fun tt =>
        ∑ r : Fin tt.1.nLeaves, (((tune tt.2).filter fun q => q.leaf == r.val).map fun q =>
          (q.y d - tt.1.value (tt.1.leafNode r) d) *
          (levelSum pa (tt.1.distDepth s) (fun j => tt.1.nSamp (tt.1.leafNode j) *
            (tt.1.value (tt.1.leafNode j) d - tt.1.value (tt.1.leafNode r) d)) r j /
              tt.1.nSamp (tt.1.leafNode r))).sum).sum := by
    intro d
    simp only [Function.comp, leafListI, List.map_flatMap, List.filter_flatMap]
    have hw : ∀ tt ∈ forest.zipIdx, tt.1.WF ∧ ∀ r, tt.1.nSamp (tt.1.leafNode r) ≠ 0 :=
      fun tt h => ⟨hwf _ (mem_of_zipIdx h), hn _ (mem_of_zipIdx h)⟩
    generalize forest.zipIdx = L at hw
    induction L with
    | nil => simp
    | cons tt L ih =>
      have ih := ih fun x hx => hw x (List.mem_cons_of_mem _ hx)
      rw [List.flatMap_cons, List.sum_append, ih]
      by_cases hcc : (if al then 0 else tt.2) = c
      · rw [List.filter_cons_of_pos (by simpa using hcc), List.map_cons, List.sum_cons]
        congr 1
        rw [List.filter_eq_self.2]
        · rw [Fin.sum_univ_def, List.map_map, List.map_map]
          congr 1
          refine List.map_congr_left fun r _ => ?_
          exact specRow_pull (hw tt (by simp)).1 s pa al tune n d r tt.2 ((hw tt (by simp)).2 r) j
        · intro x hx
          obtain ⟨q, hq, rfl⟩ := List.mem_map.1 hx
          obtain ⟨r, -, rfl⟩ := List.mem_map.1 hq
          simpa [specRow] using hcc
      · rw [List.filter_cons_of_neg (by simpa using hcc), List.filter_eq_nil_iff.2]
        · simp
        · intro x hx
          obtain ⟨q, hq, rfl⟩ := List.mem_map.1 hx
          obtain ⟨r, -, rfl⟩ := List.mem_map.1 hq
          simpa [specRow] using hcc
  rw [List.map_congr_left fun d _ => e2 d, ← Fin.sum_univ_def, sum_list_finset']
  congr 1
  refine List.map_congr_left fun tt _ => ?_
  rw [tunePull, Finset.sum_comm]

theorem flat_eta0 {forest : List (SkTree K C)} (hwf : ∀ t ∈ forest, t.WF)
    (hn : ∀ t ∈ forest, ∀ r, t.nSamp (t.leafNode r) ≠ 0) (s : Style) (pa al : Bool)
    (tune : ℕ → List (TuneRow K C)) (n : ℕ) :
    ∀ r ∈ (List.finRange C).flatMap fun c => (leafListI forest).map
      (specRow .reg s pa al tune (n + 1) c), r.eta 0 ≠ 0 := by
  intro r hr
  obtain ⟨c, -, hr⟩ := List.mem_flatMap.1 hr
  obtain ⟨q, hq, rfl⟩ := List.mem_map.1 hr
  obtain ⟨tt, ht, hq⟩ := List.mem_flatMap.1 hq
  obtain ⟨r, -, rfl⟩ := List.mem_map.1 hq
  have := levelSum_zero (hwf _ (mem_of_zipIdx ht)) s pa (fun j => tt.1.nSamp (tt.1.leafNode j)) r
  show levelSum _ _ _ _ _ ≠ 0
  rw [show ((0 : Fin (n + 1)) : ℕ) = 0 from rfl, this]
  exact hn _ (mem_of_zipIdx ht) r

/-- C190: if in no tree the tuning rows pull towards any level, constrained `smooth` on a regression
forest with the default start returns the forest it was given, whatever the step size, the number of
steps and the random choices. -/
theorem C190_smooth_stays (hsq : ∀ x, 0 ≤ x → 0 ≤ sqrt x) (hC : 0 < C) {forest : List (SkTree K C)}
    (hwf : ∀ t ∈ forest, t.WF) (hn : ∀ t ∈ forest, ∀ r, t.nSamp (t.leafNode r) ≠ 0)
    {cfg : SmoothCfg K} (hc : cfg.noConstraint = false) (hseed : cfg.seed = none)
    (hplain : cfg.adam = none → 0 ≤ cfg.tFix)
    (ha : ∀ a, cfg.adam = some a → AdamRange a ∧ 0 ≤ a.alpha) {src : TuneSrc}
    (hsrc : tuneSource cfg.data = .ok src) {sources : TuneSrc → ℕ → List (TuneRow K C)}
    (hp : ∀ tt ∈ forest.zipIdx, ∀ k, 1 ≤ k → k ≤ forestDepth forest →
      tunePull tt.1 (sources src tt.2) cfg.style cfg.parentsAll k ≤ 0)
    {out : SmoothOut K C (forestDepth forest + 1)}
    (h : smooth sqrt ce (some .reg) forest cfg sources = .ok out) :
    out.rf1 = forest ∧ (∀ i, out.lamb1 i = if i = 0 then 1 else 0) ∧ out.lamb2 = out.lamb1 := by
  have hmain : (∀ i, out.lamb1 i = if i = 0 then 1 else 0) ∧ out.lamb2 = out.lamb1 := by
    obtain ⟨kind', src', yw, lamb, h0, h1, h2, h3, h4, -, -⟩ := smooth_ok h
    cases h0
    have hs' := (smoothCheck_ok.1 h1).2.1
    rw [hsrc] at hs'
    cases hs'
    rw [hseed] at h3
    have h3 : (fun i => if i = 0 then 1 else 0) = lamb := by
      have : (Except.ok (fun i => if i = 0 then 1 else 0) : Except PyErr _) = .ok lamb := h3
      exact Except.ok.inj this
    rw [tuneSummaries_eq] at h2
    split at h2
    · cases h2
    cases h2
    rw [flatRows_eq .reg forest hwf] at h4
    unfold smoothOptimise at h4
    split_ifs at h4 with hsan hk
    · simp only [Except.ok.injEq, Prod.mk.injEq] at h4
      exact ⟨fun i => by rw [← h4.1, ← h3], by rw [← h4.1, ← h4.2.1]⟩
    · subst h3
      obtain ⟨hb, hl, -⟩ := C190_descent_stays (by simp [hc]) hplain ha hsq
        (flat_eta0 hwf hn _ _ _ _ _) (fun c _ j hj => by
          rw [flat_pull hwf hn]
          refine sum_nonpos_list fun x hx => ?_
          obtain ⟨tt, ht, rfl⟩ := List.mem_map.1 hx
          exact hp tt (List.mem_filter.1 ht).1 j
            (Nat.one_le_iff_ne_zero.2 fun e => hj (Fin.ext e)) (by omega)) h4
      exact ⟨fun i => by rw [hb], by rw [hb, hl]⟩
    · exact absurd (Or.inl rfl) hk
  refine ⟨?_, hmain⟩
  refine forall2_eq (forall2_imp_mem (smooth_forests hC hwf h).1 fun t ht t' hu => ?_)
  refine leafUpdate_same (hwf t ht) hu fun r c => ?_
  rw [smoothSpec, smoothDen_e0 (hwf t ht) _ _ _ _ hmain.1, smoothNum_e0 _ (hwf t ht) _ _ _ _ _ hmain.1,
    if_neg (hn t ht r)]
  exact mul_div_cancel_left₀ _ (hn t ht r)

/-- C190: one plain constrained step of `smooth` leaves the default start iff some level of the chosen
tree (of all trees together with `all_trees`) pulls. -/
theorem C190_smooth_step_iff {forest : List (SkTree K C)}
    (hwf : ∀ t ∈ forest, t.WF) (hn : ∀ t ∈ forest, ∀ r, t.nSamp (t.leafNode r) ≠ 0)
    {cfg : SmoothCfg K} (hc : cfg.noConstraint = false) (hseed : cfg.seed = none)
    (hadam : cfg.adam = none) (htf : 0 < cfg.tFix) (hsan : cfg.sanityCheck = false) {c : ℕ}
    (hsteps : cfg.steps = [c]) {src : TuneSrc}
    (hsrc : tuneSource cfg.data = .ok src) {sources : TuneSrc → ℕ → List (TuneRow K C)}
    {out : SmoothOut K C (forestDepth forest + 1)}
    (h : smooth sqrt ce (some .reg) forest cfg sources = .ok out) :
    (∀ i, out.lamb2 i = if i = 0 then 1 else 0) ↔ ∀ k, 1 ≤ k → k ≤ forestDepth forest →
      ((forest.zipIdx.filter fun tt => (if cfg.allTrees then 0 else tt.2) == c).map fun tt =>
        tunePull tt.1 (sources src tt.2) cfg.style cfg.parentsAll k).sum ≤ 0 := by
  obtain ⟨kind', src', yw, lamb, h0, h1, h2, h3, h4, -, -⟩ := smooth_ok h
  cases h0
  have hs' := (smoothCheck_ok.1 h1).2.1
  rw [hsrc] at hs'
  cases hs'
  rw [hseed] at h3
  have h3 : (fun i => if i = 0 then 1 else 0) = lamb := by
    have : (Except.ok (fun i => if i = 0 then 1 else 0) : Except PyErr _) = .ok lamb := h3
    exact Except.ok.inj this
  rw [tuneSummaries_eq] at h2
  split at h2
  · cases h2
  cases h2
  rw [flatRows_eq .reg forest hwf] at h4
  unfold smoothOptimise at h4
  rw [if_neg (by simp [hsan]), if_pos (Or.inl rfl), hsteps] at h4
  subst h3
  obtain ⟨l1, vs, hl1, hv, hlen, hf, hlast, -⟩ := C27_sgd_returns_best sqrt _ _ _ _ _ _ _ h4
  have hl1 : l1 = fun i => if i = 0 then 1 else 0 := List.ofFn_injective hl1
  subst hl1
  cases hv with
  | cons hstep hrest =>
    rename_i s' vs'
    cases hrest
    have hl : s'.1 = out.lamb2 := by simpa using hlast
    have key := C190_step_iff (sqrt := sqrt) (l' := s'.1) (iv' := s'.2) hadam (by simp [hc]) htf
      (flat_eta0 hwf hn _ _ _ _ _) hstep
    rw [hl] at key
    rw [← funext_iff (f := out.lamb2) (g := fun i => if i = 0 then 1 else 0), key]
    constructor
    · intro hj k hk1 hk2
      have := hj ⟨k, by omega⟩ (fun e => by have := congrArg Fin.val e; simp at this; omega)
      rwa [flat_pull hwf hn] at this
    · intro hk j hj
      rw [flat_pull hwf hn]
      exact hk j (Nat.one_le_iff_ne_zero.2 fun e => hj (Fin.ext e)) (by omega)

/-! ### Stuck although better weights exist -/

/-- Leaf 0 holds 0 (one sample), leaf 1 holds 1 (ten samples). -/
abbrev exStuck : SkTree ℚ 1 :=
  { toTopo := ⟨2, ![some 1, none, none], ![some 2, none, none]⟩
    value := fun i _ => ![10 / 11, 0, 1] i
    nSamp := ![11, 1, 10]
    impurity := ![10 / 121, 0, 0] }

/-- One tuning row with response -1 in leaf 0, four with response 0 in leaf 1. -/
abbrev exStuckTune : List (TuneRow ℚ 1) :=
  ⟨0, fun _ => -1⟩ :: List.replicate 4 ⟨1, fun _ => 0⟩

/-- C190, "constrained tuning finds the best weights" fails: on this tree and these rows `smooth`
returns its argument for every step size, number of steps and choice of trees, although the start
`(0, 1)` (no descent at all) already gives a smaller squared error. -/
theorem C190_best_refuted (tFix : ℚ) (ht : 0 ≤ tFix) (steps : List ℕ) :
    ∃ out out', smooth (fun x : ℚ => x) noCe (some .reg) [exStuck]
      { exCfg with sanityCheck := false, tFix := tFix, steps := steps } (fun _ _ => exStuckTune) = .ok out ∧
    smooth (fun x : ℚ => x) noCe (some .reg) [exStuck]
      { exCfg with seed := some fun i => if i = 1 then 1 else 0 } (fun _ _ => exStuckTune) = .ok out' ∧
    out.rf1 = [exStuck] ∧ forestSSE out.rf1 (fun _ => exStuckTune) = 5 ∧
    forestSSE out'.rf1 (fun _ => exStuckTune) = 4 := by
  have hwf : ∀ t ∈ [exStuck], t.WF := by simp; decide
  have hpos : ∀ t ∈ [exStuck], ∀ r, 0 < t.nSamp (t.leafNode r) := by simp; decide +kernel
  obtain ⟨out, ho⟩ := C134_smooth_returns (sqrt := fun x : ℚ => x) (ce := noCe) (fun _ h => h) one_pos .reg
    (by simp) hwf hpos { exCfg with sanityCheck := false, tFix := tFix, steps := steps } (Or.inl rfl)
    (by simp) rfl (by simp) (by norm_num) (src := .given) rfl (fun _ _ => exStuckTune) (by simp) (by simp)
  have hst := C190_smooth_stays (fun _ h => h) one_pos hwf (fun t h r => (hpos t h r).ne')
    (cfg := { exCfg with sanityCheck := false, tFix := tFix, steps := steps }) rfl rfl (fun _ => ht)
    (by simp) (src := .given) rfl (by
      intro tt htt k hk1 hk2
      simp only [List.zipIdx_singleton, List.mem_singleton] at htt
      subst htt
      have : k = 1 := le_antisymm (hk2.trans (by decide +kernel)) hk1
      subst this
      show tunePull exStuck exStuckTune .standard false 1 ≤ 0
      decide +kernel) ho
  have h2 : ∃ out', smooth (fun x : ℚ => x) noCe (some .reg) [exStuck]
      { exCfg with seed := some fun i => if i = 1 then 1 else 0 } (fun _ _ => exStuckTune) = .ok out' ∧
      forestSSE out'.rf1 (fun _ => exStuckTune) = 4 := by
    have : (match smooth (fun x : ℚ => x) noCe (some .reg) [exStuck]
      { exCfg with seed := some fun i => if i = 1 then 1 else 0 } (fun _ _ => exStuckTune) with
      | .ok out' => decide (forestSSE out'.rf1 (fun _ => exStuckTune) = 4)
      | .error _ => false) = true := by decide +kernel
    split at this
    · exact ⟨_, ‹_›, by simpa using this⟩
    · cases this
  obtain ⟨out', h2, h3⟩ := h2
  refine ⟨out, out', ho, h2, hst.1, ?_, h3⟩
  rw [hst.1]
  decide +kernel

/-! ### Examples -/

/-- Pulls of both signs on one tree, and the effect of one step. -/
example : tunePull exStuck exStuckTune .standard false 1 = -48 / 5 ∧
    tunePull exStuck [⟨0, fun _ => 1⟩] .standard false 1 = 10 ∧
    (match smooth (fun x : ℚ => x) noCe (some .reg) [exStuck]
      { exCfg with sanityCheck := false, tFix := 1 / 100, steps := [0] } (fun _ _ => [⟨0, fun _ => 1⟩]) with
    | .ok out => some (List.ofFn out.lamb2)
    | .error _ => none) = some [9 / 10, 1 / 10] := by
  decide +kernel

/-- Adam parameters within the range of `C190_smooth_stays`. -/
example : AdamRange (⟨1 / 10, 9 / 10, 1 / 2, 1⟩ : AdamOpts ℚ) :=
  ⟨by norm_num, by norm_num, by norm_num, by norm_num, by norm_num⟩

end SmoothRF
