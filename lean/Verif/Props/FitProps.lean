import Verif.Props.PruneProps
import Verif.Props.GammaProps
import Verif.Spec.Fit

/-!
# C144, C145: trees fitted to training data
-/

set_option linter.unusedSectionVars false

namespace SmoothRF
open SkTree Topo

variable {K : Type} [Field K] [LinearOrder K] [IsStrictOrderedRing K] {C : ℕ}

section
variable {t : Topo} {Y : Type} {rows : List (OobRow t Y)}

theorem sum_filter_split (rows : List (OobRow t Y)) (h : ∀ r ∈ rows, Routed t r.path) {i l q : t.Node}
    (hl : t.left i = some l) (hq : t.right i = some q) (f : OobRow t Y → K) :
    ((through rows i).map f).sum = ((through rows l).map f).sum + ((through rows q).map f).sum := by
  unfold through
  induction rows with
  | nil => simp
  | cons r rows ih =>
    have ih := ih fun x hx => h x (List.mem_cons_of_mem _ hx)
    obtain ⟨h1, h2⟩ := (h r (List.mem_cons_self ..)).split i l q hl hq
    rw [List.filter_cons, List.filter_cons, List.filter_cons]
    cases ha : r.path l <;> cases hb : r.path q <;> simp [ha, hb] at h1 h2 ⊢ <;>
      simp [h1, ih, add_assoc, add_left_comm]

theorem path_child (hr : ∀ r ∈ rows, Routed t r.path) {i l q : t.Node} (hl : t.left i = some l)
    (hq : t.right i = some q) {r : OobRow t Y} (h : r ∈ rows) :
    (r.path l = true → r.path i = true) ∧ (r.path q = true → r.path i = true) := by
  obtain ⟨h1, -⟩ := (hr r h).split i l q hl hq
  rw [h1]
  exact ⟨fun e => by simp [e], fun e => by simp [e]⟩

/-- A row passes all nodes above the nodes it passes. -/
theorem path_anc (h : t.WF) {p : t.Node → Bool} (hp : Routed t p) {a i : t.Node} (ha : t.Anc a i)
    (hi : p i = true) : p a = true := by
  induction ha with
  | refl => exact hi
  | step _ hc ih =>
    rename_i b c _
    refine ih ?_
    have hnl : ¬ t.IsLeaf b := fun e => e _ hc
    obtain ⟨l, q, hl, hq⟩ := children_of_not_leaf h hnl
    have h1 := (hp.split b l q hl hq).1
    rcases hc with hc | hc
    · rw [hl] at hc; cases hc; rw [h1, hi]; rfl
    · rw [hq] at hc; cases hc; rw [h1, hi]; simp

/-- A row passes only one of two unrelated nodes. -/
theorem path_comparable (h : t.WF) {p : t.Node → Bool} (hp : Routed t p) {i j : t.Node}
    (hi : p i = true) (hj : p j = true) : t.Anc i j ∨ t.Anc j i := by
  induction hn : (i.val + j.val) using Nat.strong_induction_on generalizing i j with
  | _ n ih =>
    wlog hle : i ≤ j generalizing i j
    · exact (this hj hi (by omega) (le_of_not_ge hle)).symm
    rcases eq_or_lt_of_le hle with rfl | hlt
    · exact Or.inl (.refl _)
    · have hj0 : j ≠ 0 := fun e => by subst e; exact absurd hlt (Fin.not_lt_zero _)
      obtain ⟨b, hb⟩ := h.parent j hj0
      have hbj := h.lt b j hb
      have hpb := path_anc h hp (.step (.refl b) hb) hj
      rcases ih (i.val + b.val) (by have : b.val < j.val := hbj; omega) hi hpb rfl with h1 | h1
      · exact Or.inl (.step h1 hb)
      · by_cases hib : i = b
        · subst hib; exact Or.inl (.step (.refl _) hb)
        · obtain ⟨c, hc, hci⟩ := anc_top h h1 (Ne.symm hib)
          by_cases hcj : c = j
          · subst hcj; exact Or.inr hci
          · exfalso
            have hpc := path_anc h hp hci hi
            have hnl : ¬ t.IsLeaf b := fun e => e _ hb
            obtain ⟨l, q, hl, hq⟩ := children_of_not_leaf h hnl
            have h2 := (hp.split b l q hl hq).2
            have hcc : (c = l ∧ j = q) ∨ (c = q ∧ j = l) := by
              rcases hc with hc | hc <;> rcases hb with hb | hb <;>
                simp only [hl, hq, Option.some.injEq] at hc hb
              · exact absurd (hc.symm.trans hb) hcj
              · exact Or.inl ⟨hc.symm, hb.symm⟩
              · exact Or.inr ⟨hc.symm, hb.symm⟩
              · exact absurd (hc.symm.trans hb) hcj
            rcases hcc with ⟨rfl, rfl⟩ | ⟨rfl, rfl⟩
            · rw [hpc, hj] at h2; exact absurd h2 (by decide)
            · rw [hpc, hj] at h2; exact absurd h2 (by decide)

/-- Every row falls into exactly one leaf of the pruned tree. -/
theorem pruned_leaf_unique (h : t.WF) (P : t.Node → Prop) {p : t.Node → Bool} (hp : Routed t p) :
    ∃! l, t.CurLeaf P l ∧ p l = true := by
  have key : ∀ i : t.Node, p i = true → ¬ t.Removed P i → ∃ l, t.CurLeaf P l ∧ p l = true := by
    intro i
    induction hn : t.m - i.val using Nat.strong_induction_on generalizing i with
    | _ n ih =>
      intro hi hr
      by_cases hc : t.CurLeaf P i
      · exact ⟨i, hc, hi⟩
      · have hnl : ¬ t.IsLeaf i := fun e => hc ⟨hr, Or.inl e⟩
        have hP : ¬ P i := fun e => hc ⟨hr, Or.inr e⟩
        obtain ⟨l, q, hl, hq⟩ := children_of_not_leaf h hnl
        have h1 := (hp.split i l q hl hq).1
        rw [hi, eq_comm, Bool.or_eq_true] at h1
        have step : ∀ c, t.IsChild i c → p c = true → ∃ l, t.CurLeaf P l ∧ p l = true := by
          intro c hc hpc
          have := h.lt i c hc
          refine ih (t.m - c.val) ?_ c rfl hpc (not_removed_child h hc hr hP)
          have h3 : i.val < c.val := this
          have := c.2
          omega
        rcases h1 with h1 | h1
        · exact step l (Or.inl hl) h1
        · exact step q (Or.inr hq) h1
  obtain ⟨l, hl, hpl⟩ := key 0 hp.root (by
    rintro ⟨x, -, h1, h2⟩
    exact h2 ((anc_zero_iff h).1 h1))
  refine ⟨l, ⟨hl, hpl⟩, ?_⟩
  rintro l' ⟨hl', hpl'⟩
  have aux : ∀ {a b : t.Node}, t.CurLeaf P a → t.CurLeaf P b → t.Anc a b → a = b := by
    intro a b ha hb hab
    by_contra hne
    rcases ha.2 with h1 | h1
    · exact hne (leaf_anc_eq h h1 hab)
    · exact hb.1 ⟨a, h1, hab, hne⟩
  rcases path_comparable h hp hpl' hpl with h1 | h1
  · exact aux hl' hl h1
  · exact (aux hl hl' h1).symm

/-- Sums over the rows of a node, grouped by the leaves of the pruned tree below it. -/
theorem sum_curLeaves (h : t.WF) (hr : ∀ r ∈ rows, Routed t r.path) {P : t.Node → Prop}
    {pl : OobRow t Y → t.Node} (hpl : PrunedLeaf P rows pl) (f : OobRow t Y → t.Node → K)
    {i : t.Node} (hi : ¬ t.Removed P i) :
    ∑ l ∈ t.curLeaves P i, ((through rows l).map fun r => f r l).sum =
      ((through rows i).map fun r => f r (pl r)).sum := by
  induction hn : t.m - i.val using Nat.strong_induction_on generalizing i with
  | _ n ih =>
    by_cases hc : t.CurLeaf P i
    · rw [curLeaves_leaf h hc, Finset.sum_singleton]
      congr 1
      refine List.map_congr_left fun r hr' => ?_
      obtain ⟨h1, h2⟩ := List.mem_filter.1 hr'
      rw [(pruned_leaf_unique h P (hr r h1)).unique (hpl r h1) ⟨hc, h2⟩]
    · have hnl : ¬ t.IsLeaf i := fun e => hc ⟨hi, Or.inl e⟩
      have hP : ¬ P i := fun e => hc ⟨hi, Or.inr e⟩
      obtain ⟨l, q, hl, hq⟩ := children_of_not_leaf h hnl
      have h1 : i.val < l.val := h.lt i l (Or.inl hl)
      have h2 : i.val < q.val := h.lt i q (Or.inr hq)
      have h3 := l.2
      have h4 := q.2
      rw [(curLeaves_node h hl hq hP).2, Finset.sum_disjUnion,
        ih (t.m - l.val) (by omega) (not_removed_child h (Or.inl hl) hi hP) rfl,
        ih (t.m - q.val) (by omega) (not_removed_child h (Or.inr hq) hi hP) rfl,
        sum_filter_split rows hr hl hq]

theorem length_eq_sum {α : Type} (l : List α) : (l.length : K) = (l.map fun _ => (1 : K)).sum := by
  induction l with
  | nil => simp
  | cons _ _ ih => rw [List.length_cons, List.map_cons, List.sum_cons, ← ih]; push_cast; ring

theorem sum_list_sq {α : Type} (l : List α) (y : α → K) (v : K) :
    (l.map fun r => (y r - v) ^ 2).sum =
      (l.map fun r => y r ^ 2).sum - 2 * v * (l.map y).sum + (l.length : K) * v ^ 2 := by
  induction l with
  | nil => simp
  | cons a l ih => simp only [List.map_cons, List.sum_cons, List.length_cons, ih]; push_cast; ring

end

/-- The count of a fitted regression tree is positive. -/
theorem FitReg.pos {t : SkTree K 1} {rows : List (OobRow t.toTopo K)} (h : FitReg t rows) (i : t.Node) :
    0 < t.nSamp i := by
  rw [h.count i]
  exact_mod_cast List.length_pos_iff.2 (h.seen i)

/-- The count of a fitted classification tree is positive. -/
theorem FitCls.pos {t : SkTree K C} {rows : List (OobRow t.toTopo (Fin C))} (h : FitCls t rows)
    (i : t.Node) : 0 < t.nSamp i := by
  rw [h.count i]
  exact_mod_cast List.length_pos_iff.2 (h.seen i)

/-- C144, regression: in a tree fitted to data every node has rows, counts and sums of responses add up
over a split, and a split lowers the summed squared deviation by `n_l n_r / n (v_l - v_r)²`. -/
theorem C144_regression {t : SkTree K 1} {rows : List (OobRow t.toTopo K)} (hf : FitReg t rows) :
    (∀ i, 0 < t.nSamp i) ∧ t.Consistent .reg ∧
    ∀ i l q, t.left i = some l → t.right i = some q →
      t.nSamp i * t.impurity i = t.nSamp l * t.impurity l + t.nSamp q * t.impurity q +
        t.nSamp l * t.nSamp q / t.nSamp i * (t.value l 0 - t.value q 0) ^ 2 := by
  have hn : ∀ i l q, t.left i = some l → t.right i = some q → t.nSamp i = t.nSamp l + t.nSamp q := by
    intro i l q hl hq
    rw [hf.count, hf.count, hf.count, length_eq_sum, length_eq_sum (through rows l),
      length_eq_sum (through rows q), sum_filter_split rows hf.routed hl hq]
  have hv : ∀ i l q, t.left i = some l → t.right i = some q →
      t.nSamp i * t.value i 0 = t.nSamp l * t.value l 0 + t.nSamp q * t.value q 0 := by
    intro i l q hl hq
    rw [hf.mean, hf.mean, hf.mean, sum_filter_split rows hf.routed hl hq]
  refine ⟨hf.pos, fun i l q hl hq => ⟨hn i l q hl hq, fun c => ?_⟩, fun i l q hl hq => ?_⟩
  · have hc : c = 0 := Subsingleton.elim _ _
    subst hc
    exact hv i l q hl hq
  · have h1 := hf.mse i
    have h2 := hf.mse l
    have h3 := hf.mse q
    rw [sum_list_sq, ← hf.mean, ← hf.count] at h1 h2 h3
    rw [sum_filter_split rows hf.routed hl hq] at h1
    have e := hv i l q hl hq
    have en := hn i l q hl hq
    have hp := (hf.pos i).ne'
    have hv' : t.value i 0 = (t.nSamp l * t.value l 0 + t.nSamp q * t.value q 0) / t.nSamp i := by
      rw [← e, mul_div_cancel_left₀ _ hp]
    rw [h1, h2, h3, hv']
    rw [en] at hp ⊢
    field_simp
    ring

/-- C144, classification: in a tree fitted to data every node has rows, its class counts are non-negative
and add up to its count, and counts and class counts add up over a split; with Gini impurities a split
never raises the weighted impurity. -/
theorem C144_classification {t : SkTree K C} {rows : List (OobRow t.toTopo (Fin C))} (hf : FitCls t rows) :
    (∀ i, 0 < t.nSamp i) ∧ (∀ i c, 0 ≤ t.value i c) ∧ (∀ i, ∑ c, t.value i c = t.nSamp i) ∧
    t.Consistent .cls ∧
    (GiniImp t → ∀ i l q, t.left i = some l → t.right i = some q →
      t.nSamp l * t.impurity l + t.nSamp q * t.impurity q ≤ t.nSamp i * t.impurity i) := by
  have hn : ∀ i l q, t.left i = some l → t.right i = some q → t.nSamp i = t.nSamp l + t.nSamp q := by
    intro i l q hl hq
    rw [hf.count, hf.count, hf.count, length_eq_sum, length_eq_sum (through rows l),
      length_eq_sum (through rows q), sum_filter_split rows hf.routed hl hq]
  have hind : ∀ (l : List (OobRow t.toTopo (Fin C))) (c : Fin C),
      ((l.filter fun r => r.y = c).length : K) = (l.map fun r => if r.y = c then (1 : K) else 0).sum := by
    intro l c
    induction l with
    | nil => simp
    | cons a l ih =>
      rw [List.filter_cons, List.map_cons, List.sum_cons, ← ih]
      by_cases hc : a.y = c
      · simp [hc, add_comm]
      · simp [hc]
  have hv : ∀ i l q, t.left i = some l → t.right i = some q →
      ∀ c, t.value i c = t.value l c + t.value q c := by
    intro i l q hl hq c
    rw [hf.classes, hf.classes, hf.classes, hind, hind, hind, sum_filter_split rows hf.routed hl hq]
  have hsum : ∀ i, ∑ c, t.value i c = t.nSamp i := by
    intro i
    rw [hf.count]
    simp only [hf.classes, hind]
    induction through rows i with
    | nil => simp
    | cons a l ih =>
      simp only [List.map_cons, List.sum_cons, Finset.sum_add_distrib, ih, List.length_cons]
      rw [Finset.sum_ite_eq Finset.univ a.y fun _ => (1 : K)]
      simp [add_comm]
  refine ⟨hf.pos, fun i c => by rw [hf.classes]; positivity, hsum,
    fun i l q hl hq => ⟨hn i l q hl hq, fun c => hv i l q hl hq c⟩, fun hg i l q hl hq => ?_⟩
  have key : ∀ x, t.nSamp x * t.impurity x = t.nSamp x - ∑ c, t.value x c ^ 2 / t.nSamp x := by
    intro x
    have := (hf.pos x).ne'
    rw [hg x, mul_sub, mul_one, Finset.mul_sum]
    congr 1
    refine Finset.sum_congr rfl fun c _ => ?_
    field_simp
  rw [key, key, key, hn i l q hl hq]
  have hl0 := hf.pos l
  have hq0 := hf.pos q
  have : ∑ c, t.value i c ^ 2 / (t.nSamp l + t.nSamp q) ≤
      ∑ c, t.value l c ^ 2 / t.nSamp l + ∑ c, t.value q c ^ 2 / t.nSamp q := by
    rw [← Finset.sum_add_distrib]
    refine Finset.sum_le_sum fun c _ => ?_
    rw [hv i l q hl hq c, div_add_div _ _ hl0.ne' hq0.ne', div_le_div_iff₀ (by positivity) (by positivity)]
    nlinarith [mul_pos hl0 hq0, sq_nonneg (t.value l c * t.nSamp q - t.value q c * t.nSamp l),
      mul_nonneg (add_pos hl0 hq0).le (sq_nonneg (t.value l c * t.nSamp q - t.value q c * t.nSamp l))]
  linarith

/-- C145: every row falls into exactly one leaf of the pruned tree. -/
theorem C145_one_leaf {t : Topo} {Y : Type} (h : t.WF) (P : t.Node → Prop) (rows : List (OobRow t Y))
    (hr : ∀ r ∈ rows, Routed t r.path) :
    (∃ pl, PrunedLeaf P rows pl) ∧
    ∀ pl pl', PrunedLeaf P rows pl → PrunedLeaf P rows pl' → ∀ r ∈ rows, pl r = pl' r := by
  classical
  constructor
  · refine ⟨fun r => if hp : Routed t r.path then (pruned_leaf_unique h P hp).choose else 0, ?_⟩
    intro r hr'
    simp only [dif_pos (hr r hr')]
    exact (pruned_leaf_unique h P (hr r hr')).choose_spec.1
  · intro pl pl' h1 h2 r hr'
    exact (pruned_leaf_unique h P (hr r hr')).unique (h1 r hr') (h2 r hr')

/-- C145, regression: after any prunes of a fitted tree, `R({t})` and `R(T_t)` are the mean squared
training errors of the rows of the node under the node's own value and under the values of the leaves of
the pruned tree; their difference is the mean squared distance of these values. -/
theorem C145_regression {t : SkTree K 1} (h : t.WF) {rows : List (OobRow t.toTopo K)}
    (hf : FitReg t rows) {df df' : PDf K t.toTopo} (h0 : initDf .reg t = .ok df) {ops : List ℕ}
    (he : pruneMany t.toTopo df ops = .ok df') {pl : OobRow t.toTopo K → t.Node}
    (hpl : PrunedLeaf (pruneSet t.toTopo ops) rows pl) {i : t.Node}
    (hi : ¬ t.Removed (pruneSet t.toTopo ops) i) :
    (df' i).rOne = ((through rows i).map fun r => (r.y - t.value i 0) ^ 2).sum / (through rows i).length ∧
    (df' i).rSub =
      ((through rows i).map fun r => (r.y - t.value (pl r) 0) ^ 2).sum / (through rows i).length ∧
    (df' i).rOne - (df' i).rSub =
      ((through rows i).map fun r => (t.value (pl r) 0 - t.value i 0) ^ 2).sum /
        (through rows i).length := by
  have hI := reachable_inv h hf.pos h0 he
  have hrow := hI.2 i
  have hp := (hf.pos i).ne'
  have h1 : t.nSamp i * (df' i).rOne = ((through rows i).map fun r => (r.y - t.value i 0) ^ 2).sum := by
    rw [hrow.fixed.1]; exact hf.mse i
  have h2 : t.nSamp i * (df' i).rSub =
      ((through rows i).map fun r => (r.y - t.value (pl r) 0) ^ 2).sum := by
    rw [(hrow.sized hi).2, leafRisk, ← sum_curLeaves h hf.routed hpl
      (fun r l => (r.y - t.value l 0) ^ 2) hi]
    exact Finset.sum_congr rfl fun l _ => hf.mse l
  have h3 : t.nSamp i * ((df' i).rOne - (df' i).rSub) =
      ((through rows i).map fun r => (t.value (pl r) 0 - t.value i 0) ^ 2).sum := by
    have e1 : ((through rows i).map fun r => (r.y - t.value i 0) ^ 2).sum =
        ∑ l ∈ t.curLeaves (pruneSet t.toTopo ops) i,
          ((through rows l).map fun r => (r.y - t.value i 0) ^ 2).sum :=
      (sum_curLeaves h hf.routed hpl (fun r _ => (r.y - t.value i 0) ^ 2) hi).symm
    have e2 := sum_curLeaves h hf.routed hpl (fun _ l => (t.value l 0 - t.value i 0) ^ 2) hi
    have e3 := sum_curLeaves h hf.routed hpl (fun r l => (r.y - t.value l 0) ^ 2) hi
    rw [mul_sub, h1, h2, e1, ← e2, ← e3, ← Finset.sum_sub_distrib]
    refine Finset.sum_congr rfl fun l _ => ?_
    rw [sum_list_sq, sum_list_sq, ← hf.mean, ← hf.count]
    have : ((through rows l).map fun _ => (t.value l 0 - t.value i 0) ^ 2).sum =
        t.nSamp l * (t.value l 0 - t.value i 0) ^ 2 := by
      rw [hf.count]; simp
    rw [this]
    ring
  rw [← hf.count]
  exact ⟨by rw [← h1, mul_div_cancel_left₀ _ hp], by rw [← h2, mul_div_cancel_left₀ _ hp],
    by rw [← h3, mul_div_cancel_left₀ _ hp]⟩

/-- C145, regression: hence `R(T_t) ≤ R({t})` after any prunes and `g1 ≥ 0` at internal nodes; `g1 = 0`
exactly when all rows of the node keep the node's own value. -/
theorem C145_regression_g1 {t : SkTree K 1} (h : t.WF) {rows : List (OobRow t.toTopo K)}
    (hf : FitReg t rows) {df df' : PDf K t.toTopo} (h0 : initDf .reg t = .ok df) {ops : List ℕ}
    (he : pruneMany t.toTopo df ops = .ok df') {pl : OobRow t.toTopo K → t.Node}
    (hpl : PrunedLeaf (pruneSet t.toTopo ops) rows pl) {i : t.Node}
    (hi : ¬ t.Removed (pruneSet t.toTopo ops) i) (hc : ¬ t.CurLeaf (pruneSet t.toTopo ops) i) :
    (df' i).rSub ≤ (df' i).rOne ∧ ∃ x, (df' i).g1 = .fin x ∧ 0 ≤ x ∧
      (x = 0 ↔ ∀ r ∈ through rows i, t.value (pl r) 0 = t.value i 0) := by
  obtain ⟨-, -, e⟩ := C145_regression h hf h0 he hpl hi
  have hlen : (0 : K) < (through rows i).length := by rw [← hf.count]; exact hf.pos i
  have hnn : ∀ x ∈ (through rows i).map (fun r => (t.value (pl r) 0 - t.value i 0) ^ 2), 0 ≤ x := by
    intro x hx
    obtain ⟨r, -, rfl⟩ := List.mem_map.1 hx
    positivity
  have hge : 0 ≤ (df' i).rOne - (df' i).rSub := by
    rw [e]; exact div_nonneg (List.sum_nonneg hnn) hlen.le
  obtain ⟨h2, hg⟩ := (C55_g1_exact_partial h hf.pos h0 he i).1 hi hc
  have hs : (0 : K) < ((df' i).size : K) - 1 := by
    have : (2 : K) ≤ ((df' i).size : K) := by exact_mod_cast h2
    linarith
  refine ⟨by linarith, _, hg, div_nonneg hge hs.le, ?_⟩
  rw [div_eq_zero_iff, or_iff_left hs.ne', e, div_eq_zero_iff, or_iff_left hlen.ne']
  constructor
  · intro hz r hr
    have h3 := (List.all_zero_of_le_zero_le_of_sum_eq_zero (fun {x} hx => hnn x hx) hz)
      (List.mem_map_of_mem hr)
    exact sub_eq_zero.1 (pow_eq_zero_iff (two_ne_zero)|>.1 h3)
  · intro hz
    refine List.sum_eq_zero fun x hx => ?_
    obtain ⟨r, hr, rfl⟩ := List.mem_map.1 hx
    rw [hz r hr, sub_self, zero_pow two_ne_zero]

/-- C145, classification: after any prunes of a fitted tree, `R({t})` is the fraction of the node's rows
whose class is not the node's first majority class, and `R(T_t)` the fraction whose class is not the first
majority class of the leaf of the pruned tree they fall into. -/
theorem C145_classification {t : SkTree K C} (h : t.WF) {rows : List (OobRow t.toTopo (Fin C))}
    (hf : FitCls t rows) {df df' : PDf K t.toTopo} (h0 : initDf .cls t = .ok df) {ops : List ℕ}
    (he : pruneMany t.toTopo df ops = .ok df') {pl : OobRow t.toTopo (Fin C) → t.Node}
    (hpl : PrunedLeaf (pruneSet t.toTopo ops) rows pl) {maj : t.Node → Fin C}
    (hmaj : ∀ j c, t.value j c ≤ t.value j (maj j) ∧ (c < maj j → t.value j c < t.value j (maj j)))
    {i : t.Node} (hi : ¬ t.Removed (pruneSet t.toTopo ops) i) :
    (df' i).rOne = (((through rows i).filter fun r => r.y ≠ maj i).length : K) / (through rows i).length ∧
    (df' i).rSub =
      (((through rows i).filter fun r => r.y ≠ maj (pl r)).length : K) / (through rows i).length := by
  have hI := reachable_inv h hf.pos h0 he
  have hrow := hI.2 i
  have hp := (hf.pos i).ne'
  have hind : ∀ (l : List (OobRow t.toTopo (Fin C))) (g : OobRow t.toTopo (Fin C) → Fin C),
      ((l.filter fun r => r.y ≠ g r).length : K) = (l.map fun r => if r.y = g r then (0 : K) else 1).sum := by
    intro l g
    induction l with
    | nil => simp
    | cons a l ih =>
      rw [List.filter_cons, List.map_cons, List.sum_cons, ← ih]
      by_cases hc : a.y = g a
      · simp [hc]
      · simp [hc, add_comm]
  have hcnt : ∀ (l : List (OobRow t.toTopo (Fin C))) (c : Fin C),
      (l.length : K) - ((l.filter fun r => r.y = c).length : K) =
        (l.map fun r => if r.y = c then (0 : K) else 1).sum := by
    intro l c
    induction l with
    | nil => simp
    | cons a l ih =>
      rw [List.filter_cons, List.map_cons, List.sum_cons, ← ih, List.length_cons]
      by_cases hc : a.y = c
      · simp [hc]
      · simp [hc]; ring
  have hrisk : ∀ j, t.nSamp j * riskOf .cls t j =
      ((through rows j).map fun r => if r.y = maj j then (0 : K) else 1).sum := by
    intro j
    show t.nSamp j * (misclassified (t.value j) / t.nSamp j) = _
    rw [mul_div_cancel₀ _ (hf.pos j).ne', misclassified_eq (c := maj j)
      ⟨fun c => (hmaj j c).1, fun c => (hmaj j c).2⟩, (C144_classification hf).2.2.1 j, hf.count,
      hf.classes, hcnt]
  rw [← hf.count, hind _ fun _ => maj i, hind _ fun r => maj (pl r)]
  constructor
  · rw [hrow.fixed.1, ← hrisk i, mul_div_cancel_left₀ _ hp]
  · rw [← sum_curLeaves h hf.routed hpl (fun r l => if r.y = maj l then (0 : K) else 1) hi,
      eq_div_iff hp, mul_comm, (hrow.sized hi).2, leafRisk]
    exact Finset.sum_congr rfl fun l _ => hrisk l

/-- One of two children has at most the parent's average. -/
theorem some_child_le {n nl nq r rl rq : K} (hl : 0 < nl) (hq : 0 < nq) (hn : n = nl + nq)
    (h : nl * rl + nq * rq ≤ n * r) : rl ≤ r ∨ rq ≤ r := by
  by_contra hcon
  push Not at hcon
  have h1 := mul_lt_mul_of_pos_left hcon.1 hl
  have h2 := mul_lt_mul_of_pos_left hcon.2 hq
  rw [hn, add_mul] at h
  linarith

/-- C145: at every split of a fitted regression tree at least one child has a risk `R({t})` not above its
parent's. -/
theorem C145_some_child_reg {t : SkTree K 1} (h : t.WF) {rows : List (OobRow t.toTopo K)}
    (hf : FitReg t rows) {df : PDf K t.toTopo} (h0 : initDf .reg t = .ok df) {i l q : t.Node}
    (hl : t.left i = some l) (hq : t.right i = some q) :
    (df l).rOne ≤ (df i).rOne ∨ (df q).rOne ≤ (df i).rOne := by
  have hI := reachable_inv h hf.pos h0 (ops := []) (df' := df) rfl
  obtain ⟨hp, hc, hm⟩ := C144_regression hf
  rw [(hI.2 i).fixed.1, (hI.2 l).fixed.1, (hI.2 q).fixed.1]
  refine some_child_le (hp l) (hp q) (hc i l q hl hq).1 ?_
  show t.nSamp l * t.impurity l + t.nSamp q * t.impurity q ≤ t.nSamp i * t.impurity i
  rw [hm i l q hl hq]
  have h1 := hp l
  have h2 := hp q
  have h3 := hp i
  have : 0 ≤ t.nSamp l * t.nSamp q / t.nSamp i * (t.value l 0 - t.value q 0) ^ 2 := by positivity
  linarith

/-- C145: the same for a fitted classification tree. -/
theorem C145_some_child_cls {t : SkTree K C} (h : t.WF) {rows : List (OobRow t.toTopo (Fin C))}
    (hf : FitCls t rows) {df : PDf K t.toTopo} (h0 : initDf .cls t = .ok df) {i l q : t.Node}
    (hl : t.left i = some l) (hq : t.right i = some q) :
    (df l).rOne ≤ (df i).rOne ∨ (df q).rOne ≤ (df i).rOne := by
  have hI := reachable_inv h hf.pos h0 (ops := []) (df' := df) rfl
  obtain ⟨hp, -, -, hc, -⟩ := C144_classification hf
  refine some_child_le (hp l) (hp q) (hc i l q hl hq).1 ?_
  have hr : ∀ x, t.nSamp x * (df x).rOne = misclassified (t.value x) := by
    intro x
    have : (df x).rOne = misclassified (t.value x) / t.nSamp x := (hI.2 x).fixed.1
    rw [this, mul_div_cancel₀ _ (hp x).ne']
  rw [hr, hr, hr]
  exact misclassified_superadd _ _ _ (hc i l q hl hq).2

/-! ### Examples -/

/-- Six training rows and the regression tree fitted to them. -/
abbrev exFitRows : List (OobRow exTopo ℚ) :=
  [⟨![true, true, true, false, false], 1⟩, ⟨![true, true, false, true, false], 3⟩,
    ⟨![true, true, false, true, false], 5⟩, ⟨![true, false, false, false, true], 9⟩,
    ⟨![true, false, false, false, true], 10⟩, ⟨![true, false, false, false, true], 11⟩]

@[inherit_doc exFitRows]
abbrev exFit : SkTree ℚ 1 := { exTree with impurity := ![167 / 12, 8 / 3, 0, 1, 2 / 3] }

theorem exFit_fit : FitReg exFit exFitRows :=
  ⟨by decide +kernel, by decide +kernel, by decide +kernel, by decide +kernel, by decide +kernel⟩

/-- The risks of the table before and after pruning node 1. -/
example : (match initDf .reg exFit with
    | .ok df => match pruneMany exFit.toTopo df [1] with
      | .ok df' => some ((df 0).rOne, (df 0).rSub, (df' 0).rSub, (df' 1).rSub) | .error _ => none
    | .error _ => none) = some ((167 / 12 : ℚ), 2 / 3, 5 / 3, 8 / 3) := by decide +kernel

/-- The mean squared errors computed from the rows. -/
example : (exFitRows.map fun r => (r.y - exFit.value
      (if r.path 4 then 4 else if r.path 3 then 3 else 2) 0) ^ 2).sum / 6 = 2 / 3 ∧
    (exFitRows.map fun r => (r.y - exFit.value (if r.path 4 then 4 else 1) 0) ^ 2).sum / 6 = 5 / 3 := by
  decide +kernel

/-- Five rows of two classes and the tree fitted to them. -/
abbrev exFitClsRows : List (OobRow exTopo (Fin 2)) :=
  [⟨![true, true, true, false, false], 1⟩, ⟨![true, true, false, true, false], 0⟩,
    ⟨![true, true, false, true, false], 0⟩, ⟨![true, false, false, false, true], 1⟩,
    ⟨![true, false, false, false, true], 1⟩]

@[inherit_doc exFitClsRows]
abbrev exFitCls : SkTree ℚ 2 :=
  { toTopo := exTopo
    value := fun i c => ![![2, 3], ![2, 1], ![0, 1], ![2, 0], ![0, 2]] i c
    nSamp := ![5, 3, 1, 2, 2]
    impurity := ![12 / 25, 4 / 9, 0, 0, 0] }

theorem exFitCls_fit : FitCls exFitCls exFitClsRows ∧ GiniImp exFitCls :=
  ⟨⟨by decide +kernel, by decide +kernel, by decide +kernel, by decide +kernel⟩,
    by unfold GiniImp; decide +kernel⟩

example : (match initDf .cls exFitCls with
    | .ok df => match pruneMany exFitCls.toTopo df [1] with
      | .ok df' => some ((df 0).rOne, (df 0).rSub, (df' 0).rSub, (df' 1).rSub) | .error _ => none
    | .error _ => none) = some ((2 / 5 : ℚ), 0, 1 / 5, 1 / 3) := by decide +kernel

end SmoothRF
