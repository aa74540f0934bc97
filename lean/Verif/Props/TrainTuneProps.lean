import Verif.Props.FitProps
import Verif.Props.TuneLossProps
import Verif.Props.ReturnProps
import Verif.Props.AllExactProps

/-!
# C146: tuning on the data the trees were grown on
-/

set_option linter.unusedSectionVars false

namespace SmoothRF
open SkTree Topo

variable {K : Type} [Field K] [LinearOrder K] [IsStrictOrderedRing K] {C : ℕ}
variable {sqrt : K → K}
  {ce : (n : ℕ) → SgdOpts K → K → List (Row K n) → List K → List ℕ →
    Except PyErr ((Fin n → K) × (Fin n → K) × List K)}

/-- Every leaf already holds the mean response of its tuning rows (leaves without rows hold anything). -/
def LeavesFit (forest : List (SkTree K C)) (tune : ℕ → List (TuneRow K C)) : Prop :=
  ∀ tt ∈ forest.zipIdx, ∀ (r : Fin tt.1.nLeaves) (c : Fin C),
    (((tune tt.2).filter fun q => q.leaf == r.val).map fun q => q.y c).sum =
      ((tune tt.2).filter fun q => q.leaf == r.val).length * tt.1.value (tt.1.leafNode r) c

theorem mem_of_zipIdx {α : Type} {l : List α} {x : α × ℕ} (h : x ∈ l.zipIdx) : x.1 ∈ l := by
  have := List.mem_map_of_mem (f := Prod.fst) h
  rwa [List.zipIdx_map_fst] at this

theorem leavesFit_term {forest : List (SkTree K C)} {tune : ℕ → List (TuneRow K C)}
    (hfit : LeavesFit forest tune) {tt : SkTree K C × ℕ} (ht : tt ∈ forest.zipIdx) (r : Fin tt.1.nLeaves)
    (c : Fin C) :
    (leafMean (tune tt.2) r c - tt.1.value (tt.1.leafNode r) c) ^ 2 * leafWeight (tune tt.2) r = 0 := by
  have h := hfit tt ht r c
  unfold leafMean leafWeight
  by_cases h0 : (((tune tt.2).filter fun q => q.leaf == r.val).length : K) = 0
  · rw [h0, mul_zero]
  · rw [if_neg h0, h, mul_div_cancel_left₀ _ h0, sub_self]
    simp

/-- A step from weights without weighted residuals does not move. -/
theorem sgdMove_still {k : ℕ} {o : SgdOpts K} {rows : List (Row K (k + 1))} {l l' : Fin (k + 1) → K}
    (hz : ∀ r ∈ rows, residual r l * r.w = 0)
    (hp : o.constrained = true → proxProject l = .ok l) {c : ℕ} {iv iv' : Option (Iv K (k + 1))}
    (hiv : ∀ v, iv = some v → ∀ j, v.m1 j = 0)
    (h : sgdMove sqrt takeGradient proxProject o rows c l iv = .ok (l', iv')) :
    l' = l ∧ ∀ v, iv' = some v → ∀ j, v.m1 j = 0 := by
  have hgrad : ∀ g, takeGradient (rows.filter fun r => r.tree == c) l = .ok g → ∀ j, g j = 0 := by
    intro g hg j
    unfold takeGradient at hg
    split_ifs at hg
    cases hg
    refine List.sum_eq_zero fun x hx => ?_
    obtain ⟨r, hr, rfl⟩ := List.mem_map.1 hx
    rw [mul_assoc (-2), hz r (List.mem_filter.1 hr).1, mul_zero, zero_mul]
  unfold sgdMove at h
  obtain ⟨p, hpre, h⟩ := bind_ok h
  have key : p.1 = l ∧ ∀ v, p.2 = some v → ∀ j, v.m1 j = 0 := by
    unfold sgdPre at hpre
    cases ha : o.adam with
    | none =>
      rw [ha] at hpre
      simp only at hpre
      obtain ⟨g, hg, hpre⟩ := bind_ok hpre
      cases hpre
      exact ⟨funext fun j => by simp [hgrad g hg j], hiv⟩
    | some a =>
      rw [ha] at hpre
      simp only at hpre
      obtain ⟨q, hq, hpre⟩ := bind_ok hpre
      cases hpre
      have body : ∀ v : Iv K (k + 1), v.lamb = l → (∀ j, v.m1 j = 0) →
          adamBody sqrt (takeGradient (rows.filter fun r => r.tree == c)) a v = .ok q →
          q.1 = l ∧ ∀ j, q.2.m1 j = 0 := by
        intro v hv hm hb
        unfold adamBody at hb
        obtain ⟨g, hg, hb⟩ := bind_ok hb
        rw [hv] at hg
        have hg0 := hgrad g hg
        simp only at hb
        split_ifs at hb
        cases hb
        exact ⟨funext fun j => by simp [hm j, hg0 j, hv], fun j => by simp [hm j, hg0 j]⟩
      unfold adamStep at hq
      cases hi : iv with
      | none =>
        rw [hi] at hq
        obtain ⟨h1, h2⟩ := body _ rfl (fun _ => rfl) hq
        exact ⟨h1, fun v e => by cases e; exact h2⟩
      | some v =>
        rw [hi] at hq
        obtain ⟨h1, h2⟩ := body { v with lamb := l } rfl (hiv v hi) hq
        exact ⟨h1, fun v e => by cases e; exact h2⟩
  split_ifs at h with hc
  · obtain ⟨x, hx, h⟩ := bind_ok h
    cases h
    rw [key.1, hp hc] at hx
    cases hx
    exact ⟨rfl, key.2⟩
  · cases h
    exact key

/-- C146, the descent: started at weights of cost 0 (rows with non-negative weights), it never moves: it
returns the start as best and as last weights, and all recorded costs are 0. Any step size, Adam setting
and random choices. -/
theorem C146_zero_cost_start {k : ℕ} (o : SgdOpts K) (rows : List (Row K (k + 1)))
    (hw : ∀ r ∈ rows, 0 ≤ r.w) (l0 : Fin (k + 1) → K) (h0 : calcCost rows l0 = .ok 0) {choices : List ℕ}
    {best last : Fin (k + 1) → K} {costs : List K}
    (h : sgd sqrt o rows (List.ofFn l0) choices = .ok (best, last, costs)) :
    best = l0 ∧ last = l0 ∧ costs = List.replicate (choices.length + 1) 0 := by
  have hz : ∀ r ∈ rows, residual r l0 * r.w = 0 := by
    intro r hr
    have hs : (rows.map fun r => residual r l0 ^ 2 * r.w).sum = 0 := by
      unfold calcCost at h0
      split_ifs at h0
      exact Except.ok.inj h0
    have hnn : ∀ x ∈ rows.map (fun r => residual r l0 ^ 2 * r.w), 0 ≤ x := by
      intro x hx
      obtain ⟨r, hr, rfl⟩ := List.mem_map.1 hx
      exact mul_nonneg (sq_nonneg _) (hw r hr)
    have := List.all_zero_of_le_zero_le_of_sum_eq_zero (fun {x} hx => hnn x hx) hs (List.mem_map_of_mem hr)
    rcases mul_eq_zero.1 this with e | e
    · rw [pow_eq_zero_iff two_ne_zero |>.1 e, zero_mul]
    · rw [e, mul_zero]
  have hp : o.constrained = true → proxProject l0 = .ok l0 := by
    intro hc
    unfold sgd at h
    rw [dif_pos (List.length_ofFn)] at h
    split_ifs at h with hbad
    simp only [hc, Bool.true_and, Bool.or_eq_true, decide_eq_true_eq, List.any_eq_true, not_or, not_not,
      not_exists, not_and, not_lt] at hbad
    refine (C21_feasible_fixed l0).2 (fun i => hbad.2 _ ((List.mem_ofFn' l0 _).2 ⟨i, rfl⟩)) ?_
    rw [← List.sum_ofFn, hbad.1]
  obtain ⟨l1, vs, hl1, hv, hlen, hf, hlast, i, v, c, hvi, hc, hvb, hb, hmin, hfirst⟩ :=
    C27_sgd_returns_best sqrt _ _ _ _ _ _ _ h
  have hl1 : l1 = l0 := List.ofFn_injective hl1
  subst hl1
  have hall : ∀ (s : (Fin (k + 1) → K) × Option (Iv K (k + 1))) (cs : List ℕ) ws,
      s.1 = l1 → (∀ v, s.2 = some v → ∀ j, v.m1 j = 0) →
      Visits (fun c s => sgdMove sqrt takeGradient proxProject o rows c s.1 s.2) s cs ws →
      ∀ x ∈ ws, x.1 = l1 := by
    intro s cs ws h1 h2 hvis
    induction hvis with
    | nil => simp
    | cons hstep _ ih =>
      rename_i s s' _ _ _ _
      rw [h1] at hstep
      obtain ⟨h3, h4⟩ := sgdMove_still (sqrt := sqrt) hz hp h2 (l' := s'.1) (iv' := s'.2) hstep
      intro x hx
      rcases List.mem_cons.1 hx with rfl | hx
      · exact h3
      · exact ih h3 h4 x hx
  have hall := hall _ _ _ rfl (by simp) hv
  have hin : ∀ x ∈ (l1, (none : Option (Iv K (k + 1)))) :: vs, x.1 = l1 := by
    intro x hx
    rcases List.mem_cons.1 hx with rfl | hx
    · rfl
    · exact hall x hx
  refine ⟨?_, ?_, ?_⟩
  · rw [← hvb]; exact hin v (List.mem_of_getElem? hvi)
  · obtain ⟨x, hx, hx2⟩ := Option.map_eq_some_iff.1 hlast
    rw [← hx2]; exact hin x (List.mem_of_getLast? hx)
  · rw [List.eq_replicate_iff]
    refine ⟨hlen, fun x hx => ?_⟩
    obtain ⟨j, hj, rfl⟩ := List.getElem_of_mem hx
    rw [List.forall₂_iff_get] at hf
    have hj2 : j < ((l1, (none : Option (Iv K (k + 1)))) :: vs).length := by rw [hf.1]; exact hj
    have := hf.2 j hj2 hj
    simp only [List.get_eq_getElem] at this
    rw [hin _ (List.getElem_mem hj2), h0] at this
    exact (Except.ok.inj this).symm

/-- C146: if every leaf already holds the mean response of its tuning rows, `smooth` on a regression forest
with the default start learns nothing: whatever the options, step size and random choices, the weights
never leave `(1, 0, …, 0)`, all recorded costs are 0, and the first returned forest is the original one. -/
theorem C146_learns_nothing (hC : 0 < C) {forest : List (SkTree K C)}
    (hwf : ∀ t ∈ forest, t.WF) (hn : ∀ t ∈ forest, ∀ r, t.nSamp (t.leafNode r) ≠ 0)
    {cfg : SmoothCfg K} (hseed : cfg.seed = none) {src : TuneSrc}
    (hsrc : tuneSource cfg.data = .ok src) {sources : TuneSrc → ℕ → List (TuneRow K C)}
    (hfit : LeavesFit forest (sources src))
    {out : SmoothOut K C (forestDepth forest + 1)}
    (h : smooth sqrt ce (some .reg) forest cfg sources = .ok out) :
    out.rf1 = forest ∧ (∀ i, out.lamb1 i = if i = 0 then 1 else 0) ∧ out.lamb2 = out.lamb1 ∧
    (cfg.sanityCheck = false → out.costs = List.replicate (cfg.steps.length + 1) 0) := by
  let e0 : Fin (forestDepth forest + 1) → K := fun i => if i = 0 then 1 else 0
  have hspec : ∀ t ∈ forest, ∀ (l : Fin (forestDepth forest + 1) → K),
      (∀ i, l i = if i = 0 then 1 else 0) → ∀ r c,
      smoothSpec .reg t cfg.style cfg.parentsAll l r c = t.value (t.leafNode r) c := by
    intro t ht l hl r c
    rw [smoothSpec, smoothDen_e0 (hwf t ht) _ _ _ _ hl, smoothNum_e0 _ (hwf t ht) _ _ _ _ _ hl,
      if_neg (hn t ht r)]
    exact mul_div_cancel_left₀ _ (hn t ht r)
  have hmain : (∀ i, out.lamb1 i = if i = 0 then 1 else 0) ∧ out.lamb2 = out.lamb1 ∧
      (cfg.sanityCheck = false → out.costs = List.replicate (cfg.steps.length + 1) 0) := by
    obtain ⟨kind', src', yw, lamb, h0, h1, h2, h3, h4, -, -⟩ := smooth_ok h
    cases h0
    have hs' := (smoothCheck_ok.1 h1).2.1
    rw [hsrc] at hs'
    cases hs'
    rw [hseed] at h3
    have h3 : e0 = lamb := by
      have : (Except.ok e0 : Except PyErr _) = .ok lamb := h3
      exact Except.ok.inj this
    rw [tuneSummaries_eq] at h2
    split at h2
    · cases h2
    cases h2
    rw [flatRows_eq .reg forest hwf] at h4
    unfold smoothOptimise at h4
    split_ifs at h4 with hsan hk
    · simp only [Except.ok.injEq, Prod.mk.injEq] at h4
      refine ⟨fun i => ?_, by rw [← h4.1, ← h4.2.1], fun e => absurd (hsan.symm.trans e) (by decide)⟩
      rw [← h4.1, ← h3]
    · subst h3
      obtain ⟨l0, vs, hl0, -, -, hf, -⟩ := C27_sgd_returns_best sqrt _ _ _ _ _ _ _ h4
      have hl0 : l0 = e0 := List.ofFn_injective hl0
      subst hl0
      obtain ⟨c0, cs, hc0, -, hcs⟩ := List.forall₂_cons_left_iff.1 hf
      have hz : c0 = 0 := by
        rw [cost_spec hc0]
        refine List.sum_eq_zero fun x hx => ?_
        obtain ⟨tt, ht, rfl⟩ := List.mem_map.1 hx
        refine Finset.sum_eq_zero fun r _ => Finset.sum_eq_zero fun c _ => ?_
        rw [hspec tt.1 (mem_of_zipIdx ht) _ (fun i => rfl) r c]
        exact leavesFit_term hfit ht r c
      subst hz
      obtain ⟨hb, hl, hc⟩ := C146_zero_cost_start _ _ (by
        intro r hr
        obtain ⟨c, -, hr⟩ := List.mem_flatMap.1 hr
        obtain ⟨q, -, rfl⟩ := List.mem_map.1 hr
        show 0 ≤ leafWeight _ _
        unfold leafWeight
        positivity) e0 hc0 h4
      exact ⟨fun i => by rw [hb], by rw [hb, hl], fun _ => hc⟩
    · exact absurd (Or.inl rfl) hk
  refine ⟨?_, hmain⟩
  refine forall2_eq (forall2_imp_mem (smooth_forests hC hwf h).1 fun t ht t' hu => ?_)
  exact leafUpdate_same (hwf t ht) hu fun r c => hspec t ht _ hmain.1 r c

/-- The tuning rows of a tree are its training rows. -/
def SameRows (t : SkTree K 1) (rows : List (OobRow t.toTopo K)) (tune : List (TuneRow K 1)) : Prop :=
  List.Forall₂ (fun r q => (∃ h : q.leaf < t.nLeaves, r.path (t.leafNode ⟨q.leaf, h⟩) = true) ∧
    q.y 0 = r.y) rows tune

theorem sameRows_leaf {t : SkTree K 1} (hwf : t.WF) {rows : List (OobRow t.toTopo K)}
    {tune : List (TuneRow K 1)} (hr : ∀ r ∈ rows, Routed t.toTopo r.path) (h : SameRows t rows tune)
    (r : Fin t.nLeaves) :
    (tune.filter fun q => q.leaf == r.val).map (fun q => q.y 0) =
      (through rows (t.leafNode r)).map fun x => x.y := by
  unfold through
  unfold SameRows at h
  induction h with
  | nil => rfl
  | cons hab _ ih =>
    rename_i a b l1 l2 _
    have ih := ih fun x hx => hr x (List.mem_cons_of_mem _ hx)
    obtain ⟨⟨hb, hp⟩, hy⟩ := hab
    have hra := hr a (List.mem_cons_self ..)
    have hiff : (b.leaf == r.val) = a.path (t.leafNode r) := by
      rw [Bool.eq_iff_iff, beq_iff_eq]
      constructor
      · intro e
        have : (⟨b.leaf, hb⟩ : Fin t.nLeaves) = r := Fin.ext e
        rwa [this] at hp
      · intro hp'
        have hl : ∀ r, t.CurLeaf (fun _ => False) (t.leafNode r) := fun r =>
          ⟨fun ⟨_, hx, _⟩ => hx, Or.inl ((isLeaf_iff hwf).2 (leafNode_right r))⟩
        have := (pruned_leaf_unique hwf (fun _ => False) hra).unique ⟨hl ⟨b.leaf, hb⟩, hp⟩ ⟨hl r, hp'⟩
        exact congrArg Fin.val (leafNode_injective this)
    rw [List.filter_cons, List.filter_cons, hiff]
    by_cases hc : a.path (t.leafNode r) = true
    · simp only [hc, if_true, List.map_cons, ih, hy]
    · simp only [hc, if_false, ih, Bool.false_eq_true]

/-- C146: trees grown on the tuning rows themselves (a forest without bootstrap, tuned on its training
data). With the constraint `smooth` returns, and the first forest is the original. -/
theorem C146_training_data (hsq : ∀ x, 0 ≤ x → 0 ≤ sqrt x) {forest : List (SkTree K 1)}
    (hne : forest ≠ []) (hwf : ∀ t ∈ forest, t.WF) (cfg : SmoothCfg K)
    (ha : ∀ a, cfg.adam = some a → AdamRange a) (hc : cfg.noConstraint = false) (hseed : cfg.seed = none)
    (he : 0 ≤ cfg.classEps) {src : TuneSrc}
    (hsrc : tuneSource cfg.data = .ok src) (sources : TuneSrc → ℕ → List (TuneRow K 1))
    (hfit : ∀ tt ∈ forest.zipIdx, ∃ rows, FitReg tt.1 rows ∧ SameRows tt.1 rows (sources src tt.2)) :
    ∃ out, smooth sqrt ce (some .reg) forest cfg sources = .ok out ∧ out.rf1 = forest ∧
      ∀ i, out.lamb1 i = if i = 0 then 1 else 0 := by
  have hpos : ∀ t ∈ forest, ∀ r, 0 < t.nSamp (t.leafNode r) := by
    intro t ht r
    obtain ⟨i, hi⟩ := List.getElem_of_mem ht
    obtain ⟨hi1, hi2⟩ := hi
    have : (t, i) ∈ forest.zipIdx := by
      rw [List.mem_zipIdx_iff_getElem?, List.getElem?_eq_getElem hi1, hi2]
    obtain ⟨rows, hf, -⟩ := hfit _ this
    exact hf.pos _
  obtain ⟨out, ho⟩ := C134_smooth_returns (sqrt := sqrt) (ce := ce) hsq one_pos .reg hne hwf hpos cfg
    (Or.inl rfl) ha hc (fun u hu => absurd (hseed.symm.trans hu) (by simp)) he hsrc sources (by
      intro tt htt e
      obtain ⟨rows, hf, hs⟩ := hfit tt htt
      unfold SameRows at hs
      rw [e, List.forall₂_nil_right_iff] at hs
      subst hs
      exact hf.seen 0 rfl) (by simp)
  have := C146_learns_nothing one_pos hwf (fun t ht r => (hpos t ht r).ne') hseed hsrc (by
    intro tt ht r c
    have hc0 : c = 0 := Subsingleton.elim _ _
    subst hc0
    obtain ⟨rows, hf, hs⟩ := hfit tt ht
    have e := sameRows_leaf (hwf _ (mem_of_zipIdx ht)) hf.routed hs r
    have hl := congrArg List.length e
    rw [List.length_map, List.length_map] at hl
    rw [e, hl, ← hf.mean, hf.count]) ho
  exact ⟨out, ho, this.1, this.2.1⟩

theorem sum_eq_of_le {as bs : List K} (h : List.Forall₂ (fun a b => b ≤ a) as bs) (hs : as.sum ≤ bs.sum) :
    as = bs := by
  induction h with
  | nil => rfl
  | @cons a b as bs hab h ih =>
    rw [List.sum_cons, List.sum_cons] at hs
    have h1 : bs.sum ≤ as.sum := by
      clear ih hs
      induction h with
      | nil => exact le_rfl
      | cons h1 _ ih => rw [List.sum_cons, List.sum_cons]; linarith
    have h2 : a = b := by linarith
    rw [h2, ih (by linarith)]

/-- C146 for `smooth_all` with exact routines: if no non-zero weights predict 0 at every tuning row, every
leaf that holds a tuning row keeps its value. (In the other case the ridge changes it, `C116_worse`.) -/
theorem C146_smooth_all {forest rf : List (SkTree K 1)} {o : AllOracles K} {c : AllCfg}
    {sources : TuneSrc → ℕ → List (TuneRow K 1)} {lamb : Fin (forestDepth forest + 1) → K}
    (ho : ExactLib o) (hwf : ∀ t ∈ forest, t.WF)
    (hn : ∀ t ∈ forest, ∀ r, t.nSamp (t.leafNode r) ≠ 0)
    (hr : ∀ tt ∈ forest.zipIdx, ∀ q ∈ sources (allSource c) tt.2, q.leaf < tt.1.nLeaves)
    (hind : ∀ x : Fin (forestDepth forest + 1) → K, x ≠ 0 → ∃ tt ∈ forest.zipIdx,
      ∃ q ∈ sources (allSource c) tt.2, leafPred tt.1 c.parentsAll x q.leaf ≠ 0)
    {tp : Option ℤ} (hs : readSanity c.sanity = .ok (false, tp))
    (hfit : LeavesFit forest (sources (allSource c)))
    {fuel : ℕ} (hf : 2 ≤ fuel) (h : smoothAll o fuel forest c sources = .ok (some (rf, lamb)))
    {k : ℕ} {t t' : SkTree K 1} (hk : forest[k]? = some t) (hk' : rf[k]? = some t') :
    ∃ v, t' = { t with value := v } ∧ ∀ r : Fin t.nLeaves,
      (∃ q ∈ sources (allSource c) k, q.leaf = r.val) → v (t.leafNode r) 0 = t.value (t.leafNode r) 0 := by
  have hle := C116_never_worse ho hwf hn hr hind hs hf h
  have hup := C64_values hwf h
  set tune := sources (allSource c) with htune
  let A : SkTree K 1 × ℕ → K := fun tt => treeSSE tt.1 (tune tt.2) / ((tune tt.2).length : K)
  have hget : ∀ (l : List (SkTree K 1)) (i : ℕ), (l.zipIdx.map A)[i]? = l[i]?.map fun x => A (x, i) := by
    intro l i
    rw [List.getElem?_map, List.getElem?_zipIdx]
    cases l[i]? <;> simp
  have hmem : ∀ (i : ℕ) (x : SkTree K 1), forest[i]? = some x → (x, i) ∈ forest.zipIdx := fun i x hx => by
    rw [List.mem_zipIdx_iff_getElem?]; exact hx
  have hbase : ∀ (i : ℕ) (x : SkTree K 1), forest[i]? = some x →
      treeSSE x (tune i) = withinSS x.nLeaves (tune i) := by
    intro i x hx
    rw [treeSSE_split, add_eq_left]
    exact Finset.sum_eq_zero fun r _ => Finset.sum_eq_zero fun c _ =>
      leavesFit_term hfit (tt := (x, i)) (hmem i x hx) r c
  have hnew : ∀ (i : ℕ) (x x' : SkTree K 1) (v : x.Node → Fin 1 → K), x' = { x with value := v } →
      treeSSE x' (tune i) = withinSS x.nLeaves (tune i) + ∑ r : Fin x.nLeaves, ∑ c,
        (leafMean (tune i) r c - v (x.leafNode r) c) ^ 2 * leafWeight (tune i) r := by
    rintro i x _ v rfl
    exact treeSSE_split _ _
  have hw : ∀ (l : List (TuneRow K 1)) (i : ℕ), (0 : K) ≤ leafWeight l i := fun l i => by
    unfold leafWeight; positivity
  have hlen := hup.length_eq
  have hall : rf.zipIdx.map A = forest.zipIdx.map A := by
    refine sum_eq_of_le ?_ hle
    rw [List.forall₂_iff_get]
    refine ⟨by simp [hlen], fun i h1 h2 => ?_⟩
    have hi1 : i < rf.length := by simpa using h1
    have hi2 : i < forest.length := by simpa using h2
    simp only [List.get_eq_getElem, List.getElem_map, List.getElem_zipIdx, zero_add]
    rw [List.forall₂_iff_get] at hup
    obtain ⟨v, e, -, -⟩ := hup.2 i hi2 hi1
    simp only [List.get_eq_getElem] at e
    show A (forest[i], i) ≤ A (rf[i], i)
    simp only [A]
    rw [hbase i _ (List.getElem?_eq_getElem hi2), hnew i _ _ v e]
    refine div_le_div_of_nonneg_right ?_ (by positivity)
    exact le_add_of_nonneg_right (Finset.sum_nonneg fun r _ => Finset.sum_nonneg fun c _ =>
      mul_nonneg (sq_nonneg _) (hw _ _))
  obtain ⟨hi2, e2⟩ := List.getElem?_eq_some_iff.1 hk
  obtain ⟨hi1, e1⟩ := List.getElem?_eq_some_iff.1 hk'
  have hlu : LeafUpdate t t' fun r _ => ∑ k, lamb k * levelRatio t c.parentsAll r k := by
    rw [List.forall₂_iff_get] at hup
    have := hup.2 k hi2 hi1
    subst e1 e2
    exact this
  obtain ⟨v, e, -, -⟩ := hlu
  refine ⟨v, e, ?_⟩
  rintro r ⟨q, hq, hqr⟩
  have hk3 : A (t', k) = A (t, k) := by
    have := congrArg (fun l => l[k]?) hall
    simp only [hget, hk, hk', Option.map_some, Option.some.injEq] at this
    exact this
  have hpos : (0 : K) < (tune k).length := by
    exact_mod_cast List.length_pos_iff.2 (List.ne_nil_of_mem hq)
  simp only [A] at hk3
  rw [div_left_inj' hpos.ne', hbase k t hk, hnew k t t' v e, add_eq_left,
    Finset.sum_eq_zero_iff_of_nonneg (fun r _ => Finset.sum_nonneg fun c _ =>
      mul_nonneg (sq_nonneg _) (hw _ _))] at hk3
  have h1 := hk3 r (Finset.mem_univ r)
  rw [Fin.sum_univ_one] at h1
  have hwr : (leafWeight (tune k) r : K) ≠ 0 := by
    unfold leafWeight
    have : q ∈ (tune k).filter fun q => q.leaf == r.val := List.mem_filter.2 ⟨hq, by simpa using hqr⟩
    exact_mod_cast (List.length_pos_iff.2 (List.ne_nil_of_mem this)).ne'
  have h2 := (mul_eq_zero.1 h1).resolve_right hwr
  have h3 := leavesFit_term hfit (tt := (t, k)) (hmem k t hk) r 0
  have h4 := (mul_eq_zero.1 h3).resolve_right hwr
  have h5 := sub_eq_zero.1 (pow_eq_zero_iff two_ne_zero |>.1 h2)
  have h6 := sub_eq_zero.1 (pow_eq_zero_iff two_ne_zero |>.1 h4)
  exact h5.symm.trans h6

/-! ### Examples -/

/-- The training rows of `exFit` as tuning rows. -/
abbrev exFitTune : List (TuneRow ℚ 1) :=
  [⟨0, fun _ => 1⟩, ⟨1, fun _ => 3⟩, ⟨1, fun _ => 5⟩, ⟨2, fun _ => 9⟩, ⟨2, fun _ => 10⟩, ⟨2, fun _ => 11⟩]

example : SameRows exFit exFitRows exFitTune := by
  unfold SameRows exFitRows exFitTune
  repeat' first | exact List.Forall₂.nil | refine List.Forall₂.cons ⟨⟨by decide, by decide +kernel⟩, rfl⟩ ?_

/-- A run on the training rows with two Adam steps, and one on rows that do not fit. -/
example : (match smooth (fun x : ℚ => x) noCe (some .reg) [exFit]
      { exCfg with sanityCheck := false, noConstraint := false, steps := [0, 0],
                   adam := some ⟨1 / 10, 9 / 10, 1 / 2, 1⟩ } (fun _ _ => exFitTune) with
    | .ok out => some (out.costs, out.rf1.map fun t => List.ofFn fun i => t.value i 0)
    | .error _ => none) = some ([0, 0, 0], [[13 / 2, 3, 1, 4, 10]]) ∧
  (match smooth (fun x : ℚ => x) noCe (some .reg) [exFit]
      { exCfg with sanityCheck := false, noConstraint := false, steps := [0, 0],
                   adam := some ⟨1 / 10, 9 / 10, 1 / 2, 1⟩ }
      (fun _ _ => [⟨0, fun _ => 2⟩, ⟨1, fun _ => 3⟩]) with
    | .ok out => some (out.costs.map fun x => decide (x = 0),
        out.rf1.map fun t => decide ((List.ofFn fun i => t.value i 0) = [13 / 2, 3, 1, 4, 10]))
    | .error _ => none) = some ([false, false, false], [false]) := by
  decide +kernel

/-- One tuning row in each leaf of the stump, with the leaf's own value. -/
noncomputable abbrev exRowsFit : TuneSrc → ℕ → List (TuneRow ℝ 1) :=
  fun _ _ => [⟨0, fun _ => 1⟩, ⟨1, fun _ => 4⟩]

/-- The hypotheses of `C146_smooth_all` hold for these rows, and the stump is returned unchanged. -/
example : ∃ rf lamb, (∀ fuel, 2 ≤ fuel →
      smoothAll exactOracles fuel [exStumpR] (exAllCfg false (.bool false)) exRowsFit = .ok (some (rf, lamb))) ∧
    ∀ t' ∈ rf[0]?, ∃ v, t' = { exStumpR with value := v } ∧
      ∀ r : Fin exStumpR.nLeaves, v (exStumpR.leafNode r) 0 = exStumpR.value (exStumpR.leafNode r) 0 := by
  have hwf : ∀ t ∈ [exStumpR], t.WF := by simp; decide
  have hn : ∀ t ∈ [exStumpR], ∀ r, 0 < t.nSamp (t.leafNode r) := by
    intro t ht r
    rw [List.mem_singleton] at ht
    subst ht
    generalize exStumpR.leafNode r = i
    revert i
    show ∀ i : Fin 3, (0 : ℝ) < ![2, 1, 1] i
    intro i
    fin_cases i <;> norm_num
  have hr : ∀ tt ∈ [exStumpR].zipIdx, ∀ q ∈ exRowsFit .given tt.2, q.leaf < tt.1.nLeaves := by
    simp; decide
  obtain ⟨rf, lamb, hrun⟩ := C116_returns (c := exAllCfg false (.bool false)) (sources := exRowsFit) exact_lib
    hwf hn (by decide) rfl (flag := false) (tp := none) rfl (by simp) (by simp) hr
  have hL : LeavesFit [exStumpR] (exRowsFit (allSource (exAllCfg false (.bool false)))) := by
    intro tt ht r c
    simp only [List.zipIdx_singleton, List.mem_singleton] at ht
    subst ht
    have : ∀ r : Fin 2, (([⟨0, fun _ => 1⟩, ⟨1, fun _ => 4⟩] : List (TuneRow ℝ 1)).filter
        (fun q => q.leaf == r.val)).map (fun q => q.y c) = [exStumpR.value (exStumpR.leafNode r) c] ∧
        (([⟨0, fun _ => 1⟩, ⟨1, fun _ => 4⟩] : List (TuneRow ℝ 1)).filter
          (fun q => q.leaf == r.val)).length = 1 := by
      intro r
      fin_cases r <;> exact ⟨rfl, rfl⟩
    obtain ⟨h1, h2⟩ := this r
    rw [h1, h2]
    simp
  have hind : ∀ x : Fin (forestDepth [exStumpR] + 1) → ℝ, x ≠ 0 → ∃ tt ∈ [exStumpR].zipIdx,
      ∃ q ∈ exRowsFit .given tt.2, leafPred tt.1 false x q.leaf ≠ 0 := by
    show ∀ x : Fin 2 → ℝ, x ≠ 0 → ∃ tt ∈ [exStumpR].zipIdx,
      ∃ q ∈ exRowsFit .given tt.2, leafPred tt.1 false x q.leaf ≠ 0
    intro x hx
    by_contra hcon
    push Not at hcon
    have h := hcon (exStumpR, 0) (by simp)
    have h0 := h ⟨0, fun _ => 1⟩ (by simp [exRowsFit])
    have h1 := h ⟨1, fun _ => 4⟩ (by simp [exRowsFit])
    have h0' := (exStumpR_pred x).1.symm.trans h0
    have h1' := (exStumpR_pred x).2.symm.trans h1
    apply hx
    funext i
    fin_cases i
    · show x 0 = 0
      linarith
    · show x 1 = 0
      linarith
  refine ⟨rf, lamb, hrun, ?_⟩
  intro t' ht'
  obtain ⟨v, e, hv⟩ := C146_smooth_all (c := exAllCfg false (.bool false)) (sources := exRowsFit) (k := 0)
    exact_lib hwf (fun t ht r => (hn t ht r).ne') hr hind (tp := none) rfl hL le_rfl (hrun 2 le_rfl)
    (t := exStumpR) rfl ht'
  refine ⟨v, e, fun r => hv r ?_⟩
  have : ∀ r : Fin 2, ∃ q ∈ ([⟨0, fun _ => 1⟩, ⟨1, fun _ => 4⟩] : List (TuneRow ℝ 1)), q.leaf = r.val := by
    intro r
    fin_cases r
    · exact ⟨⟨0, fun _ => 1⟩, by simp, rfl⟩
    · exact ⟨⟨1, fun _ => 4⟩, by simp, rfl⟩
  exact this r

end SmoothRF
