import Verif.Model.FloatCleanForest
import Verif.Props.FloatCleanProps
import Verif.Props.FloatForestProps
import Verif.Props.ObjectiveProps

/-!
# C200: smooth_clean in double precision
-/

set_option linter.unusedSectionVars false

namespace SmoothRF

open Topo SkTree

attribute [local irreducible] fl

variable {sum : List ℚ → ℚ} {pow : ℚ → ℕ → ℚ} {sqrt : ℚ → ℚ} {pa : Bool} {n : ℕ}

/-! ### the descent -/

theorem flCleanMove_ok {o : CleanOpts ℚ} (hc : o.noConstraint = false) {sub : List OobObs} {lamb : Fin n → ℚ}
    {iv : Option (Iv ℚ n)} {p : (Fin n → ℚ) × Option (Iv ℚ n)}
    (h : flCleanMove sum pow sqrt pa o sub lamb iv = .ok p) : ∀ k, IsFloat (p.1 k) ∧ 0 ≤ p.1 k := by
  unfold flCleanMove at h
  obtain ⟨q, -, h⟩ := bind_ok h
  rw [hc] at h
  obtain ⟨x, hx, h⟩ := bind_ok h
  rw [← Except.ok.inj h]
  exact (flProx_ok hx).1

/-- The observations of which the cost is taken. -/
def costObs (o : CleanOpts ℚ) (obs sub : List OobObs) : List OobObs := if o.useFullLoss then obs else sub

/-- The weights visited: each choice of observations gives a move. -/
def cleanVisited (move : List OobObs → (Fin n → ℚ) → Option (Iv ℚ n) → Except PyErr ((Fin n → ℚ) × Option (Iv ℚ n)))
    (obs : List OobObs) : (Fin n → ℚ) → Option (Iv ℚ n) → List (List ℕ) → Except PyErr (List (List OobObs × (Fin n → ℚ)))
  | _, _, [] => .ok []
  | lamb, iv, c :: cs => do
    let sub ← drawn obs c
    let p ← move sub lamb iv
    let r ← cleanVisited move obs p.1 p.2 cs
    pure ((sub, p.1) :: r)

/-- A successful iteration. -/
theorem flCleanStep_ok {obs : List OobObs} {o : CleanOpts ℚ} {s s' : CleanState ℚ n} {c : List ℕ}
    (h : flCleanStep sum pow sqrt pa obs o s c = .ok s') :
    ∃ sub p x, drawn obs c = .ok sub ∧ flCleanMove sum pow sqrt pa o sub s.lamb s.iv = .ok p ∧
      flCleanCost sum pa n (costObs o obs sub) p.1 = .ok x ∧ s'.lamb = p.1 ∧ s'.iv = p.2 ∧ s'.started = true ∧
      (s.started = true → s'.costAll = s.costAll ++ [x] ∧ s'.best = s.best) ∧
      (s.started = false → ∃ x0, flCleanCost sum pa n (costObs o obs sub) s.lamb = .ok x0 ∧
        s'.costAll = s.costAll ++ [x0, x] ∧ s'.best = if o.useFullLoss then some (s.lamb, x0) else s.best) := by
  unfold flCleanStep at h
  split_ifs at h with hn
  obtain ⟨sub, h1, h⟩ := bind_ok h
  obtain ⟨s1, h2, h⟩ := bind_ok h
  obtain ⟨p, h3, h⟩ := bind_ok h
  unfold flCleanRecord at h
  unfold flCleanStart at h2
  unfold costObs
  by_cases hst : s.started = true
  · rw [if_pos hst] at h2
    cases h2
    cases hf : o.useFullLoss
    · simp only [hf, Bool.false_eq_true, if_false] at h ⊢
      obtain ⟨x, h4, h⟩ := bind_ok h
      cases h
      exact ⟨sub, p, x, h1, h3, h4, rfl, rfl, hst, fun _ => ⟨rfl, rfl⟩, fun e => by rw [hst] at e; cases e⟩
    · simp only [hf, if_true] at h ⊢
      obtain ⟨x, h4, h⟩ := bind_ok h
      cases h
      exact ⟨sub, p, x, h1, h3, h4, rfl, rfl, hst, fun _ => ⟨rfl, by simp⟩, fun e => by rw [hst] at e; cases e⟩
  · rw [if_neg hst] at h2
    cases hf : o.useFullLoss
    · simp only [hf, Bool.false_eq_true, if_false] at h h2 ⊢
      obtain ⟨x0, h5, h2⟩ := bind_ok h2
      cases h2
      obtain ⟨x, h4, h⟩ := bind_ok h
      cases h
      exact ⟨sub, p, x, h1, h3, h4, rfl, rfl, rfl, fun e => absurd e hst, fun _ => ⟨x0, h5, by simp, rfl⟩⟩
    · simp only [hf, if_true] at h h2 ⊢
      obtain ⟨x0, h5, h2⟩ := bind_ok h2
      cases h2
      obtain ⟨x, h4, h⟩ := bind_ok h
      cases h
      exact ⟨sub, p, x, h1, h3, h4, rfl, rfl, rfl, fun e => absurd e hst, fun _ => ⟨x0, h5, by simp, by simp⟩⟩

/-- The loop after its first iteration. -/
theorem flClean_fold {obs : List OobObs} {o : CleanOpts ℚ} : ∀ (choices : List (List ℕ)) (s s' : CleanState ℚ n),
    s.started = true → choices.foldlM (flCleanStep sum pow sqrt pa obs o) s = .ok s' →
    ∃ vs xs, cleanVisited (flCleanMove sum pow sqrt pa o) obs s.lamb s.iv choices = .ok vs ∧
      List.Forall₂ (fun v x => flCleanCost sum pa n (costObs o obs v.1) v.2 = .ok x) vs xs ∧
      s'.lamb = (vs.getLast?.elim s.lamb (·.2)) ∧ s'.costAll = s.costAll ++ xs ∧ s'.best = s.best := by
  intro choices
  induction choices with
  | nil =>
    intro s s' _ h
    cases h
    exact ⟨[], [], rfl, .nil, rfl, by simp, rfl⟩
  | cons c cs ih =>
    intro s s' hst h
    rw [List.foldlM_cons] at h
    obtain ⟨s1, h1, h⟩ := bind_ok h
    obtain ⟨sub, p, x, e1, e2, e3, e4, e5, e6, e7, -⟩ := flCleanStep_ok h1
    obtain ⟨vs, xs, g1, g2, g3, g4, g5⟩ := ih s1 s' e6 h
    obtain ⟨f1, f2⟩ := e7 hst
    refine ⟨(sub, p.1) :: vs, x :: xs, ?_, .cons e3 g2, ?_, ?_, by rw [g5, f2]⟩
    · rw [e4, e5] at g1
      simp only [cleanVisited, e1, e2, g1, bind, Except.bind, pure, Except.pure]
    · rw [g3, e4]
      cases vs with
      | nil => rfl
      | cons a r => simp [List.getLast?_cons]
    · rw [g4, f1]; simp

/-- C200: what a successful descent returns: the weights last visited, the costs at the start and at every visited
vector, and as best weights the start (with the full loss) or the last ones. -/
theorem C200_descent {obs : List OobObs} {o : CleanOpts ℚ} {init : List ℚ} {choices : List (List ℕ)}
    {best last : Fin n → ℚ} {costs : List ℚ}
    (h : flSgdClean sum pow sqrt pa n obs o init choices = .ok (best, last, costs)) :
    ∃ vs, cleanVisited (flCleanMove sum pow sqrt pa o) obs (toVec n init) none choices = .ok vs ∧
      last = (vs.getLast?.elim (toVec n init) (·.2)) ∧ best = (if o.useFullLoss then toVec n init else last) ∧
      (choices = [] → costs = []) ∧
      (choices ≠ [] → ∃ x0 xs v0 rest, costs = x0 :: xs ∧ vs = v0 :: rest ∧
        flCleanCost sum pa n (costObs o obs v0.1) (toVec n init) = .ok x0 ∧
        List.Forall₂ (fun v x => flCleanCost sum pa n (costObs o obs v.1) v.2 = .ok x) vs xs) := by
  unfold flSgdClean at h
  obtain ⟨-, -, h⟩ := bind_ok h
  obtain ⟨s, h1, hr⟩ := bind_ok h
  clear h
  cases choices with
  | nil =>
    cases h1
    cases hf : o.useFullLoss
    · simp only [hf, Bool.false_eq_true, if_false] at hr
      cases hr
      exact ⟨[], rfl, rfl, by simp, fun _ => rfl, fun e => absurd rfl e⟩
    · simp only [hf, if_true] at hr
      cases hr
  | cons c cs =>
    rw [List.foldlM_cons] at h1
    obtain ⟨s1, h2, h1⟩ := bind_ok h1
    obtain ⟨sub, p, x, e1, e2, e3, e4, e5, e6, -, e7⟩ := flCleanStep_ok h2
    obtain ⟨x0, f1, f2, f3⟩ := e7 rfl
    obtain ⟨vs, xs, g1, g2, g3, g4, g5⟩ := flClean_fold cs s1 s e6 h1
    have hv : cleanVisited (flCleanMove sum pow sqrt pa o) obs (toVec n init) none (c :: cs) = .ok ((sub, p.1) :: vs) := by
      rw [e4, e5] at g1
      simp only [cleanVisited, e1, e2, g1, bind, Except.bind, pure, Except.pure]
    have hlast : s.lamb = ((((sub, p.1) :: vs) : List (List OobObs × (Fin n → ℚ))).getLast?.elim (toVec n init) (·.2)) := by
      rw [g3, e4]
      cases vs with
      | nil => rfl
      | cons a r => simp [List.getLast?_cons]
    have hcost : s.costAll = x0 :: x :: xs := by rw [g4, f2]; simp
    have hbest : s.best = if o.useFullLoss then some (toVec n init, x0) else none := by rw [g5, f3]
    have hres : (if o.useFullLoss then
        match s.best with
        | some b => (pure (b.1, s.lamb, s.costAll) : Except PyErr _)
        | none => .error .unboundLocalError
      else pure (s.lamb, s.lamb, s.costAll)) = .ok (best, last, costs) := hr
    rw [hbest, hcost] at hres
    have hfin : best = (if o.useFullLoss then toVec n init else last) ∧ last = s.lamb ∧ costs = x0 :: x :: xs := by
      cases hf : o.useFullLoss <;> simp only [hf, Bool.false_eq_true, if_false, if_true] at hres <;> cases hres <;> simp
    obtain ⟨k1, k2, k3⟩ := hfin
    exact ⟨_, hv, k2.trans hlast, k1, fun e => absurd e (List.cons_ne_nil _ _), fun _ => ⟨x0, x :: xs, _, _, k3, rfl, f1, .cons e3 g2⟩⟩

theorem mapM_rel {α β : Type} {f : α → Except PyErr β} {l : List α} {m : List β} (h : l.mapM f = .ok m) :
    List.Forall₂ (fun a b => f a = .ok b) l m := by
  induction l generalizing m with
  | nil => cases h; exact .nil
  | cons a l ih =>
    rw [List.mapM_cons] at h
    obtain ⟨b, h1, h⟩ := bind_ok h
    obtain ⟨bs, h2, h⟩ := bind_ok h
    cases h
    exact .cons h1 (ih h2)

theorem pyGet_ok' {α : Type} {l : List α} {i : ℕ} {a : α} (h : pyGet l i = .ok a) : l[i]? = some a := by
  unfold pyGet at h
  split at h
  · rename_i b hb; cases h; exact hb
  · cases h

/-- The observations drawn. -/
theorem drawn_ok {obs sub : List OobObs} {c : List ℕ} (h : drawn obs c = .ok sub) :
    List.Forall₂ (fun i o => obs[i]? = some o) c sub :=
  (mapM_rel h).imp fun _ _ e => pyGet_ok' e

theorem forall2_mem_right {α β : Type} {R : α → β → Prop} {l : List α} {m : List β} (h : List.Forall₂ R l m) :
    ∀ b ∈ m, ∃ a ∈ l, R a b := by
  induction h with
  | nil => simp
  | cons h _ ih =>
    intro b hb
    rcases List.mem_cons.1 hb with rfl | hb
    · exact ⟨_, by simp, h⟩
    · obtain ⟨a, ha, hr⟩ := ih b hb
      exact ⟨a, by simp [ha], hr⟩

theorem cleanVisited_ok {o : CleanOpts ℚ} (hc : o.noConstraint = false) {obs : List OobObs} {choices : List (List ℕ)} :
    ∀ {lamb : Fin n → ℚ} {iv : Option (Iv ℚ n)} {vs : List (List OobObs × (Fin n → ℚ))},
    cleanVisited (flCleanMove sum pow sqrt pa o) obs lamb iv choices = .ok vs →
    List.Forall₂ (fun c v => drawn obs c = .ok v.1) choices vs ∧ ∀ v ∈ vs, ∀ k, IsFloat (v.2 k) ∧ 0 ≤ v.2 k := by
  induction choices with
  | nil => intro lamb iv vs h; cases h; exact ⟨.nil, by simp⟩
  | cons c cs ih =>
    intro lamb iv vs h
    simp only [cleanVisited] at h
    obtain ⟨sub, h1, h⟩ := bind_ok h
    obtain ⟨p, h2, h⟩ := bind_ok h
    obtain ⟨r, h3, h⟩ := bind_ok h
    cases h
    obtain ⟨g1, g2⟩ := ih h3
    refine ⟨.cons h1 g1, fun v hv => ?_⟩
    rcases List.mem_cons.1 hv with rfl | hv
    · exact flCleanMove_ok hc h2
    · exact g2 v hv

/-! ### the observations -/

variable {forest : List (SkTree ℚ 1)} {style : Style} {y : List ℚ} {leafOf : ℕ → ℕ → ℕ} {uns : ℕ → List ℕ}

/-- What the model holds of observation `i`. -/
def ObsOf (forest : List (SkTree ℚ 1)) (style : Style) (y : List ℚ) (leafOf : ℕ → ℕ → ℕ) (uns : ℕ → List ℕ) (i : ℕ)
    (o : OobObs) : Prop :=
  y[i]? = some o.y ∧ List.Forall₂ (fun tt q => oobTreeOf style leafOf uns i tt = .ok q) forest.zipIdx o.trees

theorem oobObsOf_ok {obs : List OobObs} (h : oobObsOf forest style y leafOf uns = .ok obs) :
    obs.length = y.length ∧ ∀ i o, obs[i]? = some o → ObsOf forest style y leafOf uns i o := by
  have h1 := mapM_rel h
  have hlen : obs.length = y.length := by rw [← h1.length_eq, List.length_zipIdx]
  refine ⟨hlen, fun i o ho => ?_⟩
  obtain ⟨hi, he⟩ := List.getElem?_eq_some_iff.1 ho
  have hi' : i < y.zipIdx.length := by rw [List.length_zipIdx]; omega
  have h2 := h1.get hi' hi
  simp only [List.get_eq_getElem, List.getElem_zipIdx, Nat.zero_add] at h2
  obtain ⟨trees, h3, h2⟩ := bind_ok h2
  have h4 := Except.ok.inj h2
  rw [he] at h4
  subst h4
  exact ⟨by rw [List.getElem?_eq_getElem], mapM_rel h3⟩

theorem oobTreeOf_ok {i : ℕ} {tt : SkTree ℚ 1 × ℕ} {q : OobTree} (h : oobTreeOf style leafOf uns i tt = .ok q)
    (hl : leafOf tt.2 i < tt.1.nLeaves := by assumption) :
    q = ⟨tt.1, tt.1.distDepth style, ⟨leafOf tt.2 i, hl⟩, decide (i ∈ uns tt.2)⟩ := by
  unfold oobTreeOf at h
  rw [dif_pos hl] at h
  exact (Except.ok.inj h).symm

theorem oobTreeOf_lt {i : ℕ} {tt : SkTree ℚ 1 × ℕ} {q : OobTree} (h : oobTreeOf style leafOf uns i tt = .ok q) :
    leafOf tt.2 i < tt.1.nLeaves := by
  unfold oobTreeOf at h
  split_ifs at h with hl
  exact hl

theorem forall2_map_eq {α β γ : Type} {R : α → β → Prop} {f : α → γ} {g : β → γ} {l : List α} {m : List β}
    (h : List.Forall₂ R l m) (hfg : ∀ a ∈ l, ∀ b, R a b → f a = g b) : l.map f = m.map g := by
  induction h with
  | nil => rfl
  | cons h _ ih =>
    rw [List.map_cons, List.map_cons, hfg _ (by simp) _ h, ih fun a ha b => hfg a (by simp [ha]) b]

/-- The prediction of an observation by the trees for which it is out of bag. -/
theorem ObsOf.pred_eq {i : ℕ} {o : OobObs} (h : ObsOf forest style y leafOf uns i o) (pa : Bool) {n : ℕ} (lamb : Fin n → ℚ) :
    o.pred pa lamb = oobMean forest.length uns (fun t => smoothedPred forest style pa lamb leafOf t i) i := by
  have key : ∀ (F : OobTree → ℚ) (G : ℕ → ℚ),
      (∀ tt ∈ forest.zipIdx, ∀ q, oobTreeOf style leafOf uns i tt = .ok q → F q = G tt.2) →
      (o.oobTrees.map F).sum = ∑ t ∈ oobTrees forest.length uns i, G t := by
    intro F G hFG
    unfold OobObs.oobTrees
    rw [← sum_filter_ite, ← forall2_map_eq (f := fun tt : SkTree ℚ 1 × ℕ => if i ∈ uns tt.2 then G tt.2 else 0) h.2
      (fun tt htt q hq => by
        rw [← hFG tt htt q hq, oobTreeOf_ok hq (oobTreeOf_lt hq)]
        simp), sum_zipIdx _ 0]
    unfold oobTrees
    rw [Finset.sum_filter]
    refine Finset.sum_congr rfl fun t ht => ?_
    rw [List.getElem?_eq_getElem (Finset.mem_range.1 ht), Option.elim_some, Nat.zero_add]
  have hpred := key (fun q => q.pred pa lamb) (fun t => smoothedPred forest style pa lamb leafOf t i) (by
    intro tt htt q hq
    have hl := oobTreeOf_lt hq
    rw [oobTreeOf_ok hq hl]
    have hget : forest[tt.2]? = some tt.1 := by
      have := List.mem_zipIdx (x := tt.1) (i := tt.2) htt
      simp only [Nat.sub_zero, Nat.zero_add] at this
      rw [this.2.2, List.getElem?_eq_getElem]
    unfold smoothedPred leafAt
    simp only [hget, dif_pos hl]
    rfl)
  have hlen := key (fun _ => 1) (fun _ => 1) (by intros; rfl)
  simp only [List.map_const', List.sum_replicate, nsmul_eq_mul, mul_one, Finset.sum_const] at hlen
  unfold OobObs.pred oobMean
  rw [hpred, hlen]
  split_ifs with h0
  · rw [h0]; simp
  · rfl

/-- Whether `np.sum(item) == 1` recognises observation `i` as out of bag (C153). -/
def recognised (T : ℕ) (uns : ℕ → List ℕ) (i : ℕ) : Bool :=
  flEverOob ((List.range T).map fun t => decide (i ∈ uns t))

theorem ObsOf.ever {i : ℕ} {o : OobObs} (h : ObsOf forest style y leafOf uns i o) :
    flEverOob (o.trees.map fun q => q.oob) = recognised forest.length uns i := by
  unfold recognised
  rw [← forall2_map_eq (f := fun tt : SkTree ℚ 1 × ℕ => decide (i ∈ uns tt.2)) h.2
    (fun tt _ q hq => by rw [oobTreeOf_ok hq (oobTreeOf_lt hq)])]
  congr 1
  refine List.ext_getElem (by simp) fun k h1 h2 => ?_
  simp

theorem ObsOf.ok {i : ℕ} {o : OobObs} (h : ObsOf forest style y leafOf uns i o) {tune : ℕ → List (TuneRow ℚ 1)} {N : ℕ}
    {M : ℚ} (H : FlInput .reg forest tune N M) (hy : ∀ x ∈ y, |x| ≤ M) :
    o.OK (forestDepth forest + 1) N forest.length M where
  trees := by
    intro q hq
    obtain ⟨tt, htt, he⟩ := forall2_mem_right h.2 q hq
    have ht := mem_zipIdx_fst htt
    rw [oobTreeOf_ok he (oobTreeOf_lt he)]
    exact ⟨H.whole _ ht, H.pos _ ht, H.leaf_cols ht style, H.size _ ht, H.bound _ ht 0⟩
  count := by rw [← h.2.length_eq, List.length_zipIdx]
  resp := hy _ (List.mem_of_getElem? h.1)

/-- Mean squared error of the smoothed out-of-bag predictions over a list of observations. -/
def oobMse (forest : List (SkTree ℚ 1)) (style : Style) (pa : Bool) {n : ℕ} (lamb : Fin n → ℚ) (y : List ℚ)
    (leafOf : ℕ → ℕ → ℕ) (uns : ℕ → List ℕ) (is : List ℕ) : ℚ :=
  (is.map fun i => (oobMean forest.length uns (fun t => smoothedPred forest style pa lamb leafOf t i) i -
    y.getD i 0) ^ 2).sum / (is.length : ℚ)

theorem oobLoss_eq {c : List ℕ} {sub : List OobObs} (h : List.Forall₂ (ObsOf forest style y leafOf uns) c sub) (pa : Bool)
    {n : ℕ} (lamb : Fin n → ℚ) :
    oobLoss pa lamb (sub.filter fun o => flEverOob (o.trees.map fun q => q.oob)) =
      oobMse forest style pa lamb y leafOf uns (c.filter (recognised forest.length uns)) ∧
    (sub.filter fun o => flEverOob (o.trees.map fun q => q.oob)).length =
      (c.filter (recognised forest.length uns)).length := by
  have key : List.Forall₂ (ObsOf forest style y leafOf uns) (c.filter (recognised forest.length uns))
      (sub.filter fun o => flEverOob (o.trees.map fun q => q.oob)) := by
    induction h with
    | nil => exact .nil
    | cons h _ ih =>
      rw [List.filter_cons, List.filter_cons, h.ever]
      split_ifs
      · exact .cons h ih
      · exact ih
  refine ⟨?_, key.length_eq.symm⟩
  unfold oobLoss oobMse
  rw [key.length_eq]
  congr 2
  symm
  refine forall2_map_eq key fun i _ o ho => ?_
  rw [ho.pred_eq, List.getD_eq_getElem?_getD, ho.1, Option.getD_some]

/-- The cost over a list of observations. -/
theorem cleanCost_err (hs : IsFlSum sum) {tune : ℕ → List (TuneRow ℚ 1)} {N : ℕ} {M : ℚ} (H : FlInput .reg forest tune N M)
    (hM : 0 ≤ M) (hy : ∀ x ∈ y, |x| ≤ M) (hN : 2 * N + forest.length + 1 ≤ 2 ^ 46)
    {lamb : Fin (forestDepth forest + 1) → ℚ} (hl : ∀ k, 0 ≤ lamb k) {c : List ℕ} {sub : List OobObs}
    (h : List.Forall₂ (ObsOf forest style y leafOf uns) c sub) (hc : c.length + 4 ≤ 2 ^ 49) :
    (c.filter (recognised forest.length uns) = [] → flCleanCost sum pa (forestDepth forest + 1) sub lamb = .error .nonFinite) ∧
    (c.filter (recognised forest.length uns) ≠ [] → ∃ x, flCleanCost sum pa (forestDepth forest + 1) sub lamb = .ok x ∧
      |x - oobMse forest style pa lamb y leafOf uns (c.filter (recognised forest.length uns))| ≤
        44 * (2 * N + forest.length + c.length + 5) / 2 ^ 53 * M ^ 2) := by
  have ho : ∀ o ∈ sub, o.OK (forestDepth forest + 1) N forest.length M := by
    intro o ho
    obtain ⟨i, -, hi⟩ := forall2_mem_right h o ho
    exact hi.ok H hy
  obtain ⟨h1, h2⟩ := C195_cost hs pa (forestDepth forest + 1) N forest.length M hM hN lamb hl sub ho
    (by rw [← h.length_eq]; exact hc)
  obtain ⟨e1, e2⟩ := oobLoss_eq h pa lamb
  rw [e1, e2] at h2
  have hnil : (c.filter (recognised forest.length uns) = []) ↔
      sub.filter (fun o => flEverOob (o.trees.map fun q => q.oob)) = [] := by
    rw [← List.length_eq_zero_iff, ← e2, List.length_eq_zero_iff]
  refine ⟨fun e => h1 (hnil.1 e), fun e => ?_⟩
  obtain ⟨x, hx, hb⟩ := h2 fun e' => e (hnil.2 e')
  refine ⟨x, hx, hb.trans ?_⟩
  have : ((c.filter (recognised forest.length uns)).length : ℚ) ≤ c.length := by exact_mod_cast List.length_filter_le _ _
  gcongr

/-! ### the run -/

/-- The descent options `smooth_clean` passes on. -/
def CleanCfg.opts (cfg : CleanCfg ℚ) (m : ℕ) : CleanOpts ℚ :=
  { nObs := if cfg.allObs then m else cfg.nObs
    useFullLoss := cfg.allObs || cfg.useFullLoss
    tFix := cfg.tFix, noConstraint := cfg.noConstraint, adam := cfg.adam }

theorem zipWith_vals (sum : List ℚ → ℚ) (forest : List (SkTree ℚ 1)) (s : Style) (pa : Bool)
    (lamb : Fin (forestDepth forest + 1) → ℚ) :
    (List.zipWith (fun g e => flSmoothValue sum ⟨0, 0, toVec (forestDepth forest + 1) g,
        toVec (forestDepth forest + 1) e, 0⟩ lamb)
      ((flGammaEtaForest sum .reg forest s pa).gamma 0) (flGammaEtaForest sum .reg forest s pa).eta).map
        (fun v (_ : Fin 1) => v) =
    (leafList forest).map fun p (c : Fin 1) => flSmoothValue sum
      (flLeafRow sum .reg p.1 pa (p.1.distDepth s) (forestDepth forest + 1) p.2 c) lamb := by
  obtain ⟨h1, h2, -⟩ := flGammaEtaForest_eq sum .reg forest s pa
  rw [h1, h2, zipWith_same, List.map_map, ← leafListI_fst, List.map_map]
  refine List.map_congr_left fun q _ => ?_
  funext c
  rw [Fin.eq_zero c]
  rfl

/-- Inversion of a successful run. -/
theorem flSmoothClean_ok (hwf : ∀ t ∈ forest, t.WF) {cfg : CleanCfg ℚ} {choices : List (List ℕ)}
    {out : List (SkTree ℚ 1) × (Fin (forestDepth forest + 1) → ℚ) × List ℚ}
    (h : flSmoothClean sum pow sqrt (some .reg) forest y leafOf uns cfg choices = .ok out) :
    ∃ obs init, oobObsOf forest cfg.style y leafOf uns = .ok obs ∧ y ≠ [] ∧
      flBaseLambE (forestDepth forest + 1) cfg.seed = .ok init ∧
      (cfg.sanityCheck = true → out.2.1 = toVec _ (flBaseLamb (forestDepth forest + 1) none) ∧ out.2.2 = []) ∧
      (cfg.sanityCheck = false → ∃ last, flSgdClean sum pow sqrt cfg.parentsAll (forestDepth forest + 1) obs
        (cfg.opts y.length) init choices = .ok (out.2.1, last, out.2.2)) ∧
      List.Forall₂ (fun t t' => LeafUpdate t t' fun r c => flSmoothValue sum
        (flLeafRow sum .reg t cfg.parentsAll (t.distDepth cfg.style) (forestDepth forest + 1) r c) out.2.1) forest out.1 := by
  unfold flSmoothClean at h
  obtain ⟨obs, h1, h⟩ := bind_ok h
  obtain ⟨⟨lamb, costs⟩, h2, h⟩ := bind_ok h
  obtain ⟨rf1, h3, h⟩ := bind_ok h
  cases h
  rw [zipWith_vals] at h3
  obtain ⟨ts', h7, h8⟩ := writeBack1_spec (fun p c => flSmoothValue sum
    (flLeafRow sum .reg p.1 cfg.parentsAll (p.1.distDepth cfg.style) (forestDepth forest + 1) p.2 c) lamb) forest hwf []
  rw [List.nil_append, List.length_nil, h3] at h7
  cases h7
  have hlen := (oobObsOf_ok h1).1
  unfold flCleanLamb at h2
  by_cases h0 : obs.length = 0
  · rw [if_pos h0] at h2; cases h2
  rw [if_neg h0] at h2
  obtain ⟨init, h4, h2⟩ := bind_ok h2
  refine ⟨obs, init, h1, fun e => h0 (by rw [hlen, e]; rfl), h4, fun e => ?_, fun e => ?_, h8⟩
  · rw [if_pos e] at h2
    cases h2
    exact ⟨rfl, rfl⟩
  · rw [e] at h2
    obtain ⟨r, h5, h2⟩ := bind_ok h2
    cases h2
    rw [hlen] at h5
    exact ⟨r.2.1, h5⟩

theorem flBaseLambE_ok {k : ℕ} {seed : Option (ℕ → ℚ)} {l : List ℚ} (hu : ∀ u, seed = some u → ∀ i, 0 ≤ u i)
    (h : flBaseLambE k seed = .ok l) : ∀ z ∈ l, IsFloat z ∧ 0 ≤ z :=
  flInitLamb_ok (kind := .reg) (eps := 0) hu le_rfl (by unfold flInitLamb; rw [h]; rfl)

/-- C200: a constrained run in doubles returns non-negative doubles as weights and changes nothing but leaf values; each
new leaf value is within `8N 2^-53 M` of the smoothed value at the returned weights. -/
theorem C200_forest (hs : IsFlSum sum) {N : ℕ} {M : ℚ} (H : FlInput .reg forest (fun _ => []) N M) (hM : 0 ≤ M)
    (hN : N ≤ 2 ^ 46) {cfg : CleanCfg ℚ} (hnc : cfg.noConstraint = false) (hu : ∀ u, cfg.seed = some u → ∀ i, 0 ≤ u i)
    {choices : List (List ℕ)} {out : List (SkTree ℚ 1) × (Fin (forestDepth forest + 1) → ℚ) × List ℚ}
    (h : flSmoothClean sum pow sqrt (some .reg) forest y leafOf uns cfg choices = .ok out) :
    (∀ k, IsFloat (out.2.1 k) ∧ 0 ≤ out.2.1 k) ∧
    List.Forall₂ (fun t t' => ∃ f, LeafUpdate t t' f ∧ ∀ r c,
      |f r c - smoothSpec .reg t cfg.style cfg.parentsAll out.2.1 r c| ≤ 8 * N * (1 / 2 ^ 53) * M) forest out.1 := by
  obtain ⟨obs, init, -, -, h1, h2, h3, h4⟩ := flSmoothClean_ok H.wf h
  have hinit : ∀ k, IsFloat (toVec (forestDepth forest + 1) init k) ∧ 0 ≤ toVec (forestDepth forest + 1) init k :=
    toVec_entries (flBaseLambE_ok hu h1)
  have hw : ∀ k, IsFloat (out.2.1 k) ∧ 0 ≤ out.2.1 k := by
    cases hsan : cfg.sanityCheck
    · obtain ⟨last, h5⟩ := h3 hsan
      obtain ⟨vs, hv, hlast, hbest, -, -⟩ := C200_descent h5
      have hall := (cleanVisited_ok (o := cfg.opts y.length) hnc hv).2
      have hlast' : ∀ k, IsFloat (last k) ∧ 0 ≤ last k := by
        rw [hlast]
        rcases hg : vs.getLast? with _ | x
        · exact hinit
        · exact hall x (List.mem_of_getLast? hg)
      rw [hbest]
      split_ifs
      · exact hinit
      · exact hlast'
    · rw [(h2 hsan).1]
      exact toVec_entries (flBase_entries _)
  refine ⟨hw, forall2_imp_mem h4 fun t ht t' hu => ⟨_, hu, fun r c => ?_⟩⟩
  refine le_trans (C164_value hs .reg t (H.whole t ht) cfg.parentsAll (t.distDepth cfg.style) (forestDepth forest + 1)
    (H.leaf_cols ht cfg.style) ((H.size t ht).trans (hN.trans (by norm_num))) r c out.2.1 (fun k => (hw k).2) hM
    (H.bound t ht c)).1 ?_
  have : ((t.nLeaves + (forestDepth forest + 1) + 3 : ℕ) : ℚ) ≤ N := by exact_mod_cast H.size t ht
  gcongr

/-- C200: with `use_full_loss` or `all_obs` the returned weights are the starting weights, whatever the steps do, also
without the constraint. -/
theorem C200_full_loss (hwf : ∀ t ∈ forest, t.WF) {cfg : CleanCfg ℚ} (hf : cfg.allObs = true ∨ cfg.useFullLoss = true)
    {choices : List (List ℕ)} {out : List (SkTree ℚ 1) × (Fin (forestDepth forest + 1) → ℚ) × List ℚ}
    (h : flSmoothClean sum pow sqrt (some .reg) forest y leafOf uns cfg choices = .ok out) :
    (cfg.seed = none → out.2.1 = firstWeight (forestDepth forest + 1)) ∧
    ∀ u, cfg.seed = some u → cfg.sanityCheck = false →
      ∀ k, out.2.1 k = fl (u k / npSum ((List.range (forestDepth forest + 1)).map u)) := by
  obtain ⟨obs, init, -, -, h1, h2, h3, -⟩ := flSmoothClean_ok hwf h
  have hfull : (cfg.opts y.length).useFullLoss = true := by
    unfold CleanCfg.opts
    rcases hf with e | e <;> simp [e]
  have hrun : cfg.sanityCheck = false → out.2.1 = toVec _ init := fun hsan => by
    obtain ⟨last, h5⟩ := h3 hsan
    obtain ⟨vs, -, -, hbest, -, -⟩ := C200_descent h5
    rw [hbest, if_pos hfull]
  constructor
  · intro hseed
    have e : out.2.1 = toVec _ (flBaseLamb (forestDepth forest + 1) none) := by
      cases hsan : cfg.sanityCheck
      · rw [hrun hsan]
        rw [hseed] at h1
        rw [← Except.ok.inj h1]
      · exact (h2 hsan).1
    rw [e]
    funext i
    rw [toVec_base]
    unfold firstWeight
    simp only [Fin.ext_iff, Fin.val_zero]
  · intro u hseed hsan k
    rw [hrun hsan]
    rw [hseed] at h1
    replace h1 : flNormaliseE ((List.range (forestDepth forest + 1)).map u) = .ok init := h1
    unfold flNormaliseE at h1
    split_ifs at h1
    rw [← Except.ok.inj h1]
    unfold toVec flNormalise
    rw [List.getD_eq_getElem?_getD, List.map_map, List.getElem?_map, List.getElem?_range k.isLt]
    rfl

/-- C200: with `use_full_loss` or `all_obs` and the default start the forest comes back as it is, bit for bit, when its
leaf values are rounded means. -/
theorem C200_unchanged (hs : IsFlSum sum) {N : ℕ} {M : ℚ} (H : FlInput .reg forest (fun _ => []) N M)
    (hv : ∀ t ∈ forest, ∀ (i : Fin t.nLeaves) (c : Fin 1), ∃ S, IsFloat S ∧
      t.value (t.leafNode i) c = fl (S / t.nSamp (t.leafNode i)))
    {cfg : CleanCfg ℚ} (hf : cfg.allObs = true ∨ cfg.useFullLoss = true ∨ cfg.sanityCheck = true) (hseed : cfg.seed = none)
    {choices : List (List ℕ)} {out : List (SkTree ℚ 1) × (Fin (forestDepth forest + 1) → ℚ) × List ℚ}
    (h : flSmoothClean sum pow sqrt (some .reg) forest y leafOf uns cfg choices = .ok out) : out.1 = forest := by
  have hlam : out.2.1 = firstWeight (forestDepth forest + 1) := by
    rcases hf with e | e | e
    · exact (C200_full_loss H.wf (Or.inl e) h).1 hseed
    · exact (C200_full_loss H.wf (Or.inr e) h).1 hseed
    · obtain ⟨obs, init, -, -, -, h2, -, -⟩ := flSmoothClean_ok H.wf h
      rw [(h2 e).1]
      funext i
      rw [toVec_base]
      unfold firstWeight
      simp only [Fin.ext_iff, Fin.val_zero]
  obtain ⟨obs, init, -, -, -, -, -, h4⟩ := flSmoothClean_ok H.wf h
  have : List.Forall₂ (fun t t' : SkTree ℚ 1 => t = t') forest out.1 := by
    refine forall2_imp_mem h4 fun t ht t' hu => ?_
    obtain ⟨v, rfl, hl, ho⟩ := hu
    have e : v = t.value := by
      funext i c
      by_cases hi : t.IsLeaf i
      · obtain ⟨r, rfl⟩ := exists_leafNode ((isLeaf_iff (H.wf t ht)).1 hi)
        rw [hl r c, hlam]
        obtain ⟨S, hS, hval⟩ := hv t ht r c
        exact C165_bits hs t (H.wf t ht) (H.whole t ht) _ _ _ (H.leaf_cols ht cfg.style) r (H.pos t ht r).ne' c hS hval
      · exact ho i c hi
    rw [e]
  exact (List.forall₂_eq_eq_eq ▸ this : forest = out.1).symm

/-- The observations over which cost number `j` is taken. -/
def costIdx (cfg : CleanCfg ℚ) (m : ℕ) (c : List ℕ) : List ℕ :=
  if cfg.allObs || cfg.useFullLoss then List.range m else c

/-- C200: the recorded costs. A run with steps records one cost for the start and one for each visited weight vector;
each is within `44 (2N + T + m + 5) 2^-53 M²` of the mean squared error of the smoothed out-of-bag predictions at these
weights, over those of the observations (all, or the ones drawn) that `np.sum(item) == 1` recognises. -/
theorem C200_costs (hs : IsFlSum sum) {N m : ℕ} {M : ℚ} (H : FlInput .reg forest (fun _ => []) N M) (hM : 0 ≤ M)
    (hy : ∀ x ∈ y, |x| ≤ M) (hN : 2 * N + forest.length + 1 ≤ 2 ^ 46) {cfg : CleanCfg ℚ} (hnc : cfg.noConstraint = false)
    (hsan : cfg.sanityCheck = false) (hu : ∀ u, cfg.seed = some u → ∀ i, 0 ≤ u i)
    {c : List ℕ} {cs : List (List ℕ)} (hm : ∀ d ∈ c :: cs, (costIdx cfg y.length d).length ≤ m) (hm' : m + 4 ≤ 2 ^ 49)
    {out : List (SkTree ℚ 1) × (Fin (forestDepth forest + 1) → ℚ) × List ℚ}
    (h : flSmoothClean sum pow sqrt (some .reg) forest y leafOf uns cfg (c :: cs) = .ok out) :
    ∃ start ws, ws.length = (c :: cs).length ∧ (∀ w ∈ start :: ws, ∀ k, IsFloat (w k) ∧ 0 ≤ w k) ∧
      (cfg.seed = none → start = firstWeight (forestDepth forest + 1)) ∧
      out.2.1 = (if cfg.allObs || cfg.useFullLoss then start else ws.getLastD start) ∧
      List.Forall₂ (fun dw x => let sel := (costIdx cfg y.length dw.1).filter (recognised forest.length uns)
        sel ≠ [] ∧ |x - oobMse forest cfg.style cfg.parentsAll dw.2 y leafOf uns sel| ≤
          44 * (2 * N + forest.length + m + 5) / 2 ^ 53 * M ^ 2)
        ((c :: c :: cs).zip (start :: ws)) out.2.2 := by
  obtain ⟨obs, init, h0, -, h1, -, h3, -⟩ := flSmoothClean_ok H.wf h
  obtain ⟨last, h5⟩ := h3 hsan
  obtain ⟨vs, hv, hlast, hbest, -, hcost⟩ := C200_descent h5
  obtain ⟨x0, xs, v0, rest, e1, e2, e3, e4⟩ := hcost (by simp)
  obtain ⟨hd, hall⟩ := cleanVisited_ok (o := cfg.opts y.length) hnc hv
  have hinit : ∀ k, IsFloat (toVec (forestDepth forest + 1) init k) ∧ 0 ≤ toVec (forestDepth forest + 1) init k :=
    toVec_entries (flBaseLambE_ok hu h1)
  obtain ⟨hlen, hobs⟩ := oobObsOf_ok h0
  have hfull : List.Forall₂ (ObsOf forest cfg.style y leafOf uns) (List.range y.length) obs := by
    rw [List.forall₂_iff_get]
    refine ⟨by simp [hlen], fun i a b => ?_⟩
    simp only [List.get_eq_getElem, List.getElem_range]
    exact hobs i _ (List.getElem?_eq_getElem b)
  have hset : ∀ d ∈ c :: cs, ∀ sub, drawn obs d = .ok sub →
      List.Forall₂ (ObsOf forest cfg.style y leafOf uns) (costIdx cfg y.length d) (costObs (cfg.opts y.length) obs sub) := by
    intro d _ sub hsub
    unfold costIdx costObs CleanCfg.opts
    simp only
    split_ifs
    · exact hfull
    · exact (drawn_ok hsub).imp fun i o ho => hobs i o ho
  have hone : ∀ d ∈ c :: cs, ∀ sub, drawn obs d = .ok sub → ∀ w : Fin (forestDepth forest + 1) → ℚ, (∀ k, 0 ≤ w k) →
      ∀ x, flCleanCost sum cfg.parentsAll _ (costObs (cfg.opts y.length) obs sub) w = .ok x →
      let sel := (costIdx cfg y.length d).filter (recognised forest.length uns)
      sel ≠ [] ∧ |x - oobMse forest cfg.style cfg.parentsAll w y leafOf uns sel| ≤
          44 * (2 * N + forest.length + m + 5) / 2 ^ 53 * M ^ 2 := by
    intro d hdm sub hsub w hw x hx sel
    have hlm := hm d hdm
    obtain ⟨k1, k2⟩ := cleanCost_err (pa := cfg.parentsAll) hs H hM hy hN hw (hset d hdm sub hsub) (by omega)
    have hne : sel ≠ [] := fun e => by rw [k1 e] at hx; cases hx
    obtain ⟨x', hx', hb⟩ := k2 hne
    rw [hx] at hx'
    cases hx'
    refine ⟨hne, hb.trans ?_⟩
    have : ((costIdx cfg y.length d).length : ℚ) ≤ m := by exact_mod_cast hlm
    gcongr
  refine ⟨toVec _ init, vs.map (·.2), ?_, ?_, ?_, ?_, ?_⟩
  · rw [List.length_map, ← hd.length_eq]
  · intro w hw
    rcases List.mem_cons.1 hw with rfl | hw
    · exact hinit
    · obtain ⟨v, hv', rfl⟩ := List.mem_map.1 hw
      exact hall v hv'
  · intro hseed
    rw [hseed] at h1
    rw [← Except.ok.inj h1]
    funext i
    rw [toVec_base]
    unfold firstWeight
    simp only [Fin.ext_iff, Fin.val_zero]
  · rw [hbest, hlast]
    unfold CleanCfg.opts
    simp only
    congr 1
    rw [List.getLastD_eq_getLast?, List.getLast?_map]
    cases vs.getLast? <;> rfl
  · rw [e1]
    refine .cons ?_ ?_
    · have hd0 : drawn obs c = .ok v0.1 := by
        rw [e2] at hd
        cases hd with
        | cons a _ => exact a
      exact hone c (by simp) v0.1 hd0 _ (fun k => (hinit k).2) x0 e3
    · have key : ∀ (ds : List (List ℕ)) (vs : List (List OobObs × (Fin (forestDepth forest + 1) → ℚ))) (xs : List ℚ),
          (∀ d ∈ ds, d ∈ c :: cs) → (∀ v ∈ vs, ∀ k, 0 ≤ v.2 k) →
          List.Forall₂ (fun c v => drawn obs c = .ok v.1) ds vs →
          List.Forall₂ (fun v x => flCleanCost sum cfg.parentsAll _ (costObs (cfg.opts y.length) obs v.1) v.2 = .ok x) vs xs →
          List.Forall₂ (fun dw x => let sel := (costIdx cfg y.length dw.1).filter (recognised forest.length uns)
            sel ≠ [] ∧ |x - oobMse forest cfg.style cfg.parentsAll dw.2 y leafOf uns sel| ≤
              44 * (2 * N + forest.length + m + 5) / 2 ^ 53 * M ^ 2) (ds.zip (vs.map (·.2))) xs := by
        intro ds vs xs hds hvs h6 h7
        induction h6 generalizing xs with
        | nil => cases h7; exact .nil
        | cons a _ ih =>
          cases h7 with
          | cons b h7 =>
            refine .cons (hone _ (hds _ (by simp)) _ a _ (hvs _ (by simp)) _ b) ?_
            exact ih _ (fun d hd => hds d (by simp [hd])) (fun v hv => hvs v (by simp [hv])) h7
      exact key (c :: cs) vs xs (fun _ hd => hd) (fun v hv k => (hall v hv k).2) hd e4

/-! ### failures -/

/-- The gradient over observations of which none is recognised divides by 0; otherwise it is a number. -/
theorem flL2Grad_eq (hs : IsFlSum sum) {N T : ℕ} {M : ℚ} (hN : N ≤ 2 ^ 50) (hT : T ≤ 2 ^ 53) {lamb : Fin n → ℚ}
    (hl : ∀ k, 0 ≤ lamb k) {sub : List OobObs} (ho : ∀ o ∈ sub, o.OK n N T M) :
    (sub.filter (fun o => flEverOob (o.trees.map fun q => q.oob)) = [] → flL2Grad sum pa n sub lamb = .error .nonFinite) ∧
    (sub.filter (fun o => flEverOob (o.trees.map fun q => q.oob)) ≠ [] → ∃ g, flL2Grad sum pa n sub lamb = .ok g) := by
  have h1 := mapM_ok' (flYOob sum pa n lamb)
    (fun o => (flOobValue sum pa n lamb o, flEverOob (o.trees.map fun q => q.oob))) sub
    fun o hoo => flYOob_eq hs hN hT pa lamb hl (ho o hoo)
  have h2 : ((sub.map fun o => (flOobValue sum pa n lamb o, flEverOob (o.trees.map fun q => q.oob))).filter
      fun p => p.2).length = (sub.filter fun o => flEverOob (o.trees.map fun q => q.oob)).length := by
    rw [List.filter_map, List.length_map]; rfl
  unfold flL2Grad
  rw [h1]
  simp only [bind, Except.bind, h2]
  constructor
  · intro e
    rw [e]; rfl
  · intro e
    rw [if_neg (by rwa [List.length_eq_zero_iff])]
    exact ⟨_, rfl⟩

theorem flProx_error {y : Fin n → ℚ} {e : PyErr} (h : flProxProject y = .error e) : e = .valueError := by
  unfold flProxProject at h
  dsimp only at h
  rcases hm : npMaxE ((flProxRho (clip0 y)).map (flProxThr (clip0 y))) with e3 | m
  · rw [hm] at h
    have : e3 = e := by injection h
    subst this
    exact npMaxE_error hm
  · rw [hm] at h; cases h

/-- What can go wrong with a choice `d` of observations. -/
def CleanFail (sum : List ℚ → ℚ) (forest : List (SkTree ℚ 1)) (y : List ℚ) (uns : ℕ → List ℕ) (cfg : CleanCfg ℚ)
    (obs : List OobObs) (d : List ℕ) (e : PyErr) : Prop :=
  (cfg.allObs = false ∧ y.length < cfg.nObs ∧ e = .valueError) ∨
  (d.filter (recognised forest.length uns) = [] ∧ e = .nonFinite) ∨
  (e = .valueError ∧ ∃ sub lamb g k, drawn obs d = .ok sub ∧ (∀ k, 0 ≤ lamb k) ∧
    flL2Grad sum cfg.parentsAll (forestDepth forest + 1) sub lamb = .ok g ∧
    2 ^ 52 ≤ ((forestDepth forest : ℚ) + 1) * (forestDepth forest + 3) * fl (lamb k - fl (cfg.tFix * g k)))

theorem cleanStep_fails (hs : IsFlSum sum) {N m : ℕ} {M : ℚ} (H : FlInput .reg forest (fun _ => []) N M) (hM : 0 ≤ M)
    (hy : ∀ x ∈ y, |x| ≤ M) (hN : 2 * N + forest.length + 1 ≤ 2 ^ 46) (hfd : forestDepth forest ≤ 2 ^ 50)
    {cfg : CleanCfg ℚ} (hnc : cfg.noConstraint = false)
    (ha : cfg.adam = none) {d : List ℕ} (hd : ∀ i ∈ d, i < y.length) (hm : d.length ≤ m) (hm1 : y.length ≤ m)
    (hm' : m + 4 ≤ 2 ^ 49) {obs : List OobObs} (h0 : oobObsOf forest cfg.style y leafOf uns = .ok obs)
    {s : CleanState ℚ (forestDepth forest + 1)} (hl : ∀ k, 0 ≤ s.lamb k) {e : PyErr}
    (h : flCleanStep sum pow sqrt cfg.parentsAll obs (cfg.opts y.length) s d = .error e) :
    CleanFail sum forest y uns cfg obs d e := by
  obtain ⟨hlen, hobs⟩ := oobObsOf_ok h0
  unfold flCleanStep at h
  by_cases hno : obs.length < (cfg.opts y.length).nObs
  · rw [if_pos hno] at h
    left
    unfold CleanCfg.opts at hno
    simp only at hno
    cases hall : cfg.allObs
    · rw [hall] at hno
      simp only [Bool.false_eq_true, if_false, hlen] at hno
      exact ⟨rfl, hno, (Except.error.inj h).symm⟩
    · rw [hall] at hno
      simp only [if_true] at hno
      omega
  rw [if_neg hno] at h
  right
  obtain ⟨sub, hsub, hrel⟩ : ∃ sub, drawn obs d = .ok sub ∧ List.Forall₂ (ObsOf forest cfg.style y leafOf uns) d sub := by
    refine mapM_forall2 fun i hi => ?_
    have hi' : i < obs.length := by rw [hlen]; exact hd i hi
    refine ⟨obs[i], ?_, hobs i _ (List.getElem?_eq_getElem hi')⟩
    unfold pyGet
    rw [List.getElem?_eq_getElem hi']
  have hfull : List.Forall₂ (ObsOf forest cfg.style y leafOf uns) (List.range y.length) obs := by
    rw [List.forall₂_iff_get]
    refine ⟨by simp [hlen], fun i a b => ?_⟩
    simp only [List.get_eq_getElem, List.getElem_range]
    exact hobs i _ (List.getElem?_eq_getElem b)
  have ho : ∀ o ∈ sub, o.OK (forestDepth forest + 1) N forest.length M := by
    intro o ho
    obtain ⟨i, -, hi⟩ := forall2_mem_right hrel o ho
    exact hi.ok H hy
  have hsel := (oobLoss_eq hrel cfg.parentsAll s.lamb).2
  have hrange : d.filter (recognised forest.length uns) ≠ [] →
      (List.range y.length).filter (recognised forest.length uns) ≠ [] := by
    intro hne
    obtain ⟨i, hi⟩ := List.exists_mem_of_ne_nil _ hne
    rw [List.mem_filter] at hi
    exact List.ne_nil_of_mem (List.mem_filter.2 ⟨List.mem_range.2 (hd i hi.1), hi.2⟩)
  by_cases hrec : d.filter (recognised forest.length uns) = []
  · left
    refine ⟨hrec, ?_⟩
    rw [hsub] at h
    simp only [bind, Except.bind] at h
    have hc1 := fun lamb hl => (cleanCost_err (pa := cfg.parentsAll) (lamb := lamb) hs H hM hy hN hl hrel (by omega)).1 hrec
    have hg := (flL2Grad_eq (pa := cfg.parentsAll) hs (N := N) (T := forest.length) (by omega) (by omega) hl ho).1 (by
      rw [← List.length_eq_zero_iff, hsel, hrec]; rfl)
    have hmove : flCleanMove sum pow sqrt cfg.parentsAll (cfg.opts y.length) sub s.lamb s.iv = .error .nonFinite := by
      unfold flCleanMove flCleanPre
      have : (cfg.opts y.length).adam = none := ha
      simp only [this, hg, bind, Except.bind]
    rcases hst : flCleanStart sum cfg.parentsAll obs (cfg.opts y.length) sub s with e' | s1
    · rw [hst] at h
      have : e' = e := by injection h
      subst this
      unfold flCleanStart at hst
      split_ifs at hst
      · rcases bind_error hst with hc | ⟨a, -, hc⟩
        · by_cases hr : (List.range y.length).filter (recognised forest.length uns) = []
          · rw [(cleanCost_err (pa := cfg.parentsAll) hs H hM hy hN hl hfull (by simp; omega)).1 hr] at hc
            exact (Except.error.inj hc).symm
          · obtain ⟨x, hx, -⟩ := (cleanCost_err (pa := cfg.parentsAll) hs H hM hy hN hl hfull (by simp; omega)).2 hr
            rw [hx] at hc; cases hc
        · cases hc
      · rcases bind_error hst with hc | ⟨a, -, hc⟩
        · rw [hc1 _ hl] at hc
          exact (Except.error.inj hc).symm
        · cases hc
    · rw [hst] at h
      have hsame : s1.lamb = s.lamb ∧ s1.iv = s.iv := by
        unfold flCleanStart at hst
        split_ifs at hst
        · cases hst; exact ⟨rfl, rfl⟩
        · obtain ⟨x, -, hst⟩ := bind_ok hst; cases hst; exact ⟨rfl, rfl⟩
        · obtain ⟨x, -, hst⟩ := bind_ok hst; cases hst; exact ⟨rfl, rfl⟩
      simp only [hsame.1, hsame.2, hmove] at h
      exact (Except.error.inj h).symm
  · right
    rw [hsub] at h
    simp only [bind, Except.bind] at h
    have hcost : ∀ lamb : Fin (forestDepth forest + 1) → ℚ, (∀ k, 0 ≤ lamb k) →
        (∃ x, flCleanCost sum cfg.parentsAll _ obs lamb = .ok x) ∧
        ∃ x, flCleanCost sum cfg.parentsAll _ sub lamb = .ok x := fun lamb hl => by
      obtain ⟨x, hx, -⟩ := (cleanCost_err (pa := cfg.parentsAll) hs H hM hy hN hl hfull (by simp; omega)).2 (hrange hrec)
      obtain ⟨x', hx', -⟩ := (cleanCost_err (pa := cfg.parentsAll) hs H hM hy hN hl hrel (by omega)).2 hrec
      exact ⟨⟨x, hx⟩, ⟨x', hx'⟩⟩
    obtain ⟨g, hg⟩ := (flL2Grad_eq (pa := cfg.parentsAll) hs (N := N) (T := forest.length) (by omega) (by omega) hl ho).2 (by
      intro hnil
      rw [hnil] at hsel
      exact hrec (List.length_eq_zero_iff.1 hsel.symm))
    obtain ⟨⟨x, hx⟩, ⟨x', hx'⟩⟩ := hcost _ hl
    obtain ⟨s1, hst, hs1, hs2⟩ : ∃ s1, flCleanStart sum cfg.parentsAll obs (cfg.opts y.length) sub s = .ok s1 ∧
        s1.lamb = s.lamb ∧ s1.iv = s.iv := by
      unfold flCleanStart
      split_ifs
      · exact ⟨_, rfl, rfl, rfl⟩
      · rw [hx]; exact ⟨_, rfl, rfl, rfl⟩
      · rw [hx']; exact ⟨_, rfl, rfl, rfl⟩
    rw [hst] at h
    simp only [hs1, hs2] at h
    rcases hmv : flCleanMove sum pow sqrt cfg.parentsAll (cfg.opts y.length) sub s.lamb s.iv with e' | p
    · rw [hmv] at h
      have : e' = e := by injection h
      subst this
      unfold flCleanMove flCleanPre at hmv
      have h1 : (cfg.opts y.length).adam = none := ha
      have h2 : (cfg.opts y.length).noConstraint = false := hnc
      simp only [h1, hg, bind, Except.bind, pure, Except.pure, h2, Bool.false_eq_true, if_false] at hmv
      by_cases hb : ∀ k, ((forestDepth forest : ℚ) + 1) * (forestDepth forest + 3) *
          fl (s.lamb k - fl (cfg.tFix * g k)) < 2 ^ 52
      · obtain ⟨x, hx, -⟩ := C163_returns (fun k => fl (s.lamb k - fl (cfg.tFix * g k))) (fun k => fl_isFloat _) hfd hb
        have hx' : flProxProject (fun j => fl (s.lamb j - fl ((cfg.opts y.length).tFix * g j))) = .ok x := hx
        rw [hx'] at hmv
        cases hmv
      · push Not at hb
        obtain ⟨k, hk⟩ := hb
        refine ⟨?_, sub, s.lamb, g, k, hsub, hl, hg, hk⟩
        rcases hx : flProxProject (fun j => fl (s.lamb j - fl ((cfg.opts y.length).tFix * g j))) with e2 | x
        · rw [hx] at hmv
          have : e2 = e' := by injection hmv
          subst this
          exact flProx_error hx
        · rw [hx] at hmv; cases hmv
    · rw [hmv] at h
      have hp := flCleanMove_ok (o := cfg.opts y.length) hnc hmv
      obtain ⟨⟨x, hx⟩, ⟨x', hx'⟩⟩ := hcost p.1 fun k => (hp k).2
      simp only [flCleanRecord, hx, hx', bind, Except.bind, pure, Except.pure] at h
      split_ifs at h

/-- C200: how a constrained run without Adam, from the default start, can fail in doubles: no observations; more
observations to draw than there are; no step and the full loss; a draw in which no observation is recognised as out of bag;
or a step to an entry of about `2^52`, after which `prox_project` has no threshold. -/
theorem C200_fails (hs : IsFlSum sum) {N m : ℕ} {M : ℚ} (H : FlInput .reg forest (fun _ => []) N M) (hM : 0 ≤ M)
    (hne : forest ≠ []) (hy : ∀ x ∈ y, |x| ≤ M) (hN : 2 * N + forest.length + 1 ≤ 2 ^ 46)
    (hleaf : ∀ tt ∈ forest.zipIdx, ∀ i < y.length, leafOf tt.2 i < tt.1.nLeaves)
    {cfg : CleanCfg ℚ} (hnc : cfg.noConstraint = false) (ha : cfg.adam = none) (hseed : cfg.seed = none)
    {choices : List (List ℕ)} (hd : ∀ d ∈ choices, d.length ≤ m ∧ ∀ i ∈ d, i < y.length) (hm1 : y.length ≤ m)
    (hm' : m + 4 ≤ 2 ^ 49) {e : PyErr}
    (h : flSmoothClean sum pow sqrt (some .reg) forest y leafOf uns cfg choices = .error e) :
    (y = [] ∧ e = .valueError) ∨
    (cfg.sanityCheck = false ∧ choices = [] ∧ (cfg.allObs || cfg.useFullLoss) = true ∧ e = .unboundLocalError) ∨
    (cfg.sanityCheck = false ∧ ∃ obs, oobObsOf forest cfg.style y leafOf uns = .ok obs ∧
      ∃ d ∈ choices, CleanFail sum forest y uns cfg obs d e) := by
  obtain ⟨obs, h0⟩ : ∃ obs, oobObsOf forest cfg.style y leafOf uns = .ok obs := by
    obtain ⟨m, h1, -⟩ := mapM_forall2 (l := y.zipIdx) (R := fun _ _ => True) (f := fun yi => do
      let trees ← forest.zipIdx.mapM (oobTreeOf cfg.style leafOf uns yi.2)
      pure (⟨trees, yi.1⟩ : OobObs)) (fun yi hyi => by
        have hi : yi.2 < y.length := by
          have := (List.mem_zipIdx (x := yi.1) (i := yi.2) hyi).2.1
          omega
        obtain ⟨trees, h2, -⟩ := mapM_forall2 (l := forest.zipIdx) (R := fun _ _ => True)
          (f := oobTreeOf cfg.style leafOf uns yi.2) (fun tt htt => by
            unfold oobTreeOf
            rw [dif_pos (hleaf tt htt _ hi)]
            exact ⟨_, rfl, trivial⟩)
        rw [h2]
        exact ⟨_, rfl, trivial⟩)
    exact ⟨m, h1⟩
  have hlen := (oobObsOf_ok h0).1
  have hfd : forestDepth forest ≤ 2 ^ 50 := by
    obtain ⟨t, ts, rfl⟩ := List.exists_cons_of_ne_nil hne
    have := H.size t (by simp)
    omega
  unfold flSmoothClean at h
  simp only [h0, bind, Except.bind] at h
  rcases hlam : flCleanLamb sum pow sqrt (forestDepth forest + 1) obs cfg choices with e' | p
  swap
  · rw [hlam] at h
    simp only [zipWith_vals] at h
    obtain ⟨ts', h7, -⟩ := writeBack1_spec (fun q c => flSmoothValue sum
      (flLeafRow sum .reg q.1 cfg.parentsAll (q.1.distDepth cfg.style) (forestDepth forest + 1) q.2 c) p.1) forest H.wf []
    rw [List.nil_append, List.length_nil] at h7
    rw [h7] at h
    cases h
  rw [hlam] at h
  have : e' = e := by injection h
  subst this
  unfold flCleanLamb at hlam
  by_cases hz : obs.length = 0
  · rw [if_pos hz] at hlam
    exact Or.inl ⟨List.length_eq_zero_iff.1 (by omega), (Except.error.inj hlam).symm⟩
  rw [if_neg hz, hseed] at hlam
  right
  cases hsan : cfg.sanityCheck
  swap
  · simp only [flBaseLambE, hsan, bind, Except.bind, if_true] at hlam
    cases hlam
  rw [hsan] at hlam
  have hrun : flSgdClean sum pow sqrt cfg.parentsAll (forestDepth forest + 1) obs (cfg.opts y.length)
      (flBaseLamb (forestDepth forest + 1) none) choices = .error e' := by
    rw [← hlen]
    simp only [flBaseLambE, bind, Except.bind, Bool.false_eq_true, if_false] at hlam
    have hlam' : ((flSgdClean sum pow sqrt cfg.parentsAll (forestDepth forest + 1) obs (cfg.opts obs.length)
      (flBaseLamb (forestDepth forest + 1) none) choices) >>= fun r => pure (r.1, r.2.2)) = .error e' := hlam
    rcases bind_error hlam' with h1 | ⟨a, -, h1⟩
    · exact h1
    · cases h1
  unfold flSgdClean at hrun
  have hclose : flCloseCheck (cfg.opts y.length).noConstraint (flBaseLamb (forestDepth forest + 1) none) = .ok () := by
    have hsum : npSum (flBaseLamb (forestDepth forest + 1) none) = 1 := by
      have := C154_default (forestDepth forest + 1) true
      unfold flStartCheck at this
      by_contra hcon
      rw [if_pos ⟨rfl, Or.inl hcon⟩] at this
      cases this
    unfold flCloseCheck
    rw [if_neg]
    rintro ⟨-, hbad | ⟨x, hx, hneg⟩⟩
    · rw [hsum] at hbad
      norm_num at hbad
    · exact absurd hneg (not_lt.2 (flBase_entries _ x hx).2)
  rw [hclose] at hrun
  have hfold : ∀ (cs : List (List ℕ)) (s : CleanState ℚ (forestDepth forest + 1)), (∀ k, 0 ≤ s.lamb k) →
      (∀ d ∈ cs, d ∈ choices) → ∀ e, cs.foldlM (flCleanStep sum pow sqrt cfg.parentsAll obs (cfg.opts y.length)) s = .error e →
      ∃ d ∈ choices, CleanFail sum forest y uns cfg obs d e := by
    intro cs
    induction cs with
    | nil => intro s _ _ e he; cases he
    | cons d cs ih =>
      intro s hl hmem e he
      rw [List.foldlM_cons] at he
      rcases bind_error he with he | ⟨s1, h1, he⟩
      · exact ⟨d, hmem d (by simp), cleanStep_fails hs H hM hy hN hfd hnc ha (hd d (hmem d (by simp))).2
          (hd d (hmem d (by simp))).1 hm1 hm' h0 hl he⟩
      · obtain ⟨sub, q, x, -, e2, -, e4, -⟩ := flCleanStep_ok h1
        refine ih s1 (fun k => ?_) (fun d hd => hmem d (by simp [hd])) e he
        rw [e4]
        exact (flCleanMove_ok (o := cfg.opts y.length) hnc e2 k).2
  have hl0 : ∀ k, 0 ≤ toVec (forestDepth forest + 1) (flBaseLamb (forestDepth forest + 1) none) k := fun k =>
    (toVec_entries (flBase_entries _) k).2
  simp only [bind, Except.bind] at hrun
  rcases hfo : choices.foldlM (flCleanStep sum pow sqrt cfg.parentsAll obs (cfg.opts y.length))
      ⟨toVec (forestDepth forest + 1) (flBaseLamb (forestDepth forest + 1) none), none, none, [], false⟩ with e2 | s
  · rw [hfo] at hrun
    have : e2 = e' := by injection hrun
    subst this
    exact Or.inr ⟨rfl, obs, h0, hfold choices _ hl0 (fun _ h => h) _ hfo⟩
  · rw [hfo] at hrun
    left
    cases choices with
    | nil =>
      cases hfo
      have hfl : (cfg.opts y.length).useFullLoss = (cfg.allObs || cfg.useFullLoss) := rfl
      rw [hfl] at hrun
      cases hf : (cfg.allObs || cfg.useFullLoss)
      · rw [hf] at hrun; cases hrun
      · rw [hf] at hrun
        exact ⟨rfl, rfl, rfl, (Except.error.inj hrun).symm⟩
    | cons c cs =>
      exfalso
      rw [List.foldlM_cons] at hfo
      obtain ⟨s1, h2, hfo⟩ := bind_ok hfo
      obtain ⟨sub, q, x, -, -, -, -, -, e6, -, e7⟩ := flCleanStep_ok h2
      obtain ⟨x0, -, -, f3⟩ := e7 rfl
      obtain ⟨-, -, -, -, -, -, g5⟩ := flClean_fold cs s1 s e6 hfo
      rw [← g5] at f3
      cases hf : (cfg.opts y.length).useFullLoss
      · simp only [hf, Bool.false_eq_true, if_false] at hrun
        cases hrun
      · rw [hf, if_pos rfl] at f3
        simp only [hf, if_true, f3] at hrun
        cases hrun

/-! ### Where doubles and exact arithmetic part -/

/-- A stump with a leaf of `m` observations, one response being 1 and the others 0, and a leaf with a single response of
-1. -/
abbrev exCancel (m : ℕ) : SkTree ℚ 1 :=
  { toTopo := ⟨2, ![some 1, none, none], ![some 2, none, none]⟩
    value := fun i _ => ![0, fl (1 / m), -1] i
    nSamp := ![m + 1, m, 1]
    impurity := ![1, 0, 0] }

theorem exCancel_input3 : FlInput .reg [exCancel 3] (fun _ => []) 7 1 where
  wf := by simp; decide
  whole := by
    intro t ht
    rw [List.mem_singleton.1 ht]
    exact ⟨fun j => ⟨![3, 1] j, by revert j; decide +kernel⟩, by decide +kernel⟩
  pos := by intro t ht; rw [List.mem_singleton.1 ht]; decide +kernel
  size := by intro t ht; rw [List.mem_singleton.1 ht]; decide +kernel
  bound := by
    intro t ht c
    rw [List.mem_singleton.1 ht]
    show ∀ j, |(exCancel 3).value ((exCancel 3).leafNode j) c| ≤ 1
    revert c; decide +kernel
  count := by intro i; simp
  resp := by intro i q hq; cases hq

theorem exCancel_input49 : FlInput .reg [exCancel 49] (fun _ => []) 7 1 where
  wf := by simp; decide
  whole := by
    intro t ht
    rw [List.mem_singleton.1 ht]
    exact ⟨fun j => ⟨![49, 1] j, by revert j; decide +kernel⟩, by decide +kernel⟩
  pos := by intro t ht; rw [List.mem_singleton.1 ht]; decide +kernel
  size := by intro t ht; rw [List.mem_singleton.1 ht]; decide +kernel
  bound := by
    intro t ht c
    rw [List.mem_singleton.1 ht]
    show ∀ j, |(exCancel 49).value ((exCancel 49).leafNode j) c| ≤ 1
    revert c; decide +kernel
  count := by intro i; simp
  resp := by intro i q hq; cases hq

theorem exCancel_means (m : ℕ) (hm : m = 3 ∨ m = 49) : ∀ t ∈ [exCancel m], ∀ (i : Fin t.nLeaves) (c : Fin 1),
    ∃ S, IsFloat S ∧ t.value (t.leafNode i) c = fl (S / t.nSamp (t.leafNode i)) := by
  intro t ht
  rw [List.mem_singleton.1 ht]
  have h1 : IsFloat (1 : ℚ) := by simpa using isFloat_nat (m := 1) (by norm_num)
  have h2 : IsFloat (-1 : ℚ) := h1.neg
  rcases hm with rfl | rfl
  all_goals
    intro i c
    refine ⟨![1, -1] i, ?_, ?_⟩
    · revert i
      show ∀ i : Fin 2, _
      intro i
      fin_cases i
      · exact h1
      · exact h2
    · revert i c; decide +kernel

/-- All the weight on the last level at the start, one step of size `t` with one observation. -/
abbrev exCleanCfg (t : ℚ) : CleanCfg ℚ :=
  { noConstraint := false, sanityCheck := false, allObs := false, useFullLoss := false, nObs := 1, tFix := t
    seed := some fun i => if i = 1 then 1 else 0, parentsAll := true, style := .standard, adam := none }

/-- C200: a run in doubles need not return when the run in exact arithmetic does, though all leaf values are rounded means:
`49 * fl (1/49) - 1` is `-2^-53`, which `calc_y_oob_grad` divides by. -/
theorem C200_returns_refuted :
    ¬ ∀ (sum : List ℚ → ℚ) (pow : ℚ → ℕ → ℚ) (sqrt : ℚ → ℚ) (forest : List (SkTree ℚ 1)) (y : List ℚ)
      (leafOf : ℕ → ℕ → ℕ) (uns : ℕ → List ℕ) (cfg : CleanCfg ℚ) (choices : List (List ℕ)) (N : ℕ) (M : ℚ), IsFlSum sum →
      FlInput .reg forest (fun _ => []) N M → (∀ x ∈ y, |x| ≤ M) →
      (∀ t ∈ forest, ∀ (i : Fin t.nLeaves) (c : Fin 1), ∃ S, IsFloat S ∧
        t.value (t.leafNode i) c = fl (S / t.nSamp (t.leafNode i))) →
      cfg.noConstraint = false → cfg.adam = none →
      ∀ out, smoothClean sqrt (fun x => decide (x = 1)) (some .reg) forest y leafOf uns cfg choices = .ok out →
      ∃ out', flSmoothClean sum pow sqrt (some .reg) forest y leafOf uns cfg choices = .ok out' := by
  intro h
  have h1 : (match smoothClean id (fun x => decide (x = 1)) (some .reg) [exCancel 49] [1] (fun _ _ => 1) (fun _ => [0])
      (exCleanCfg 1) [[0]] with | .ok out => some (List.ofFn out.2.1) | .error _ => none) = some [1, 0] := by decide +kernel
  have h2 : (match flSmoothClean npSum (fun x _ => x) id (some .reg) [exCancel 49] [1] (fun _ _ => 1) (fun _ => [0])
      (exCleanCfg 1) [[0]] with | .ok _ => none | .error e => some e) = some .valueError := by decide +kernel
  rcases hr : smoothClean id (fun x => decide (x = 1)) (some .reg) [exCancel 49] [1] (fun _ _ => 1) (fun _ => [0])
      (exCleanCfg 1) [[0]] with e | out
  · rw [hr] at h1; cases h1
  · obtain ⟨out', h3⟩ := h npSum (fun x _ => x) id [exCancel 49] [1] (fun _ _ => 1) (fun _ => [0]) (exCleanCfg 1) [[0]] 7 1
      npSum_rsum exCancel_input49 (by simp) (exCancel_means 49 (Or.inr rfl)) rfl rfl out hr
    rw [h3] at h2
    cases h2

/-- C200: nor need the weights be close when both return: `3 * fl (1/3) - 1` is `-2^-54`, and 0 in doubles. The weights
after one step are (1, 0) in doubles, and (0, w) with w > 2 in exact arithmetic; the cost goes below 1/2, or stays
above 1. -/
theorem C200_weights_refuted :
    FlInput .reg [exCancel 3] (fun _ => []) 7 1 ∧
    (∀ t ∈ [exCancel 3], ∀ (i : Fin t.nLeaves) (c : Fin 1), ∃ S, IsFloat S ∧
      t.value (t.leafNode i) c = fl (S / t.nSamp (t.leafNode i))) ∧
    (match flSmoothClean npSum (fun x _ => x) id (some .reg) [exCancel 3] [1] (fun _ _ => 0) (fun _ => [0])
      (exCleanCfg 1) [[0]] with
      | .ok out => some (List.ofFn out.2.1, decide (out.2.2.getLastD 1 < 1 / 2))
      | .error _ => none) = some ([1, 0], true) ∧
    (match smoothClean id (fun x => decide (x = 1)) (some .reg) [exCancel 3] [1] (fun _ _ => 0) (fun _ => [0])
      (exCleanCfg 1) [[0]] with
      | .ok out => some (out.2.1 0, decide (2 < out.2.1 1), decide (1 < out.2.2.getLastD 0))
      | .error _ => none) = some (0, true, true) :=
  ⟨exCancel_input3, exCancel_means 3 (Or.inl rfl), by decide +kernel, by decide +kernel⟩

/-! ### Cases that meet the hypotheses -/

theorem exForest_clean : FlInput .reg [exStump, exTree] (fun _ => []) 9 10 :=
  ⟨exForest_input.wf, exForest_input.whole, exForest_input.pos, exForest_input.size, exForest_input.bound,
    fun i => by simp, fun i q hq => by cases hq⟩

/-- Two steps of size 1/8 over two observations each. -/
abbrev exCleanRun (full : Bool) (nObs : ℕ) (choices : List (List ℕ)) :=
  flSmoothClean npSum (fun x _ => x) id (some .reg) [exStump, exTree] [3, 2, 3]
    (fun t i => if t = 0 then i % 2 else i % 3) (fun t => if t = 0 then [0, 1] else [1])
    { noConstraint := false, sanityCheck := false, allObs := false, useFullLoss := full, nObs := nObs, tFix := 1 / 8
      seed := none, parentsAll := true, style := .standard, adam := none } choices

/-- The run moves the weights and the leaf values (`C200_forest`, `C200_costs`), which were [1, 4] and [1, 4, 10]. -/
example : (match exCleanRun false 2 [[0, 1], [1, 2]] with
    | .ok out => some (decide (out.2.1 0 < 1), out.2.2.length,
        decide (out.1.map (fun t => (List.finRange t.nLeaves).map fun r => t.value (t.leafNode r) 0) ≠ [[1, 4], [1, 4, 10]]))
    | .error _ => none) = some (true, 3, true) := by decide +kernel

/-- With the full loss they stay (`C200_full_loss`, `C200_unchanged`), though the costs vary. -/
example : (match exCleanRun true 2 [[0, 1], [1, 2]] with
    | .ok out => some (List.ofFn out.2.1, out.2.2.head?, decide (out.2.2.getLastD 0 < 10)) | .error _ => none) =
    some ([1, 0, 0], some 4, true) := by
  decide +kernel

/-- The failures of `C200_fails`. -/
example : (match exCleanRun true 2 [] with | .ok _ => none | .error e => some e) = some .unboundLocalError ∧
    (match exCleanRun false 4 [[0]] with | .ok _ => none | .error e => some e) = some .valueError ∧
    (match exCleanRun false 1 [[2]] with | .ok _ => none | .error e => some e) = some .nonFinite := by
  refine ⟨?_, ?_, ?_⟩ <;> decide +kernel

end SmoothRF
