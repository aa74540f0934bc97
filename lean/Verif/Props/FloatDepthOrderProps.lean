import Verif.Props.DepthOrderProps
import Verif.Props.FloatTuneUnitsProps

/-!
# C229: the order of trees and tuning rows in depth_tune, in double precision

`forest_loss += tree_loss` (tune_depth.py 174) and `np.sum` over the rows are rounded sums, so their order matters from
three terms on.
-/

set_option linter.unusedSectionVars false

namespace SmoothRF
open SkTree Topo

variable {C : ℕ} [NeZero C]

/-- The rounded loss of the forest of the pairs, truncated at depth `d`. -/
noncomputable def flCutLoss (kind : Kind) (l : List (SkTree ℚ C × List (LossRow ℚ))) (d : ℕ) : ℚ :=
  flSum (l.map fun p => flTruncLoss kind p.1 (deepestOf p.1.toTopo (min d (npMax p.1.depthPerNode - 1))) p.2)

theorem zipIdx_pairs {α : Type} (l : List (SkTree ℚ C × List (LossRow ℚ))) (f : SkTree ℚ C → List (LossRow ℚ) → α) :
    ((l.map Prod.fst).zipIdx.map fun tt => f tt.1 (pairRows l tt.2)) = l.map fun p => f p.1 p.2 := by
  apply List.ext_getElem?
  intro i
  simp only [List.getElem?_map, List.getElem?_zipIdx, Nat.zero_add]
  cases hi : l[i]? with
  | none => rfl
  | some p =>
    have : pairRows l i = p.2 := by
      unfold pairRows
      rw [List.getD_eq_getElem?_getD, List.getElem?_map, hi]
      rfl
    simp only [Option.map_some, this]

theorem flTune_pairs {kind : Kind} {data : DataArgs} {src : TuneSrc} (hsrc : tuneSource data = .ok src)
    {l : List (SkTree ℚ C × List (LossRow ℚ))} (hg : GoodPairs l) :
    ∃ out best D, flDepthTune (some kind) (l.map Prod.fst) data (fun _ => pairRows l) =
        .ok (out, (List.range D).map (flCutLoss kind l)) ∧
      (∃ t ∈ l.map Prod.fst, npMax t.depthPerNode = D) ∧ (∀ t ∈ l.map Prod.fst, npMax t.depthPerNode ≤ D) ∧
      best < D ∧ (∀ d < D, flCutLoss kind l best ≤ flCutLoss kind l d) ∧
      (∀ d < best, flCutLoss kind l best < flCutLoss kind l d) ∧
      out = (l.map Prod.fst).map fun t => withLeaves t fun r =>
        t.value (deepestOf t.toTopo (min best (npMax t.depthPerNode - 1)) (t.leafNode r)) := by
  have h := hg.tunable
  obtain ⟨D, hD, hmax⟩ : ∃ D, (∃ t ∈ l.map Prod.fst, npMax t.depthPerNode = D) ∧
      ∀ t ∈ l.map Prod.fst, npMax t.depthPerNode ≤ D := by
    classical
    obtain ⟨t, ht, hm⟩ := Finset.exists_max_image (l.map Prod.fst).toFinset (fun t => npMax t.depthPerNode) (by
      rw [List.toFinset_nonempty_iff]; exact h.ne)
    exact ⟨_, ⟨t, List.mem_toFinset.1 ht, rfl⟩, fun s hs => hm s (List.mem_toFinset.2 hs)⟩
  obtain ⟨out, best, h1, -, h2, h3, h4, h5⟩ := flDepthTune_eq (kind := kind) h.wf
    (dep := fun t => npMax t.depthPerNode) (fun t ht => isTreeDepth_npMax (h.wf t ht))
    (fun t ht => h.pos ht) hD hmax (tr := fun t => deepestOf t.toTopo)
    (fun t ht d i => deepestOf_spec (h.wf t ht) d i) hsrc (sources := fun _ => pairRows l) (fun tt htt => by
      obtain ⟨a, b⟩ := h.rows tt.2 tt.1 (List.mem_zipIdx_iff_getElem?.1 htt)
      exact ⟨b, a⟩)
  have e : ∀ d, flSum ((l.map Prod.fst).zipIdx.map fun tt => flTruncLoss kind tt.1
      (deepestOf tt.1.toTopo (min d (npMax tt.1.depthPerNode - 1))) (pairRows l tt.2)) = flCutLoss kind l d := by
    intro d
    rw [zipIdx_pairs l fun t rows => flTruncLoss kind t (deepestOf t.toTopo (min d (npMax t.depthPerNode - 1))) rows]
    rfl
  simp only [e] at h1 h3 h4
  exact ⟨out, best, D, h1, hD, hmax, h2, h3, h4, forall2_leafUpdate h5⟩

/-- Two runs on the same trees with equal rounded losses choose the same depth. -/
theorem flTune_same {kind : Kind} {data : DataArgs} {src : TuneSrc} (hsrc : tuneSource data = .ok src)
    {l l' : List (SkTree ℚ C × List (LossRow ℚ))} (hg : GoodPairs l) (hg' : GoodPairs l')
    (hm : ∀ t, t ∈ l.map Prod.fst ↔ t ∈ l'.map Prod.fst) (hl : ∀ d, flCutLoss kind l' d = flCutLoss kind l d) :
    ∃ (f : SkTree ℚ C → SkTree ℚ C) (loss : List ℚ),
      flDepthTune (some kind) (l.map Prod.fst) data (fun _ => pairRows l) = .ok (l.map fun p => f p.1, loss) ∧
      flDepthTune (some kind) (l'.map Prod.fst) data (fun _ => pairRows l') = .ok (l'.map fun p => f p.1, loss) := by
  obtain ⟨out, b, D, e, ⟨t0, ht0, hD⟩, hmax, hb, m1, m2, rfl⟩ := flTune_pairs (kind := kind) hsrc hg
  obtain ⟨out', b', D', e', ⟨t0', ht0', hD'⟩, hmax', hb', m1', m2', rfl⟩ := flTune_pairs (kind := kind) hsrc hg'
  have hDD : D' = D := by
    apply le_antisymm
    · rw [← hD']; exact hmax _ ((hm _).2 ht0')
    · rw [← hD]; exact hmax' _ ((hm _).1 ht0)
  subst hDD
  simp only [hl] at m1' m2' e'
  have hbb : b' = b := by
    rcases lt_trichotomy b b' with h | h | h
    · exact absurd (m2' b h) (not_lt.2 (m1 b' hb'))
    · exact h.symm
    · exact absurd (m2 b' h) (not_lt.2 (m1' b hb))
  subst hbb
  refine ⟨fun t => withLeaves t fun r =>
    t.value (deepestOf t.toTopo (min b' (npMax t.depthPerNode - 1)) (t.leafNode r)),
    (List.range D').map (flCutLoss kind l), ?_, ?_⟩
  · rw [e, List.map_map]; rfl
  · rw [e', List.map_map, show flCutLoss kind l' = flCutLoss kind l from funext hl]; rfl

theorem GoodPairs.perm {l l' : List (SkTree ℚ C × List (LossRow ℚ))} (hg : GoodPairs l) (hp : l.Perm l') :
    GoodPairs l' :=
  ⟨fun e => hg.1 (List.perm_nil.1 (e ▸ hp)), fun p hpm => hg.2 p (hp.mem_iff.2 hpm)⟩

theorem perm_short {α : Type} {l l' : List α} (h : l.length ≤ 2) (hp : l.Perm l') :
    l' = l ∨ ∃ a b, l = [a, b] ∧ l' = [b, a] := by
  match l, h with
  | [], _ => exact .inl (List.nil_perm.1 hp)
  | [a], _ => exact .inl (List.singleton_perm.1 hp).symm
  | [a, b], _ =>
    have hl := hp.length_eq
    match l', hl with
    | [c, d], _ =>
      rcases List.mem_pair.1 (hp.mem_iff.1 (List.mem_cons_self (a := a) (l := [b]))) with h | h
      · subst h
        have := (List.perm_cons a).1 hp
        rw [List.singleton_perm.1 this]
        exact .inl rfl
      · subst h
        have := (List.perm_cons a).1 (hp.trans (List.Perm.swap a c []))
        obtain rfl : b = c := by simpa using this
        exact .inr ⟨a, b, rfl, rfl⟩

theorem flSum_short {l l' : List ℚ} (hf : ∀ x ∈ l, IsFloat x) (h : l.length ≤ 2) (hp : l.Perm l') :
    flSum l' = flSum l := by
  rcases perm_short h hp with rfl | ⟨a, b, rfl, rfl⟩
  · rfl
  · have ha := fl_of_float (hf a (by simp))
    have hb := fl_of_float (hf b (by simp))
    simp only [flSum, List.foldl_cons, List.foldl_nil, zero_add, ha, hb]
    rw [add_comm]

theorem RSum.isFloat {d : ℕ} {l : List ℚ} {s : ℚ} (h : RSum d l s) (hl : ∀ x ∈ l, IsFloat x) : IsFloat s := by
  cases h with
  | zero => exact isFloat_zero
  | one => exact hl _ (by simp)
  | add => exact fl_isFloat _

theorem flRowLosses_isFloat (t : SkTree ℚ C) (tr : t.Node → t.Node) (rows : List (LossRow ℚ)) :
    ∀ x ∈ flRowLosses .reg t tr rows, IsFloat x := by
  intro x hx
  obtain ⟨r, -, rfl⟩ := List.mem_map.1 hx
  split_ifs
  · exact fl_isFloat _
  · exact isFloat_zero

theorem flTruncLoss_isFloat (t : SkTree ℚ C) (tr : t.Node → t.Node) (rows : List (LossRow ℚ)) :
    IsFloat (flTruncLoss .reg t tr rows) :=
  (npSum_rsum _).isFloat (flRowLosses_isFloat t tr rows)

/-- C229, classifiers: in doubles too, the order of the trees and of the rows of every tree changes nothing: the same
losses, and every tree is cut to the same tree. `g p` lists the rows of the pair `p` in another order. -/
theorem C229_classes {data : DataArgs} {src : TuneSrc} (hsrc : tuneSource data = .ok src)
    {l l' : List (SkTree ℚ C × List (LossRow ℚ))} (hg : GoodPairs l)
    {g : SkTree ℚ C × List (LossRow ℚ) → List (LossRow ℚ)} (hrows : ∀ p ∈ l, (g p).Perm p.2)
    (hp : (l.map fun p => (p.1, g p)).Perm l') (htot : (l.map fun p => p.2.length).sum ≤ 2 ^ 53) :
    ∃ (f : SkTree ℚ C → SkTree ℚ C) (loss : List ℚ),
      flDepthTune (some .cls) (l.map Prod.fst) data (fun _ => pairRows l) = .ok (l.map fun p => f p.1, loss) ∧
      flDepthTune (some .cls) (l'.map Prod.fst) data (fun _ => pairRows l') = .ok (l'.map fun p => f p.1, loss) := by
  have key : ∀ m : List (SkTree ℚ C × List (LossRow ℚ)), GoodPairs m → (m.map fun p => p.2.length).sum ≤ 2 ^ 53 →
      flDepthTune (some .cls) (m.map Prod.fst) data (fun _ => pairRows m) =
        depthTune (some .cls) (m.map Prod.fst) data (fun _ => pairRows m) := by
    intro m hm ht
    have h := hm.tunable
    refine C171_classes h.wf (dep := fun t => npMax t.depthPerNode) (fun t ht => isTreeDepth_npMax (h.wf t ht))
      (fun t ht => h.pos ht) hsrc (fun tt htt => ?_) h.ne ?_
    · obtain ⟨a, b⟩ := h.rows tt.2 tt.1 (List.mem_zipIdx_iff_getElem?.1 htt)
      exact ⟨b, a⟩
    · rw [zipIdx_pairs m fun _ rows => rows.length]
      exact ht
  have hg1 : GoodPairs (l.map fun p => (p.1, g p)) := by
    refine ⟨by simpa using hg.1, ?_⟩
    intro q hq
    obtain ⟨p, hpm, rfl⟩ := List.mem_map.1 hq
    obtain ⟨a, b, c, d⟩ := hg.2 p hpm
    exact ⟨a, b, fun e => c (List.perm_nil.1 ((show g p = [] from e) ▸ (hrows p hpm).symm)),
      fun r hr => d r ((hrows p hpm).mem_iff.1 hr)⟩
  have hg' := hg1.perm hp
  have ht' : (l'.map fun p => p.2.length).sum ≤ 2 ^ 53 := by
    rw [← (hp.map fun p => p.2.length).sum_eq, List.map_map]
    refine le_of_eq_of_le (congrArg List.sum (List.map_congr_left fun p hpm => ?_)) htot
    exact (hrows p hpm).length_eq
  rw [key l hg htot, key l' hg' ht']
  obtain ⟨f, loss, h1, h2⟩ := tune_scaled (kind := .cls) hsrc hsrc (s := fun _ => pairRows l)
    (s' := fun _ => pairRows l') hg.tunable hg'.tunable
    (fun t => by rw [← (hp.map Prod.fst).mem_iff, List.map_map]; rfl) one_pos (fun d => by
      rw [one_mul]
      show cutLoss .cls _ (pairRows l') d = cutLoss .cls _ (pairRows l) d
      rw [cutLoss_pairs, cutLoss_pairs, ← (hp.map _).sum_eq, List.map_map]
      refine congrArg List.sum (List.map_congr_left fun p hpm => ?_)
      exact ((hrows p hpm).map _).sum_eq)
  refine ⟨f, loss, by rw [h1, List.map_map]; rfl, ?_⟩
  rw [h2, List.map_map]
  simp

/-- C229, regression: with at most two trees their order changes nothing, and neither does the order of the rows of the
trees that have at most two. -/
theorem C229_short {data : DataArgs} {src : TuneSrc} (hsrc : tuneSource data = .ok src)
    {l l' : List (SkTree ℚ C × List (LossRow ℚ))} (hg : GoodPairs l) (hl : l.length ≤ 2)
    {g : SkTree ℚ C × List (LossRow ℚ) → List (LossRow ℚ)}
    (hrows : ∀ p ∈ l, g p = p.2 ∨ p.2.length ≤ 2 ∧ (g p).Perm p.2)
    (hp : (l.map fun p => (p.1, g p)).Perm l') :
    ∃ (f : SkTree ℚ C → SkTree ℚ C) (loss : List ℚ),
      flDepthTune (some .reg) (l.map Prod.fst) data (fun _ => pairRows l) = .ok (l.map fun p => f p.1, loss) ∧
      flDepthTune (some .reg) (l'.map Prod.fst) data (fun _ => pairRows l') = .ok (l'.map fun p => f p.1, loss) := by
  have hperm : ∀ p ∈ l, (g p).Perm p.2 := fun p hpm => (hrows p hpm).elim (fun e => e ▸ .refl _) fun h => h.2
  have hg1 : GoodPairs (l.map fun p => (p.1, g p)) := by
    refine ⟨by simpa using hg.1, ?_⟩
    intro q hq
    obtain ⟨p, hpm, rfl⟩ := List.mem_map.1 hq
    obtain ⟨a, b, c, d⟩ := hg.2 p hpm
    exact ⟨a, b, fun e => c (List.perm_nil.1 ((show g p = [] from e) ▸ (hperm p hpm).symm)),
      fun r hr => d r ((hperm p hpm).mem_iff.1 hr)⟩
  refine flTune_same hsrc hg (hg1.perm hp) (fun t => by rw [← (hp.map Prod.fst).mem_iff, List.map_map]; rfl) fun d => ?_
  unfold flCutLoss
  rw [flSum_short (l := (l.map fun p => (p.1, g p)).map _) ?_ (by simpa using hl) (hp.map _), List.map_map]
  · refine congrArg flSum (List.map_congr_left fun p hpm => ?_)
    show flTruncLoss .reg p.1 _ (g p) = flTruncLoss .reg p.1 _ p.2
    rcases hrows p hpm with e | ⟨h2, h3⟩
    · rw [e]
    · have hs : ∀ a : List ℚ, a.length ≤ 2 → npSum a = flSum a := by
        intro a ha
        unfold npSum
        cases hk : a.length with
        | zero => rfl
        | succ k =>
          unfold pairwiseSum
          rw [if_pos (by omega)]
      show npSum (flRowLosses .reg _ _ (g p)) = npSum (flRowLosses .reg _ _ p.2)
      have l1 : ∀ rows, (flRowLosses .reg p.1 (deepestOf p.1.toTopo (min d (npMax p.1.depthPerNode - 1))) rows).length =
          rows.length := fun rows => List.length_map ..
      rw [hs _ (by rw [l1, h3.length_eq]; exact h2), hs _ (by rw [l1]; exact h2)]
      exact flSum_short (flRowLosses_isFloat _ _ _) (by rw [l1]; exact h2) (h3.symm.map _)
  · intro x hx
    obtain ⟨p, -, rfl⟩ := List.mem_map.1 hx
    exact flTruncLoss_isFloat _ _ _

/-- A tree that predicts `5 / 2^29` everywhere except at its node 1, where it predicts 0. -/
abbrev exFaint : SkTree ℚ 1 := { exTree with value := fun i _ => if i.val = 1 then 0 else 5 / 2 ^ 29 }

/-- A tree that predicts 0 everywhere. -/
abbrev exZero : SkTree ℚ 1 := { exTree with value := fun _ _ => 0 }

abbrev exTreesA : List (SkTree ℚ 1 × List (LossRow ℚ)) := [(exZero, [⟨0, 1⟩]), (exFaint, [⟨0, 0⟩]), (exFaint, [⟨0, 0⟩])]
abbrev exTreesB : List (SkTree ℚ 1 × List (LossRow ℚ)) := [(exFaint, [⟨0, 0⟩]), (exFaint, [⟨0, 0⟩]), (exZero, [⟨0, 1⟩])]
abbrev exRowsA : List (SkTree ℚ 1 × List (LossRow ℚ)) := [(exFaint, [⟨2, 1 + 5 / 2 ^ 29⟩, ⟨0, 0⟩, ⟨0, 0⟩])]
abbrev exRowsB : List (SkTree ℚ 1 × List (LossRow ℚ)) := [(exFaint, [⟨0, 0⟩, ⟨0, 0⟩, ⟨2, 1 + 5 / 2 ^ 29⟩])]

theorem exFaint_good : exFaint.WF ∧ ¬ exFaint.IsTreeDepth 0 := by
  have h : exFaint.WF := by decide
  refine ⟨h, fun h0 => ?_⟩
  have := isTreeDepth_unique (isTreeDepth_npMax h) h0
  revert this
  decide +kernel

theorem exZero_good : exZero.WF ∧ ¬ exZero.IsTreeDepth 0 := by
  have h : exZero.WF := by decide
  refine ⟨h, fun h0 => ?_⟩
  have := isTreeDepth_unique (isTreeDepth_npMax h) h0
  revert this
  decide +kernel

/-- C229, three trees: the same trees, each with its one row, in another order, and another depth is chosen. -/
theorem C229_three_trees : ∃ (l l' : List (SkTree ℚ 1 × List (LossRow ℚ))) (out out' : List (SkTree ℚ 1)) (L L' : List ℚ),
    GoodPairs l ∧ l.Perm l' ∧ l.length = 3 ∧ (∀ p ∈ l, p.2.length = 1) ∧
    flDepthTune (some .reg) (l.map Prod.fst) exData (fun _ => pairRows l) = .ok (out, L) ∧
    flDepthTune (some .reg) (l'.map Prod.fst) exData (fun _ => pairRows l') = .ok (out', L') ∧
    ¬ (valuesOf out').Perm (valuesOf out) := by
  have e1 : (match flDepthTune (some .reg) (exTreesA.map Prod.fst) exData (fun _ => pairRows exTreesA) with
      | .ok (out, _) => some (valuesOf out) | .error _ => none) =
      some [[[0], [0], [0], [0], [0]], [[5 / 2 ^ 29], [0], [5 / 2 ^ 29], [5 / 2 ^ 29], [5 / 2 ^ 29]],
        [[5 / 2 ^ 29], [0], [5 / 2 ^ 29], [5 / 2 ^ 29], [5 / 2 ^ 29]]] := by decide +kernel
  have e2 : (match flDepthTune (some .reg) (exTreesB.map Prod.fst) exData (fun _ => pairRows exTreesB) with
      | .ok (out, _) => some (valuesOf out) | .error _ => none) =
      some [[[5 / 2 ^ 29], [0], [0], [0], [5 / 2 ^ 29]], [[5 / 2 ^ 29], [0], [0], [0], [5 / 2 ^ 29]],
        [[0], [0], [0], [0], [0]]] := by decide +kernel
  cases a1 : flDepthTune (some .reg) (exTreesA.map Prod.fst) exData (fun _ => pairRows exTreesA) with
  | error e => rw [a1] at e1; cases e1
  | ok p =>
    cases a2 : flDepthTune (some .reg) (exTreesB.map Prod.fst) exData (fun _ => pairRows exTreesB) with
    | error e => rw [a2] at e2; cases e2
    | ok q =>
      rw [a1] at e1
      rw [a2] at e2
      refine ⟨exTreesA, exTreesB, p.1, q.1, p.2, q.2, ⟨by simp, ?_⟩, ?_, rfl, ?_, a1, a2, ?_⟩
      · intro r hr
        simp only [List.mem_cons, List.not_mem_nil, or_false] at hr
        rcases hr with rfl | rfl | rfl
        · exact ⟨exZero_good.1, exZero_good.2, by simp, by decide +kernel⟩
        all_goals exact ⟨exFaint_good.1, exFaint_good.2, by simp, by decide +kernel⟩
      · exact (List.Perm.swap _ _ _).trans ((List.Perm.swap _ _ _).cons _)
      · intro r hr
        simp only [List.mem_cons, List.not_mem_nil, or_false] at hr
        rcases hr with rfl | rfl | rfl <;> rfl
      · simp only [Option.some.injEq] at e1 e2
        rw [e1, e2]
        decide +kernel

/-- C229, three rows: one tree, its rows in another order, and another depth is chosen. -/
theorem C229_three_rows : ∃ (t : SkTree ℚ 1) (rows rows' : List (LossRow ℚ)) (out out' : List (SkTree ℚ 1)) (L L' : List ℚ),
    GoodPairs [(t, rows)] ∧ rows.Perm rows' ∧ rows.length = 3 ∧ (∀ r ∈ rows, IsFloat r.y) ∧
    flDepthTune (some .reg) [t] exData (fun _ => pairRows [(t, rows)]) = .ok (out, L) ∧
    flDepthTune (some .reg) [t] exData (fun _ => pairRows [(t, rows')]) = .ok (out', L') ∧
    valuesOf out' ≠ valuesOf out := by
  have e1 : (match flDepthTune (some .reg) (exRowsA.map Prod.fst) exData (fun _ => pairRows exRowsA) with
      | .ok (out, _) => some (valuesOf out) | .error _ => none) =
      some [[[5 / 2 ^ 29], [0], [5 / 2 ^ 29], [5 / 2 ^ 29], [5 / 2 ^ 29]]] := by decide +kernel
  have e2 : (match flDepthTune (some .reg) (exRowsB.map Prod.fst) exData (fun _ => pairRows exRowsB) with
      | .ok (out, _) => some (valuesOf out) | .error _ => none) =
      some [[[5 / 2 ^ 29], [0], [0], [0], [5 / 2 ^ 29]]] := by decide +kernel
  cases a1 : flDepthTune (some .reg) (exRowsA.map Prod.fst) exData (fun _ => pairRows exRowsA) with
  | error e => rw [a1] at e1; cases e1
  | ok p =>
    cases a2 : flDepthTune (some .reg) (exRowsB.map Prod.fst) exData (fun _ => pairRows exRowsB) with
    | error e => rw [a2] at e2; cases e2
    | ok q =>
      rw [a1] at e1
      rw [a2] at e2
      refine ⟨exFaint, [⟨2, 1 + 5 / 2 ^ 29⟩, ⟨0, 0⟩, ⟨0, 0⟩], [⟨0, 0⟩, ⟨0, 0⟩, ⟨2, 1 + 5 / 2 ^ 29⟩], p.1, q.1, p.2, q.2,
        ⟨by simp, ?_⟩, ?_, rfl, ?_, a1, a2, ?_⟩
      · intro r hr
        obtain rfl := List.mem_singleton.1 hr
        exact ⟨exFaint_good.1, exFaint_good.2, by simp, by decide +kernel⟩
      · exact (List.Perm.swap _ _ _).trans ((List.Perm.swap _ _ _).cons _)
      · intro r hr
        simp only [List.mem_cons, List.not_mem_nil, or_false] at hr
        rcases hr with rfl | rfl | rfl
        · exact ⟨2 ^ 29 + 5, -29, by norm_num, by norm_num⟩
        all_goals exact isFloat_zero
      · simp only [Option.some.injEq] at e1 e2
        rw [e1, e2]
        decide +kernel

/-! ## Meeting the hypotheses -/

/-- A stump with two classes. -/
abbrev exClsStump229 : SkTree ℚ 2 where
  toTopo := exStump.toTopo
  value := fun i c => if i.val = 1 then (if c.val = 0 then 3 else 0) else if i.val = 2 then (if c.val = 0 then 0 else 2)
    else (if c.val = 0 then 3 else 2)
  nSamp := exStump.nSamp
  impurity := exStump.impurity


/-- Two trees in both orders, with inexact losses. -/
example : (match flDepthTune (some .reg) [exTree, exStump] exData
      (fun _ => pairRows [(exTree, [⟨0, fl (1 / 10)⟩, ⟨2, 4⟩]), (exStump, [⟨1, fl (1 / 3)⟩])]) with
    | .ok (_, L) => some L | .error _ => none) =
    (match flDepthTune (some .reg) [exStump, exTree] exData
      (fun _ => pairRows [(exStump, [⟨1, fl (1 / 3)⟩]), (exTree, [⟨2, 4⟩, ⟨0, fl (1 / 10)⟩])]) with
    | .ok (_, L) => some L | .error _ => none) := by
  decide +kernel

/-- The same two trees satisfy the hypotheses of `C229_short`. -/
example : GoodPairs [(exTree, [⟨0, fl (1 / 10)⟩, ⟨2, 4⟩]), (exStump, [⟨1, fl (1 / 3)⟩])] := by
  have h1 : exStump.WF := by decide
  have h2 : exTree.WF := by decide
  refine ⟨by simp, ?_⟩
  intro p hp
  simp only [List.mem_cons, List.not_mem_nil, or_false] at hp
  rcases hp with rfl | rfl
  · refine ⟨h2, fun h0 => ?_, by simp, by decide +kernel⟩
    have := isTreeDepth_unique (isTreeDepth_npMax h2) h0
    revert this
    decide +kernel
  · refine ⟨h1, fun h0 => ?_, by simp, by decide +kernel⟩
    have := isTreeDepth_unique (isTreeDepth_npMax h1) h0
    revert this
    decide +kernel

/-- A classification stump with two rows, in both orders. -/
example : ([[⟨0, 0⟩, ⟨1, 1⟩], [⟨1, 1⟩, ⟨0, 0⟩]] : List (List (LossRow ℚ))).map (fun rows =>
    match flDepthTune (some .cls) [exClsStump229] exData (fun _ => pairRows [(exClsStump229, rows)]) with
    | .ok (_, L) => some L | .error _ => none) = [some [1], some [1]] := by
  decide +kernel

end SmoothRF
