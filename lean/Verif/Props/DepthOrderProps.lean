import Verif.Props.DepthTwiceProps
import Verif.Props.TreeOrderProps
import Verif.Props.AllDepthProps

/-!
# Order and repetition in depth_tune (C219)
-/

set_option linter.unusedSectionVars false

namespace SmoothRF
open SkTree Topo

variable {K : Type} [Field K] [LinearOrder K] [IsStrictOrderedRing K] {C : ℕ} [NeZero C]

theorem FirstMin.scale {L : List K} {b : ℕ} {a : K} (ha : 0 < a) (h : FirstMin L b) :
    FirstMin (L.map fun x => a * x) b := by
  obtain ⟨x, h1, h2, h3⟩ := h
  refine ⟨a * x, by rw [List.getElem?_map, h1]; rfl, ?_, ?_⟩
  · intro y hy
    obtain ⟨z, hz, rfl⟩ := List.mem_map.1 hy
    exact mul_le_mul_of_nonneg_left (h2 z hz) ha.le
  · intro d hd y hy
    rw [List.getElem?_map] at hy
    obtain ⟨z, hz, rfl⟩ := Option.map_eq_some_iff.1 hy
    exact mul_lt_mul_of_pos_left (h3 d hd z hz) ha

/-- Two runs on the same trees whose losses are proportional choose the same depth. -/
theorem tune_scaled {kind : Kind} {data data' : DataArgs} {F F' : List (SkTree K C)} {src src' : TuneSrc}
    (hsrc : tuneSource data = .ok src) (hsrc' : tuneSource data' = .ok src')
    {s s' : TuneSrc → ℕ → List (LossRow K)} (h : Tunable F (s src)) (h' : Tunable F' (s' src'))
    (hm : ∀ t, t ∈ F ↔ t ∈ F') {a : K} (ha : 0 < a)
    (hl : ∀ d, cutLoss kind F' (s' src') d = a * cutLoss kind F (s src) d) :
    ∃ (f : SkTree K C → SkTree K C) (loss : List K),
      depthTune (some kind) F data s = .ok (F.map f, loss) ∧
      depthTune (some kind) F' data' s' = .ok (F'.map f, loss.map fun x => a * x) := by
  obtain ⟨out, b, D, e, ⟨t0, ht0, hD⟩, hmax, hb, hmin, hcut⟩ := tunable_run (kind := kind) hsrc h
  obtain ⟨out', b', D', e', ⟨t0', ht0', hD'⟩, hmax', hb', hmin', hcut'⟩ := tunable_run (kind := kind) hsrc' h'
  have hDD : D' = D := by
    apply le_antisymm
    · rw [← hD']; exact hmax _ ((hm _).2 ht0')
    · rw [← hD]; exact hmax' _ ((hm _).1 ht0)
  subst hDD
  have hL : (List.range D').map (cutLoss kind F' (s' src')) =
      ((List.range D').map (cutLoss kind F (s src))).map fun x => a * x := by
    rw [List.map_map]
    exact List.map_congr_left fun d _ => hl d
  rw [hL] at hmin'
  have hbb : b' = b := hmin'.unique (hmin.scale ha)
  subst hbb
  refine ⟨fun t => withLeaves t fun r =>
    t.value (deepestOf t.toTopo (min b' (npMax t.depthPerNode - 1)) (t.leafNode r)),
    (List.range D').map (cutLoss kind F (s src)), ?_, ?_⟩
  · rw [e, forall2_leafUpdate hcut]
  · rw [e', forall2_leafUpdate hcut', hL]

/-- Tree `i` of the list of pairs is tuned on the rows of pair `i`. -/
def pairRows (l : List (SkTree K C × List (LossRow K))) : ℕ → List (LossRow K) :=
  fun i => (l.map Prod.snd).getD i []

theorem cutLoss_pairs (kind : Kind) (l : List (SkTree K C × List (LossRow K))) (d : ℕ) :
    cutLoss kind (l.map Prod.fst) (pairRows l) d =
      (l.map fun p => truncLoss kind p.1 (deepestOf p.1.toTopo (min d (npMax p.1.depthPerNode - 1))) p.2).sum := by
  unfold cutLoss
  congr 1
  apply List.ext_getElem?
  intro i
  simp only [List.getElem?_map, List.getElem?_zipIdx, Nat.zero_add]
  cases hi : l[i]? with
  | none => rfl
  | some p =>
    have : pairRows l i = p.2 := by
      unfold pairRows
      rw [List.getD_eq_getElem?_getD, List.getElem?_map, hi]
      rfl
    simp only [Option.map_some, this]

/-- The pairs `depth_tune` accepts: well-formed trees of depth at least one, each with rows that reach its leaves. -/
def GoodPairs (l : List (SkTree K C × List (LossRow K))) : Prop :=
  l ≠ [] ∧ ∀ p ∈ l, p.1.WF ∧ ¬ p.1.IsTreeDepth 0 ∧ p.2 ≠ [] ∧ ∀ r ∈ p.2, r.leaf < p.1.nLeaves

theorem GoodPairs.tunable {l : List (SkTree K C × List (LossRow K))} (h : GoodPairs l) :
    Tunable (l.map Prod.fst) (pairRows l) := by
  refine ⟨by simpa using h.1, ?_, ?_, ?_⟩
  · intro t ht
    obtain ⟨p, hp, rfl⟩ := List.mem_map.1 ht
    exact (h.2 p hp).1
  · intro t ht
    obtain ⟨p, hp, rfl⟩ := List.mem_map.1 ht
    exact (h.2 p hp).2.1
  · intro i t hi
    rw [List.getElem?_map] at hi
    obtain ⟨p, hp, rfl⟩ := Option.map_eq_some_iff.1 hi
    have e : pairRows l i = p.2 := by
      unfold pairRows
      rw [List.getD_eq_getElem?_getD, List.getElem?_map, hp]
      rfl
    rw [e]
    exact (h.2 p (List.mem_of_getElem? hp)).2.2

/-- C219: putting the trees in another order, each with its rows, gives the same losses and the same trees in
that order. -/
theorem C219_order (kind : Kind) {data : DataArgs} {src : TuneSrc} (hsrc : tuneSource data = .ok src)
    {l l' : List (SkTree K C × List (LossRow K))} (hg : GoodPairs l) (hp : l.Perm l') :
    ∃ (f : SkTree K C → SkTree K C) (loss : List K),
      depthTune (some kind) (l.map Prod.fst) data (fun _ => pairRows l) = .ok (l.map fun p => f p.1, loss) ∧
      depthTune (some kind) (l'.map Prod.fst) data (fun _ => pairRows l') = .ok (l'.map fun p => f p.1, loss) := by
  have hg' : GoodPairs l' := ⟨fun e => hg.1 (List.perm_nil.1 (e ▸ hp)), fun p hpm => hg.2 p (hp.mem_iff.2 hpm)⟩
  obtain ⟨f, loss, h1, h2⟩ := tune_scaled (kind := kind) hsrc hsrc (s := fun _ => pairRows l)
    (s' := fun _ => pairRows l') hg.tunable hg'.tunable
    (fun t => (hp.map Prod.fst).mem_iff) one_pos (fun d => by
      rw [one_mul]
      show cutLoss kind _ (pairRows l') d = cutLoss kind _ (pairRows l) d
      rw [cutLoss_pairs, cutLoss_pairs]
      exact ((hp.map _).sum_eq).symm)
  refine ⟨f, loss, by rw [h1, List.map_map]; rfl, ?_⟩
  rw [h2, List.map_map]
  simp

/-- C219: listing the rows of every tree `m` times, in any order, changes nothing but a factor `m` of the losses. -/
theorem C219_rows (kind : Kind) {data : DataArgs} {src : TuneSrc} (hsrc : tuneSource data = .ok src)
    {l : List (SkTree K C × List (LossRow K))} (hg : GoodPairs l) {m : ℕ} (hm : 0 < m)
    {g : SkTree K C × List (LossRow K) → List (LossRow K)}
    (hgp : ∀ p ∈ l, (g p).Perm (List.replicate m p.2).flatten) :
    ∃ (out : List (SkTree K C)) (loss : List K),
      depthTune (some kind) (l.map Prod.fst) data (fun _ => pairRows l) = .ok (out, loss) ∧
      depthTune (some kind) (l.map Prod.fst) data (fun _ => pairRows (l.map fun p => (p.1, g p))) =
        .ok (out, loss.map fun x => (m : K) * x) := by
  have hmem : ∀ p ∈ l, ∀ r, r ∈ g p ↔ r ∈ p.2 := by
    intro p hp r
    rw [(hgp p hp).mem_iff]
    simp [List.mem_flatten, List.mem_replicate, hm.ne']
  have hg' : GoodPairs (l.map fun p => (p.1, g p)) := by
    refine ⟨by simpa using hg.1, ?_⟩
    intro q hq
    obtain ⟨p, hp, rfl⟩ := List.mem_map.1 hq
    obtain ⟨a, b, c, d⟩ := hg.2 p hp
    refine ⟨a, b, fun e => ?_, fun r hr => d r ((hmem p hp r).1 hr)⟩
    obtain ⟨r, hr⟩ := List.exists_mem_of_ne_nil p.2 c
    have := (hmem p hp r).2 hr
    simp only at e
    rw [e] at this
    simp at this
  have hfst : (l.map fun p => (p.1, g p)).map Prod.fst = l.map Prod.fst := by
    rw [List.map_map]; rfl
  obtain ⟨f, loss, h1, h2⟩ := tune_scaled (kind := kind) hsrc hsrc (s := fun _ => pairRows l)
    (s' := fun _ => pairRows (l.map fun p => (p.1, g p))) hg.tunable hg'.tunable
    (fun t => by rw [hfst]) (a := (m : K)) (by exact_mod_cast hm) (fun d => by
      show cutLoss kind _ (pairRows _) d = (m : K) * cutLoss kind _ (pairRows l) d
      rw [cutLoss_pairs, cutLoss_pairs, ← List.sum_map_mul_left, List.map_map]
      congr 1
      refine List.map_congr_left fun p hp => ?_
      show truncLoss kind p.1 _ (g p) = _
      unfold truncLoss
      rw [((hgp p hp).map _).sum_eq, List.map_flatten, List.map_replicate, List.sum_flatten, List.map_replicate,
        List.sum_replicate, nsmul_eq_mul])
  rw [hfst] at h2
  exact ⟨_, loss, h1, h2⟩

/-- C219: every tree `m` times, each copy with the rows of its original: `m` copies of every tree and `m` times the
losses. -/
theorem C219_trees (kind : Kind) {data : DataArgs} {src : TuneSrc} (hsrc : tuneSource data = .ok src)
    {l : List (SkTree K C × List (LossRow K))} (hg : GoodPairs l) {m : ℕ} (hm : 0 < m) :
    ∃ (out : List (SkTree K C)) (loss : List K),
      depthTune (some kind) (l.map Prod.fst) data (fun _ => pairRows l) = .ok (out, loss) ∧
      depthTune (some kind) ((l.flatMap fun p => List.replicate m p).map Prod.fst) data
          (fun _ => pairRows (l.flatMap fun p => List.replicate m p)) =
        .ok (out.flatMap fun t => List.replicate m t, loss.map fun x => (m : K) * x) := by
  have hmem : ∀ q, q ∈ (l.flatMap fun p => List.replicate m p) ↔ q ∈ l := by
    intro q
    simp only [List.mem_flatMap, List.mem_replicate]
    constructor
    · rintro ⟨p, hp, -, rfl⟩; exact hp
    · exact fun hq => ⟨q, hq, hm.ne', rfl⟩
  have hg' : GoodPairs (l.flatMap fun p => List.replicate m p) := by
    refine ⟨fun e => ?_, fun q hq => hg.2 q ((hmem q).1 hq)⟩
    obtain ⟨q, hq⟩ := List.exists_mem_of_ne_nil l hg.1
    have := (hmem q).2 hq
    rw [e] at this
    simp at this
  obtain ⟨f, loss, h1, h2⟩ := tune_scaled (kind := kind) hsrc hsrc (s := fun _ => pairRows l)
    (s' := fun _ => pairRows (l.flatMap fun p => List.replicate m p)) hg.tunable hg'.tunable
    (fun t => by simp only [List.mem_map, hmem]) (a := (m : K)) (by exact_mod_cast hm) (fun d => by
      show cutLoss kind _ (pairRows _) d = (m : K) * cutLoss kind _ (pairRows l) d
      rw [cutLoss_pairs, cutLoss_pairs, ← List.sum_map_mul_left]
      clear hmem hg' hg hsrc
      induction l with
      | nil => simp
      | cons p l ih =>
        rw [List.flatMap_cons, List.map_append, List.sum_append, ih, List.map_cons, List.sum_cons,
          List.map_replicate, List.sum_replicate, nsmul_eq_mul])
  refine ⟨_, loss, h1, ?_⟩
  rw [h2]
  congr 2
  clear h1 h2 hmem hg' hg hsrc
  induction l with
  | nil => simp
  | cons p l ih =>
    rw [List.flatMap_cons, List.map_append, List.map_append, ih, List.map_cons, List.map_cons, List.flatMap_cons,
      List.map_replicate, List.map_replicate]

/-! ## Meeting the hypotheses -/

/-- A tree of depth two and a stump, each with its own rows. -/
def exPairs : List (SkTree ℚ 1 × List (LossRow ℚ)) :=
  [(exTree, [⟨0, 3⟩, ⟨2, 4⟩]), (exStump, [⟨1, 2⟩])]

example : GoodPairs exPairs := by
  have h1 : exStump.WF := by decide
  have h2 : exTree.WF := by decide
  refine ⟨by simp [exPairs], ?_⟩
  intro p hp
  simp only [exPairs, List.mem_cons, List.not_mem_nil, or_false] at hp
  rcases hp with rfl | rfl
  · refine ⟨h2, fun h0 => ?_, by simp, by decide +kernel⟩
    have := isTreeDepth_unique (isTreeDepth_npMax h2) h0
    revert this
    decide +kernel
  · refine ⟨h1, fun h0 => ?_, by simp, by decide +kernel⟩
    have := isTreeDepth_unique (isTreeDepth_npMax h1) h0
    revert this
    decide +kernel

/-- The two orders of the pairs. -/
example : (match depthTune (some .reg) (exPairs.map Prod.fst) exData (fun _ => pairRows exPairs) with
    | .ok (out, loss) => some (valuesOf out, loss)
    | .error _ => none) =
      some ([[[13 / 2], [3], [13 / 2], [13 / 2], [13 / 2]], [[5 / 2], [5 / 2], [5 / 2]]], [75 / 4, 145 / 4]) := by
  decide +kernel

example : (match depthTune (some .reg) (exPairs.reverse.map Prod.fst) exData (fun _ => pairRows exPairs.reverse) with
    | .ok (out, loss) => some (valuesOf out, loss)
    | .error _ => none) =
      some ([[[5 / 2], [5 / 2], [5 / 2]], [[13 / 2], [3], [13 / 2], [13 / 2], [13 / 2]]], [75 / 4, 145 / 4]) := by
  decide +kernel

/-- C219: for a forest with a single-node tree even the exception depends on the order. Coming first the node
leaves the loop variable unbound; after a stump it finds the variable the stump left behind, and it is the
maximum over no depths that raises. -/
theorem C219_single_node_order :
    (∀ rows : TuneSrc → ℕ → List (LossRow ℚ),
      depthTune (some .reg) [exLone, exStump] exData rows = .error .unboundLocalError) ∧
    depthTune (some .reg) [exStump, exLone] exData exLossRows = .error .valueError := by
  refine ⟨fun rows => C51_single_node_raises (by decide) ?_ rfl, ?_⟩
  · have := isTreeDepth_npMax (t := exLone.toTopo) (by decide)
    rwa [show npMax exLone.depthPerNode = 0 by decide +kernel] at this
  · have : (match depthTune (some .reg) [exStump, exLone] exData exLossRows with
        | .ok _ => none
        | .error e => some e) = some PyErr.valueError := by decide +kernel
    revert this
    cases depthTune (some .reg) [exStump, exLone] exData exLossRows with
    | ok _ => simp
    | error e => simp

end SmoothRF
