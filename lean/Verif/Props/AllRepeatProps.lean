import Verif.Props.AllUnitsProps
import Verif.Props.AllSourceProps
import Verif.Props.CopiesProps
import Verif.Props.CountProps

/-!
# smooth_all and repetition (C216)

Repeated tuning rows, scaled node counts and repeated trees.
-/

set_option linter.unusedSectionVars false

namespace SmoothRF
open SkTree Topo

variable {K : Type} [Field K] [LinearOrder K] [IsStrictOrderedRing K]

/-! ### repeated tuning rows -/

theorem processTuning_repeats {m : ℕ} (hm : 0 < m) {rows rows' : List (TuneRow K 1)} (h : Repeats m rows rows')
    (n : ℕ) (eps : K) : processTuning n eps rows' = processTuning n eps rows := by
  have hm' : (m : K) ≠ 0 := Nat.cast_ne_zero.2 hm.ne'
  have he : rows' = [] ↔ rows = [] := by
    rw [← List.length_eq_zero_iff, ← List.length_eq_zero_iff, h.length_eq]
    simp [hm.ne']
  have hw : leafWeight rows' = fun i => (m : K) * leafWeight rows i := funext (leafWeight_repeats h)
  unfold processTuning
  simp only [he, hw, leafMean_repeats hm.ne' h, List.sum_map_mul_left, mul_div_mul_left _ _ hm']

/-- C216, tuning rows: if every tuning row occurs `m i` times as often in tree `i`, `smooth_all` does exactly
what it did before, whatever the library routines answer. -/
theorem C216_tuning {o : AllOracles K} {fuel : ℕ} {forest : List (SkTree K 1)} {c : AllCfg}
    {sources sources' : TuneSrc → ℕ → List (TuneRow K 1)} {src : TuneSrc} (hsrc : AllUses c src) {m : ℕ → ℕ}
    (hm : ∀ i, 0 < m i) (h : ∀ i < forest.length, Repeats (m i) (sources src i) (sources' src i)) :
    smoothAll o fuel forest c sources' = smoothAll o fuel forest c sources := by
  have e : allTune forest (sources' src) = allTune forest (sources src) := by
    unfold allTune
    have : ∀ (l : List (SkTree K 1 × ℕ)) (acc : List (K × K)), (∀ tt ∈ l, tt.2 < forest.length) →
        l.foldlM (m := Except PyErr) (fun acc tt => do
          let r ← processTuning tt.1.nLeaves (-1) (sources' src tt.2)
          pure (acc ++ r)) acc =
        l.foldlM (fun acc tt => do
          let r ← processTuning tt.1.nLeaves (-1) (sources src tt.2)
          pure (acc ++ r)) acc := by
      intro l
      induction l with
      | nil => intros; rfl
      | cons x l ih =>
        intro acc hl
        rw [List.foldlM_cons, List.foldlM_cons, processTuning_repeats (hm x.2) (h x.2 (hl x (by simp)))]
        congr 1
        funext z
        exact ih z fun tt ht => hl tt (by simp [ht])
    refine this _ _ fun tt ht => ?_
    simpa using List.snd_lt_of_mem_zipIdx ht
  rw [allUses_iff.1 hsrc] at e
  unfold smoothAll allPrepare
  rw [e]

/-! ### scaled node counts -/

theorem levelRatio_count {s : K} (hs : s ≠ 0) (t : SkTree K 1) (pa : Bool) (r : Fin t.nLeaves) (k : ℕ) :
    levelRatio (countTree s t) pa r k = levelRatio t pa r k := by
  have e1 : levelSum pa (t.distDepth .standard) (fun j => s * t.nSamp (t.leafNode j)) r k =
      s * levelSum pa (t.distDepth .standard) (fun j => t.nSamp (t.leafNode j)) r k := by
    have := levelSum_lin pa (t.distDepth .standard) (fun j => t.nSamp (t.leafNode j)) (fun _ => 1) s 0 r k
    simpa [mul_comm] using this
  have e2 : levelSum pa (t.distDepth .standard) (fun j => s * t.nSamp (t.leafNode j) * t.value (t.leafNode j) 0) r k =
      s * levelSum pa (t.distDepth .standard) (fun j => t.nSamp (t.leafNode j) * t.value (t.leafNode j) 0) r k := by
    have := levelSum_lin pa (t.distDepth .standard) (fun j => t.nSamp (t.leafNode j) * t.value (t.leafNode j) 0)
      (fun _ => 1) s 0 r k
    simpa [mul_comm, mul_assoc, mul_left_comm] using this
  show (if levelSum pa (t.distDepth .standard) (fun j => s * t.nSamp (t.leafNode j)) r k = 0 then 0
    else levelSum pa (t.distDepth .standard) (fun j => s * t.nSamp (t.leafNode j) * t.value (t.leafNode j) 0) r k /
      levelSum pa (t.distDepth .standard) (fun j => s * t.nSamp (t.leafNode j)) r k) = _
  rw [e1, e2]
  unfold levelRatio
  by_cases h : levelSum pa (t.distDepth .standard) (fun j => t.nSamp (t.leafNode j)) r k = 0
  · rw [if_pos (by rw [h, mul_zero]), if_pos h]
  · rw [if_neg (mul_ne_zero hs h), if_neg h, mul_div_mul_left _ _ hs]

theorem specRows_count_all {f : SkTree K 1 → K} (hf : ∀ t, 0 < f t) (forest : List (SkTree K 1)) (pa : Bool) (n : ℕ)
    (tune : ℕ → List (TuneRow K 1)) :
    specRows (forest.map fun t => countTree (f t) t) pa n tune = specRows forest pa n tune := by
  unfold specRows
  rw [leafList_count, List.map_map, List.zipIdx_map, List.flatMap_map]
  congr 1
  refine List.map_congr_left fun p _ => ?_
  funext k
  exact levelRatio_count (hf _).ne' p.1 pa p.2 k

/-- Both loops and the check, when the number of weights is the same under another name. -/
theorem solve_transport {o : AllOracles K} {fuel : ℕ} {forest : List (SkTree K 1)} {c : AllCfg} {tp : Option ℤ}
    {tune : ℕ → List (TuneRow K 1)} {n n' : ℕ} (e : n' = n) {g : SqMat K n} {l : Fin n → K}
    (h1 : allSolve o fuel c.noConstraint (specRows forest c.parentsAll n tune) = .ok (some (g, l)))
    (h2 : allAssess o c.innerAssess tp g (quadA (specRows forest c.parentsAll n tune)) l = .ok ()) :
    ∃ (g' : SqMat K n') (l' : Fin n' → K),
      allSolve o fuel c.noConstraint (specRows forest c.parentsAll n' tune) = .ok (some (g', l')) ∧
      allAssess o c.innerAssess tp g' (quadA (specRows forest c.parentsAll n' tune)) l' = .ok () ∧
      List.ofFn l' = List.ofFn l := by
  subst e
  exact ⟨g, l, h1, h2, rfl⟩

theorem ofFn_lambBase {n n' : ℕ} (e : n' = n) :
    List.ofFn (lambBase : Fin n' → K) = List.ofFn (lambBase : Fin n → K) := by
  subst e
  rfl

/-- C216, node counts: multiplying the sample weights of every tree by a positive factor of its own changes
nothing in `smooth_all`, with or without `parents_all`, constrained or not, whatever the library routines
answer. -/
theorem C216_counts {o : AllOracles K} {fuel : ℕ} {forest : List (SkTree K 1)} (hwf : ∀ t ∈ forest, t.WF)
    (hn : ∀ t ∈ forest, ∀ r, 0 < t.nSamp (t.leafNode r)) {c : AllCfg}
    {sources : TuneSrc → ℕ → List (TuneRow K 1)} {f : SkTree K 1 → K} (hf : ∀ t, 0 < f t)
    {rf : List (SkTree K 1)} {lamb : Fin (forestDepth forest + 1) → K}
    (h : smoothAll o fuel forest c sources = .ok (some (rf, lamb))) :
    ∃ rf' lamb', smoothAll o fuel (forest.map fun t => countTree (f t) t) c sources = .ok (some (rf', lamb')) ∧
      List.ofFn lamb' = List.ofFn lamb ∧ leafValues rf' = leafValues rf := by
  have hwf' : ∀ t ∈ forest.map fun t => countTree (f t) t, t.WF := by
    intro t ht
    obtain ⟨t0, h0, rfl⟩ := List.mem_map.1 ht
    exact hwf t0 h0
  have hn' : ∀ t ∈ forest.map fun t => countTree (f t) t, ∀ r, 0 < t.nSamp (t.leafNode r) := by
    intro t ht
    obtain ⟨t0, h0, rfl⟩ := List.mem_map.1 ht
    intro r
    exact mul_pos (hf t0) (hn t0 h0 r)
  obtain ⟨flag, tp, g, l, h1, h2, h3, h4, h5, h6⟩ := smoothAll_ok hwf h
  have hc : c.nTrained ≠ 0 ∧ c.yLen = c.nTrained := by
    unfold smoothAll at h
    obtain ⟨p, hp, -⟩ := bind_ok h
    obtain ⟨a1, a2, -⟩ := allPrepare_ok hwf hp
    exact ⟨a1, a2⟩
  have ed : forestDepth (forest.map fun t => countTree (f t) t) + 1 = forestDepth forest + 1 := by
    rw [forestDepth_count]
  have h2' : ∀ tt ∈ (forest.map fun t => countTree (f t) t).zipIdx, sources (allSource c) tt.2 ≠ [] := by
    rw [List.zipIdx_map]
    intro tt ht
    obtain ⟨t0, h0, rfl⟩ := List.mem_map.1 ht
    exact h2 t0 h0
  obtain ⟨g', l', k1, k2, k3⟩ := solve_transport ed h3 h4
  rw [← specRows_count_all hf] at k1 k2
  obtain ⟨rf', hr⟩ := smoothAll_returns hwf' hn' hc.1 hc.2 h1 h2' k1 k2
  have hl : List.ofFn (if flag then (lambBase : Fin (forestDepth (forest.map fun t => countTree (f t) t) + 1) → K) else l') =
      List.ofFn lamb := by
    rw [h5]
    cases flag
    · exact k3
    · exact ofFn_lambBase ed
  refine ⟨rf', _, hr, hl, leafValues_count h6 (C64_values hwf' hr) fun t _ t1 t2 u1 u2 => ⟨_, u1, ?_⟩⟩
  have : ∀ {n n' : ℕ} (e : n' = n) (x : Fin n → K) (y : Fin n' → K), List.ofFn y = List.ofFn x →
      ∀ r : Fin t.nLeaves, ∑ k, y k * levelRatio (countTree (f t) t) c.parentsAll r k =
        ∑ k, x k * levelRatio t c.parentsAll r k := by
    intro n n' e x y hxy r
    subst e
    rw [List.ofFn_injective hxy]
    exact Finset.sum_congr rfl fun k _ => by rw [levelRatio_count (hf t).ne']
  obtain ⟨v, e1, e2, e3⟩ := u2
  exact ⟨v, e1, fun r c' => (e2 r c').trans (this ed _ _ hl r), e3⟩

/-! ### repeated trees -/

theorem zipIdx_shift {α : Type} (l : List α) (d : ℕ) : l.zipIdx d = l.zipIdx.map fun x => (x.1, d + x.2) :=
  List.zipIdx_eq_map_add

theorem mod_shift {m T i : ℕ} (h : i < T) : (m * T + i) % T = i := by
  rw [Nat.add_comm, Nat.add_mul_mod_self_right, Nat.mod_eq_of_lt h]

theorem sum_repForest {α : Type} {forest : List (SkTree K 1)} {tune tune' : ℕ → α} {m : ℕ}
    (ht : ∀ i < m * forest.length, tune' i = tune (i % forest.length)) (F : SkTree K 1 → α → K) :
    ((repForest m forest).zipIdx.map fun tt => F tt.1 (tune' tt.2)).sum =
      m * (forest.zipIdx.map fun tt => F tt.1 (tune tt.2)).sum := by
  induction m with
  | zero => simp [repForest]
  | succ m ih =>
    rw [repForest_succ, List.zipIdx_append, List.map_append, List.sum_append,
      ih fun i hi => ht i (by rw [Nat.add_mul]; omega), repForest_length, Nat.zero_add,
      zipIdx_shift forest (m * forest.length), List.map_map]
    have : forest.zipIdx.map ((fun tt : SkTree K 1 × ℕ => F tt.1 (tune' tt.2)) ∘
        fun x => (x.1, m * forest.length + x.2)) = forest.zipIdx.map fun tt => F tt.1 (tune tt.2) := by
      refine List.map_congr_left fun tt htt => ?_
      have hlt : tt.2 < forest.length := by simpa using List.snd_lt_of_mem_zipIdx htt
      have := ht (m * forest.length + tt.2) (by rw [Nat.add_mul]; omega)
      rw [mod_shift hlt] at this
      simp only [Function.comp]
      rw [this]
    rw [this]
    push_cast
    ring

theorem mem_repForest_zipIdx {forest : List (SkTree K 1)} {m : ℕ} {tt : SkTree K 1 × ℕ}
    (h : tt ∈ (repForest m forest).zipIdx) : (tt.1, tt.2 % forest.length) ∈ forest.zipIdx := by
  induction m with
  | zero => simp [repForest] at h
  | succ m ih =>
    rw [repForest_succ, List.zipIdx_append, List.mem_append] at h
    rcases h with h | h
    · exact ih h
    · rw [repForest_length, Nat.zero_add, zipIdx_shift] at h
      obtain ⟨x, hx, rfl⟩ := List.mem_map.1 h
      have hlt : x.2 < forest.length := by simpa using List.snd_lt_of_mem_zipIdx hx
      rw [mod_shift hlt]
      exact hx

theorem zipIdx_repForest {forest : List (SkTree K 1)} {m : ℕ} (hm : 0 < m) {tt : SkTree K 1 × ℕ}
    (h : tt ∈ forest.zipIdx) : tt ∈ (repForest m forest).zipIdx := by
  obtain ⟨m, rfl⟩ := Nat.exists_eq_succ_of_ne_zero hm.ne'
  have : repForest (m + 1) forest = forest ++ repForest m forest := by
    unfold repForest
    rw [List.replicate_succ, List.flatten_cons]
  rw [Nat.succ_eq_add_one, this, List.zipIdx_append]
  exact List.mem_append_left _ h

/-- Uniqueness of the weights, the number of weights under two names. -/
theorem weights_same_copies {forest : List (SkTree K 1)} {m : ℕ} (hm : 0 < m) {pa nc : Bool}
    {tune tune' : ℕ → List (TuneRow K 1)}
    (ht : ∀ i < m * forest.length, tune' i = tune (i % forest.length)) {n n' : ℕ} (e : n' = n)
    (hne : ∀ tt ∈ forest.zipIdx, tune tt.2 ≠ []) (hr : ∀ tt ∈ forest.zipIdx, ∀ q ∈ tune tt.2, q.leaf < tt.1.nLeaves)
    (hind : ∀ x : Fin n → K, x ≠ 0 → ∃ tt ∈ forest.zipIdx, ∃ q ∈ tune tt.2, leafPred tt.1 pa x q.leaf ≠ 0)
    {x : Fin n → K} {y : Fin n' → K} (hx : nc = false → InSimplex x) (hy : nc = false → InSimplex y)
    (mx : ∀ z : Fin n → K, (nc = false → InSimplex z) → tuneLoss forest pa tune x ≤ tuneLoss forest pa tune z)
    (my : ∀ z : Fin n' → K, (nc = false → InSimplex z) →
      tuneLoss (repForest m forest) pa tune' y ≤ tuneLoss (repForest m forest) pa tune' z) :
    List.ofFn y = List.ofFn x := by
  subst e
  congr 1
  have hl : ∀ z : Fin n' → K, tuneLoss (repForest m forest) pa tune' z = m * tuneLoss forest pa tune z := by
    intro z
    unfold tuneLoss
    rw [sum_repForest ht fun t rows => (rows.map fun q => (leafPred t pa z q.leaf - q.y 0) ^ 2).sum / (rows.length : K)]
    ring
  refine tuneLoss_unique (nc := nc) hne hr hind hy hx (fun z hz => ?_) mx
  have := my z hz
  rw [hl z, hl y] at this
  exact le_of_mul_le_mul_left this (Nat.cast_pos.2 hm)

theorem sum_width {n n' : ℕ} {x : Fin n → K} {y : Fin n' → K} (h : List.ofFn y = List.ofFn x) (F : ℕ → K) :
    ∑ k, y k * F k = ∑ k, x k * F k := by
  have e : n' = n := by
    have := congrArg List.length h
    rwa [List.length_ofFn, List.length_ofFn] at this
  subst e
  rw [List.ofFn_injective h]

/-- C216, trees: if every tree occurs `m` times, each copy with the tuning rows of its original, `smooth_all`
with exact routines finds the weights of the original forest and returns `m` copies of its result, provided
no non-zero weights predict 0 at every tuning row. -/
theorem C216_trees {o : AllOracles K} (ho : ExactLib o) {forest : List (SkTree K 1)} (hwf : ∀ t ∈ forest, t.WF)
    {c : AllCfg} {sources sources' : TuneSrc → ℕ → List (TuneRow K 1)} {src : TuneSrc} (hsrc : AllUses c src)
    {tp : Option ℤ} (hs : SanityAsks c.sanity false tp)
    (hr : ∀ tt ∈ forest.zipIdx, ∀ q ∈ sources src tt.2, q.leaf < tt.1.nLeaves)
    (hind : ∀ x : Fin (forestDepth forest + 1) → K, x ≠ 0 → ∃ tt ∈ forest.zipIdx,
      ∃ q ∈ sources src tt.2, leafPred tt.1 c.parentsAll x q.leaf ≠ 0)
    {m : ℕ} (hm : 0 < m) (ht : ∀ i < m * forest.length, sources' src i = sources src (i % forest.length))
    {rf rf' : List (SkTree K 1)} {lamb : Fin (forestDepth forest + 1) → K}
    {lamb' : Fin (forestDepth (List.replicate m forest).flatten + 1) → K} {fuel : ℕ} (hf : 2 ≤ fuel)
    (h : smoothAll o fuel forest c sources = .ok (some (rf, lamb)))
    (h' : smoothAll o fuel (List.replicate m forest).flatten c sources' = .ok (some (rf', lamb'))) :
    List.ofFn lamb' = List.ofFn lamb ∧ rf' = (List.replicate m rf).flatten := by
  have hs' := ((C64_sanity_reading _).1 _ _).2 hs
  rw [allUses_iff.1 hsrc] at hr hind ht
  change smoothAll o fuel (repForest m forest) c sources' = .ok (some (rf', lamb')) at h'
  have hwf' : ∀ t ∈ repForest m forest, t.WF := fun t ht => hwf t (mem_repForest ht)
  have ed : forestDepth (repForest m forest) + 1 = forestDepth forest + 1 := by rw [forestDepth_copy hm]
  have hlt : ∀ tt ∈ (repForest m forest).zipIdx, tt.2 < m * forest.length := fun tt h => by
    have := List.snd_lt_of_mem_zipIdx h
    rwa [Nat.add_zero, repForest_length] at this
  have hlt0 : ∀ tt ∈ forest.zipIdx, tt.2 < forest.length := fun tt h => by
    simpa using List.snd_lt_of_mem_zipIdx h
  obtain ⟨_, _, _, _, -, h4, -, -, -, -⟩ := smoothAll_ok hwf h
  obtain ⟨s1, m1⟩ := exact_min ho hwf hs' hr hind hf h
  obtain ⟨s2, m2⟩ := exact_min ho hwf' hs'
    (fun tt htt q hq => hr _ (mem_repForest_zipIdx htt) q (by rw [ht _ (hlt tt htt)] at hq; exact hq))
    (by
      have key : ∀ {n n' : ℕ} (_ : n' = n), (∀ x : Fin n → K, x ≠ 0 → ∃ tt ∈ forest.zipIdx,
          ∃ q ∈ sources (allSource c) tt.2, leafPred tt.1 c.parentsAll x q.leaf ≠ 0) →
          ∀ x : Fin n' → K, x ≠ 0 → ∃ tt ∈ (repForest m forest).zipIdx,
          ∃ q ∈ sources' (allSource c) tt.2, leafPred tt.1 c.parentsAll x q.leaf ≠ 0 := by
        intro n n' e H x hx
        subst e
        obtain ⟨tt, htt, q, hq, hne⟩ := H x hx
        refine ⟨tt, zipIdx_repForest hm htt, q, ?_, hne⟩
        have h0 := hlt0 tt htt
        rw [ht tt.2 (lt_of_lt_of_le h0 (Nat.le_mul_of_pos_left _ hm)), Nat.mod_eq_of_lt h0]
        exact hq
      exact key ed hind) hf h'
  have e := weights_same_copies hm ht ed h4 hr hind s1 s2 m1 m2
  refine ⟨e, ?_⟩
  have hmap : ∀ f : SkTree K 1 → SkTree K 1,
      (repForest m forest).map f = (List.replicate m (forest.map f)).flatten := fun f => by
    unfold repForest
    rw [List.map_flatten, List.map_replicate]
  rw [forall2_leafUpdate (f := fun t r _ => ∑ k, lamb k * levelRatio t c.parentsAll r k) (C64_values hwf h),
    forall2_leafUpdate (f := fun t r _ => ∑ k, lamb' k * levelRatio t c.parentsAll r k) (C64_values hwf' h'), ← hmap]
  refine List.map_congr_left fun t _ => ?_
  congr 1
  funext r _
  exact sum_width e fun k => levelRatio t c.parentsAll r k

/-! ### examples -/

/-- Tuning rows doubled and counts tripled: the run of `C64_values` on the stump. -/
example : AllUses (exAllCfg true (.bool false)) .given ∧
    Repeats 2 (exAllRows .given 0) [⟨1, fun _ => 3⟩, ⟨0, fun _ => 2⟩, ⟨0, fun _ => 2⟩, ⟨1, fun _ => 3⟩] ∧
    allOf [exStump] (smoothAll exAllOracles 5 [exStump] (exAllCfg true (.bool false))
      fun _ _ => [⟨1, fun _ => 3⟩, ⟨0, fun _ => 2⟩, ⟨0, fun _ => 2⟩, ⟨1, fun _ => 3⟩]) =
      some ([[5 / 2, 3 / 2, 7 / 2]], [2 / 3, 1 / 3]) ∧
    allOf [countTree 3 exStump] (smoothAll exAllOracles 5 [countTree 3 exStump] (exAllCfg true (.bool false)) exAllRows) =
      some ([[5 / 2, 3 / 2, 7 / 2]], [2 / 3, 1 / 3]) := by
  refine ⟨⟨rfl, rfl, rfl⟩, ?_, by decide +kernel, by decide +kernel⟩
  have h1 : ∀ a b : TuneRow ℚ 1, [b, a, a, b].Perm [a, b, a, b] := fun a b => List.Perm.swap a b _
  exact h1 ⟨0, fun _ => 2⟩ ⟨1, fun _ => 3⟩

/-- The hypotheses of `C216_trees` hold for the stump with one tuning row in each leaf, taken twice. -/
example : ∃ rf rf' lamb lamb',
    smoothAll exactOracles 2 [exStumpR] (exAllCfg true (.bool false)) exRowsR = .ok (some (rf, lamb)) ∧
    smoothAll exactOracles 2 [exStumpR, exStumpR] (exAllCfg true (.bool false)) (fun s _ => exRowsR s 0) =
      .ok (some (rf', lamb')) ∧
    List.ofFn lamb' = List.ofFn lamb ∧ rf' = (List.replicate 2 rf).flatten := by
  have hwf : ∀ t ∈ [exStumpR], t.WF := by simp; decide
  have hwf' : ∀ t ∈ [exStumpR, exStumpR], t.WF := by simp; decide
  have hn : ∀ t ∈ [exStumpR], ∀ r, 0 < t.nSamp (t.leafNode r) := by
    intro t ht r
    rw [List.mem_singleton] at ht
    subst ht
    exact exStumpR_samples r
  have hn' : ∀ t ∈ [exStumpR, exStumpR], ∀ r, 0 < t.nSamp (t.leafNode r) := by
    intro t ht r
    simp only [List.mem_cons, List.not_mem_nil, or_false, or_self] at ht
    subst ht
    exact exStumpR_samples r
  have hr : ∀ tt ∈ [exStumpR].zipIdx, ∀ q ∈ exRowsR .given tt.2, q.leaf < tt.1.nLeaves := by
    simp; decide
  have hr' : ∀ tt ∈ [exStumpR, exStumpR].zipIdx, ∀ q ∈ exRowsR .given 0, q.leaf < tt.1.nLeaves := by
    simp; decide
  obtain ⟨rf, lamb, hrun⟩ := C116_returns (c := exAllCfg true (.bool false)) (sources := exRowsR) exact_lib hwf hn
    (by decide) rfl (flag := false) (tp := none) rfl (by simp) (by simp) hr
  obtain ⟨rf', lamb', hrun'⟩ := C116_returns (c := exAllCfg true (.bool false)) (sources := fun s _ => exRowsR s 0) exact_lib
    hwf' hn' (by decide) rfl (flag := false) (tp := none) rfl (by simp) (by simp) hr'
  refine ⟨rf, rf', lamb, lamb', hrun 2 le_rfl, hrun' 2 le_rfl, C216_trees exact_lib hwf (src := .given) ⟨rfl, rfl, rfl⟩
    (tp := none) (.inl ⟨rfl, rfl⟩) hr ?_ two_pos (fun i _ => by simp [Nat.mod_one]) le_rfl (hrun 2 le_rfl) (hrun' 2 le_rfl)⟩
  show ∀ x : Fin 2 → ℝ, x ≠ 0 → _
  intro x hx
  by_contra hcon
  push Not at hcon
  have h := hcon (exStumpR, 0) (by simp)
  have h0 := h ⟨0, fun _ => 2⟩ (by simp [exRowsR])
  have h1 := h ⟨1, fun _ => 3⟩ (by simp [exRowsR])
  have h0' := (exStumpR_pred_all x).1.symm.trans h0
  have h1' := (exStumpR_pred_all x).2.symm.trans h1
  apply hx
  funext i
  fin_cases i
  · show x 0 = 0
    linarith
  · show x 1 = 0
    linarith

end SmoothRF
