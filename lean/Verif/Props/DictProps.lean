import Verif.Props.ExperimentProps
import Verif.Props.TorchCenterProps

/-!
# Dictionaries that already hold an entry (C218)
-/

set_option linter.unusedSectionVars false

namespace SmoothRF
open SkTree Topo

/-- No name is stored twice. -/
def DistinctKeys {α : Type} (d : List (String × α)) : Prop := (d.map Prod.fst).Nodup

theorem lookup_map_set {α : Type} (d : List (String × α)) (name : String) (v : α) (m : String) :
    (d.map fun e => if e.1 == name then (name, v) else e).lookup m =
      if m = name then (d.lookup m).map (fun _ => v) else d.lookup m := by
  induction d with
  | nil => simp
  | cons e d ih =>
    obtain ⟨k, w⟩ := e
    rw [List.map_cons]
    by_cases hk : k = name
    · subst hk
      by_cases hm : m = k
      · subst hm; simp
      · have : (m == k) = false := by simpa using hm
        simp only [beq_self_eq_true, if_true, List.lookup_cons, this, ih, if_neg hm]
    · have hk' : (k == name) = false := by simpa using hk
      simp only [hk', Bool.false_eq_true, if_false, List.lookup_cons, ih]
      by_cases hm : m = k
      · subst hm; simp [hk]
      · have : (m == k) = false := by simpa using hm
        simp [this]

theorem lookup_isSome_iff {α : Type} (d : List (String × α)) (m : String) :
    (d.lookup m).isSome ↔ ∃ e ∈ d, e.1 = m := by
  induction d with
  | nil => simp
  | cons e d ih =>
    obtain ⟨k, w⟩ := e
    rw [List.lookup_cons]
    by_cases hm : m = k
    · subst hm; simp
    · have : (m == k) = false := by simpa using hm
      simp only [this, ih, List.mem_cons, exists_eq_or_imp]
      constructor
      · exact fun h => .inr h
      · rintro (h | h)
        · exact absurd h.symm hm
        · exact h

/-- Reading a name after one was set. -/
theorem lookup_dictSet {α : Type} (d : List (String × α)) (name : String) (v : α) (m : String) :
    (dictSet d name v).lookup m = if m = name then some v else d.lookup m := by
  unfold dictSet
  by_cases h : (d.any fun e => e.1 == name) = true
  · rw [if_pos h, lookup_map_set]
    by_cases hm : m = name
    · subst hm
      have : (d.lookup m).isSome := by
        rw [lookup_isSome_iff]
        simpa using h
      obtain ⟨w, hw⟩ := Option.isSome_iff_exists.1 this
      rw [hw]
      simp
    · simp [hm]
  · rw [if_neg h]
    rw [List.lookup_append]
    by_cases hm : m = name
    · subst hm
      have : d.lookup m = none := by
        rw [← Option.not_isSome_iff_eq_none, lookup_isSome_iff]
        simpa using h
      rw [this]
      simp
    · have : (m == name) = false := by simpa using hm
      simp [this, List.lookup_cons, hm]

theorem keys_dictSet {α : Type} (d : List (String × α)) (name : String) (v : α) :
    (dictSet d name v).map Prod.fst =
      if name ∈ d.map Prod.fst then d.map Prod.fst else d.map Prod.fst ++ [name] := by
  unfold dictSet
  have hiff : (d.any fun e => e.1 == name) = true ↔ name ∈ d.map Prod.fst := by simp
  by_cases h : (d.any fun e => e.1 == name) = true
  · rw [if_pos h, if_pos (hiff.1 h), List.map_map]
    refine List.map_congr_left fun e _ => ?_
    show (if e.1 == name then (name, v) else e).1 = e.1
    split_ifs with he
    · exact (by simpa using he : e.1 = name).symm
    · rfl
  · rw [if_neg h, if_neg fun hm => h (hiff.2 hm)]
    simp

theorem distinct_dictSet {α : Type} {d : List (String × α)} (h : DistinctKeys d) (name : String) (v : α) :
    DistinctKeys (dictSet d name v) := by
  unfold DistinctKeys
  rw [keys_dictSet]
  split_ifs with hm
  · exact h
  · exact List.nodup_append'.2 ⟨h, by simp, by simpa using hm⟩

/-- Setting a name to what it holds changes nothing. -/
theorem dictSet_same {α : Type} {d : List (String × α)} (hd : DistinctKeys d) {name : String} {v : α}
    (h : d.lookup name = some v) : dictSet d name v = d := by
  unfold dictSet
  have hs : ∃ e ∈ d, e.1 = name := (lookup_isSome_iff d name).1 (by rw [h]; rfl)
  rw [if_pos (by simpa using hs)]
  clear hs
  induction d with
  | nil => rfl
  | cons e d ih =>
    obtain ⟨k, w⟩ := e
    have hd' : k ∉ d.map Prod.fst ∧ (d.map Prod.fst).Nodup := List.nodup_cons.1 hd
    rw [List.map_cons]
    rw [List.lookup_cons] at h
    by_cases hk : name = k
    · subst hk
      simp only [beq_self_eq_true, Option.some.injEq] at h
      subst h
      simp only [beq_self_eq_true, if_true]
      congr 1
      refine (List.map_congr_left fun e he => ?_).trans (List.map_id _)
      have : e.1 ≠ name := fun hh => hd'.1 (hh ▸ List.mem_map_of_mem he)
      simp [this]
    · have hk1 : (name == k) = false := by simpa using hk
      have hk2 : (k == name) = false := by simpa using fun hh : k = name => hk hh.symm
      rw [hk1] at h
      simp only [hk2, Bool.false_eq_true, if_false]
      rw [ih hd'.2 h]

variable {K : Type} [Field K] [LinearOrder K] [IsStrictOrderedRing K] {C p : ℕ}

/-- A run of settings, one per column. -/
theorem foldlM_dictSet_lookup {α : Type} {v : Fin p → Except PyErr α} {w : Fin p → α} (hv : ∀ j, v j = .ok (w j)) :
    ∀ (l : List (Fin p)) (d : List (String × α)), DistinctKeys d → l.Nodup →
      ∃ d', l.foldlM (fun d j => (do let x ← v j; pure (dictSet d (centerName j) x) : Except PyErr _)) d = .ok d' ∧
        DistinctKeys d' ∧ (∀ j ∈ l, d'.lookup (centerName j) = some (w j)) ∧
        (∀ m, (∀ j ∈ l, m ≠ centerName j.val) → d'.lookup m = d.lookup m) ∧
        ((∀ j ∈ l, d.lookup (centerName j) = some (w j)) → d' = d)
  | [], d, hd, _ => ⟨d, rfl, hd, by simp, fun _ _ => rfl, fun _ => rfl⟩
  | j :: l, d, hd, hn => by
    rw [List.nodup_cons] at hn
    obtain ⟨d', h1, h2, h3, h4, h5⟩ := foldlM_dictSet_lookup hv l (dictSet d (centerName j) (w j))
      (distinct_dictSet hd _ _) hn.2
    refine ⟨d', ?_, h2, ?_, ?_, ?_⟩
    · rw [List.foldlM_cons, hv j]
      exact h1
    · intro i hi
      rcases List.mem_cons.1 hi with rfl | hi
      · rw [h4, lookup_dictSet, if_pos rfl]
        intro k hk hh
        have := Fin.ext (centerName_inj hh)
        subst this
        exact hn.1 hk
      · exact h3 i hi
    · intro m hm
      rw [h4 m fun k hk => hm k (List.mem_cons_of_mem _ hk), lookup_dictSet,
        if_neg (hm j (List.mem_cons_self ..))]
    · intro hall
      have e := dictSet_same hd (hall j (List.mem_cons_self ..))
      rw [h5 fun k hk => by rw [e]; exact hall k (List.mem_cons_of_mem _ hk), e]

/-- C218: `node_spatial_structure_update` on dictionaries that may already hold centres: every name keeps being
stored once, the names `center0` … hold the new centres, all other names hold what they held, and updating again
with the same forest and data changes nothing. -/
theorem C218_update {forest : List (FullTree K C p)} (hwf : ∀ t ∈ forest, t.toTopo.WF)
    {X : List (Fin p → K)} (hX : X ≠ []) {one : List (String × List K)} {two : List (String × List (List K))}
    (h1 : DistinctKeys one) (h2 : DistinctKeys two) :
    ∃ (one' : List (String × List K)) (two' fresh : List (String × List (List K)))
      (c : (t : FullTree K C p) → t.Node → Fin p → K),
      (∀ t ∈ forest, (⟨t.toTopo, t.feature, t.threshold⟩ : SplitTree K p).centerTree X = .ok (c t)) ∧
      nodeSpatial forest X none (some []) = .ok (none, some fresh) ∧
      nodeSpatial forest X (some one) (some two) = .ok (some one', some two') ∧
      DistinctKeys one' ∧ DistinctKeys two' ∧
      (∀ j : Fin p, one'.lookup ("center" ++ toString j.val) =
        some (forest.flatMap fun t => (List.finRange t.nLeaves).map fun r => c t (t.leafNode r) j)) ∧
      (∀ j : Fin p, (two'.lookup ("center" ++ toString j.val)).isSome ∧
        two'.lookup ("center" ++ toString j.val) = fresh.lookup ("center" ++ toString j.val)) ∧
      (∀ m, (∀ j < p, m ≠ "center" ++ toString j) → one'.lookup m = one.lookup m ∧ two'.lookup m = two.lookup m) ∧
      nodeSpatial forest X (some one') (some two') = .ok (some one', some two') := by
  set w1 : Fin p → List K := fun j =>
    forest.flatMap fun t => (List.finRange t.nLeaves).map fun r => ctr X t (t.leafNode r) j with hw1
  set w2 : Fin p → List (List K) := fun j => forest.flatMap fun t => (List.finRange t.nLeaves).map fun r =>
    ctrRow (forestDepth (forest.map FullTree.toSkTree) + 1) X j t r with hw2
  have v1 : ∀ j, centerOne forest X j = .ok (w1 j) := fun j => centerOne_ok hwf hX j
  have v2 : ∀ j, centerTwo (forestDepth (forest.map FullTree.toSkTree) + 1) forest X j = .ok (w2 j) :=
    fun j => centerTwo_ok _ hwf hX j
  obtain ⟨d1, a1, a2, a3, a4, -⟩ := foldlM_dictSet_lookup v1 (List.finRange p) one h1 (List.nodup_finRange p)
  obtain ⟨d2, b1, b2, b3, b4, -⟩ := foldlM_dictSet_lookup v2 (List.finRange p) two h2 (List.nodup_finRange p)
  obtain ⟨d3, c1, -, c3, -, -⟩ := foldlM_dictSet_lookup v2 (List.finRange p) [] (by simp [DistinctKeys]) (List.nodup_finRange p)
  obtain ⟨e1, f1, -, -, -, f5⟩ := foldlM_dictSet_lookup v1 (List.finRange p) d1 a2 (List.nodup_finRange p)
  obtain ⟨e2, g1, -, -, -, g5⟩ := foldlM_dictSet_lookup v2 (List.finRange p) d2 b2 (List.nodup_finRange p)
  obtain rfl := f5 a3
  obtain rfl := g5 b3
  have run : ∀ (x x' : List (String × List K)) (y y' : List (String × List (List K))),
      (List.finRange p).foldlM (fun d j => (do let v ← centerOne forest X j; pure (dictSet d (centerName j) v) :
        Except PyErr _)) x = .ok x' →
      (List.finRange p).foldlM (fun d j => (do
        let v ← centerTwo (forestDepth (forest.map FullTree.toSkTree) + 1) forest X j
        pure (dictSet d (centerName j) v) : Except PyErr _)) y = .ok y' →
      nodeSpatial forest X (some x) (some y) = .ok (some x', some y') := by
    intro x x' y y' k1 k2
    unfold nodeSpatial
    rw [if_neg (by simp)]
    simp only [bind, Except.bind, pure, Except.pure] at k1 k2
    simp only [Option.mapM_some, bind, Except.bind, pure, Except.pure, k1, k2, Functor.map, Except.map]
  refine ⟨e1, e2, d3, fun t => ctr X t, fun t ht => ctr_ok (hwf t ht) hX, ?_, run _ _ _ _ a1 b1, a2, b2, ?_, ?_, ?_,
    run _ _ _ _ f1 g1⟩
  · unfold nodeSpatial
    rw [if_neg (by simp)]
    simp only [bind, Except.bind, pure, Except.pure] at c1
    simp only [Option.mapM_none, Option.mapM_some, bind, Except.bind, pure, Except.pure, c1, Functor.map, Except.map]
  · exact fun j => a3 j (List.mem_finRange j)
  · intro j
    have q1 := b3 j (List.mem_finRange j)
    have q2 := c3 j (List.mem_finRange j)
    unfold centerName at q1 q2
    rw [q1, q2]
    exact ⟨rfl, rfl⟩
  · intro m hm
    exact ⟨a4 m fun j _ => hm j j.2, b4 m fun j _ => hm j j.2⟩

/-- The forest of C90 with an old entry `center1`: it is replaced in its place, the rest is kept. -/
example : (match nodeSpatial exCenterForest exSplitRows (some [("center1", [7]), ("leaf_n", [1, 1, 1, 1, 1])]) none with
    | .ok r => r.1.getD [] | .error _ => []) =
  [("center1", [5 / 2, 1, 7 / 2, 1, 7 / 2]), ("leaf_n", [1, 1, 1, 1, 1]),
    ("center0", [1 / 2, 2, 2, 3 / 2, 3 / 2])] := by decide +kernel

theorem foldl_dictSet_lookup {R : Type} : ∀ (l : List (String × R)) (d : List (String × R)), DistinctKeys d →
    (l.map Prod.fst).Nodup →
    DistinctKeys (l.foldl (fun d nr => dictSet d ("smooth_element_based," ++ nr.1) nr.2) d) ∧
    (∀ x ∈ l, (l.foldl (fun d nr => dictSet d ("smooth_element_based," ++ nr.1) nr.2) d).lookup
      ("smooth_element_based," ++ x.1) = some x.2) ∧
    ∀ m, (∀ x ∈ l, m ≠ "smooth_element_based," ++ x.1) →
      (l.foldl (fun d nr => dictSet d ("smooth_element_based," ++ nr.1) nr.2) d).lookup m = d.lookup m
  | [], d, hd, _ => ⟨hd, by simp, fun _ _ => rfl⟩
  | x :: l, d, hd, hn => by
    rw [List.map_cons, List.nodup_cons] at hn
    obtain ⟨h1, h2, h3⟩ := foldl_dictSet_lookup l (dictSet d ("smooth_element_based," ++ x.1) x.2)
      (distinct_dictSet hd _ _) hn.2
    rw [List.foldl_cons]
    refine ⟨h1, ?_, ?_⟩
    · intro y hy
      rcases List.mem_cons.1 hy with rfl | hy
      · rw [h3, lookup_dictSet, if_pos rfl]
        intro z hz h
        have h := congrArg String.toList h
        rw [String.toList_append, String.toList_append] at h
        have := String.toList_injective (List.append_cancel_left h)
        exact hn.1 (by rw [this]; exact List.mem_map_of_mem hz)
      · exact h2 y hy
    · intro m hm
      rw [h3 m fun y hy => hm y (List.mem_cons_of_mem _ hy), lookup_dictSet, if_neg (hm x (List.mem_cons_self ..))]

/-- C218: the same for the storing loop of `analysis_both_clean.py`, whatever the dictionary held before: one record
per name, the records of this run's jobs are this run's, and the others stay. -/
theorem C218_records {str : K → String} (hs : GoodStr str) (e : CleanEnv K) (kind : Kind)
    (mySeed : ℕ) {adams : List (AdamOpts K)} (hn : adams.Nodup) {dict d : List (String × JobRecord K)}
    (hd : DistinctKeys dict) (h : runJobs (cleanJob str e) (cleanGrid kind mySeed adams) dict = .ok d) :
    DistinctKeys d ∧
    (∀ p ∈ cleanGrid kind mySeed adams, ∃ r, cleanJob str e p = .ok (cleanName str e.levels p, r) ∧
      d.lookup ("smooth_element_based," ++ cleanName str e.levels p) = some r) ∧
    ∀ m, (∀ p ∈ cleanGrid kind mySeed adams, m ≠ "smooth_element_based," ++ cleanName str e.levels p) →
      d.lookup m = dict.lookup m := by
  unfold runJobs at h
  obtain ⟨out, h1, h⟩ := bind_ok h
  cases h
  obtain ⟨a, b⟩ := mapM_name (name := cleanName str e.levels) (fun _ _ ho => (cleanJob_ok ho).1) h1
  have hnd : (out.map Prod.fst).Nodup := by
    rw [a]
    exact List.Nodup.map_on (fun _ _ _ _ h => C122_names hs e.levels h) (C122_grid kind mySeed adams hn).1
  obtain ⟨k1, k2, k3⟩ := foldl_dictSet_lookup out dict hd hnd
  refine ⟨k1, fun p hp => ?_, fun m hm => ?_⟩
  · obtain ⟨i, hi, e1⟩ := List.getElem_of_mem hp
    obtain ⟨hlen, hget⟩ := List.forall₂_iff_get.1 b
    have hi' : i < out.length := hlen ▸ hi
    have hj := hget i hi hi'
    simp only [List.get_eq_getElem] at hj
    rw [e1] at hj
    have hname := (cleanJob_ok hj).1
    have hq := k2 _ (List.getElem_mem hi')
    rw [hname] at hq
    exact ⟨_, by rw [hj, ← hname], hq⟩
  · refine k3 m fun x hx => ?_
    have : x.1 ∈ out.map Prod.fst := List.mem_map_of_mem hx
    rw [a] at this
    obtain ⟨q, hq, e2⟩ := List.mem_map.1 this
    rw [← e2]
    exact hm q hq

/-- The storing loop with an entry of the same name. -/
example : (match runJobs (fun s : String => (.ok (s, s.length) : Except PyErr (String × ℕ))) ["a", "bb"]
      [("smooth_element_based,bb", 7), ("x", 1)] with
    | .ok d => d | .error _ => []) =
    [("smooth_element_based,bb", 2), ("x", 1), ("smooth_element_based,a", 1)] := by decide +kernel

end SmoothRF
