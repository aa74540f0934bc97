import Verif.Props.TorchRunProps
import Verif.Props.BoxProps
import Std.Data.String.ToNat

/-! # Node centres as variables of the torch model (C70, C90) -/

set_option linter.unusedSectionVars false

namespace SmoothRF
open SkTree Topo SplitTree

variable {K : Type} [Field K] [LinearOrder K] [IsStrictOrderedRing K] {C p : ℕ}

theorem centerName_inj {i j : ℕ} (h : centerName i = centerName j) : i = j := by
  unfold centerName at h
  have h' := congrArg String.toList h
  rw [String.toList_append, String.toList_append] at h'
  exact Nat.repr_injective (String.toList_injective (List.append_cancel_left h'))

theorem dictSet_new {α : Type} (d : List (String × α)) (name : String) (v : α)
    (h : ∀ e ∈ d, e.1 ≠ name) : dictSet d name v = d ++ [(name, v)] := by
  unfold dictSet
  rw [if_neg]
  simpa using fun b hab => h (name, b) hab rfl

theorem dictSet_length {α : Type} (d : List (String × α)) (name : String) (v : α) :
    d.length ≤ (dictSet d name v).length := by
  unfold dictSet
  split_ifs <;> simp

theorem foldlM_dictSet {α : Type} {v : Fin p → Except PyErr α} {w : Fin p → α} (hv : ∀ j, v j = .ok (w j)) :
    ∀ (l : List (Fin p)) (d : List (String × α)), l.Nodup →
      (∀ e ∈ d, ∀ j ∈ l, e.1 ≠ centerName j.val) →
      l.foldlM (fun d j => (do let x ← v j; pure (dictSet d (centerName j) x) : Except PyErr _)) d =
        .ok (d ++ l.map fun (j : Fin p) => (centerName j, w j))
  | [], d, _, _ => by simp [pure, Except.pure]
  | j :: l, d, hn, hd => by
    rw [List.foldlM_cons, hv j]
    simp only [bind, Except.bind, pure, Except.pure]
    rw [dictSet_new _ _ _ fun e he => hd e he j (by simp)]
    have := foldlM_dictSet hv l (d ++ [(centerName j.val, w j)]) (List.nodup_cons.1 hn).2 (by
      intro e he i hi
      rcases List.mem_append.1 he with he | he
      · exact hd e he i (by simp [hi])
      · simp only [List.mem_singleton] at he
        subst he
        intro h
        have := Fin.ext (centerName_inj h)
        subst this
        exact (List.nodup_cons.1 hn).1 hi)
    simp only [bind, Except.bind, pure, Except.pure] at this
    rw [this]
    simp

theorem foldlM_dictSet_length {α : Type} {v : Fin p → Except PyErr α} :
    ∀ (l : List (Fin p)) (d d' : List (String × α)),
      l.foldlM (fun d j => (do let x ← v j; pure (dictSet d (centerName j) x) : Except PyErr _)) d = .ok d' →
      d.length ≤ d'.length
  | [], d, d', h => by cases h; rfl
  | j :: l, d, d', h => by
    rw [List.foldlM_cons] at h
    obtain ⟨d1, h1, h⟩ := bind_ok h
    obtain ⟨x, -, h1⟩ := bind_ok h1
    cases h1
    exact (dictSet_length d _ x).trans (foldlM_dictSet_length l _ _ h)

theorem foldlM_dictSet_lt {α : Type} {v : Fin p → Except PyErr α} (hp : 0 < p) {d d' : List (String × α)}
    (hd : ∀ e ∈ d, e.1 ≠ centerName 0)
    (h : (List.finRange p).foldlM
      (fun d j => (do let x ← v j; pure (dictSet d (centerName j) x) : Except PyErr _)) d = .ok d') :
    d.length < d'.length := by
  obtain ⟨q, rfl⟩ := Nat.exists_eq_succ_of_ne_zero hp.ne'
  rw [List.finRange_succ, List.foldlM_cons] at h
  obtain ⟨d1, h1, h⟩ := bind_ok h
  obtain ⟨x, -, h1⟩ := bind_ok h1
  cases h1
  have := foldlM_dictSet_length _ _ _ h
  rw [dictSet_new _ _ _ (by simpa using hd)] at this
  simp at this
  omega

/-- The node centres of a tree. -/
def ctr (X : List (Fin p → K)) (t : FullTree K C p) : t.Node → Fin p → K :=
  match t.split.centerTree X with
  | .ok c => c
  | .error _ => fun _ _ => 0

theorem ctr_ok {t : FullTree K C p} (h : t.toTopo.WF) {X : List (Fin p → K)} (hX : X ≠ []) :
    t.split.centerTree X = .ok (ctr X t) := by
  obtain ⟨b, c, -, e, -⟩ := C58_center (t := t.split) h hX
  unfold ctr
  rw [e]

/-- Row of the `two_d_dict` update. -/
def ctrRow (width : ℕ) (X : List (Fin p → K)) (j : Fin p) (t : FullTree K C p) (r : Fin t.nLeaves) : List K :=
  let addon := (t.depthPerNodePlusParent.2 (t.leafNode r)).map fun i => ctr X t i j
  addon ++ List.replicate (width - addon.length) (addon.getLast?.getD 0)

theorem centerOne_ok {forest : List (FullTree K C p)} (hwf : ∀ t ∈ forest, t.toTopo.WF)
    {X : List (Fin p → K)} (hX : X ≠ []) (j : Fin p) :
    centerOne forest X j =
      .ok (forest.flatMap fun t => (List.finRange t.nLeaves).map fun r => ctr X t (t.leafNode r) j) := by
  unfold centerOne
  rw [SkTree.mapM_ok forest _ (fun t => (List.finRange t.nLeaves).map fun r => ctr X t (t.leafNode r) j)]
  · rfl
  · intro t ht
    rw [ctr_ok (hwf t ht) hX]
    rfl

theorem centerTwo_ok (width : ℕ) {forest : List (FullTree K C p)} (hwf : ∀ t ∈ forest, t.toTopo.WF)
    {X : List (Fin p → K)} (hX : X ≠ []) (j : Fin p) :
    centerTwo width forest X j =
      .ok (forest.flatMap fun t => (List.finRange t.nLeaves).map fun r => ctrRow width X j t r) := by
  unfold centerTwo
  rw [SkTree.mapM_ok forest _ (fun t => (List.finRange t.nLeaves).map fun r => ctrRow width X j t r)]
  · rfl
  · intro t ht
    rw [ctr_ok (hwf t ht) hX]
    rfl

theorem ctrRow_spec {width : ℕ} {X : List (Fin p → K)} {j : Fin p} {t : FullTree K C p}
    (h : t.toTopo.WF) (hw : npMax t.depthPerNode + 1 ≤ width) (r : Fin t.nLeaves) :
    (ctrRow width X j t r).length = width ∧
    (∀ k a, t.UpBy k (t.leafNode r) a → (ctrRow width X j t r)[k]? = some (ctr X t a j)) ∧
    ∀ k d, t.DepthIs (t.leafNode r) d → d ≤ k → k < width →
      (ctrRow width X j t r)[k]? = some (ctr X t 0 j) := by
  obtain ⟨l, hl, hrow⟩ := plusParent_row h (t.leafNode r)
  have hlen := hl.length h
  have hmax := (npMax_spec t.depthPerNode).1 (t.leafNode r)
  set D := npMax t.depthPerNode with hD
  set d0 := t.depthPerNode (t.leafNode r) with hd0
  have hb : (t.depthPerNodePlusParent.2 (t.leafNode r)).length = D + 1 := by
    rw [hrow]; simp [hlen]; omega
  have hup : ∀ k a, t.UpBy k (t.leafNode r) a →
      (t.depthPerNodePlusParent.2 (t.leafNode r))[k]? = some a := by
    intro k a ha
    have := (upBy_depth h ha).1
    rw [hrow, List.getElem?_append_left (by simp [hlen]; omega)]
    exact hl.upBy h ha
  have hroot : ∀ k, d0 ≤ k → k < D + 1 →
      (t.depthPerNodePlusParent.2 (t.leafNode r))[k]? = some 0 := by
    intro k hk hk'
    rw [hrow]
    rcases Nat.eq_or_lt_of_le hk with e | hlt
    · rw [← e, List.getElem?_append_left (by simp [hlen])]
      exact hl.last h
    · rw [List.getElem?_append_right (by simp [hlen]; omega), List.getElem?_replicate, if_pos]
      simp [hlen]; omega
  have hlast : ((t.depthPerNodePlusParent.2 (t.leafNode r)).map fun i => ctr X t i j).getLast? =
      some (ctr X t 0 j) := by
    rw [List.getLast?_eq_getElem?, List.length_map, hb, List.getElem?_map, Nat.add_sub_cancel,
      hroot D hmax (by omega)]
    rfl
  have key : ctrRow width X j t r =
      ((t.depthPerNodePlusParent.2 (t.leafNode r)).map fun i => ctr X t i j) ++
      List.replicate (width - (D + 1)) (ctr X t 0 j) := by
    unfold ctrRow
    simp only [hlast, Option.getD_some, List.length_map, hb]
  refine ⟨?_, ?_, ?_⟩
  · rw [key]; simp [hb]; omega
  · intro k a ha
    have := (upBy_depth h ha).1
    rw [key, List.getElem?_append_left (by simp [hb]; omega), List.getElem?_map, hup k a ha]
    rfl
  · intro k d hd hk hkw
    have hdd : d = d0 := ((depthIs_iff h _ _).1 hd).symm
    rw [key]
    by_cases hkD : k < D + 1
    · rw [List.getElem?_append_left (by simp [hb]; omega), List.getElem?_map, hroot k (by omega) hkD]
      rfl
    · rw [List.getElem?_append_right (by simp [hb]; omega), List.getElem?_replicate, if_pos]
      simp [hb]; omega

theorem nodeSpatial_ok {forest : List (FullTree K C p)} (hwf : ∀ t ∈ forest, t.toTopo.WF)
    {X : List (Fin p → K)} (hX : X ≠ []) (one : Option (List (String × List K)))
    (two : Option (List (String × List (List K)))) (hn : one.isSome ∨ two.isSome)
    (h1 : ∀ d ∈ one, ∀ e ∈ d, ∀ j : ℕ, e.1 ≠ centerName j)
    (h2 : ∀ d ∈ two, ∀ e ∈ d, ∀ j : ℕ, e.1 ≠ centerName j) :
    nodeSpatial forest X one two = .ok
      (one.map fun d => d ++ (List.finRange p).map fun (j : Fin p) => (centerName j,
        forest.flatMap fun t => (List.finRange t.nLeaves).map fun r => ctr X t (t.leafNode r) j),
       two.map fun d => d ++ (List.finRange p).map fun (j : Fin p) => (centerName j,
        forest.flatMap fun t => (List.finRange t.nLeaves).map fun r =>
          ctrRow (forestDepth (forest.map FullTree.toSkTree) + 1) X j t r)) := by
  unfold nodeSpatial
  rw [if_neg (by cases one <;> cases two <;> simp_all)]
  have e1 : ∀ d ∈ one, (List.finRange p).foldlM (fun d j => (do
      let v ← centerOne forest X j
      pure (dictSet d (centerName j) v) : Except PyErr _)) d = .ok (d ++ (List.finRange p).map
        fun (j : Fin p) => (centerName j, forest.flatMap fun t => (List.finRange t.nLeaves).map fun r =>
          ctr X t (t.leafNode r) j)) := fun d hd =>
    foldlM_dictSet (fun j => centerOne_ok hwf hX j) _ d (List.nodup_finRange p)
      fun e he j _ => h1 d hd e he j
  have e2 : ∀ d ∈ two, (List.finRange p).foldlM (fun d j => (do
      let v ← centerTwo (forestDepth (forest.map FullTree.toSkTree) + 1) forest X j
      pure (dictSet d (centerName j) v) : Except PyErr _)) d = .ok (d ++ (List.finRange p).map
        fun (j : Fin p) => (centerName j, forest.flatMap fun t => (List.finRange t.nLeaves).map fun r =>
          ctrRow (forestDepth (forest.map FullTree.toSkTree) + 1) X j t r)) := fun d hd =>
    foldlM_dictSet (fun j => centerTwo_ok _ hwf hX j) _ d (List.nodup_finRange p)
      fun e he j _ => h2 d hd e he j
  cases one with
  | none =>
    cases two with
    | none => simp at hn
    | some d2 =>
      have k2 := e2 d2 rfl
      simp only [bind, Except.bind, pure, Except.pure] at k2
      simp only [Option.mapM_none, Option.mapM_some, bind, Except.bind, pure, Except.pure, k2,
        Functor.map, Except.map]
      rfl
  | some d1 =>
    have k1 := e1 d1 rfl
    simp only [bind, Except.bind, pure, Except.pure] at k1
    cases two with
    | none =>
      simp only [Option.mapM_none, Option.mapM_some, bind, Except.bind, pure, Except.pure, k1,
        Functor.map, Except.map]
      rfl
    | some d2 =>
      have k2 := e2 d2 rfl
      simp only [bind, Except.bind, pure, Except.pure] at k2
      simp only [Option.mapM_none, Option.mapM_some, bind, Except.bind, pure, Except.pure, k1, k2,
        Functor.map, Except.map]
      rfl

/-- C90: every column `j` of the data adds one variable `center j`: for the 1-d dictionary the centre of
the leaf box, for the 2-d dictionary the centres of the boxes of the ancestors, the root box beyond the
root, one column per level of the forest. Leaves are in tree order, not repeated per class. -/
theorem C90_centers {forest : List (FullTree K C p)} (hwf : ∀ t ∈ forest, t.toTopo.WF)
    {X : List (Fin p → K)} (hX : X ≠ []) (one : List (String × List K))
    (two : List (String × List (List K)))
    (h1 : ∀ e ∈ one, ∀ j : ℕ, e.1 ≠ "center" ++ toString j) (h2 : ∀ e ∈ two, ∀ j : ℕ, e.1 ≠ "center" ++ toString j) :
    ∃ (c : (t : FullTree K C p) → t.Node → Fin p → K)
      (row : Fin p → (t : FullTree K C p) → Fin t.nLeaves → List K),
      (∀ t ∈ forest, (⟨t.toTopo, t.feature, t.threshold⟩ : SplitTree K p).centerTree X = .ok (c t)) ∧
      nodeSpatial forest X (some one) (some two) = .ok
        (some (one ++ (List.finRange p).map fun (j : Fin p) => ("center" ++ toString j.val,
          forest.flatMap fun t => (List.finRange t.nLeaves).map fun r => c t (t.leafNode r) j)),
         some (two ++ (List.finRange p).map fun (j : Fin p) => ("center" ++ toString j.val,
          forest.flatMap fun t => (List.finRange t.nLeaves).map fun r => row j t r))) ∧
      ∀ (j : Fin p), ∀ t ∈ forest, ∀ r : Fin t.nLeaves,
        (∀ u ∈ forest, ∀ i d, u.toTopo.DepthIs i d → d < (row j t r).length) ∧
        (∃ u ∈ forest, ∃ i, u.toTopo.DepthIs i ((row j t r).length - 1)) ∧
        (∀ (k : ℕ) a, t.UpBy k (t.leafNode r) a → (row j t r)[k]? = some (c t a j)) ∧
        ∀ (k d : ℕ), t.DepthIs (t.leafNode r) d → d ≤ k → k < (row j t r).length →
          (row j t r)[k]? = some (c t 0 j) := by
  refine ⟨fun t => ctr X t, fun j t r => ctrRow (forestDepth (forest.map FullTree.toSkTree) + 1) X j t r,
    fun t ht => ctr_ok (hwf t ht) hX,
    nodeSpatial_ok hwf hX (some one) (some two) (by simp) (by simpa [centerName] using h1) (by simpa [centerName] using h2), ?_⟩
  intro j t ht r
  have hge : ∀ u ∈ forest, npMax u.depthPerNode ≤ forestDepth (forest.map FullTree.toSkTree) :=
    fun u hu => forestDepth_ge _ u.toSkTree (List.mem_map_of_mem hu)
  obtain ⟨s1, s2, s3⟩ := ctrRow_spec (X := X) (j := j) (width := forestDepth (forest.map FullTree.toSkTree) + 1)
    (hwf t ht) (by have := hge t ht; omega) r
  refine ⟨?_, ?_, s2, fun k d hd hk hkw => s3 k d hd hk (by rw [s1] at hkw; exact hkw)⟩
  · intro u hu i d hd
    rw [s1]
    have := (depthIs_iff (hwf u hu) _ _).1 hd
    have h' := (npMax_spec u.depthPerNode).1 i
    have := hge u hu
    omega
  · rw [s1, Nat.add_sub_cancel]
    obtain ⟨u, hu, i, hi⟩ := (C02_calc_depth_for_forest
      ((forest.map FullTree.toSkTree).map SkTree.toTopo) (by simpa using List.ne_nil_of_mem ht) (by
        intro w hw
        simp only [List.mem_map, exists_exists_and_eq_and] at hw
        obtain ⟨v, hv, rfl⟩ := hw
        exact hwf v hv)).2.2.2
    simp only [List.mem_map, exists_exists_and_eq_and] at hu
    obtain ⟨v, hv, rfl⟩ := hu
    exact ⟨v, hv, i, hi⟩

/-- C90: with neither dictionary a ValueError. -/
theorem C90_none (forest : List (FullTree K C p)) (X : List (Fin p → K)) :
    nodeSpatial forest X none none = .error .valueError := rfl

theorem ne_centerName {s : String} (h : s.toList.head? ≠ some 'c') (j : ℕ) : s ≠ centerName j := by
  rintro rfl
  apply h
  unfold centerName
  rw [String.toList_append]
  rfl

theorem names_one (C : ℕ) (more : More K) : ∀ e ∈ ([("leaf_n", tile C more.numLeaf),
    ("leaf_d", tile C (more.depthLeaf.map fun z : ℤ => (z : K))),
    ("leaf_i", tile C more.impurityLeaf)] : List (String × List K)), ∀ j : ℕ, e.1 ≠ centerName j := by
  intro e he j
  simp only [List.mem_cons, List.not_mem_nil, or_false] at he
  rcases he with rfl | rfl | rfl <;> exact ne_centerName (by simp only; decide) j

theorem names_two (C : ℕ) (more : More K) : ∀ e ∈ ([("full_d", tile C more.depthFull),
    ("full_i", tile C more.impurityFull)] : List (String × List (List K))), ∀ j : ℕ, e.1 ≠ centerName j := by
  intro e he j
  simp only [List.mem_cons, List.not_mem_nil, or_false] at he
  rcases he with rfl | rfl <;> exact ne_centerName (by simp only; decide) j

theorem flatMap_leaf_length {α : Type} (forest : List (FullTree K C p))
    (f : (t : FullTree K C p) → Fin t.nLeaves → α) :
    (forest.flatMap fun t => (List.finRange t.nLeaves).map fun r => f t r).length =
      (leafList (forest.map FullTree.toSkTree)).length := by
  induction forest with
  | nil => rfl
  | cons t ts ih =>
    rw [List.flatMap_cons, List.map_cons, leafList_cons, List.length_append, ih, List.length_append]
    simp

/-- C90: the same dictionary update is refused by the data set when there are two or more classes,
because the centres are not repeated per class. -/
theorem C90_classes_refused (hC : 2 ≤ C) (hp : 0 < p) {S : Type} {env : TorchEnv K S} {kind : Kind}
    {forest : List (FullTree K C p)} (hne : forest ≠ []) (hwf : ∀ t ∈ forest, t.toTopo.WF)
    {X : List (Fin p → K)} (hX : X ≠ []) {a : TorchArgs K} {sources : PSrc → ℕ → List (TuneRow K C)}
    {pr : Prep K (forestDepth (forest.map FullTree.toSkTree) + 1)}
    (hpr : pytorchPrep (some kind) (forest.map FullTree.toSkTree) a.style a.parentsAll
        { a.data with xTune := false, yTune := false, resample := false } true sources = .ok pr)
    (hx : a.xOne = true ∨ a.xTwo = true) :
    smoothPytorch env (some kind) forest X a sources = .error .assertionError := by
  have hwf' : ∀ t ∈ forest.map FullTree.toSkTree, t.WF := by
    intro t ht
    obtain ⟨u, hu, rfl⟩ := List.mem_map.1 ht
    exact hwf u hu
  obtain ⟨src, more, -, -, -, g4, g5, g6⟩ := prep_ok hwf' hpr
  have n1 : ∀ e ∈ pr.one, ∀ j : ℕ, e.1 ≠ centerName j := by
    rw [g5]; exact names_one C more
  have n2 : ∀ e ∈ pr.two, ∀ j : ℕ, e.1 ≠ centerName j := by
    rw [g6]; exact names_two C more
  obtain ⟨one, two, htd, hbad⟩ : ∃ one two, trainDicts forest X a pr = .ok (one, two) ∧
      ((∃ e ∈ one, e.2.length = (leafList (forest.map FullTree.toSkTree)).length) ∨
        ∃ e ∈ two, e.2.length = (leafList (forest.map FullTree.toSkTree)).length) := by
    unfold trainDicts
    simp only
    rw [if_pos (by rcases hx with h | h <;> simp [h])]
    rw [nodeSpatial_ok hwf hX _ _ (by rcases hx with h | h <;> simp [h])
      (by intro d hd e he j; split_ifs at hd <;> simp at hd <;> subst hd <;> first | exact n1 e he j | simp at he)
      (by intro d hd e he j; split_ifs at hd <;> simp at hd <;> subst hd <;> first | exact n2 e he j | simp at he)]
    refine ⟨_, _, rfl, ?_⟩
    rcases hx with h | h
    · left
      simp only [h, if_true, Option.map_some, Option.getD_some]
      exact ⟨_, List.mem_append_right _ (List.mem_map_of_mem (List.mem_finRange ⟨0, hp⟩)),
        flatMap_leaf_length forest fun t r => ctr X t (t.leafNode r) ⟨0, hp⟩⟩
    · right
      simp only [h, if_true, Option.map_some, Option.getD_some]
      exact ⟨_, List.mem_append_right _ (List.mem_map_of_mem (List.mem_finRange ⟨0, hp⟩)),
        flatMap_leaf_length forest fun t r =>
          ctrRow (forestDepth (forest.map FullTree.toSkTree) + 1) X ⟨0, hp⟩ t r⟩
  have hlen : pr.rows.length ≠ (leafList (forest.map FullTree.toSkTree)).length := by
    rw [g4, prepRows_length, leafListI_length]
    have : 0 < (leafList (forest.map FullTree.toSkTree)).length := by
      obtain ⟨t, ts, rfl⟩ := List.exists_cons_of_ne_nil hne
      rw [List.map_cons, leafList_cons]
      have := nLeaves_pos (hwf t (by simp))
      simp; omega
    intro h
    nlinarith
  have hds : mkDataset pr.rows one two = .error .assertionError := by
    refine (C66_shapes pr.rows one two).2 fun h => ?_
    rcases hbad with ⟨e, he, hl⟩ | ⟨e, he, hl⟩
    · exact hlen ((h.1 e he).symm.trans hl)
    · exact hlen ((h.2 e he).1.symm.trans hl)
  unfold smoothPytorch torchTrain
  simp only [hpr, htd, hds, bind, Except.bind]

/-- The tree of `exSplit` with values. -/
abbrev exCenter : FullTree ℚ 1 2 :=
  { toTopo := exSplit.toTopo, value := fun _ _ => 1, nSamp := ![3, 1, 2, 1, 1], impurity := fun _ => 0
    feature := exSplit.feature, threshold := exSplit.threshold }

/-- A depth-2 tree and a stump. -/
abbrev exCenterForest : List (FullTree ℚ 1 2) :=
  [exCenter, { exStump with feature := fun _ => 1, threshold := fun _ => 2 }]

/-- Instance of C90: the stump's rows are padded with its root centre. -/
example : (match nodeSpatial exCenterForest exSplitRows (some [("leaf_n", [1, 1, 1, 1, 1])]) none with
    | .ok r => r.1.getD [] | .error _ => []) =
  [("leaf_n", [1, 1, 1, 1, 1]), ("center0", [1 / 2, 2, 2, 3 / 2, 3 / 2]),
    ("center1", [5 / 2, 1, 7 / 2, 1, 7 / 2])] := by decide +kernel

example : (match nodeSpatial exCenterForest exSplitRows none (some []) with
    | .ok r => r.2.getD [] | .error _ => []) =
  [("center0", [[1 / 2, 3 / 2, 3 / 2], [2, 2, 3 / 2], [2, 2, 3 / 2], [3 / 2, 3 / 2, 3 / 2],
      [3 / 2, 3 / 2, 3 / 2]]),
    ("center1", [[5 / 2, 5 / 2, 5 / 2], [1, 5 / 2, 5 / 2], [7 / 2, 5 / 2, 5 / 2], [1, 5 / 2, 5 / 2],
      [7 / 2, 5 / 2, 5 / 2]])] := by decide +kernel

/-- Instance of `C90_classes_refused`. -/
example : (match smoothPytorch exEnvRows (some .cls)
      [({ exClsStump with feature := fun _ => 0, threshold := fun _ => 0 } : FullTree ℚ 2 1)] [![0]]
      { exTorchArgs with xTwo := true }
      (fun _ _ => [⟨0, ![1, 0]⟩, ⟨1, ![0, 1]⟩]) with
    | .ok _ => none | .error e => some e) = some .assertionError := by decide +kernel

/-! ### C70 -/

/-- C70 (refuted): trained on the 2-d variables only, the model is applied in `update_rf` to the leaf
sizes and leaf depths. The optimiser puts weight 1 on the second variable. -/
abbrev exEnvVar : TorchEnv ℚ ℕ :=
  { exEnv with opt := fun s _ _ => (s + 1, ⟨fun k v => if k = 0 ∧ v = 1 then 1 else 0, fun _ => 0⟩) }

@[inherit_doc exEnvVar]
theorem C70_refuted : ¬ ∀ (env : TorchEnv ℚ ℕ) (forest : List (FullTree ℚ 1 1)) (X : List (Fin 1 → ℚ))
    (a : TorchArgs ℚ) (sources : PSrc → ℕ → List (TuneRow ℚ 1))
    (out : TorchOut ℚ 1 (forestDepth (forest.map FullTree.toSkTree) + 1)),
    smoothPytorch env (some .reg) forest X a sources = .ok out →
    updateTrees env.exp out.best out.data (forest.map FullTree.toSkTree) = .ok out.rf := by
  intro hall
  have hrun : (match smoothPytorch exEnvVar (some .reg) [exFull] [![0]]
        { exTorchArgs with whichOne := false } exSources with
      | .ok out => some (valuesOf out.rf,
        match updateTrees exExp out.best out.data ([exFull].map FullTree.toSkTree) with
        | .ok f => some (valuesOf f) | .error _ => none)
      | .error _ => none) = some ([[[5 / 2], [2], [3]]], some [[[5 / 2], [5 / 2], [25 / 7]]]) := by
    decide +kernel
  cases h : smoothPytorch exEnvVar (some .reg) [exFull] [![0]] { exTorchArgs with whichOne := false }
      exSources with
  | error e => rw [h] at hrun; cases hrun
  | ok out =>
    rw [h] at hrun
    have := hall _ _ _ _ _ _ h
    simp only [this] at hrun
    rw [Option.some.injEq, Prod.mk.injEq, Option.some.injEq] at hrun
    exact absurd (hrun.1.symm.trans hrun.2) (by decide +kernel)

/-- C70: with both dictionaries and node centres requested in `x_dicts` the call never returns:
`update_rf` rebuilds five variables, the model expects more. -/
theorem C70_x_dicts_raise (hC : 0 < C) (hp : 0 < p) {S : Type} {env : TorchEnv K S} {kind : Kind}
    {forest : List (FullTree K C p)} (hwf : ∀ t ∈ forest, t.toTopo.WF) {X : List (Fin p → K)}
    {a : TorchArgs K} {sources : PSrc → ℕ → List (TuneRow K C)}
    (h1 : a.whichOne = true) (h2 : a.whichTwo = true) (hx : a.xOne = true ∨ a.xTwo = true)
    (out : TorchOut K C (forestDepth (forest.map FullTree.toSkTree) + 1)) :
    smoothPytorch env (some kind) forest X a sources ≠ .ok out := by
  intro h
  obtain ⟨pr, one, two, all, net, st, b, g1, g2, g3, -, g5, -, g7, g8, g9, -⟩ := smoothPytorch_ok h
  have hwf' : ∀ t ∈ forest.map FullTree.toSkTree, t.WF := by
    intro t ht
    obtain ⟨u, hu, rfl⟩ := List.mem_map.1 ht
    exact hwf u hu
  obtain ⟨pr', d', k1, k2, k3, k4, k5, k6⟩ := updateRf_ok hwf' g9
  rw [g1] at k1
  cases k1
  obtain ⟨src, more, -, -, -, -, j5, j6⟩ := prep_ok hwf' g1
  have n1 := names_one C more
  have n2 := names_two C more
  rw [← j5] at n1
  rw [← j6] at n2
  have hV : net.numVars = one.length + two.length := by
    unfold initNet at g5
    split at g5
    · cases g5; rfl
    · split_ifs at g5; cases g5; rfl
  have hgt : 5 < one.length + two.length := by
    unfold trainDicts at g2
    simp only [h1, h2, if_true] at g2
    rw [if_pos (by rcases hx with h | h <;> simp [h])] at g2
    obtain ⟨⟨od, td⟩, m1, m2⟩ := bind_ok g2
    simp only [pure, Except.pure, Except.ok.injEq, Prod.mk.injEq] at m2
    obtain ⟨rfl, rfl⟩ := m2
    unfold nodeSpatial at m1
    rw [if_neg (by rcases hx with h | h <;> simp [h])] at m1
    obtain ⟨od', q1, m1⟩ := bind_ok m1
    obtain ⟨td', q2, m1⟩ := bind_ok m1
    cases m1
    have l1 : pr.one.length ≤ (od.getD pr.one).length ∧
        (a.xOne = true → pr.one.length < (od.getD pr.one).length) := by
      by_cases hxo : a.xOne = true
      · simp only [hxo, if_true, Option.mapM_some] at q1
        cases hq : List.foldlM (fun d j => (do
            let v ← centerOne forest X j
            pure (dictSet d (centerName j) v) : Except PyErr _)) pr.one (List.finRange p) with
        | error e => rw [hq] at q1; cases q1
        | ok d1 =>
          rw [hq] at q1
          cases q1
          have := foldlM_dictSet_lt hp (fun e he => n1 e he 0) hq
          exact ⟨this.le, fun _ => this⟩
      · simp only [hxo] at q1
        cases q1
        exact ⟨le_rfl, fun h => absurd h hxo⟩
    have l2 : pr.two.length ≤ (td.getD pr.two).length ∧
        (a.xTwo = true → pr.two.length < (td.getD pr.two).length) := by
      by_cases hxo : a.xTwo = true
      · simp only [hxo, if_true, Option.mapM_some] at q2
        cases hq : List.foldlM (fun d j => (do
            let v ← centerTwo (forestDepth (forest.map FullTree.toSkTree) + 1) forest X j
            pure (dictSet d (centerName j) v) : Except PyErr _)) pr.two (List.finRange p) with
        | error e => rw [hq] at q2; cases q2
        | ok d1 =>
          rw [hq] at q2
          cases q2
          have := foldlM_dictSet_lt hp (fun e he => n2 e he 0) hq
          exact ⟨this.le, fun _ => this⟩
      · simp only [hxo] at q2
        cases q2
        exact ⟨le_rfl, fun h => absurd h hxo⟩
    rcases hx with hx | hx
    · have := l1.2 hx; omega
    · have := l2.2 hx; omega
  obtain ⟨-, -, -, -, -, -, r6, -, -⟩ := mkDataset_ok g3
  obtain ⟨-, -, -, -, -, -, s6, s7, -⟩ := mkDataset_ok k5
  rw [k2, prepRows_ids kind _ hwf' hC] at r6
  rw [prepRows_ids kind _ hwf' hC] at s6
  cases forest with
  | nil =>
    have I := runLoop_inv g7
    rw [r6] at I
    have := (I.empty (by simp)).2.1
    rw [g8] at this
    cases this
  | cons t ts =>
    unfold updateTrees at k6
    rw [s6, if_neg (by omega), show ((t :: ts).map FullTree.toSkTree).zipIdx =
      (t.toSkTree, 0) :: (ts.map FullTree.toSkTree).zipIdx 1 from rfl, List.mapM_cons] at k6
    obtain ⟨t', v1, -⟩ := bind_ok k6
    rw [if_pos (by simp)] at v1
    obtain ⟨y, v2, -⟩ := bind_ok v1
    unfold forward at v2
    rw [if_pos] at v2
    · cases v2
    · right
      show d'.numVars < net.numVars
      omega

/-- Instance of C70: the run of `C70_refuted` with both dictionaries. -/
example : (match smoothPytorch exEnvVar (some .reg) [exFull] [![0]] exTorchArgs exSources with
    | .ok out => some (valuesOf out.rf,
      match updateTrees exExp out.best out.data ([exFull].map FullTree.toSkTree) with
      | .ok f => some (valuesOf f) | .error _ => none)
    | .error _ => none) = some ([[[5 / 2], [2], [3]]], some [[[5 / 2], [2], [3]]]) := by decide +kernel

example : (match smoothPytorch exEnvVar (some .reg) [exFull] [![0]] { exTorchArgs with xOne := true }
      exSources with
    | .ok _ => none | .error e => some e) = some .indexError := by decide +kernel

end SmoothRF
