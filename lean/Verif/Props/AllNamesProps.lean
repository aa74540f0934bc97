import Verif.Props.AllRepeatProps
import Verif.Props.RenameProps
import Verif.Props.TreeOrderProps

/-!
# Names and order in smooth_all (C221)

Renumbered nodes, exchanged children and rearranged trees.
-/

set_option linter.unusedSectionVars false

namespace SmoothRF
open SkTree Topo

variable {K : Type} [Field K] [LinearOrder K] [IsStrictOrderedRing K]

theorem quadG_perm {n : ℕ} {l l' : List (QRow K n)} (h : l'.Perm l) : quadG l' = quadG l := by
  funext i j
  exact (h.map _).sum_eq

theorem quadA_perm {n : ℕ} {l l' : List (QRow K n)} (h : l'.Perm l) : quadA l' = quadA l := by
  funext i
  exact (h.map _).sum_eq

theorem allSolve_perm {o : AllOracles K} {fuel n : ℕ} {nc : Bool} {l l' : List (QRow K n)} (h : l'.Perm l) :
    allSolve o fuel nc l' = allSolve o fuel nc l := by
  unfold allSolve
  rw [quadG_perm h, quadA_perm h]

theorem TreeIso.levelRatio {t t' : SkTree K 1} {e : t.Node ≃ t'.Node} (I : TreeIso (Equiv.refl (Fin 1)) t t' e)
    (hwf : t.WF) (hwf' : t'.WF) (pa : Bool) (r : Fin t.nLeaves) (k : ℕ) :
    SmoothRF.levelRatio t' pa (I.leafMap hwf hwf' r) k = SmoothRF.levelRatio t pa r k := by
  unfold SmoothRF.levelRatio
  rw [I.levelSum hwf hwf' .standard pa (v := fun j => t.nSamp (t.leafNode j)) (I.nSampLeaf hwf hwf'),
    I.levelSum hwf hwf' .standard pa (v := fun j => t.nSamp (t.leafNode j) * t.value (t.leafNode j) 0)
      (fun j => I.mass hwf hwf' .reg 0 j)]

theorem TreeIso.weightSum {t t' : SkTree K 1} {e : t.Node ≃ t'.Node} (I : TreeIso (Equiv.refl (Fin 1)) t t' e)
    (hwf : t.WF) (hwf' : t'.WF) {rows rows' : List (TuneRow K 1)}
    (h : List.Forall₂ (RowIso (Equiv.refl (Fin 1)) e) rows rows') :
    ((List.range t'.nLeaves).map (SmoothRF.leafWeight rows')).sum =
      ((List.range t.nLeaves).map (SmoothRF.leafWeight rows) : List K).sum := by
  rw [← finRange_map_val, ← finRange_map_val, List.map_map, List.map_map, ← List.ofFn_eq_map, ← List.ofFn_eq_map,
    List.sum_ofFn, List.sum_ofFn, ← Equiv.sum_comp (I.leafMap hwf hwf')]
  exact Finset.sum_congr rfl fun r _ => I.leafWeight hwf hwf' h r

theorem specRows_names {forest forest' : List (SkTree K 1)} {tune tune' : ℕ → List (TuneRow K 1)}
    (F : ForestIso (Equiv.refl (Fin 1)) forest forest' tune tune')
    (hwf : ∀ t ∈ forest, t.WF) (hwf' : ∀ t ∈ forest', t.WF) (pa : Bool) (n : ℕ) :
    (specRows forest' pa n tune').Perm (specRows forest pa n tune) := by
  rw [specRows_eq, specRows_eq]
  refine List.Perm.filter _ ?_
  unfold leafListI
  rw [List.map_flatMap, List.map_flatMap]
  refine flatMap_perm (zipIdx_forall2 (R := fun t t' i => t ∈ forest ∧ t' ∈ forest' ∧
    ∃ e : t.Node ≃ t'.Node, TreeIso (Equiv.refl (Fin 1)) t t' e ∧
      List.Forall₂ (RowIso (Equiv.refl (Fin 1)) e) (tune i) (tune' i)) 0 F.len.symm
    fun i x x' hx hx' => ⟨List.mem_of_getElem? hx, List.mem_of_getElem? hx', by
      rw [zero_add]; exact F.tree i x x' hx hx'⟩) fun a b hab => ?_
  obtain ⟨hi, ht, ht', e, I, hr⟩ := hab
  obtain ⟨t, i⟩ := a
  obtain ⟨t', i'⟩ := b
  dsimp only at hi ht ht' I hr
  subst hi
  have w := hwf t ht
  have w' := hwf' t' ht'
  have hp : ((List.finRange t.nLeaves).map (I.leafMap w w')).Perm (List.finRange t'.nLeaves) := by
    refine (List.perm_ext_iff_of_nodup ((List.nodup_finRange _).map (I.leafMap w w').injective)
      (List.nodup_finRange _)).2 fun a => ?_
    simp only [List.mem_finRange, List.mem_map, true_and, iff_true]
    exact (I.leafMap w w').surjective a
  rw [List.map_map, List.map_map]
  refine (hp.map _).symm.trans (List.Perm.of_eq ?_)
  rw [List.map_map]
  refine List.map_congr_left fun r _ => ?_
  simp only [Function.comp]
  rw [I.leafWeight w w' hr, I.leafMean w w' hr, I.weightSum w w' hr]
  congr 1
  funext k
  exact I.levelRatio w w' pa r k

theorem specRows_order {τ : ℕ → ℕ} {forest forest' : List (SkTree K 1)} (h : Rearranged τ forest forest')
    {tune tune' : ℕ → List (TuneRow K 1)} (ht : ∀ i < forest.length, tune' (τ i) = tune i) (pa : Bool) (n : ℕ) :
    (specRows forest' pa n tune').Perm (specRows forest pa n tune) := by
  rw [specRows_eq, specRows_eq]
  refine List.Perm.filter _ (((leafListI_rearranged h).map _).trans (List.Perm.of_eq ?_))
  rw [List.map_map]
  refine List.map_congr_left fun q hq => ?_
  simp only [Function.comp, ht q.2 (leafListI_lt hq)]

/-- Two forests with the same rows up to order: the same weights. -/
theorem smoothAll_same_rows {o : AllOracles K} {fuel : ℕ} {forest forest' : List (SkTree K 1)}
    (hwf : ∀ t ∈ forest, t.WF) (hwf' : ∀ t ∈ forest', t.WF)
    (hn' : ∀ t ∈ forest', ∀ r, 0 < t.nSamp (t.leafNode r)) {c : AllCfg}
    {sources sources' : TuneSrc → ℕ → List (TuneRow K 1)}
    (ed : forestDepth forest' = forestDepth forest)
    (hrows : ∀ n, (specRows forest' c.parentsAll n (sources' (allSource c))).Perm
      (specRows forest c.parentsAll n (sources (allSource c))))
    (hne : (∀ tt ∈ forest.zipIdx, sources (allSource c) tt.2 ≠ []) →
      ∀ tt ∈ forest'.zipIdx, sources' (allSource c) tt.2 ≠ [])
    {rf : List (SkTree K 1)} {lamb : Fin (forestDepth forest + 1) → K}
    (h : smoothAll o fuel forest c sources = .ok (some (rf, lamb))) :
    ∃ rf' lamb', smoothAll o fuel forest' c sources' = .ok (some (rf', lamb')) ∧
      List.ofFn lamb' = List.ofFn lamb := by
  obtain ⟨flag, tp, g, l, h1, h2, h3, h4, h5, -⟩ := smoothAll_ok hwf h
  have hc : c.nTrained ≠ 0 ∧ c.yLen = c.nTrained := by
    unfold smoothAll at h
    obtain ⟨p, hp, -⟩ := bind_ok h
    obtain ⟨a1, a2, -⟩ := allPrepare_ok hwf hp
    exact ⟨a1, a2⟩
  have ed' : forestDepth forest' + 1 = forestDepth forest + 1 := by rw [ed]
  obtain ⟨g', l', k1, k2, k3⟩ := solve_transport ed' h3 h4
  rw [← allSolve_perm (hrows _)] at k1
  rw [← quadA_perm (hrows _)] at k2
  obtain ⟨rf', hr⟩ := smoothAll_returns hwf' hn' hc.1 hc.2 h1 (hne h2) k1 k2
  refine ⟨rf', _, hr, ?_⟩
  rw [h5]
  cases flag
  · exact k3
  · exact ofFn_lambBase ed'

/-- C221, names: renumbering the nodes and exchanging left and right children, the tuning rows following their
leaves, changes neither the weights nor the values of corresponding nodes, with or without `parents_all`,
constrained or not, whatever the library routines answer. -/
theorem C221_names {o : AllOracles K} {fuel : ℕ} {forest forest' : List (SkTree K 1)}
    (hwf : ∀ t ∈ forest, t.WF) (hwf' : ∀ t ∈ forest', t.WF)
    (hn : ∀ t ∈ forest, ∀ r, 0 < t.nSamp (t.leafNode r)) {c : AllCfg} {src : TuneSrc} (hsrc : AllUses c src)
    {sources sources' : TuneSrc → ℕ → List (TuneRow K 1)}
    (F : ForestIso (Equiv.refl (Fin 1)) forest forest' (sources src) (sources' src))
    {rf : List (SkTree K 1)} {lamb : Fin (forestDepth forest + 1) → K}
    (h : smoothAll o fuel forest c sources = .ok (some (rf, lamb))) :
    ∃ rf' lamb', smoothAll o fuel forest' c sources' = .ok (some (rf', lamb')) ∧
      List.ofFn lamb' = List.ofFn lamb ∧ rf'.length = rf.length ∧
      ∀ (i : ℕ) (t t' s s' : SkTree K 1), forest[i]? = some t → forest'[i]? = some t' → rf[i]? = some s →
        rf'[i]? = some s' → ∀ e : t.Node ≃ t'.Node, TreeIso (Equiv.refl (Fin 1)) t t' e →
          ∃ (v : t.Node → Fin 1 → K) (v' : t'.Node → Fin 1 → K), s = { t with value := v } ∧
            s' = { t' with value := v' } ∧ ∀ j x, v' (e j) x = v j x := by
  rw [allUses_iff.1 hsrc] at F
  have hn' : ∀ t ∈ forest', ∀ r, 0 < t.nSamp (t.leafNode r) := by
    intro t' ht' r'
    obtain ⟨i, hi⟩ := List.mem_iff_getElem?.1 ht'
    obtain ⟨hlt, -⟩ := List.getElem?_eq_some_iff.1 hi
    rw [F.len] at hlt
    obtain ⟨e, I, -⟩ := F.tree i _ _ (List.getElem?_eq_getElem hlt) hi
    have w := hwf _ (List.getElem_mem hlt)
    obtain ⟨r, rfl⟩ := (I.leafMap w (hwf' t' ht')).surjective r'
    rw [I.nSampLeaf w (hwf' t' ht')]
    exact hn _ (List.getElem_mem hlt) r
  obtain ⟨rf', lamb', h', hl⟩ := smoothAll_same_rows (sources' := sources') hwf hwf' hn' (F.depth hwf hwf')
    (fun n => specRows_names F hwf hwf' c.parentsAll n) (by
      rintro hne ⟨t', i⟩ htt hc
      have hi : forest'[i]? = some t' := by simpa [List.mem_zipIdx_iff_getElem?] using htt
      obtain ⟨hlt, -⟩ := List.getElem?_eq_some_iff.1 hi
      rw [F.len] at hlt
      obtain ⟨e, I, hr⟩ := F.tree i _ _ (List.getElem?_eq_getElem hlt) hi
      dsimp only at hc
      rw [hc, List.forall₂_nil_right_iff] at hr
      exact hne (forest[i], i) (by simp [List.mem_zipIdx_iff_getElem?, hlt]) hr) h
  have u := C64_values hwf h
  have u' := C64_values hwf' h'
  refine ⟨rf', lamb', h', hl, by rw [← u.length_eq, ← u'.length_eq, F.len], ?_⟩
  intro i t t' s s' ht ht' hs hs' e I
  have w := hwf t (List.mem_of_getElem? ht)
  have w' := hwf' t' (List.mem_of_getElem? ht')
  obtain ⟨v, rfl, hv1, hv2⟩ := (forall2_getElem u ht hs : LeafUpdate t s _)
  obtain ⟨v', rfl, hv1', hv2'⟩ := (forall2_getElem u' ht' hs' : LeafUpdate t' s' _)
  refine ⟨v, v', rfl, rfl, fun j x => ?_⟩
  by_cases hj : t.IsLeaf j
  · obtain ⟨r, rfl⟩ := exists_leafNode ((isLeaf_iff w).1 hj)
    rw [← I.leafNode_leafMap w w', hv1', hv1]
    simp only [I.levelRatio w w']
    exact sum_width hl fun k => levelRatio t c.parentsAll r k
  · rw [hv2 j x hj, hv2' (e j) x, I.value]
    · rfl
    · intro hl
      exact hj fun c hc => hl (e c) ((I.child j c).2 hc)

/-- C221, order: putting the trees in another order, each with its tuning rows, leaves the weights as they are
and puts the returned trees in that order. -/
theorem C221_order {o : AllOracles K} {fuel : ℕ} {τ : ℕ → ℕ} {forest forest' : List (SkTree K 1)}
    (hwf : ∀ t ∈ forest, t.WF) (hn : ∀ t ∈ forest, ∀ r, 0 < t.nSamp (t.leafNode r))
    (hτ : Rearranged τ forest forest') {c : AllCfg} {src : TuneSrc} (hsrc : AllUses c src)
    {sources sources' : TuneSrc → ℕ → List (TuneRow K 1)}
    (ht : ∀ i < forest.length, sources' src (τ i) = sources src i)
    {rf : List (SkTree K 1)} {lamb : Fin (forestDepth forest + 1) → K}
    (h : smoothAll o fuel forest c sources = .ok (some (rf, lamb))) :
    ∃ rf' lamb', smoothAll o fuel forest' c sources' = .ok (some (rf', lamb')) ∧
      List.ofFn lamb' = List.ofFn lamb ∧ Rearranged τ rf rf' := by
  rw [allUses_iff.1 hsrc] at ht
  have hp := hτ.perm
  have hwf' : ∀ t ∈ forest', t.WF := fun t h => hwf t (hp.mem_iff.1 h)
  obtain ⟨rf', lamb', h', hl⟩ := smoothAll_same_rows (sources' := sources') hwf hwf'
    (fun t h => hn t (hp.mem_iff.1 h)) (forestDepth_perm hp) (fun n => specRows_order hτ ht c.parentsAll n) (by
      intro hne tt htt
      obtain ⟨q, hq, rfl⟩ := List.mem_map.1 (hτ.mem_iff.1 htt)
      have hlt : q.2 < forest.length := by simpa using List.snd_lt_of_mem_zipIdx hq
      rw [ht q.2 hlt]
      exact hne q hq) h
  refine ⟨rf', lamb', h', hl, ?_⟩
  rw [forall2_leafUpdate (f := fun t r _ => ∑ k, lamb k * levelRatio t c.parentsAll r k) (C64_values hwf h),
    forall2_leafUpdate (f := fun t r _ => ∑ k, lamb' k * levelRatio t c.parentsAll r k) (C64_values hwf' h')]
  simp only [fun t (r : Fin t.nLeaves) => sum_width hl fun k => levelRatio t c.parentsAll r k]
  exact hτ.map _

/-! ### examples -/

/-- A routine whose answer depends on the vector it is given: the vector itself. -/
abbrev exEchoOracles : AllOracles ℚ :=
  { exAllOracles with qp := fun _ a _ _ _ => some fun i => a i }

/-- Instance of `C221_names`: a tree and its mirror image. -/
example : ForestIso (Equiv.refl (Fin 1)) [exTree] [exMirror] exTune exMirrorTune ∧
    (∀ r, 0 < exTree.nSamp (exTree.leafNode r)) ∧
    allOf [exTree] (smoothAll exEchoOracles 5 [exTree]
      { exAllCfg true (.bool false) with innerAssess := false } fun _ => exTune) =
      some ([[13 / 2, 3, 2849 / 12, 3401 / 12, 5051 / 12]], [46 / 3, 13, 169 / 6]) ∧
    allOf [exMirror] (smoothAll exEchoOracles 5 [exMirror]
      { exAllCfg true (.bool false) with innerAssess := false } fun _ => exMirrorTune) =
      some ([[13 / 2, 5051 / 12, 3, 3401 / 12, 2849 / 12]], [46 / 3, 13, 169 / 6]) :=
  ⟨exMirror_forest, by decide +kernel, by decide +kernel, by decide +kernel⟩

/-- Instance of `C221_order`: two trees exchanged. -/
example : Rearranged (fun i => 1 - i) [exStump, exTree] [exTree, exStump] ∧
    allOf [exStump, exTree] (smoothAll exEchoOracles 5 [exStump, exTree]
      { exAllCfg true (.bool false) with innerAssess := false } fun _ => exTuneTwo) =
      some ([[5 / 2, 1925 / 8, 3065 / 8], [13 / 2, 3, 3389 / 8, 4529 / 8, 7817 / 8]], [95 / 2, 36, 165 / 4]) ∧
    allOf [exTree, exStump] (smoothAll exEchoOracles 5 [exTree, exStump]
      { exAllCfg true (.bool false) with innerAssess := false } fun _ i => exTuneTwo (1 - i)) =
      some ([[13 / 2, 3, 3389 / 8, 4529 / 8, 7817 / 8], [5 / 2, 1925 / 8, 3065 / 8]], [95 / 2, 36, 165 / 4]) :=
  ⟨List.Perm.swap _ _ _, by decide +kernel, by decide +kernel⟩

end SmoothRF
