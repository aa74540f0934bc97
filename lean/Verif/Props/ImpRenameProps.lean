import Verif.Props.CleanOrderProps
import Verif.Props.ImpOrderProps

/-!
# C141: names of nodes, sides and classes under the impurity distance
-/

set_option linter.unusedSectionVars false

namespace SmoothRF
open SkTree Topo

variable {K : Type} [Field K] [LinearOrder K] [IsStrictOrderedRing K] {C : ℕ}

/-- Corresponding nodes have the same impurity. -/
def SameImpurity {t t' : SkTree K C} (e : t.Node ≃ t'.Node) : Prop := ∀ i, t'.impurity (e i) = t.impurity i

theorem finRange_equiv {n m : ℕ} (f : Fin n ≃ Fin m) : (List.finRange m).Perm ((List.finRange n).map f) := by
  refine (List.perm_ext_iff_of_nodup (List.nodup_finRange _)
    ((List.nodup_finRange _).map f.injective)).2 fun a => ?_
  simp only [List.mem_finRange, List.mem_map, true_and, true_iff]
  exact f.surjective a

theorem ravelM_equiv {n m : ℕ} (f : Fin n ≃ Fin m) {d : Fin n → Fin n → K} {d' : Fin m → Fin m → K}
    (h : ∀ i j, d' (f i) (f j) = d i j) : (ravelM d').Perm (ravelM d) := by
  unfold ravelM
  refine ((finRange_equiv f).flatMap_right _).trans ?_
  rw [List.flatMap_map]
  refine List.Perm.flatMap_left _ fun i _ => ?_
  refine ((finRange_equiv f).map _).trans (List.Perm.of_eq ?_)
  rw [List.map_map]
  exact List.map_congr_left fun j _ => h i j

theorem foldlMin_spec : ∀ (l : List K) (a : K), l.foldl min a ∈ a :: l ∧ ∀ x ∈ a :: l, l.foldl min a ≤ x := by
  intro l
  induction l with
  | nil => simp
  | cons b l ih =>
    intro a
    obtain ⟨h1, h2⟩ := ih (min a b)
    rw [List.foldl_cons]
    refine ⟨?_, fun x hx => ?_⟩
    · rcases List.mem_cons.1 h1 with h1 | h1
      · rw [h1]; rcases min_choice a b with h | h <;> simp [h]
      · simp [h1]
    · have h3 := h2 (min a b) (by simp)
      rcases List.mem_cons.1 hx with rfl | hx
      · exact h3.trans (min_le_left _ _)
      rcases List.mem_cons.1 hx with rfl | hx
      · exact h3.trans (min_le_right _ _)
      · exact h2 x (by simp [hx])

theorem mkBreaks_perm (lv : List K) {l l' : List K} (h : l'.Perm l) : mkBreaks lv l' = mkBreaks lv l := by
  cases l with
  | nil => rw [h.eq_nil]
  | cons a l =>
    cases l' with
    | nil => exact absurd h.symm.eq_nil (by simp)
    | cons a' l' =>
      have e : l'.foldl min a' = l.foldl min a := by
        obtain ⟨h1, h2⟩ := foldlMin_spec l a
        obtain ⟨h3, h4⟩ := foldlMin_spec l' a'
        exact le_antisymm (h4 _ (h.mem_iff.2 h1)) (h2 _ (h.mem_iff.1 h3))
      unfold mkBreaks
      simp only [e]

theorem discretise_equiv {n m L L' : ℕ} (f : Fin n ≃ Fin m) {d : Fin n → Fin n → K} {d' : Fin m → Fin m → K}
    (h : ∀ i j, d' (f i) (f j) = d i j) {lv : List K} {lev : Fin n → Fin n → ℕ} {lev' : Fin m → Fin m → ℕ}
    (h1 : discretise lv d = .ok (lev, L)) (h2 : discretise lv d' = .ok (lev', L')) :
    L' = L ∧ ∀ i j, lev' (f i) (f j) = lev i j := by
  obtain ⟨br, hb, rfl, rfl⟩ := discretise_ok h1
  obtain ⟨br', hb', rfl, rfl⟩ := discretise_ok h2
  have hp : (positives d').Perm (positives d) := (ravelM_equiv f h).filter _
  rw [mkBreaks_perm lv hp, hb] at hb'
  cases hb'
  exact ⟨rfl, fun i j => by simp only [h i j]⟩

namespace TreeIso

variable {σ : Equiv.Perm (Fin C)} {t t' : SkTree K C} {e : t.Node ≃ t'.Node}

theorem distImp (I : TreeIso σ t t' e) (hi : SameImpurity e) (hwf : t.WF) (hwf' : t'.WF) (s : Style)
    (i j : Fin t.nLeaves) :
    t'.distImpurity t'.impurity s (I.leafMap hwf hwf' i) (I.leafMap hwf hwf' j) =
      t.distImpurity t.impurity s i j := by
  have key : ∀ i j, t'.distImpurity t'.impurity .standard (I.leafMap hwf hwf' i) (I.leafMap hwf hwf' j) =
      t.distImpurity t.impurity .standard i j := by
    intro i j
    obtain ⟨a, ha⟩ := exists_lca hwf (t.leafNode i) (t.leafNode j)
    have ha' := I.lca ha
    rw [← I.leafNode_leafMap hwf hwf', ← I.leafNode_leafMap hwf hwf'] at ha'
    rw [(C10_distance_impurity _ hwf _ i j a ha).1, (C10_distance_impurity _ hwf' _ _ _ _ ha').1,
      I.leafNode_leafMap, hi, hi]
  have hs : ∀ (t : SkTree K C) s i j, t.distImpurity t.impurity s i j =
      applyStyle s (t.distImpurity t.impurity .standard) i j := by
    intro t s i j
    cases s <;> rfl
  rw [hs, hs t]
  cases s <;> simp only [applyStyle, key]

theorem levelSumBy (I : TreeIso σ t t' e) (hwf : t.WF) (hwf' : t'.WF) (pa : Bool)
    {D : Fin t.nLeaves → Fin t.nLeaves → ℤ} {D' : Fin t'.nLeaves → Fin t'.nLeaves → ℤ}
    (hD : ∀ i j, D' (I.leafMap hwf hwf' i) (I.leafMap hwf hwf' j) = D i j)
    {v : Fin t.nLeaves → K} {v' : Fin t'.nLeaves → K} (hv : ∀ j, v' (I.leafMap hwf hwf' j) = v j)
    (r : Fin t.nLeaves) (k : ℕ) :
    SmoothRF.levelSum pa D' v' (I.leafMap hwf hwf' r) k = SmoothRF.levelSum pa D v r k := by
  unfold SmoothRF.levelSum
  split_ifs <;>
  · rw [Finset.sum_filter, Finset.sum_filter, ← Equiv.sum_comp (I.leafMap hwf hwf')]
    exact Finset.sum_congr rfl fun j _ => by rw [hD, hv]

theorem valueBy (I : TreeIso σ t t' e) (hwf : t.WF) (hwf' : t'.WF) (kind : Kind) (pa : Bool)
    {D : Fin t.nLeaves → Fin t.nLeaves → ℤ} {D' : Fin t'.nLeaves → Fin t'.nLeaves → ℤ}
    (hD : ∀ i j, D' (I.leafMap hwf hwf' i) (I.leafMap hwf hwf' j) = D i j)
    {n : ℕ} (lamb : Fin n → K) (r : Fin t.nLeaves) (c : Fin C) :
    SmoothRF.valueBy kind t' D' pa lamb (I.leafMap hwf hwf' r) c =
      SmoothRF.valueBy kind t D pa lamb r (σ c) := by
  have h1 : denBy t' D' pa lamb (I.leafMap hwf hwf' r) = denBy t D pa lamb r :=
    Finset.sum_congr rfl fun k _ => by
      rw [I.levelSumBy hwf hwf' pa hD (v := fun j => t.nSamp (t.leafNode j)) (I.nSampLeaf hwf hwf')]
  have h2 : numBy kind t' D' pa lamb (I.leafMap hwf hwf' r) c = numBy kind t D pa lamb r (σ c) :=
    Finset.sum_congr rfl fun k _ => by
      rw [I.levelSumBy hwf hwf' pa hD (v := fun j => t.mass kind (t.leafNode j) (σ c)) (I.mass hwf hwf' kind c)]
  unfold SmoothRF.valueBy
  rw [h1, h2]

theorem blockBy (I : TreeIso σ t t' e) (hwf : t.WF) (hwf' : t'.WF) (kind : Kind) (pa al : Bool)
    {D D' : (t : SkTree K C) → Fin t.nLeaves → Fin t.nLeaves → ℤ}
    (hD : ∀ i j, D' t' (I.leafMap hwf hwf' i) (I.leafMap hwf hwf' j) = D t i j)
    {tune tune' : ℕ → List (TuneRow K C)} {i : ℕ} (h : List.Forall₂ (RowIso σ e) (tune i) (tune' i)) (n : ℕ)
    (c : Fin C) :
    ((List.finRange t'.nLeaves).map fun r => tuneRowBy kind D' pa al tune' n c (⟨t', r⟩, i)).Perm
      ((List.finRange t.nLeaves).map fun r => tuneRowBy kind D pa al tune n (σ c) (⟨t, r⟩, i)) := by
  refine ((finRange_equiv (I.leafMap hwf hwf')).map _).trans (List.Perm.of_eq ?_)
  rw [List.map_map]
  refine List.map_congr_left fun r _ => ?_
  simp only [Function.comp, tuneRowBy]
  congr 1
  · exact I.leafMean hwf hwf' h r c
  · exact I.leafWeight hwf hwf' h r
  · funext k
    exact I.levelSumBy hwf hwf' pa hD (I.mass hwf hwf' kind c) r k
  · funext k
    exact I.levelSumBy hwf hwf' pa hD (I.nSampLeaf hwf hwf') r k

end TreeIso

/-- The forests correspond, impurities included: tree `t` is tree `τ t` of the second one up to names;
tree 0 stays, and so do the trees the quantiles are taken from. -/
structure ImpSame (σ : Equiv.Perm (Fin C)) (forest forest' : List (SkTree K C)) (levels : Option (Levels K))
    (τ : ℕ → ℕ) : Prop where
  len : forest'.length = forest.length
  trees : Rearranges forest.length τ
  first : τ 0 = 0
  five : (∃ l, levels = some (.arr l)) ∨ ∀ t < forest.length, t < 5 → τ t < 5
  tree : ∀ t tr tr', forest[t]? = some tr → forest'[τ t]? = some tr' → ∃ e : tr.Node ≃ tr'.Node,
    TreeIso σ tr tr' e ∧ SameImpurity e

theorem flatMap_range {α β : Type} (l : List α) (g : α → List β) :
    l.flatMap g = (List.range l.length).flatMap fun i => (l[i]?.map g).getD [] := by
  induction l with
  | nil => rfl
  | cons a l ih =>
    rw [List.flatMap_cons, List.length_cons, List.range_succ_eq_map, List.flatMap_cons, ih, List.flatMap_map]
    rfl

theorem Rearranges.sub {n k : ℕ} {τ : ℕ → ℕ} (h : Rearranges n τ) (hk : k ≤ n) (hm : ∀ t < k, τ t < k) :
    Rearranges k τ := by
  have hn : ((List.range k).map τ).Nodup := by
    refine List.Nodup.map_on (fun a ha b hb e => ?_) List.nodup_range
    have hn : ((List.range n).map τ).Nodup := h.nodup_iff.2 List.nodup_range
    refine List.inj_on_of_nodup_map hn ?_ ?_ e <;> rw [List.mem_range]
    · exact (List.mem_range.1 ha).trans_le hk
    · exact (List.mem_range.1 hb).trans_le hk
  refine (List.subperm_of_subset hn fun x hx => ?_).perm_of_length_le (by simp)
  obtain ⟨t, ht, rfl⟩ := List.mem_map.1 hx
  exact List.mem_range.2 (hm t (List.mem_range.1 ht))

/-- The quantile breaks agree. -/
theorem ImpSame.quantiles {σ : Equiv.Perm (Fin C)} {forest forest' : List (SkTree K C)}
    {levels : Option (Levels K)} {τ : ℕ → ℕ} (F : ImpSame σ forest forest' levels τ)
    (hwf : ∀ t ∈ forest, t.WF) (hwf' : ∀ t ∈ forest', t.WF) (s : Style)
    (h5 : ∀ t < forest.length, t < 5 → τ t < 5) (m : ℕ) :
    quantileBreaks ((forest'.take 5).flatMap fun t => ravelM (t.distImpurity t.impurity s)) m =
      quantileBreaks ((forest.take 5).flatMap fun t => ravelM (t.distImpurity t.impurity s)) m := by
  refine quantileBreaks_perm ?_ m
  rw [flatMap_range, flatMap_range (forest.take 5), List.length_take, List.length_take, F.len]
  have hR : Rearranges (min 5 forest.length) τ := F.trees.sub (by omega) fun t ht => by
    have h1 := h5 t (by omega) (by omega)
    have h2 := F.trees.lt (show t < forest.length by omega)
    omega
  refine (hR.symm.flatMap_right _).trans ?_
  rw [List.flatMap_map]
  refine List.Perm.flatMap_left _ fun t ht => ?_
  have ht := List.mem_range.1 ht
  have ht1 : t < forest.length := by omega
  have ht2 : τ t < forest'.length := by rw [F.len]; exact F.trees.lt ht1
  have ht3 : τ t < 5 := h5 t ht1 (by omega)
  rw [List.getElem?_take_of_lt ht3, List.getElem?_take_of_lt (by omega), List.getElem?_eq_getElem ht1,
    List.getElem?_eq_getElem ht2]
  obtain ⟨e, I, hi⟩ := F.tree t _ _ (List.getElem?_eq_getElem ht1) (List.getElem?_eq_getElem ht2)
  exact ravelM_equiv (I.leafMap (hwf _ (List.getElem_mem ht1)) (hwf' _ (List.getElem_mem ht2)))
    (I.distImp hi _ _ s)

/-- The matrices of corresponding forests have the same width, and corresponding leaves are at the same
levels. -/
theorem ImpSame.matrices {σ : Equiv.Perm (Fin C)} {forest forest' : List (SkTree K C)}
    {levels : Option (Levels K)} {τ : ℕ → ℕ} (F : ImpSame σ forest forest' levels τ)
    (hwf : ∀ t ∈ forest, t.WF) (hwf' : ∀ t ∈ forest', t.WF) {kind : Kind} {s : Style} {pa : Bool}
    {ge : GE K C} (h : gammaEtaForestImp kind forest s pa levels = .ok ge) :
    ∃ (ge' : GE K C) (D D' : (t : SkTree K C) → Fin t.nLeaves → Fin t.nLeaves → ℤ),
      gammaEtaForestImp kind forest' s pa levels = .ok ge' ∧ lastLevel ge' = lastLevel ge ∧
      StackedBy kind forest pa (lastLevel ge + 1) D ge ∧ StackedBy kind forest' pa (lastLevel ge + 1) D' ge' ∧
      ∀ t tr tr', forest[t]? = some tr → forest'[τ t]? = some tr' → ∀ (e : tr.Node ≃ tr'.Node)
        (I : TreeIso σ tr tr' e), SameImpurity e → ∀ (w : tr.WF) (w' : tr'.WF) i j,
          D' tr' (I.leafMap w w' i) (I.leafMap w w' j) = D tr i j := by
  obtain ⟨lev, hI, S⟩ := imp_stacked hwf h
  have hex : ∃ ge', gammaEtaForestImp kind forest' s pa levels = .ok ge' := by
    have hne : forest ≠ [] → forest' ≠ [] := fun hn e => hn (by
      have := F.len
      rw [e] at this
      exact List.length_eq_zero_iff.1 this.symm)
    have hd : (∀ t ∈ forest, ∃ i j, 0 < t.distImpurity t.impurity s i j) →
        ∀ t ∈ forest', ∃ i j, 0 < t.distImpurity t.impurity s i j := by
      intro hh tr' htr'
      obtain ⟨t', ht', rfl⟩ := List.mem_iff_getElem.1 htr'
      obtain ⟨t, ht, rfl⟩ := F.trees.surj (show t' < forest.length by rw [← F.len]; exact ht')
      obtain ⟨e, I, hi⟩ := F.tree t _ _ (List.getElem?_eq_getElem ht) (List.getElem?_eq_getElem ht')
      obtain ⟨i, j, hij⟩ := hh _ (List.getElem_mem ht)
      exact ⟨I.leafMap (hwf _ (List.getElem_mem ht)) (hwf' _ htr') i,
        I.leafMap (hwf _ (List.getElem_mem ht)) (hwf' _ htr') j, by rwa [I.distImp hi]⟩
    rcases levels with _ | l | n
    · rw [(C94_returns kind forest s pa).2.2] at h; cases h
    · rcases Nat.eq_zero_or_pos l with rfl | hn
      · unfold gammaEtaForestImp at h
        obtain ⟨lv, hlv, -⟩ := bind_ok h
        cases hlv
      · obtain ⟨a, b⟩ := ((C94_returns kind forest s pa).2.1 l hn).1 ⟨ge, h⟩
        exact ((C94_returns kind forest' s pa).2.1 l hn).2 ⟨hne a, hd b⟩
    · obtain ⟨a, b, c⟩ := ((C94_returns kind forest s pa).1 n).1 ⟨ge, h⟩
      exact ((C94_returns kind forest' s pa).1 n).2 ⟨hne a, b, hd c⟩
  obtain ⟨ge', h'⟩ := hex
  obtain ⟨lev', hI', S'⟩ := imp_stacked hwf' h'
  obtain ⟨⟨lv, b1, ⟨t0, ht0, b2⟩, b3⟩, -⟩ := hI
  obtain ⟨⟨lv', b1', ⟨t0', ht0', b2'⟩, b3'⟩, -⟩ := hI'
  have hlv : lv' = lv := by
    rcases b1 with b1 | ⟨m, b1, hm⟩
    · rcases b1' with b1' | ⟨m', b1', -⟩
      · rw [b1] at b1'; cases b1'; rfl
      · rw [b1] at b1'; cases b1'
    · rcases b1' with b1' | ⟨m', b1', hm'⟩
      · rw [b1] at b1'; cases b1'
      · rw [b1] at b1'
        cases b1'
        rcases F.five with ⟨l, hq⟩ | hq
        · rw [b1] at hq; cases hq
        · rw [F.quantiles hwf hwf' s hq m, hm] at hm'
          cases hm'; rfl
  subst hlv
  have hL : lastLevel ge' = lastLevel ge := by
    have h0 : forest[0]? = some t0 := by rw [← List.head?_eq_getElem?]; exact ht0
    have h0' : forest'[τ 0]? = some t0' := by rw [F.first, ← List.head?_eq_getElem?]; exact ht0'
    obtain ⟨e, I, hi⟩ := F.tree 0 _ _ h0 h0'
    have := (discretise_equiv (I.leafMap (hwf _ (List.mem_of_getElem? h0)) (hwf' _ (List.mem_of_getElem? h0')))
      (I.distImp hi _ _ s) b2 b2').1
    omega
  rw [hL] at S'
  refine ⟨ge', _, _, h', hL, S, S', fun t tr tr' ht ht' e I hi w w' i j => ?_⟩
  obtain ⟨L1, c1⟩ := b3 tr (List.mem_of_getElem? ht)
  obtain ⟨L2, c2⟩ := b3' tr' (List.mem_of_getElem? ht')
  rw [(discretise_equiv (I.leafMap w w') (I.distImp hi w w' s) c1 c2).2]

theorem rowsBy_perm {σ : Equiv.Perm (Fin C)} {forest forest' : List (SkTree K C)}
    {tune tune' : ℕ → List (TuneRow K C)} (hlen : forest'.length = forest.length)
    (hwf : ∀ t ∈ forest, t.WF) (hwf' : ∀ t ∈ forest', t.WF)
    {D D' : (t : SkTree K C) → Fin t.nLeaves → Fin t.nLeaves → ℤ}
    (h : ∀ i t t', forest[i]? = some t → forest'[i]? = some t' → ∃ (e : t.Node ≃ t'.Node)
      (I : TreeIso σ t t' e), List.Forall₂ (RowIso σ e) (tune i) (tune' i) ∧ ∀ (w : t.WF) (w' : t'.WF) a b,
        D' t' (I.leafMap w w' a) (I.leafMap w w' b) = D t a b) (kind : Kind) (pa al : Bool) (n : ℕ) :
    ((List.finRange C).flatMap fun c => (leafListI forest').map (tuneRowBy kind D' pa al tune' n c)).Perm
      ((List.finRange C).flatMap fun c => (leafListI forest).map (tuneRowBy kind D pa al tune n c)) := by
  refine List.Perm.trans ?_ ((finRange_equiv σ).symm.flatMap_right _)
  rw [List.flatMap_map]
  refine List.Perm.flatMap_left _ fun c _ => ?_
  unfold leafListI
  rw [List.map_flatMap, List.map_flatMap]
  refine flatMap_perm (zipIdx_forall2 (R := fun t t' i => t ∈ forest ∧ t' ∈ forest' ∧
    ∃ (e : t.Node ≃ t'.Node) (I : TreeIso σ t t' e), List.Forall₂ (RowIso σ e) (tune i) (tune' i) ∧
      ∀ (w : t.WF) (w' : t'.WF) a b, D' t' (I.leafMap w w' a) (I.leafMap w w' b) = D t a b) 0 hlen.symm
    fun i x x' hx hx' => ⟨List.mem_of_getElem? hx, List.mem_of_getElem? hx', by
      rw [zero_add]; exact h i x x' hx hx'⟩) fun a b hab => ?_
  obtain ⟨hi, ht, ht', e, I, hr, hD⟩ := hab
  obtain ⟨t, i⟩ := a
  obtain ⟨t', i'⟩ := b
  dsimp only at hi ht ht' I hr hD
  subst hi
  rw [List.map_map, List.map_map]
  exact I.blockBy (hwf t ht) (hwf' t' ht') kind pa al (hD _ _) hr n c

/-- The forests, their impurities and the tuning rows correspond tree by tree. -/
structure ImpForestIso (σ : Equiv.Perm (Fin C)) (forest forest' : List (SkTree K C))
    (tune tune' : ℕ → List (TuneRow K C)) : Prop where
  len : forest'.length = forest.length
  tree : ∀ i t t', forest[i]? = some t → forest'[i]? = some t' → ∃ e : t.Node ≃ t'.Node,
    TreeIso σ t t' e ∧ SameImpurity e ∧ List.Forall₂ (RowIso σ e) (tune i) (tune' i)

/-- C141: renumbering the nodes of the trees (with their impurities), exchanging left and right children
and renaming the classes changes nothing but the names under the impurity distance: `smooth` returns the
same weights and costs, and in the first returned forest corresponding nodes hold the same values. -/
theorem C141_smooth_names (hC : 0 < C) {sqrt : K → K}
    {ce : (n : ℕ) → SgdOpts K → K → List (Row K n) → List K → List ℕ →
      Except PyErr ((Fin n → K) × (Fin n → K) × List K)}
    {kind : Kind} {forest forest' : List (SkTree K C)} (hwf : ∀ t ∈ forest, t.WF)
    (hwf' : ∀ t ∈ forest', t.WF) {levels : Option (Levels K)} {cfg : SmoothCfg K}
    (hL : kind = .reg ∨ cfg.lossL2 = true ∨ OrderFree ce) {σ : Equiv.Perm (Fin C)}
    {sources sources' : TuneSrc → ℕ → List (TuneRow K C)}
    (F : ∀ src, ImpForestIso σ forest forest' (sources src) (sources' src))
    {out : (n : ℕ) × SmoothOut K C (n + 1)}
    (h : smoothImp sqrt ce (some kind) forest levels cfg sources = .ok out) :
    ∃ out', smoothImp sqrt ce (some kind) forest' levels cfg sources' = .ok out' ∧
      List.ofFn out'.2.lamb1 = List.ofFn out.2.lamb1 ∧ List.ofFn out'.2.lamb2 = List.ofFn out.2.lamb2 ∧
      out'.2.costs = out.2.costs ∧ out'.2.rf1.length = out.2.rf1.length ∧
      ∀ (i : ℕ) (t t' s s' : SkTree K C), forest[i]? = some t → forest'[i]? = some t' →
        out.2.rf1[i]? = some s → out'.2.rf1[i]? = some s' →
        ∀ e : t.Node ≃ t'.Node, TreeIso σ t t' e → SameImpurity e →
          ∃ (v : t.Node → Fin C → K) (v' : t'.Node → Fin C → K), s = { t with value := v } ∧
            s' = { t' with value := v' } ∧ ∀ j c, v' (e j) c = v j (σ c) := by
  obtain ⟨kind', src, ge, h0, h1, hge, hn, h2⟩ := smoothImp_ok h
  cases h0
  obtain ⟨m, out⟩ := out
  dsimp only at hn h2
  subst hn
  have FI : ImpSame σ forest forest' levels id :=
    { len := (F src).len
      trees := by unfold Rearranges; rw [List.map_id]
      first := rfl
      five := Or.inr fun _ _ h => h
      tree := fun t tr tr' ht ht' => by
        obtain ⟨e, I, hi, -⟩ := (F src).tree t _ _ ht ht'
        exact ⟨e, I, hi⟩ }
  obtain ⟨ge', D, D', hge', hL', S, S', hD⟩ := FI.matrices hwf hwf' hge
  have hf := smoothFrom_forests hC hwf S h2
  obtain ⟨yw, lamb, h3, h4, h5, -, -⟩ := smoothFrom_ok h2
  rw [tuneSummaries_eq] at h3
  split_ifs at h3 with hd
  cases h3
  rw [flatRowsBy_eq S] at h5
  have e : lastLevel ge' + 1 = lastLevel ge + 1 := by rw [hL']
  have hopt := optimise_order (ce := ce) hL e (τ := id)
    (rows' := fun m => (List.finRange C).flatMap fun c => (leafListI forest').map
        (tuneRowBy kind D' cfg.parentsAll cfg.allTrees (sources' src) m c))
    (by
      have : ∀ l : List (Row K (lastLevel ge + 1)), l.map (relabel id) = l := fun l => by
        have : (relabel id : Row K (lastLevel ge + 1) → _) = id := rfl
        rw [this, List.map_id]
      rw [this]
      refine rowsBy_perm (F src).len hwf hwf' (σ := σ) (fun i t t' ht ht' => ?_) kind cfg.parentsAll
        cfg.allTrees _
      obtain ⟨e, I, hi, hr⟩ := (F src).tree i _ _ ht ht'
      exact ⟨e, I, hr, hD i t t' ht ht' e I hi⟩)
    (fun _ _ _ _ h => h) h5
  rw [← e] at S'
  rw [← flatRowsBy_eq S', List.map_id] at hopt
  have hd' : ¬ ((∃ tt ∈ forest'.zipIdx, sources' src tt.2 = []) ∨
      ((decide (kind = .cls) && decide (src ≠ .given)) = true ∧
        ∃ tt ∈ forest'.zipIdx, ∃ c, ∀ r ∈ sources' src tt.2, r.y c = 0)) := by
    rintro (⟨⟨t', i⟩, htt, hc⟩ | ⟨hk, ⟨t', i⟩, htt, c, hc⟩)
    · have hi : forest'[i]? = some t' := by simpa [List.mem_zipIdx_iff_getElem?] using htt
      obtain ⟨hlt, -⟩ := List.getElem?_eq_some_iff.1 hi
      rw [(F src).len] at hlt
      obtain ⟨e, I, -, hr⟩ := (F src).tree i _ _ (List.getElem?_eq_getElem hlt) hi
      dsimp only at hc
      rw [hc, List.forall₂_nil_right_iff] at hr
      exact hd (.inl ⟨(forest[i], i), by simp [List.mem_zipIdx_iff_getElem?, hlt], hr⟩)
    refine hd (.inr ⟨hk, ?_⟩)
    have hi : forest'[i]? = some t' := by simpa [List.mem_zipIdx_iff_getElem?] using htt
    obtain ⟨hlt, -⟩ := List.getElem?_eq_some_iff.1 hi
    rw [(F src).len] at hlt
    obtain ⟨e, I, -, hr⟩ := (F src).tree i _ _ (List.getElem?_eq_getElem hlt) hi
    refine ⟨(forest[i], i), by simp [List.mem_zipIdx_iff_getElem?, hlt], σ c, ?_⟩
    dsimp only at hc ⊢
    generalize sources src i = a at hr ⊢
    generalize sources' src i = b at hr hc
    clear hopt h5 hf h h2 htt hi hd
    induction hr with
    | nil => simp
    | cons hab _ ih =>
      rw [List.forall_mem_cons] at hc ⊢
      exact ⟨by rw [← hab.2 c]; exact hc.1, ih hc.2⟩
  obtain ⟨out', ho, ho1, ho2, ho3⟩ := smoothFrom_returns hC hwf' S' (cfg := cfg)
    (sources := sources') (src := src) (sqrt := sqrt) (ce := ce _)
    (by rw [tuneSummaries_eq, if_neg hd']) (initLamb_cast hL' h4) hopt
  have hf' := smoothFrom_forests hC hwf' S' ho
  have hofn : ∀ l : Fin (lastLevel ge + 1) → K,
      List.ofFn (fun j : Fin (lastLevel ge' + 1) => l (Fin.cast e j)) = List.ofFn l := by
    intro l
    refine List.ext_getElem (by rw [List.length_ofFn, List.length_ofFn, e]) fun i h1 h2 => ?_
    rw [List.getElem_ofFn, List.getElem_ofFn]
    rfl
  refine ⟨⟨lastLevel ge', out'⟩, ?_, by rw [ho1, hofn], by rw [ho2, hofn], ho3, ?_, ?_⟩
  · unfold smoothImp
    simp only [h1, hge', ho, bind, Except.bind, pure, Except.pure]
  · dsimp only
    rw [← hf.1.length_eq, ← hf'.1.length_eq, (F src).len]
  · intro i t t' s s' ht ht' hs hs' e I hi
    have hwt := hwf t (List.mem_of_getElem? ht)
    have hwt' := hwf' t' (List.mem_of_getElem? ht')
    obtain ⟨v, rfl, hv1, hv2⟩ := (forall2_getElem hf.1 ht hs : LeafUpdate t s _)
    obtain ⟨v', rfl, hv1', hv2'⟩ := (forall2_getElem hf'.1 ht' hs' : LeafUpdate t' s' _)
    refine ⟨v, v', rfl, rfl, fun j c => ?_⟩
    by_cases hj : t.IsLeaf j
    · obtain ⟨r, rfl⟩ := exists_leafNode ((isLeaf_iff hwt).1 hj)
      rw [← I.leafNode_leafMap hwt hwt', hv1', hv1, ho1, valueBy_width]
      exact I.valueBy hwt hwt' kind _ (hD i t t' ht ht' e I hi hwt hwt') _ r c
    · rw [hv2 j (σ c) hj, hv2' (e j) c, I.value]
      intro hl
      exact hj fun c hc => hl (e c) ((I.child j c).2 hc)

section
variable {sqrt : K → K} {approxOne : K → Bool}
variable {forest forest' : List (SkTree K 1)} {y y' : List K} {leafOf leafOf' : ℕ → ℕ → ℕ}
  {uns uns' : ℕ → List ℕ} {σ τ : ℕ → ℕ}

/-- `CleanSame` with the same impurity at corresponding nodes. -/
structure CleanSameImp (forest forest' : List (SkTree K 1)) (y y' : List K) (leafOf leafOf' : ℕ → ℕ → ℕ)
    (uns uns' : ℕ → List ℕ) (σ τ : ℕ → ℕ) : Prop where
  len : forest'.length = forest.length
  len_y : y'.length = y.length
  obs : Rearranges y.length σ
  trees : Rearranges forest.length τ
  resp : ∀ i < y.length, y'[σ i]? = y[i]?
  tree : ∀ t tr tr', forest[t]? = some tr → forest'[τ t]? = some tr' → ∃ e : tr.Node ≃ tr'.Node,
    TreeIso (Equiv.refl _) tr tr' e ∧ SameImpurity e ∧
    ∀ i < y.length, ∃ (l : Fin tr.nLeaves) (l' : Fin tr'.nLeaves),
      leafOf t i = l ∧ leafOf' (τ t) (σ i) = l' ∧ tr'.leafNode l' = e (tr.leafNode l)
  oob : ∀ t < forest.length, ∀ i < y.length, σ i ∈ uns' (τ t) ↔ i ∈ uns t

theorem CleanSameImp.same (F : CleanSameImp forest forest' y y' leafOf leafOf' uns uns' σ τ) :
    CleanSame forest forest' y y' leafOf leafOf' uns uns' σ τ :=
  ⟨F.len, F.len_y, F.obs, F.trees, F.resp, fun t tr tr' h h' =>
    let ⟨e, I, _, hl⟩ := F.tree t tr tr' h h'
    ⟨e, I, hl⟩, F.oob⟩

/-- C141: `smooth_clean` under the impurity distance does not depend on the order of the observations,
the order within each drawn subset, or the names of nodes and sides. It does not depend on the order of
the trees either as long as tree 0 stays and, for an integer `levels`, the same trees remain among the
first five (`C140_refuted_first`, `C140_refuted_five` show the same conditions are needed for
`smooth`). -/
theorem C141_clean_names (hwf : ∀ t ∈ forest, t.WF) (hwf' : ∀ t ∈ forest', t.WF)
    (F : CleanSameImp forest forest' y y' leafOf leafOf' uns uns' σ τ) {levels : Option (Levels K)}
    (h0 : τ 0 = 0) (h5 : (∃ l, levels = some (.arr l)) ∨ ∀ t < forest.length, t < 5 → τ t < 5) {cfg : CleanCfg K}
    {choices choices' : List (List ℕ)} (ho : ∀ obs ∈ choices, ∀ i ∈ obs, i < y.length)
    (hp : List.Forall₂ (fun obs obs' => obs'.Perm (obs.map σ)) choices choices') {rf : Option Kind}
    {out : CleanOut K}
    (h : smoothCleanImp sqrt approxOne rf forest levels y leafOf uns cfg choices = .ok out) :
    ∃ out', smoothCleanImp sqrt approxOne rf forest' levels y' leafOf' uns' cfg choices' = .ok out' ∧
      List.ofFn out'.lamb = List.ofFn out.lamb ∧ out'.costs = out.costs ∧
      out'.rf1.length = out.rf1.length ∧
      ∀ (t : ℕ) (tr tr' s s' : SkTree K 1), forest[t]? = some tr → forest'[τ t]? = some tr' →
        out.rf1[t]? = some s → out'.rf1[τ t]? = some s' →
        ∀ e : tr.Node ≃ tr'.Node, TreeIso (Equiv.refl _) tr tr' e → SameImpurity e →
          ∃ (v : tr.Node → Fin 1 → K) (v' : tr'.Node → Fin 1 → K), s = { tr with value := v } ∧
            s' = { tr' with value := v' } ∧ ∀ j, v' (e j) 0 = v j 0 := by
  obtain ⟨rfl, ge, hge, hn, h2⟩ := smoothCleanImp_ok h
  obtain ⟨m, rf1, lamb, c⟩ := out
  dsimp only at hn h2 ⊢
  subst hn
  have FI : ImpSame (Equiv.refl _) forest forest' levels τ :=
    { len := F.len
      trees := F.trees
      first := h0
      five := h5
      tree := fun t tr tr' ht ht' => by
        obtain ⟨e, I, hi, -⟩ := F.tree t _ _ ht ht'
        exact ⟨e, I, hi⟩ }
  obtain ⟨ge', D, D', hge', e, S, S', hD⟩ := FI.matrices hwf hwf' hge
  rw [← e] at S'
  obtain ⟨hcl, hf⟩ := smoothCleanFrom_ok hwf S h2
  have hl : ∀ t tr, forest[t]? = some tr → ∀ i < y.length, leafOf t i < tr.nLeaves := by
    intro t tr ht i hi
    obtain ⟨hlt, -⟩ := List.getElem?_eq_some_iff.1 ht
    have ht' : τ t < forest'.length := by rw [F.len]; exact F.trees.lt hlt
    obtain ⟨_, _, _, hh⟩ := F.tree t _ _ ht (List.getElem?_eq_getElem ht')
    obtain ⟨l, _, e1, -, -⟩ := hh i hi
    rw [e1]; exact l.isLt
  have hl' : ∀ t tr, forest'[t]? = some tr → ∀ i < y'.length, leafOf' t i < tr.nLeaves := by
    intro t' tr' ht' i' hi'
    obtain ⟨hlt, -⟩ := List.getElem?_eq_some_iff.1 ht'
    rw [F.len] at hlt
    rw [F.len_y] at hi'
    obtain ⟨t, ht, rfl⟩ := F.trees.surj hlt
    obtain ⟨i, hi, rfl⟩ := F.obs.surj hi'
    obtain ⟨_, _, _, hh⟩ := F.tree t _ _ (List.getElem?_eq_getElem ht) ht'
    obtain ⟨_, l', -, e2, -⟩ := hh i hi
    rw [e2]; exact l'.isLt
  have V := cleanViewBy S y.length leafOf uns hl
  have V' := (cleanViewBy S' y'.length leafOf' uns' hl').cast F.len_y
  have hrow : ∀ i < y.length, ∀ t < forest.length, ∃ (tr tr' : SkTree K 1) (e : tr.Node ≃ tr'.Node)
      (I : TreeIso (Equiv.refl _) tr tr' e) (w : tr.WF) (w' : tr'.WF) (l : Fin tr.nLeaves),
      forest[t]? = some tr ∧ forest'[τ t]? = some tr' ∧ leafOf t i = l ∧
        leafOf' (τ t) (σ i) = (I.leafMap w w' l).val ∧
        ∀ a b, D' tr' (I.leafMap w w' a) (I.leafMap w w' b) = D tr a b := by
    intro i hi' t ht
    have ht' : τ t < forest'.length := by rw [F.len]; exact F.trees.lt ht
    obtain ⟨e, I, hi, hh⟩ := F.tree t _ _ (List.getElem?_eq_getElem ht) (List.getElem?_eq_getElem ht')
    obtain ⟨l, l', e1, e2, e3⟩ := hh i hi'
    refine ⟨_, _, e, I, hwf _ (List.getElem_mem ht), hwf' _ (List.getElem_mem ht'), l,
      List.getElem?_eq_getElem ht, List.getElem?_eq_getElem ht', e1, ?_,
      hD t _ _ (List.getElem?_eq_getElem ht) (List.getElem?_eq_getElem ht') e I hi _ _⟩
    rw [e2]
    congr 1
    exact leafNode_strictMono.injective (by rw [e3, I.leafNode_leafMap])
  have hcl' := cleanLamb_iso (sqrt := sqrt) (approxOne := approxOne) (n := y.length) e (σ := σ) (τ := τ) V
    V' F.len F.obs F.trees
    (fun i hi t ht => by
      obtain ⟨tr, tr', e', I, w, w', l, h1, h2, h3, h4, h5⟩ := hrow i hi t ht
      rw [h4, h3, leafAt_pos h1 l.isLt, leafAt_pos h2 (I.leafMap w w' l).isLt]
      funext j
      exact I.levelSumBy w w' cfg.parentsAll h5 (I.mass w w' .reg 0) l j)
    (fun i hi t ht => by
      obtain ⟨tr, tr', e', I, w, w', l, h1, h2, h3, h4, h5⟩ := hrow i hi t ht
      rw [h4, h3, leafAt_pos h1 l.isLt, leafAt_pos h2 (I.leafMap w w' l).isLt]
      funext j
      exact I.levelSumBy w w' cfg.parentsAll h5 (I.nSampLeaf w w') l j)
    (fun i hi t ht => by
      rw [F.same.card hi]
      simp only [F.oob t ht i hi])
    rfl F.len_y F.resp ho hp hcl
  obtain ⟨rf1', h'⟩ := smoothCleanFrom_returns hwf' S' hcl'
  have hf' := (smoothCleanFrom_ok hwf' S' h').2
  have e' : lastLevel ge' + 1 = lastLevel ge + 1 := by rw [e]
  refine ⟨⟨lastLevel ge', rf1', fun j => lamb (Fin.cast e' j), c⟩, ?_, ?_, rfl, ?_, ?_⟩
  · unfold smoothCleanImp
    simp only [hge', h', bind, Except.bind, pure, Except.pure]
  · refine List.ext_getElem (by rw [List.length_ofFn, List.length_ofFn, e']) fun i h1 h2 => ?_
    rw [List.getElem_ofFn, List.getElem_ofFn]
    rfl
  · dsimp only
    rw [← hf.length_eq, ← hf'.length_eq, F.len]
  · intro t tr tr' s s' ht ht' hs hs' e I hi
    have hwt := hwf tr (List.mem_of_getElem? ht)
    have hwt' := hwf' tr' (List.mem_of_getElem? ht')
    obtain ⟨v, rfl, hv1, hv2⟩ := (forall2_getElem hf ht hs : LeafUpdate tr s _)
    obtain ⟨v', rfl, hv1', hv2'⟩ := (forall2_getElem hf' ht' hs' : LeafUpdate tr' s' _)
    refine ⟨v, v', rfl, rfl, fun j => ?_⟩
    by_cases hj : tr.IsLeaf j
    · obtain ⟨r, rfl⟩ := exists_leafNode ((isLeaf_iff hwt).1 hj)
      rw [← I.leafNode_leafMap hwt hwt', hv1', hv1, valueBy_width]
      exact I.valueBy hwt hwt' .reg _ (hD t tr tr' ht ht' e I hi hwt hwt') _ r 0
    · rw [hv2 j 0 hj, hv2' (e j) 0, I.value]
      · rfl
      · intro hl
        exact hj fun c hc => hl (e c) ((I.child j c).2 hc)

end

theorem exMirror_impurity : SameImpurity (t := exTree) (t' := exMirror) exMirrorMap := by
  unfold SameImpurity; decide +kernel

/-- Instance of the hypothesis of `C141_smooth_names`: the mirrored tree. -/
theorem exMirror_impForest : ImpForestIso (Equiv.refl (Fin 1)) [exTree] [exMirror] exTune exMirrorTune where
  len := rfl
  tree i t t' h h' := by
    match i with
    | 0 =>
      obtain rfl : exTree = t := by simpa using h
      obtain rfl : exMirror = t' := by simpa using h'
      refine ⟨exMirrorMap, exMirror_iso, exMirror_impurity, ?_⟩
      have h1 : exMirror.leafNode ⟨2, by decide⟩ = exMirrorMap (exTree.leafNode ⟨0, by decide⟩) := by decide
      have h2 : exMirror.leafNode ⟨1, by decide⟩ = exMirrorMap (exTree.leafNode ⟨1, by decide⟩) := by decide
      exact .cons ⟨⟨_, _, rfl, rfl, h1⟩, fun _ => rfl⟩ (.cons ⟨⟨_, _, rfl, rfl, h2⟩, fun _ => rfl⟩
        (.cons ⟨⟨_, _, rfl, rfl, h2⟩, fun _ => rfl⟩ .nil))
    | i + 1 => simp at h

/-- Instance of `C141_smooth_names`: two steps, three levels. -/
example :
    (match smoothImp (fun x => x) noCe (some .reg) [exTree] (some (.int 2))
      { exImpCfg with steps := [0, 0], tFix := 1 / 100 } (fun _ => exTune) with
    | .ok out => some (List.ofFn out.2.lamb1, out.2.costs, out.2.rf1[0]?.map fun t : SkTree ℚ 1 =>
        [t.value 1 0, t.value 2 0, t.value 3 0, t.value 4 0])
    | .error _ => none) =
    (match smoothImp (fun x => x) noCe (some .reg) [exMirror] (some (.int 2))
      { exImpCfg with steps := [0, 0], tFix := 1 / 100 } (fun _ => exMirrorTune) with
    | .ok out => some (List.ofFn out.2.lamb1, out.2.costs, out.2.rf1[0]?.map fun t : SkTree ℚ 1 =>
        [t.value 2 0, t.value 4 0, t.value 3 0, t.value 1 0])
    | .error _ => none) ∧
    (match smoothImp (fun x => x) noCe (some .reg) [exTree] (some (.int 2))
      { exImpCfg with steps := [0, 0], tFix := 1 / 100 } (fun _ => exTune) with
    | .ok out => some out.2.costs.length
    | .error _ => none) = some 3 := by decide +kernel

/-- The leaves of `exStump26` and `exMirror`, observations rotated. -/
abbrev exLeafPair2 : ℕ → ℕ → ℕ := fun t i =>
  if t = 0 then (if i = 1 then 0 else 1) else [0, 2, 1].getD i 0

/-- Instance of `CleanSameImp`: the second tree mirrored, observation `i` renamed `i + 1 mod 3`. -/
theorem exCleanSameImp : CleanSameImp [exStump26, exTree] [exStump26, exMirror] [4, 3, 1] [1, 4, 3]
    exLeafPair exLeafPair2 exUns (fun t => if t = 0 then [1] else [1, 2]) (fun i => (i + 1) % 3) id where
  len := rfl
  len_y := rfl
  obs := by unfold Rearranges; decide
  trees := by unfold Rearranges; decide
  resp := by decide +kernel
  tree t tr tr' h h' := by
    match t with
    | 0 =>
      obtain rfl : exStump26 = tr := by simpa using h
      obtain rfl : exStump26 = tr' := by simpa using h'
      refine ⟨Equiv.refl _, ⟨fun _ _ => Iff.rfl, fun _ => rfl, fun _ _ => rfl⟩, fun _ => rfl, fun i hi => ?_⟩
      match i, hi with
      | 0, _ => exact ⟨⟨0, by decide⟩, ⟨0, by decide⟩, rfl, rfl, by decide⟩
      | 1, _ => exact ⟨⟨1, by decide⟩, ⟨1, by decide⟩, rfl, rfl, by decide⟩
      | 2, _ => exact ⟨⟨1, by decide⟩, ⟨1, by decide⟩, rfl, rfl, by decide⟩
    | 1 =>
      obtain rfl : exTree = tr := by simpa using h
      obtain rfl : exMirror = tr' := by simpa using h'
      refine ⟨exMirrorMap, exMirror_iso, exMirror_impurity, fun i hi => ?_⟩
      match i, hi with
      | 0, _ => exact ⟨⟨0, by decide⟩, ⟨2, by decide⟩, rfl, rfl, by decide⟩
      | 1, _ => exact ⟨⟨1, by decide⟩, ⟨1, by decide⟩, rfl, rfl, by decide⟩
      | 2, _ => exact ⟨⟨2, by decide⟩, ⟨0, by decide⟩, rfl, rfl, by decide⟩
    | t + 2 => simp at h
  oob := by decide

/-- Instance of `C141_clean_names`: two steps. -/
example :
    (match smoothCleanImp (fun x => x) (fun x => decide (x = 1)) (some .reg) [exStump26, exTree]
      (some (.arr [1, 3])) [4, 3, 1] exLeafPair exUns { exClean with allObs := false, tFix := 1 / 100 }
      [[0, 2], [1, 2]] with
    | .ok out => some (List.ofFn out.lamb, out.costs, out.rf1[1]?.map fun t : SkTree ℚ 1 =>
        [t.value 1 0, t.value 2 0, t.value 3 0, t.value 4 0])
    | .error _ => none) =
    (match smoothCleanImp (fun x => x) (fun x => decide (x = 1)) (some .reg) [exStump26, exMirror]
      (some (.arr [1, 3])) [1, 4, 3] exLeafPair2 (fun t => if t = 0 then [1] else [1, 2])
      { exClean with allObs := false, tFix := 1 / 100 } [[0, 1], [2, 0]] with
    | .ok out => some (List.ofFn out.lamb, out.costs, out.rf1[1]?.map fun t : SkTree ℚ 1 =>
        [t.value 2 0, t.value 4 0, t.value 3 0, t.value 1 0])
    | .error _ => none) ∧
    (match smoothCleanImp (fun x => x) (fun x => decide (x = 1)) (some .reg) [exStump26, exTree]
      (some (.arr [1, 3])) [4, 3, 1] exLeafPair exUns { exClean with allObs := false, tFix := 1 / 100 }
      [[0, 2], [1, 2]] with
    | .ok out => some out.costs.length
    | .error _ => none) = some 3 := by decide +kernel

end SmoothRF
