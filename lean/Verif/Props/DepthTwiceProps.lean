import Verif.Props.FloatDepthProps

/-!
# C172: tuning the depth repeatedly
-/

set_option linter.unusedSectionVars false

namespace SmoothRF
open SkTree Topo

variable {K : Type} [Field K] [LinearOrder K] {C : ℕ}

/-- `b` is the position of the first smallest entry of `L`. -/
def FirstMin (L : List K) (b : ℕ) : Prop :=
  ∃ x, L[b]? = some x ∧ (∀ y ∈ L, x ≤ y) ∧ ∀ d < b, ∀ y, L[d]? = some y → x < y

theorem FirstMin.unique {L : List K} {b c : ℕ} (hb : FirstMin L b) (hc : FirstMin L c) : b = c := by
  obtain ⟨x, b1, b2, b3⟩ := hb
  obtain ⟨y, c1, c2, c3⟩ := hc
  rcases lt_trichotomy b c with h | h | h
  · exact absurd (c3 b h x b1) (not_lt.2 (b2 y (List.mem_of_getElem? c1)))
  · exact h
  · exact absurd (b3 c h y c1) (not_lt.2 (c2 x (List.mem_of_getElem? b1)))

open Classical in
/-- The deepest ancestor of depth at most `d`. -/
noncomputable def deepestOf (t : Topo) (d : ℕ) (i : t.Node) : t.Node :=
  if h : ∃ a, t.Deepest d i a then h.choose else i

theorem deepestOf_spec {t : Topo} (h : t.WF) (d : ℕ) (i : t.Node) : t.Deepest d i (deepestOf t d i) := by
  have he := exists_deepest h d i
  rw [deepestOf, dif_pos he]
  exact he.choose_spec

/-- The loss of the forest truncated at depth `d`. -/
noncomputable def cutLoss [NeZero C] (kind : Kind) (forest : List (SkTree K C)) (rows : ℕ → List (LossRow K)) (d : ℕ) : K :=
  (forest.zipIdx.map fun tt => truncLoss kind tt.1
    (deepestOf tt.1.toTopo (min d (npMax tt.1.depthPerNode - 1))) (rows tt.2)).sum

/-- What `depth_tune` needs: trees of depth at least one, and rows for every tree. -/
structure Tunable (forest : List (SkTree K C)) (rows : ℕ → List (LossRow K)) : Prop where
  ne : forest ≠ []
  wf : ∀ t ∈ forest, t.WF
  deep : ∀ t ∈ forest, ¬ t.IsTreeDepth 0
  rows : ∀ i t, forest[i]? = some t → rows i ≠ [] ∧ ∀ r ∈ rows i, r.leaf < t.nLeaves

theorem Tunable.pos {forest : List (SkTree K C)} {rows : ℕ → List (LossRow K)} (h : Tunable forest rows)
    {t : SkTree K C} (ht : t ∈ forest) : 0 < npMax t.depthPerNode := by
  rcases Nat.eq_zero_or_pos (npMax t.depthPerNode) with e | e
  · exact absurd (e ▸ isTreeDepth_npMax (h.wf t ht)) (h.deep t ht)
  · exact e

/-- `t'` is `t` cut at depth `b` (or at its last candidate). -/
def CutAt (b : ℕ) (t t' : SkTree K C) : Prop :=
  LeafUpdate t t' fun r => t.value (deepestOf t.toTopo (min b (npMax t.depthPerNode - 1)) (t.leafNode r))

theorem tunable_run [IsStrictOrderedRing K] [NeZero C] {kind : Kind} {forest : List (SkTree K C)} {data : DataArgs}
    {src : TuneSrc} (hsrc : tuneSource data = .ok src) {sources : TuneSrc → ℕ → List (LossRow K)}
    (h : Tunable forest (sources src)) :
    ∃ out best D, depthTune (some kind) forest data sources =
        .ok (out, (List.range D).map (cutLoss kind forest (sources src))) ∧
      (∃ t ∈ forest, npMax t.depthPerNode = D) ∧ (∀ t ∈ forest, npMax t.depthPerNode ≤ D) ∧
      best < D ∧ FirstMin ((List.range D).map (cutLoss kind forest (sources src))) best ∧
      List.Forall₂ (CutAt best) forest out := by
  classical
  obtain ⟨D, hD, hmax⟩ : ∃ D, (∃ t ∈ forest, npMax t.depthPerNode = D) ∧ ∀ t ∈ forest, npMax t.depthPerNode ≤ D := by
    obtain ⟨t, ht, hm⟩ := Finset.exists_max_image forest.toFinset (fun t => npMax t.depthPerNode) (by
      rw [List.toFinset_nonempty_iff]; exact h.ne)
    exact ⟨_, ⟨t, List.mem_toFinset.1 ht, rfl⟩, fun s hs => hm s (List.mem_toFinset.2 hs)⟩
  obtain ⟨out, best, h1, h2, h3, h4, h5⟩ := C51_depth_tune (kind := kind) h.wf
    (dep := fun t => npMax t.depthPerNode) (fun t ht => isTreeDepth_npMax (h.wf t ht))
    (fun t ht => h.pos ht) hD hmax (tr := fun t => deepestOf t.toTopo)
    (fun t ht d i => deepestOf_spec (h.wf t ht) d i) hsrc (sources := sources) (fun tt htt => by
      obtain ⟨a, b⟩ := h.rows tt.2 tt.1 (List.mem_zipIdx_iff_getElem?.1 htt)
      exact ⟨b, a⟩)
  have hget : ∀ d, ((List.range D).map (cutLoss kind forest (sources src)))[d]? =
      if d < D then some (cutLoss kind forest (sources src) d) else none := by
    intro d
    rw [List.getElem?_map]
    split_ifs with hd
    · rw [List.getElem?_range hd]; rfl
    · rw [List.getElem?_eq_none (by simpa using hd)]; rfl
  refine ⟨out, best, D, h1, hD, hmax, h2, ⟨cutLoss kind forest (sources src) best, ?_, ?_, ?_⟩, h5⟩
  · rw [hget, if_pos h2]
  · intro y hy
    obtain ⟨d, hd, rfl⟩ := List.mem_map.1 hy
    exact h3 d (List.mem_range.1 hd)
  · intro d hd y hy
    rw [hget, if_pos (by omega), Option.some.injEq] at hy
    rw [← hy]
    exact h4 d hd

/-- Cutting keeps the shape of a tree. -/
theorem CutAt.topo {b : ℕ} {t t' : SkTree K C} (h : CutAt b t t') : t'.toTopo = t.toTopo := by
  obtain ⟨v, rfl, -⟩ := h
  rfl

theorem Tunable.cut {forest out : List (SkTree K C)} {rows : ℕ → List (LossRow K)} (h : Tunable forest rows)
    {b : ℕ} (hc : List.Forall₂ (CutAt b) forest out) : Tunable out rows := by
  have key : ∀ (i : ℕ) (t' : SkTree K C), out[i]? = some t' → ∃ t, forest[i]? = some t ∧ CutAt b t t' := by
    clear h
    induction hc with
    | nil => intro i t' h; simp at h
    | @cons a a' l l' ha hl ih =>
      intro i t' h
      cases i with
      | zero =>
        simp only [List.getElem?_cons_zero, Option.some.injEq] at h ⊢
        subst h
        exact ⟨a, rfl, ha⟩
      | succ i => simpa using ih i t' (by simpa using h)
  have mem : ∀ t' ∈ out, ∃ t ∈ forest, t'.toTopo = t.toTopo := by
    intro t' ht'
    obtain ⟨i, hi⟩ := List.mem_iff_getElem?.1 ht'
    obtain ⟨t, ht, hcut⟩ := key i t' hi
    exact ⟨t, List.mem_of_getElem? ht, hcut.topo⟩
  refine ⟨?_, ?_, ?_, ?_⟩
  · intro e
    have := hc.length_eq
    rw [e] at this
    exact h.ne (List.length_eq_zero_iff.1 this)
  · intro t' ht'
    obtain ⟨t, ht, e⟩ := mem t' ht'
    have := h.wf t ht
    rw [← e] at this
    exact this
  · intro t' ht'
    obtain ⟨t, ht, e⟩ := mem t' ht'
    have := h.deep t ht
    rw [← e] at this
    exact this
  · intro i t' hi
    obtain ⟨t, ht, hcut⟩ := key i t' hi
    have := h.rows i t ht
    rw [← hcut.topo] at this
    exact this

/-- Up to depth `b` the cut tree predicts as before; at every depth if all leaves lie at the same depth. -/
theorem cut_value {b : ℕ} {t : SkTree K C} (hw : t.WF) {v : t.Node → Fin C → K}
    (v1 : ∀ r c, v (t.leafNode r) c =
      t.value (deepestOf t.toTopo (min b (npMax t.depthPerNode - 1)) (t.leafNode r)) c)
    (v2 : ∀ i c, ¬ t.IsLeaf i → v i c = t.value i c) {d : ℕ} (i : t.Node)
    (hd : d ≤ min b (npMax t.depthPerNode - 1) ∨ (d < npMax t.depthPerNode ∧ t.DepthIs i (npMax t.depthPerNode))) :
    v (deepestOf t.toTopo d i) = t.value (deepestOf t.toTopo d i) := by
  obtain ⟨a1, ⟨e, he, a2⟩, a3⟩ := deepestOf_spec hw d i
  generalize deepestOf t.toTopo d i = a at a1 a2 a3
  funext c
  by_cases hl : t.IsLeaf a
  · obtain rfl := leaf_anc_eq hw hl a1
    rcases hd with hd | ⟨hd, hD⟩
    · obtain ⟨r, rfl⟩ := exists_leafNode ((isLeaf_iff hw).1 hl)
      rw [v1]
      have : t.Deepest (min b (npMax t.depthPerNode - 1)) (t.leafNode r) (t.leafNode r) :=
        ⟨.refl _, ⟨e, he.trans hd, a2⟩, fun x _ hx _ _ => hx⟩
      rw [deepest_unique hw (deepestOf_spec hw _ _) this]
    · rw [depthIs_iff hw] at a2 hD
      omega
  · exact v2 a c hl

/-- The same for the losses. -/
theorem cut_loss [NeZero C] {kind : Kind} {b : ℕ} {t t' : SkTree K C} (hw : t.WF) (h : CutAt b t t') {d : ℕ}
    (rows : List (LossRow K))
    (hd : d ≤ min b (npMax t.depthPerNode - 1) ∨
      (d < npMax t.depthPerNode ∧ ∀ i, t.IsLeaf i → t.DepthIs i (npMax t.depthPerNode))) :
    truncLoss kind t' (deepestOf t'.toTopo d) rows = truncLoss kind t (deepestOf t.toTopo d) rows := by
  obtain ⟨v, rfl, v1, v2⟩ := h
  unfold truncLoss
  congr 1
  refine List.map_congr_left fun r _ => ?_
  by_cases hr : r.leaf < t.nLeaves
  · rw [dif_pos hr]
    have hr' : r.leaf < ({ t with value := v } : SkTree K C).nLeaves := hr
    rw [dif_pos hr']
    have := cut_value hw v1 v2 (t.leafNode ⟨r.leaf, hr⟩)
      (hd.imp id fun x => ⟨x.1, x.2 _ (leafNode_isLeaf hw _)⟩)
    exact congrArg (fun x => pointLoss kind x r.y) this
  · rw [dif_neg hr]
    have hr' : ¬ r.leaf < ({ t with value := v } : SkTree K C).nLeaves := hr
    rw [dif_neg hr']

theorem cutLoss_eq [NeZero C] {kind : Kind} {b d : ℕ} {forest out : List (SkTree K C)} (rows : ℕ → List (LossRow K))
    (hw : ∀ t ∈ forest, t.WF) (hpos : ∀ t ∈ forest, 0 < npMax t.depthPerNode)
    (hc : List.Forall₂ (CutAt b) forest out)
    (hd : d ≤ b ∨ ∀ t ∈ forest, ∀ i, t.IsLeaf i → t.DepthIs i (npMax t.depthPerNode)) :
    cutLoss kind out rows d = cutLoss kind forest rows d := by
  unfold cutLoss
  have gen : ∀ k, ((out.zipIdx k).map fun tt => truncLoss kind tt.1
      (deepestOf tt.1.toTopo (min d (npMax tt.1.depthPerNode - 1))) (rows tt.2)).sum =
      ((forest.zipIdx k).map fun tt => truncLoss kind tt.1
      (deepestOf tt.1.toTopo (min d (npMax tt.1.depthPerNode - 1))) (rows tt.2)).sum := by
    induction hc with
    | nil => intro k; rfl
    | @cons t t' l l' ht hl ih =>
      intro k
      simp only [List.zipIdx_cons, List.map_cons, List.sum_cons]
      rw [ih (fun t h => hw t (by simp [h])) (fun t h => hpos t (by simp [h]))
        (hd.imp id fun x t h => x t (by simp [h])) (k + 1)]
      congr 1
      have e : npMax t'.depthPerNode = npMax t.depthPerNode := by
        have := ht.topo
        obtain ⟨v, rfl, -⟩ := ht
        rfl
      rw [e]
      have hp := hpos t (by simp)
      refine cut_loss (hw t (by simp)) ht _ ?_
      rcases hd with hd | hd
      · exact Or.inl (by omega)
      · exact Or.inr ⟨by omega, hd t (by simp)⟩
  exact gen 0

/-- Cutting a tree that is already cut at the same depth changes nothing. -/
theorem cut_cut {b : ℕ} {t t' t'' : SkTree K C} (hw : t.WF) (h : CutAt b t t') (h' : CutAt b t' t'') : t'' = t' := by
  obtain ⟨v, rfl, v1, v2⟩ := h
  obtain ⟨w, rfl, w1, w2⟩ := h'
  have : w = v := by
    funext i c
    by_cases hi : t.IsLeaf i
    · obtain ⟨r, rfl⟩ := exists_leafNode ((isLeaf_iff hw).1 hi)
      have e1 := w1 r c
      have e2 := congrFun (cut_value hw v1 v2 (t.leafNode r) (Or.inl (le_refl (min b (npMax t.depthPerNode - 1))))) c
      rw [v1 r c]
      exact e1.trans e2
    · exact w2 i c hi
  exact congrArg (fun u => ({ t with value := u } : SkTree K C)) this

theorem cut_cut_forest {b : ℕ} : ∀ {f g h : List (SkTree K C)}, (∀ t ∈ f, t.WF) →
    List.Forall₂ (CutAt b) f g → List.Forall₂ (CutAt b) g h → h = g
  | _, _, _, _, .nil, .nil => rfl
  | _, _, _, hw, .cons a b, .cons c d => by
    rw [cut_cut (hw _ (by simp)) a c, cut_cut_forest (fun s hs => hw s (by simp [hs])) b d]

theorem cut_topo {b : ℕ} : ∀ {f g : List (SkTree K C)}, List.Forall₂ (CutAt b) f g →
    g.map SkTree.toTopo = f.map SkTree.toTopo
  | _, _, .nil => rfl
  | _, _, .cons a c => by rw [List.map_cons, List.map_cons, cut_topo c, a.topo]

theorem cut_depth {forest out : List (SkTree K C)} {rows : ℕ → List (LossRow K)} (h : Tunable forest rows) {b : ℕ}
    (hcut : List.Forall₂ (CutAt b) forest out) {D D2 : ℕ} (hD : ∃ t ∈ forest, npMax t.depthPerNode = D)
    (hmax : ∀ t ∈ forest, npMax t.depthPerNode ≤ D) (hD2 : ∃ t ∈ out, npMax t.depthPerNode = D2)
    (hmax2 : ∀ t ∈ out, npMax t.depthPerNode ≤ D2) : D2 = D := by
  have h1 := forestDepth_of h.wf (fun t ht => isTreeDepth_npMax (h.wf t ht)) hD hmax
  have h2 := forestDepth_of (h.cut hcut).wf (fun t ht => isTreeDepth_npMax ((h.cut hcut).wf t ht)) hD2 hmax2
  rw [← h1, ← h2]
  unfold forestDepth
  rw [cut_topo hcut]

/-- C172: tuning a tuned forest again on the same rows: the second run returns, its losses at the depths up to
the first choice are the old ones, it chooses a depth at least as large, its least loss is at most the old one,
and if it chooses the same depth it returns the forest it was given. -/
theorem C172_twice [IsStrictOrderedRing K] [NeZero C] {kind : Kind} {forest out : List (SkTree K C)} {L : List K}
    {data : DataArgs} {src : TuneSrc} (hsrc : tuneSource data = .ok src)
    {sources : TuneSrc → ℕ → List (LossRow K)} (h : Tunable forest (sources src))
    (hrun : depthTune (some kind) forest data sources = .ok (out, L)) :
    ∃ out2 L2 b b2, depthTune (some kind) out data sources = .ok (out2, L2) ∧ L2.length = L.length ∧
      FirstMin L b ∧ FirstMin L2 b2 ∧ (∀ d ≤ b, L2[d]? = L[d]?) ∧ b ≤ b2 ∧ (∀ x ∈ L, ∃ y ∈ L2, y ≤ x) ∧
      (b2 = b → out2 = out) := by
  obtain ⟨out', b, D, e1, ⟨t0, ht0, hD⟩, hmax, hb, hmin, hcut⟩ := tunable_run (kind := kind) hsrc h
  rw [hrun] at e1
  simp only [Except.ok.injEq, Prod.mk.injEq] at e1
  obtain ⟨rfl, rfl⟩ := e1
  obtain ⟨out2, b2, D2, e2, ⟨t1, ht1, hD2⟩, hmax2, hb2, hmin2, hcut2⟩ := tunable_run (kind := kind) hsrc (h.cut hcut)
  have hDD : D2 = D := cut_depth h hcut ⟨t0, ht0, hD⟩ hmax ⟨t1, ht1, hD2⟩ hmax2
  subst hDD
  have same : ∀ d ≤ b, cutLoss kind out (sources src) d = cutLoss kind forest (sources src) d :=
    fun d hd => cutLoss_eq _ h.wf (fun t ht => h.pos ht) hcut (Or.inl hd)
  have hget : ∀ (f : ℕ → K) (d : ℕ), d < D2 → ((List.range D2).map f)[d]? = some (f d) := by
    intro f d hd
    rw [List.getElem?_map, List.getElem?_range hd]; rfl
  obtain ⟨x, x1, x2, x3⟩ := id hmin
  obtain ⟨y, y1, y2, y3⟩ := id hmin2
  rw [hget _ _ hb, Option.some.injEq] at x1
  refine ⟨out2, _, b, b2, e2, by simp, hmin, hmin2, fun d hd => ?_, ?_, ?_, ?_⟩
  · rw [hget _ d (by omega), hget _ d (by omega), same d hd]
  · by_contra hc
    have hlt : b2 < b := by omega
    have a1 : cutLoss kind out (sources src) b2 = cutLoss kind forest (sources src) b2 := same b2 hlt.le
    have a2 := x3 b2 hlt _ (hget _ b2 hb2)
    rw [hget _ _ hb2, Option.some.injEq] at y1
    have a3 := y2 (cutLoss kind out (sources src) b) (List.mem_map.2 ⟨b, List.mem_range.2 hb, rfl⟩)
    rw [same b le_rfl, ← y1, a1, x1] at a3
    exact absurd a2 (not_lt.2 a3)
  · intro z hz
    refine ⟨cutLoss kind out (sources src) b, List.mem_map.2 ⟨b, List.mem_range.2 hb, rfl⟩, ?_⟩
    rw [same b le_rfl, x1]
    exact x2 z hz
  · rintro rfl
    exact cut_cut_forest h.wf hcut hcut2

/-- C172: if in every tree all leaves lie at the same depth, the second run changes nothing. -/
theorem C172_even_partial [IsStrictOrderedRing K] [NeZero C] {kind : Kind} {forest out : List (SkTree K C)} {L : List K}
    {data : DataArgs} {src : TuneSrc} (hsrc : tuneSource data = .ok src)
    {sources : TuneSrc → ℕ → List (LossRow K)} (h : Tunable forest (sources src))
    (heven : ∀ t ∈ forest, ∃ e, ∀ i, t.IsLeaf i → t.DepthIs i e)
    (hrun : depthTune (some kind) forest data sources = .ok (out, L)) :
    depthTune (some kind) out data sources = .ok (out, L) := by
  obtain ⟨out2, L2, b, b2, e2, -, hm, hm2, -, -, -, hsame⟩ := C172_twice hsrc h hrun
  obtain ⟨out', b', D, e1, ⟨t0, ht0, hD⟩, hmax, hb, hmin, hcut⟩ := tunable_run (kind := kind) hsrc h
  rw [hrun] at e1
  simp only [Except.ok.injEq, Prod.mk.injEq] at e1
  obtain ⟨rfl, rfl⟩ := e1
  obtain ⟨out3, b3, D2, e3, ⟨t1, ht1, hD2⟩, hmax2, hb2, hmin2, hcut2⟩ := tunable_run (kind := kind) hsrc (h.cut hcut)
  rw [e2] at e3
  simp only [Except.ok.injEq, Prod.mk.injEq] at e3
  obtain ⟨rfl, rfl⟩ := e3
  have heq : ∀ d, cutLoss kind out (sources src) d = cutLoss kind forest (sources src) d := by
    intro d
    refine cutLoss_eq _ h.wf (fun t ht => h.pos ht) hcut (Or.inr fun t ht i hi => ?_)
    obtain ⟨e, he⟩ := heven t ht
    obtain ⟨⟨j, hj⟩, hmx⟩ := isTreeDepth_npMax (h.wf t ht)
    obtain ⟨q, hq⟩ := exists_leaf_below (h.wf t ht) j
    have h1 := he _ (leafNode_isLeaf (h.wf t ht) q)
    have h2 := anc_depth_le (h.wf t ht) hq
    rw [depthIs_iff (h.wf t ht)] at h1 hj
    have h3 := hmx _ _ (he _ (leafNode_isLeaf (h.wf t ht) q))
    have : e = npMax t.depthPerNode := by omega
    rw [← this]
    exact he i hi
  have hL : (List.range D2).map (cutLoss kind out (sources src)) =
      (List.range D).map (cutLoss kind forest (sources src)) := by
    rw [cut_depth h hcut ⟨t0, ht0, hD⟩ hmax ⟨t1, ht1, hD2⟩ hmax2]
    exact List.map_congr_left fun d _ => heq d
  rw [hL] at e2 hm2
  rw [hsame (hm2.unique hm)] at e2
  exact e2

/-- C172: repeated tuning on the same rows stops changing after at most as many runs as the forest is deep. -/
theorem C172_stable [IsStrictOrderedRing K] [NeZero C] {kind : Kind} {f : ℕ → List (SkTree K C)} {L : ℕ → List K}
    {data : DataArgs} {src : TuneSrc} (hsrc : tuneSource data = .ok src)
    {sources : TuneSrc → ℕ → List (LossRow K)} (h : Tunable (f 0) (sources src))
    (hrun : ∀ n, depthTune (some kind) (f n) data sources = .ok (f (n + 1), L n)) {D : ℕ}
    (hD : ∀ t ∈ f 0, ∀ i e, t.DepthIs i e → e ≤ D) (n : ℕ) (hn : D ≤ n) : f n = f D := by
  have tun : ∀ n, Tunable (f n) (sources src) ∧ (f n).map SkTree.toTopo = (f 0).map SkTree.toTopo := by
    intro n
    induction n with
    | zero => exact ⟨h, rfl⟩
    | succ n ih =>
      obtain ⟨out, b, E, e1, -, -, -, -, hcut⟩ := tunable_run (kind := kind) hsrc ih.1
      rw [hrun n] at e1
      simp only [Except.ok.injEq, Prod.mk.injEq] at e1
      rw [e1.1]
      exact ⟨ih.1.cut hcut, (cut_topo hcut).trans ih.2⟩
  have step : ∀ n, ∃ b b2, FirstMin (L n) b ∧ FirstMin (L (n + 1)) b2 ∧ b ≤ b2 ∧ b < D ∧
      (b2 = b → f (n + 2) = f (n + 1)) := by
    intro n
    obtain ⟨out2, L2, b, b2, e2, -, m1, m2, -, hle, -, hs⟩ := C172_twice hsrc (tun n).1 (hrun n)
    rw [hrun (n + 1)] at e2
    simp only [Except.ok.injEq, Prod.mk.injEq] at e2
    obtain ⟨rfl, rfl⟩ := e2
    refine ⟨b, b2, m1, m2, hle, ?_, hs⟩
    obtain ⟨out, b', E, e1, ⟨t0, ht0, hE⟩, -, hb, hm, -⟩ := tunable_run (kind := kind) hsrc (tun n).1
    rw [hrun n] at e1
    simp only [Except.ok.injEq, Prod.mk.injEq] at e1
    rw [e1.2] at m1
    rw [m1.unique hm]
    refine lt_of_lt_of_le hb ?_
    have : t0.toTopo ∈ (f 0).map SkTree.toTopo := by
      rw [← (tun n).2]
      exact List.mem_map.2 ⟨t0, ht0, rfl⟩
    obtain ⟨t, ht, e⟩ := List.mem_map.1 this
    obtain ⟨⟨i, hi⟩, -⟩ := isTreeDepth_npMax ((tun n).1.wf t0 ht0)
    rw [hE] at hi
    have key : ∀ T : Topo, T = t.toTopo → ∀ (i : T.Node) (e : ℕ), T.DepthIs i e → e ≤ D := by
      rintro T rfl
      exact hD t ht
    exact key _ e.symm i _ hi
  choose b hb using fun n => (step n)
  have hb2 : ∀ n, FirstMin (L n) (b n) ∧ b n ≤ b (n + 1) ∧ b n < D ∧ (b (n + 1) = b n → f (n + 2) = f (n + 1)) := by
    intro n
    obtain ⟨b2, h1, h2, h3, h4, h5⟩ := hb n
    obtain ⟨-, g1, -⟩ := hb (n + 1)
    rw [h2.unique g1] at h3 h5
    exact ⟨h1, h3, h4, h5⟩
  have fixed : ∀ n, f (n + 2) = f (n + 1) → ∀ k, f (n + 1 + k) = f (n + 1) := by
    intro n hn k
    induction k with
    | zero => rfl
    | succ k ih =>
      have := hrun (n + 1 + k)
      rw [ih, hrun (n + 1)] at this
      simp only [Except.ok.injEq, Prod.mk.injEq] at this
      rw [← hn]
      exact this.1.symm
  obtain ⟨m, hm, he⟩ : ∃ m < D, b (m + 1) = b m := by
    by_contra hc
    push Not at hc
    have grow : ∀ m ≤ D, m ≤ b m := by
      intro m
      induction m with
      | zero => intro _; omega
      | succ m ih =>
        intro hm
        have := ih (by omega)
        have h1 := (hb2 m).2.1
        have h2 := hc m (by omega)
        omega
    have := grow D le_rfl
    have := (hb2 D).2.2.1
    omega
  have hf := fixed m ((hb2 m).2.2.2 he)
  have h1 := hf (n - (m + 1))
  have h2 := hf (D - (m + 1))
  rw [show m + 1 + (n - (m + 1)) = n by omega] at h1
  rw [show m + 1 + (D - (m + 1)) = D by omega] at h2
  rw [h1, h2]

/-- Seven nodes, four leaves, all at depth 2. -/
abbrev exFour : SkTree ℚ 1 :=
  { toTopo := ⟨6, ![some 1, some 2, none, none, some 5, none, none], ![some 4, some 3, none, none, some 6, none, none]⟩
    value := fun i _ => ![4, 2, 1, 3, 6, 5, 7] i
    nSamp := ![4, 2, 1, 1, 2, 1, 1]
    impurity := ![5, 1, 0, 0, 1, 0, 0] }

/-- The hypothesis of `C172_even_partial` holds for it; tuning chooses depth 1, twice. -/
example : (∀ t ∈ [exFour], ∃ e, ∀ i, t.IsLeaf i → t.DepthIs i e) ∧
    (match depthTune (some .reg) [exFour] exData (fun _ _ => [⟨0, 2⟩, ⟨3, 6⟩]) with
      | .ok (out, L) => (match depthTune (some .reg) out exData (fun _ _ => [⟨0, 2⟩, ⟨3, 6⟩]) with
        | .ok (out2, L2) => some (valuesOf out, L, valuesOf out2, L2)
        | .error _ => none)
      | .error _ => none) =
      some ([[[4], [2], [2], [2], [6], [6], [6]]], [8, 0], [[[4], [2], [2], [2], [6], [6], [6]]], [8, 0]) := by
  refine ⟨?_, by decide +kernel⟩
  intro t ht
  rw [List.mem_singleton] at ht
  subst ht
  refine ⟨2, fun i hi => ?_⟩
  have hw : exFour.WF := by decide
  rw [depthIs_iff hw]
  have key : ∀ i : exFour.Node, exFour.right i = none → exFour.depthPerNode i = 2 := by decide +kernel
  exact key i ((isLeaf_iff hw).1 hi)

/-- Two rows in the leaf of depth 1, one in a leaf of depth 2. -/
abbrev exTwiceRows : TuneSrc → ℕ → List (LossRow ℚ) := fun _ _ => [⟨2, 13/2⟩, ⟨2, 13/2⟩, ⟨0, 3⟩]

/-- C172, the full claim fails: the first run chooses depth 0 with loss 49/4; the leaf of depth 1 now predicts its
rows exactly, so the second run chooses depth 1 with loss 0 and another forest. -/
theorem C172_refuted : ¬ ∀ (forest out out2 : List (SkTree ℚ 1)) (L L2 : List ℚ), (∀ t ∈ forest, t.WF) →
    depthTune (some .reg) forest exData exTwiceRows = .ok (out, L) →
    depthTune (some .reg) out exData exTwiceRows = .ok (out2, L2) → valuesOf out2 = valuesOf out := by
  intro h
  have e1 : (match depthTune (some .reg) [exTree] exData exTwiceRows with
      | .ok (out, L) => (match depthTune (some .reg) out exData exTwiceRows with
        | .ok (out2, L2) => some (valuesOf out, L, valuesOf out2, L2)
        | .error _ => none)
      | .error _ => none) =
      some ([[[13/2], [3], [13/2], [13/2], [13/2]]], [49/4, 49/2], [[[13/2], [3], [3], [3], [13/2]]], [49/4, 0]) := by
    decide +kernel
  cases a1 : depthTune (some .reg) [exTree] exData exTwiceRows with
  | error e => rw [a1] at e1; cases e1
  | ok p =>
    rw [a1] at e1
    cases a2 : depthTune (some .reg) p.1 exData exTwiceRows with
    | error e => simp only [a2] at e1; cases e1
    | ok q =>
      simp only [a2, Option.some.injEq, Prod.mk.injEq] at e1
      have := h [exTree] p.1 q.1 p.2 q.2 (by decide) a1 a2
      rw [e1.1, e1.2.2.1] at this
      revert this
      decide +kernel

/-- The hypotheses hold for that forest. -/
example : Tunable [exTree] (exTwiceRows .given) := by
  refine ⟨by simp, by decide, ?_, ?_⟩
  · intro t ht h0
    rw [List.mem_singleton] at ht
    subst ht
    have h2 : exTree.IsTreeDepth 2 := by
      have := isTreeDepth_npMax (t := exTree.toTopo) (by decide)
      rwa [show npMax exTree.depthPerNode = 2 by decide +kernel] at this
    exact absurd (isTreeDepth_unique h0 h2) (by decide)
  · intro i t hi
    cases i with
    | zero =>
      simp only [List.getElem?_cons_zero, Option.some.injEq] at hi
      subst hi
      decide +kernel
    | succ i => simp at hi

end SmoothRF
