import Verif.Props.DepthOrderProps
import Verif.Props.RenameProps

/-!
# Names in depth_tune (C222)

Renumbered nodes, exchanged children and renamed classes.
-/

set_option linter.unusedSectionVars false

namespace SmoothRF
open SkTree Topo

variable {K : Type} [Field K] [LinearOrder K] [IsStrictOrderedRing K] {C : ℕ} [NeZero C]

theorem TreeIso.deepestOf {σ : Equiv.Perm (Fin C)} {t t' : SkTree K C} {e : t.Node ≃ t'.Node} (I : TreeIso σ t t' e)
    (hwf : t.WF) (hwf' : t'.WF) (d : ℕ) (i : t.Node) :
    SmoothRF.deepestOf t'.toTopo d (e i) = e (SmoothRF.deepestOf t.toTopo d i) := by
  refine deepest_unique hwf' (deepestOf_spec hwf' d (e i)) ?_
  obtain ⟨a1, ⟨x, hx, a2⟩, a3⟩ := deepestOf_spec hwf d i
  refine ⟨I.anc a1, ⟨x, hx, I.depth hwf hwf' a2⟩, fun b y hb hy hyd => ?_⟩
  rw [← e.apply_symm_apply b] at hb ⊢
  refine I.anc (a3 _ y (I.anc' hb) ?_ hyd)
  have := I.symm.depth hwf' hwf hy
  exact this

/-- The rows reach corresponding leaves, and at corresponding nodes they have the same loss. -/
def LossIso (kind : Kind) {t t' : SkTree K C} (e : t.Node ≃ t'.Node) (r r' : LossRow K) : Prop :=
  (∃ (l : Fin t.nLeaves) (l' : Fin t'.nLeaves), r.leaf = l ∧ r'.leaf = l' ∧ t'.leafNode l' = e (t.leafNode l)) ∧
    ∀ j, pointLoss kind (t'.value (e j)) r'.y = pointLoss kind (t.value j) r.y

theorem TreeIso.truncLoss {kind : Kind} {σ : Equiv.Perm (Fin C)} {t t' : SkTree K C} {e : t.Node ≃ t'.Node}
    (I : TreeIso σ t t' e) (hwf : t.WF) (hwf' : t'.WF) {rows rows' : List (LossRow K)}
    (h : List.Forall₂ (LossIso kind e) rows rows') (d : ℕ) :
    SmoothRF.truncLoss kind t' (SmoothRF.deepestOf t'.toTopo d) rows' =
      SmoothRF.truncLoss kind t (SmoothRF.deepestOf t.toTopo d) rows := by
  unfold SmoothRF.truncLoss
  congr 1
  induction h with
  | nil => rfl
  | @cons r r' _ _ hab _ ih =>
    obtain ⟨⟨l, l', h1, h2, h3⟩, hl⟩ := hab
    rw [List.map_cons, List.map_cons, ih]
    congr 1
    rw [dif_pos (by rw [h2]; exact l'.2), dif_pos (by rw [h1]; exact l.2)]
    have e1 : (⟨r.leaf, by rw [h1]; exact l.2⟩ : Fin t.nLeaves) = l := Fin.ext h1
    have e2 : (⟨r'.leaf, by rw [h2]; exact l'.2⟩ : Fin t'.nLeaves) = l' := Fin.ext h2
    rw [e1, e2, h3, I.deepestOf hwf hwf', hl]

/-- Forests whose trees and rows correspond: the same losses and corresponding values. -/
theorem tune_iso {kind : Kind} {σ : Equiv.Perm (Fin C)} {data : DataArgs} {src : TuneSrc}
    (hsrc : tuneSource data = .ok src) {forest forest' : List (SkTree K C)}
    {sources sources' : TuneSrc → ℕ → List (LossRow K)} (h : Tunable forest (sources src))
    (hwf' : ∀ t ∈ forest', t.WF) (len : forest'.length = forest.length)
    (F : ∀ i t t', forest[i]? = some t → forest'[i]? = some t' → ∃ e : t.Node ≃ t'.Node,
      TreeIso σ t t' e ∧ List.Forall₂ (LossIso kind e) (sources src i) (sources' src i)) :
    ∃ (out out' : List (SkTree K C)) (loss : List K),
      depthTune (some kind) forest data sources = .ok (out, loss) ∧
      depthTune (some kind) forest' data sources' = .ok (out', loss) ∧ out'.length = out.length ∧
      ∀ (i : ℕ) (t t' s s' : SkTree K C), forest[i]? = some t → forest'[i]? = some t' → out[i]? = some s →
        out'[i]? = some s' → ∀ e : t.Node ≃ t'.Node, TreeIso σ t t' e →
          ∃ (v : t.Node → Fin C → K) (v' : t'.Node → Fin C → K), s = { t with value := v } ∧
            s' = { t' with value := v' } ∧ ∀ j c, v' (e j) c = v j (σ c) := by
  have back : ∀ t' ∈ forest', ∃ (i : ℕ) (t : SkTree K C), forest[i]? = some t ∧ forest'[i]? = some t' := by
    intro t' ht'
    obtain ⟨i, hi⟩ := List.mem_iff_getElem?.1 ht'
    obtain ⟨hlt, -⟩ := List.getElem?_eq_some_iff.1 hi
    rw [len] at hlt
    exact ⟨i, _, List.getElem?_eq_getElem hlt, hi⟩
  have forth : ∀ t ∈ forest, ∃ (i : ℕ) (t' : SkTree K C), forest[i]? = some t ∧ forest'[i]? = some t' := by
    intro t ht
    obtain ⟨i, hi⟩ := List.mem_iff_getElem?.1 ht
    obtain ⟨hlt, -⟩ := List.getElem?_eq_some_iff.1 hi
    rw [← len] at hlt
    exact ⟨i, _, hi, List.getElem?_eq_getElem hlt⟩
  have h' : Tunable forest' (sources' src) := by
    refine ⟨fun e => h.ne ?_, hwf', ?_, ?_⟩
    · rw [e] at len
      exact List.length_eq_zero_iff.1 len.symm
    · intro t' ht' hd
      obtain ⟨i, t, hi, hi'⟩ := back t' ht'
      obtain ⟨e, I, -⟩ := F i t t' hi hi'
      have w := h.wf t (List.mem_of_getElem? hi)
      have := I.maxDepth w (hwf' t' ht')
      rw [isTreeDepth_unique (isTreeDepth_npMax (hwf' t' ht')) hd] at this
      exact h.deep t (List.mem_of_getElem? hi) (this ▸ isTreeDepth_npMax w)
    · intro i t' hi'
      obtain ⟨hlt, -⟩ := List.getElem?_eq_some_iff.1 hi'
      rw [len] at hlt
      obtain ⟨e, I, hr⟩ := F i _ t' (List.getElem?_eq_getElem hlt) hi'
      obtain ⟨r1, r2⟩ := h.rows i _ (List.getElem?_eq_getElem hlt)
      constructor
      · intro e0
        rw [e0, List.forall₂_nil_right_iff] at hr
        exact r1 hr
      · clear r1 r2
        generalize sources src i = a at hr
        generalize sources' src i = b at hr ⊢
        induction hr with
        | nil => simp
        | cons hab _ ih =>
          obtain ⟨⟨l, l', -, h2, -⟩, -⟩ := hab
          intro r hr
          rcases List.mem_cons.1 hr with rfl | hr
          · rw [h2]; exact l'.2
          · exact ih r hr
  have hcut : ∀ d, cutLoss kind forest' (sources' src) d = cutLoss kind forest (sources src) d := by
    intro d
    unfold cutLoss
    congr 1
    apply List.ext_getElem?
    intro i
    simp only [List.getElem?_map, List.getElem?_zipIdx, Nat.zero_add]
    cases hi : forest[i]? with
    | none =>
      have : forest'[i]? = none := by
        rw [List.getElem?_eq_none_iff] at hi ⊢
        rwa [len]
      rw [this]
      rfl
    | some t =>
      obtain ⟨hlt, -⟩ := List.getElem?_eq_some_iff.1 hi
      rw [← len] at hlt
      have hi' := List.getElem?_eq_getElem hlt
      obtain ⟨e, I, hr⟩ := F i t _ hi hi'
      have w := h.wf t (List.mem_of_getElem? hi)
      have w' := hwf' _ (List.mem_of_getElem? hi')
      rw [hi']
      simp only [Option.map_some]
      rw [I.maxDepth w w', I.truncLoss w w' hr]
  obtain ⟨out, b, D, e1, ⟨t0, ht0, hD⟩, hmax, hb, hmin, hout⟩ := tunable_run (kind := kind) hsrc h
  obtain ⟨out', b', D', e1', ⟨t0', ht0', hD'⟩, hmax', hb', hmin', hout'⟩ := tunable_run (kind := kind) hsrc h'
  have hDD : D' = D := by
    apply le_antisymm
    · obtain ⟨i, t, hi, hi'⟩ := back t0' ht0'
      obtain ⟨e, I, -⟩ := F i t _ hi hi'
      rw [← hD', I.maxDepth (h.wf t (List.mem_of_getElem? hi)) (hwf' _ ht0')]
      exact hmax _ (List.mem_of_getElem? hi)
    · obtain ⟨i, t', hi, hi'⟩ := forth t0 ht0
      obtain ⟨e, I, -⟩ := F i _ t' hi hi'
      rw [← hD, ← I.maxDepth (h.wf _ ht0) (hwf' _ (List.mem_of_getElem? hi'))]
      exact hmax' _ (List.mem_of_getElem? hi')
  subst hDD
  have hL : (List.range D').map (cutLoss kind forest' (sources' src)) =
      (List.range D').map (cutLoss kind forest (sources src)) := List.map_congr_left fun d _ => hcut d
  rw [hL] at hmin' e1'
  obtain rfl : b' = b := hmin'.unique hmin
  refine ⟨out, out', _, e1, e1', by rw [← hout.length_eq, ← hout'.length_eq, len], ?_⟩
  intro i t t' s s' ht ht' hs hs' e I
  have w := h.wf t (List.mem_of_getElem? ht)
  have w' := hwf' t' (List.mem_of_getElem? ht')
  obtain ⟨v, rfl, hv1, hv2⟩ := (forall2_getElem hout ht hs : CutAt _ t s)
  obtain ⟨v', rfl, hv1', hv2'⟩ := (forall2_getElem hout' ht' hs' : CutAt _ t' s')
  refine ⟨v, v', rfl, rfl, fun j c => ?_⟩
  by_cases hj : t.IsLeaf j
  · obtain ⟨r, rfl⟩ := exists_leafNode ((isLeaf_iff w).1 hj)
    rw [← I.leafNode_leafMap w w', hv1', hv1]
    dsimp only
    rw [I.leafNode_leafMap, I.deepestOf w w', I.maxDepth w w', I.value]
  · rw [hv2 j (σ c) hj, hv2' (e j) c, I.value]
    intro hl
    exact hj fun c hc => hl (e c) ((I.child j c).2 hc)

/-- The rows reach corresponding leaves and the responses satisfy `Y`. -/
def TuneIso (Y : K → K → Prop) {t t' : SkTree K C} (e : t.Node ≃ t'.Node) (r r' : LossRow K) : Prop :=
  (∃ (l : Fin t.nLeaves) (l' : Fin t'.nLeaves), r.leaf = l ∧ r'.leaf = l' ∧ t'.leafNode l' = e (t.leafNode l)) ∧ Y r.y r'.y

/-- C222, nodes: renumbering the nodes and exchanging left and right children, the rows following their leaves,
changes neither the losses nor the values of corresponding nodes. -/
theorem C222_names (kind : Kind) {data : DataArgs} {src : TuneSrc}
    (hsrc : tuneSource data = .ok src) {forest forest' : List (SkTree K C)}
    {sources sources' : TuneSrc → ℕ → List (LossRow K)} (h : Tunable forest (sources src))
    (hwf' : ∀ t ∈ forest', t.WF) (len : forest'.length = forest.length)
    (F : ∀ i t t', forest[i]? = some t → forest'[i]? = some t' → ∃ e : t.Node ≃ t'.Node,
      TreeIso (Equiv.refl (Fin C)) t t' e ∧
        List.Forall₂ (TuneIso (fun y y' => y' = y) e) (sources src i) (sources' src i)) :
    ∃ (out out' : List (SkTree K C)) (loss : List K),
      depthTune (some kind) forest data sources = .ok (out, loss) ∧
      depthTune (some kind) forest' data sources' = .ok (out', loss) ∧ out'.length = out.length ∧
      ∀ (i : ℕ) (t t' s s' : SkTree K C), forest[i]? = some t → forest'[i]? = some t' → out[i]? = some s →
        out'[i]? = some s' → ∀ e : t.Node ≃ t'.Node, TreeIso (Equiv.refl (Fin C)) t t' e →
          ∃ (v : t.Node → Fin C → K) (v' : t'.Node → Fin C → K), s = { t with value := v } ∧
            s' = { t' with value := v' } ∧ ∀ j c, v' (e j) c = v j c := by
  refine tune_iso hsrc h hwf' len fun i t t' hi hi' => ?_
  obtain ⟨e, I, hr⟩ := F i t t' hi hi'
  refine ⟨e, I, hr.imp fun r r' hrr => ⟨hrr.1, fun j => ?_⟩⟩
  rw [hrr.2, show t'.value (e j) = t.value j from funext fun c => I.value j c]

/-- One class is larger than all others. -/
def NoTie (v : Fin C → K) : Prop := ∃ c, ∀ c', c' ≠ c → v c' < v c

theorem NoTie.argmax {v : Fin C → K} {c : Fin C} (hc : ∀ c', c' ≠ c → v c' < v c) (x : Fin C) :
    IsArgmax v x ↔ x = c := by
  constructor
  · intro h
    by_contra hx
    exact absurd (h.1 c) (not_le.2 (hc x hx))
  · rintro rfl
    refine ⟨fun j => ?_, fun j hj => hc j hj.ne⟩
    by_cases e : j = x
    · rw [e]
    · exact (hc j e).le

/-- C222, classes: if every node has one class that is larger than all others, renaming the classes changes
nothing but the names. Without that restriction the claim is false (`C222_classes_refuted`). -/
theorem C222_classes_partial {σ : Equiv.Perm (Fin C)} {data : DataArgs} {src : TuneSrc}
    (hsrc : tuneSource data = .ok src) {forest forest' : List (SkTree K C)}
    {sources sources' : TuneSrc → ℕ → List (LossRow K)} (h : Tunable forest (sources src))
    (hwf' : ∀ t ∈ forest', t.WF) (len : forest'.length = forest.length)
    (hv : ∀ t ∈ forest, ∀ j, NoTie (t.value j))
    (F : ∀ i t t', forest[i]? = some t → forest'[i]? = some t' → ∃ e : t.Node ≃ t'.Node, TreeIso σ t t' e ∧
      List.Forall₂ (TuneIso (fun y y' => ∃ c : Fin C, y = ((σ c).val : K) ∧ y' = (c.val : K)) e)
        (sources src i) (sources' src i)) :
    ∃ (out out' : List (SkTree K C)) (loss : List K),
      depthTune (some .cls) forest data sources = .ok (out, loss) ∧
      depthTune (some .cls) forest' data sources' = .ok (out', loss) ∧ out'.length = out.length ∧
      ∀ (i : ℕ) (t t' s s' : SkTree K C), forest[i]? = some t → forest'[i]? = some t' → out[i]? = some s →
        out'[i]? = some s' → ∀ e : t.Node ≃ t'.Node, TreeIso σ t t' e →
          ∃ (v : t.Node → Fin C → K) (v' : t'.Node → Fin C → K), s = { t with value := v } ∧
            s' = { t' with value := v' } ∧ ∀ j c, v' (e j) c = v j (σ c) := by
  refine tune_iso hsrc h hwf' len fun i t t' hi hi' => ?_
  obtain ⟨e, I, hr⟩ := F i t t' hi hi'
  refine ⟨e, I, hr.imp fun r r' hrr => ⟨hrr.1, fun j => ?_⟩⟩
  obtain ⟨-, c, h1, h2⟩ := hrr
  obtain ⟨m, hm⟩ := hv t (List.mem_of_getElem? hi) j
  have hm' : ∀ c', c' ≠ σ.symm m → t'.value (e j) c' < t'.value (e j) (σ.symm m) := by
    intro c' hc'
    rw [I.value, I.value, σ.apply_symm_apply]
    exact hm _ fun e0 => hc' (by rw [← e0, σ.symm_apply_apply])
  unfold pointLoss
  simp only [NoTie.argmax hm, NoTie.argmax hm', h1, h2, exists_eq_left, Nat.cast_inj, ← Fin.ext_iff]
  congr 1
  rw [eq_iff_iff, Equiv.symm_apply_eq]

/-! ### examples -/

/-- A tree of depth two with two classes; the root is undecided. -/
abbrev exTied : SkTree ℚ 2 :=
  { toTopo := ⟨4, ![some 1, some 2, none, none, none], ![some 4, some 3, none, none, none]⟩
    value := fun i => ![![3, 3], ![2, 1], ![2, 0], ![0, 1], ![1, 2]] i
    nSamp := ![6, 3, 2, 1, 3]
    impurity := ![0, 0, 0, 0, 0] }

/-- `exTied` with a decided root. -/
abbrev exDecided : SkTree ℚ 2 :=
  { exTied with value := fun i => ![![3, 4], ![2, 1], ![2, 0], ![0, 1], ![1, 2]] i }

/-- Rows of `exTied` and the same rows after the exchange of the two classes. -/
abbrev exTiedRows : List (LossRow ℚ) := [⟨0, 0⟩]
abbrev exTiedRows' : List (LossRow ℚ) := [⟨0, 1⟩]

/-- The exchange of two classes. -/
abbrev exSwap : Equiv.Perm (Fin 2) := Equiv.swap 0 1

theorem exTied_iso (t : SkTree ℚ 2) (ht : t.toTopo = exTied.toTopo) {i : ℕ} {a b : SkTree ℚ 2} (ha : [t][i]? = some a)
    (hb : [classTree exSwap t][i]? = some b) : ∃ e : a.Node ≃ b.Node, TreeIso exSwap a b e ∧
      List.Forall₂ (TuneIso (fun y y' => ∃ c : Fin 2, y = ((exSwap c).val : ℚ) ∧ y' = (c.val : ℚ)) e)
        exTiedRows exTiedRows' := by
  match i with
  | 0 =>
    obtain rfl : t = a := by simpa using ha
    obtain rfl : classTree exSwap t = b := by simpa using hb
    have hl : 0 < t.nLeaves := by rw [ht]; decide
    refine ⟨Equiv.refl _, classTree_iso exSwap t, .cons ⟨⟨⟨0, hl⟩, ⟨0, hl⟩, rfl, rfl, rfl⟩, 1, ?_, ?_⟩ .nil⟩
    · simp
    · simp
  | n + 1 => simp at ha

theorem exTied_tunable (t : SkTree ℚ 2) (ht : t.toTopo = exTied.toTopo) : Tunable [t] fun _ => exTiedRows := by
  have hw : exTied.WF := by decide
  refine ⟨by simp, ?_, ?_, ?_⟩
  · intro s hs
    rw [List.mem_singleton] at hs
    subst hs
    rw [ht]
    exact hw
  · intro s hs h0
    rw [List.mem_singleton] at hs
    subst hs
    rw [ht] at h0
    have := isTreeDepth_unique (isTreeDepth_npMax hw) h0
    revert this
    decide +kernel
  · intro i s hi
    match i with
    | 0 =>
      obtain rfl : t = s := by simpa using hi
      refine ⟨by simp, ?_⟩
      rw [ht]
      decide +kernel
    | n + 1 => simp at hi

/-- C222: with ties the names of the classes matter: `predict` answers with the first largest class, so the same
data under exchanged class names have other losses and another depth is chosen. -/
theorem C222_classes_refuted : ¬ ∀ (σ : Equiv.Perm (Fin 2)) (data : DataArgs) (src : TuneSrc)
    (forest forest' : List (SkTree ℚ 2)) (sources sources' : TuneSrc → ℕ → List (LossRow ℚ)),
    tuneSource data = .ok src → Tunable forest (sources src) → (∀ t ∈ forest', t.WF) →
    forest'.length = forest.length →
    (∀ i t t', forest[i]? = some t → forest'[i]? = some t' → ∃ e : t.Node ≃ t'.Node, TreeIso σ t t' e ∧
      List.Forall₂ (TuneIso (fun y y' => ∃ c : Fin 2, y = ((σ c).val : ℚ) ∧ y' = (c.val : ℚ)) e)
        (sources src i) (sources' src i)) →
    ∀ out out' loss loss', depthTune (some .cls) forest data sources = .ok (out, loss) →
      depthTune (some .cls) forest' data sources' = .ok (out', loss') → loss' = loss := by
  intro hall
  have hw' : ∀ t ∈ [classTree exSwap exTied], t.WF := by
    intro t ht
    rw [List.mem_singleton] at ht
    subst ht
    show exTied.WF
    decide
  have key := hall exSwap exData .given [exTied] [classTree exSwap exTied] (fun _ _ => exTiedRows)
    (fun _ _ => exTiedRows') rfl (exTied_tunable _ rfl) hw' rfl
    fun i t t' hi hi' => exTied_iso exTied rfl hi hi'
  have r1 : (match depthTune (some .cls) [exTied] exData (fun _ _ => exTiedRows) with
    | .ok (out, loss) => some (valuesOf out, loss)
    | .error _ => none) = some ([[[3, 3], [2, 1], [3, 3], [3, 3], [3, 3]]], [0, 0]) := by decide +kernel
  have r2 : (match depthTune (some .cls) [classTree exSwap exTied] exData (fun _ _ => exTiedRows') with
    | .ok (out, loss) => some (valuesOf out, loss)
    | .error _ => none) = some ([[[3, 3], [1, 2], [1, 2], [1, 2], [2, 1]]], [1, 0]) := by decide +kernel
  cases h1 : depthTune (some .cls) [exTied] exData (fun _ _ => exTiedRows) with
  | error _ => rw [h1] at r1; cases r1
  | ok a =>
    cases h2 : depthTune (some .cls) [classTree exSwap exTied] exData (fun _ _ => exTiedRows') with
    | error _ => rw [h2] at r2; cases r2
    | ok b =>
      obtain ⟨out, loss⟩ := a
      obtain ⟨out', loss'⟩ := b
      have := key out out' loss loss' h1 h2
      rw [h1] at r1
      rw [h2] at r2
      simp only [Option.some.injEq, Prod.mk.injEq] at r1 r2
      rw [r1.2, r2.2] at this
      revert this
      decide +kernel

/-- The hypotheses of `C222_classes_partial` hold for `exDecided`; both runs. -/
example : Tunable [exDecided] (fun _ => exTiedRows) ∧ (∀ t ∈ [exDecided], ∀ j, NoTie (t.value j)) ∧
    (match depthTune (some .cls) [exDecided] exData (fun _ _ => exTiedRows) with
    | .ok (out, loss) => some (valuesOf out, loss)
    | .error _ => none) = some ([[[3, 4], [2, 1], [2, 1], [2, 1], [1, 2]]], [1, 0]) ∧
    (match depthTune (some .cls) [classTree exSwap exDecided] exData (fun _ _ => exTiedRows') with
    | .ok (out, loss) => some (valuesOf out, loss)
    | .error _ => none) = some ([[[4, 3], [1, 2], [1, 2], [1, 2], [2, 1]]], [1, 0]) := by
  refine ⟨exTied_tunable _ rfl, ?_, by decide +kernel, by decide +kernel⟩
  intro t ht
  rw [List.mem_singleton] at ht
  subst ht
  unfold NoTie
  decide +kernel

/-- The rows of `exTree` and of its mirror image correspond. -/
example : List.Forall₂ (TuneIso (fun y y' => y' = y) exMirrorMap) [⟨0, 3⟩, ⟨2, (11 : ℚ)⟩] [⟨2, 3⟩, ⟨0, 11⟩] := by
  have h1 : exMirror.leafNode ⟨2, by decide⟩ = exMirrorMap (exTree.leafNode ⟨0, by decide⟩) := by decide
  have h2 : exMirror.leafNode ⟨0, by decide⟩ = exMirrorMap (exTree.leafNode ⟨2, by decide⟩) := by decide
  exact .cons ⟨⟨_, _, rfl, rfl, h1⟩, rfl⟩ (.cons ⟨⟨_, _, rfl, rfl, h2⟩, rfl⟩ .nil)

/-- Both runs of that instance of `C222_names`. -/
example : (match depthTune (some .reg) [exTree] exData (fun _ _ => [⟨0, 3⟩, ⟨2, 11⟩]) with
    | .ok (out, loss) => some (valuesOf out, loss)
    | .error _ => none) = some ([[[13 / 2], [3], [3], [3], [10]]], [65 / 2, 1]) ∧
    (match depthTune (some .reg) [exMirror] exData (fun _ _ => [⟨2, 3⟩, ⟨0, 11⟩]) with
    | .ok (out, loss) => some (valuesOf out, loss)
    | .error _ => none) = some ([[[13 / 2], [10], [3], [3], [3]]], [65 / 2, 1]) :=
  ⟨by decide +kernel, by decide +kernel⟩

end SmoothRF
