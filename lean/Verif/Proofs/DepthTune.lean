import Verif.Spec.DepthTune
import Verif.Proofs.Clean2

set_option linter.unusedSectionVars false

namespace SmoothRF
open SkTree Topo

namespace Topo
variable {t : Topo}

theorem deepest_of_upBy (h : t.WF) {d : ℕ} {i a : t.Node} (hu : t.UpBy (t.depthPerNode i - d) i a) :
    t.Deepest d i a := by
  obtain ⟨h1, h2⟩ := upBy_depth h hu
  refine ⟨h2, ⟨t.depthPerNode a, by omega, depthPerNode_spec h a⟩, ?_⟩
  intro b e hb hd he
  rw [depthIs_iff h] at hd
  subst hd
  rcases anc_chain h hb h2 with h3 | h3
  · exact h3
  · have := anc_depth_le h h3
    by_cases hle : t.depthPerNode i ≤ d
    · rw [Nat.sub_eq_zero_of_le hle] at hu
      cases hu
      exact hb
    · rw [anc_eq_of_depth h h3 (by omega)]
      exact .refl _

theorem exists_deepest (h : t.WF) (d : ℕ) (i : t.Node) : ∃ a, t.Deepest d i a := by
  obtain ⟨a, ha⟩ := exists_upBy h i (t.depthPerNode i - d) (by omega)
  exact ⟨a, deepest_of_upBy h ha⟩

theorem deepest_unique (h : t.WF) {d : ℕ} {i a b : t.Node} (ha : t.Deepest d i a)
    (hb : t.Deepest d i b) : a = b := by
  obtain ⟨a1, ⟨e, he, a2⟩, a3⟩ := ha
  obtain ⟨b1, ⟨f, hf, b2⟩, b3⟩ := hb
  exact (b3 a e a1 a2 he).antisymm h (a3 b f b1 b2 hf)

theorem isTreeDepth_npMax (h : t.WF) : t.IsTreeDepth (npMax t.depthPerNode) := by
  obtain ⟨h1, i, h2⟩ := npMax_spec t.depthPerNode
  refine ⟨⟨i, (depthIs_iff h _ _).2 h2.symm⟩, fun j d hd => ?_⟩
  rw [depthIs_iff h] at hd
  exact hd ▸ h1 j

theorem isTreeDepth_unique {D E : ℕ} (hD : t.IsTreeDepth D) (hE : t.IsTreeDepth E) : D = E := by
  obtain ⟨⟨i, hi⟩, h1⟩ := hD
  obtain ⟨⟨j, hj⟩, h2⟩ := hE
  exact le_antisymm (h2 i D hi) (h1 j E hj)

theorem lowestViable_spec (h : t.WF) {d : ℕ} {r : Fin t.nLeaves} {a : t.Node}
    (ha : t.Deepest d (t.leafNode r) a) : lowestViable t d r = a.val := by
  obtain ⟨a1, ⟨e, he, a2⟩, a3⟩ := ha
  rw [depthIs_iff h] at a2
  unfold lowestViable
  obtain ⟨-, h2, h3⟩ := foldl_max_le ((List.finRange (t.m + 1)).map fun i =>
    t.decisionLeaf r i * ((if t.depthPerNode i ≤ d then 1 else 0) * i.val)) 0
  apply le_antisymm
  · have key : ∀ i : t.Node,
        t.decisionLeaf r i * ((if t.depthPerNode i ≤ d then 1 else 0) * i.val) ≤ a.val := by
      intro i
      rw [decisionLeaf_spec h]
      split_ifs with h4 h5
      · have := (a3 i _ h4 (depthPerNode_spec h i) h5).le h
        simpa using this
      all_goals simp
    rcases h3 with h3 | h3
    · rw [h3]; exact Nat.zero_le _
    · obtain ⟨i, -, e⟩ := List.mem_map.1 h3
      rw [← e]; exact key i
  · refine h2 _ (List.mem_map.2 ⟨a, List.mem_finRange _, ?_⟩)
    rw [decisionLeaf_spec h, if_pos a1, if_pos (by omega)]
    simp

end Topo

variable {K : Type} [Field K] [LinearOrder K] {C : ℕ}

theorem leafPredictedValues_eq {t : SkTree K C} (h : t.WF) {D : ℕ} (hD : t.IsTreeDepth D)
    {tr : ℕ → t.Node → t.Node} (htr : ∀ d i, t.Deepest d i (tr d i)) :
    leafPredictedValues t = .ok ((List.range D).map fun d =>
      (List.finRange t.nLeaves).map fun r => t.value (tr d (t.leafNode r))) := by
  unfold leafPredictedValues
  rw [isTreeDepth_unique (isTreeDepth_npMax h) hD]
  apply mapM_ok
  intro d _
  apply mapM_ok
  intro r _
  rw [lowestViable_spec h (htr d (t.leafNode r))]
  unfold valAt
  rw [dif_pos (tr d (t.leafNode r)).2]

/-! ### argmax -/

/-- Loop state of `npArgmax`. -/
def argmaxFold (l : List K) : Option K × ℕ :=
  l.zipIdx.foldl (fun (b : Option K × ℕ) x =>
    match b.1 with
    | none => (some x.1, x.2)
    | some m => if m < x.1 then (some x.1, x.2) else b) (none, 0)

theorem argmaxFold_spec (l : List K) (hl : l ≠ []) :
    ∃ m, (argmaxFold l).1 = some m ∧ l[(argmaxFold l).2]? = some m ∧ (∀ x ∈ l, x ≤ m) ∧
      ∀ j < (argmaxFold l).2, ∀ x, l[j]? = some x → x < m := by
  induction l using List.reverseRecOn with
  | nil => exact absurd rfl hl
  | append_singleton l x ih =>
    have e : argmaxFold (l ++ [x]) = match (argmaxFold l).1 with
        | none => (some x, l.length)
        | some m => if m < x then (some x, l.length) else argmaxFold l := by
      unfold argmaxFold
      rw [List.zipIdx_append, List.foldl_append]
      simp
    by_cases h0 : l = []
    · subst h0
      exact ⟨x, by simp [argmaxFold]⟩
    · obtain ⟨m, h1, h2, h3, h4⟩ := ih h0
      rw [e, h1]
      have hk : (argmaxFold l).2 < l.length := (List.getElem?_eq_some_iff.1 h2).1
      by_cases hx : m < x
      · simp only [hx, if_true]
        refine ⟨x, rfl, by simp, ?_, ?_⟩
        · intro z hz
          rcases List.mem_append.1 hz with hz | hz
          · exact (h3 z hz).trans hx.le
          · rw [List.mem_singleton] at hz; exact hz.le
        · intro j hj z hz
          rw [List.getElem?_append_left hj] at hz
          exact lt_of_le_of_lt (h3 z (List.mem_of_getElem? hz)) hx
      · simp only [hx, if_false]
        refine ⟨m, h1, by rw [List.getElem?_append_left hk]; exact h2, ?_, ?_⟩
        · intro z hz
          rcases List.mem_append.1 hz with hz | hz
          · exact h3 z hz
          · rw [List.mem_singleton] at hz; subst hz; exact not_lt.1 hx
        · intro j hj z hz
          rw [List.getElem?_append_left (by omega)] at hz
          exact h4 j hj z hz

theorem npArgmax_spec (l : List K) (hl : l ≠ []) :
    ∃ m, l[npArgmax l]? = some m ∧ (∀ x ∈ l, x ≤ m) ∧
      ∀ j < npArgmax l, ∀ x, l[j]? = some x → x < m := by
  obtain ⟨m, -, h⟩ := argmaxFold_spec l hl
  exact ⟨m, h⟩

theorem npArgmax_ofFn {n : ℕ} (v : Fin n → K) (hn : 0 < n) :
    ∃ c, npArgmax (List.ofFn v) = c.val ∧ IsArgmax v c := by
  obtain ⟨m, h1, h2, h3⟩ := npArgmax_spec (List.ofFn v) (by
    intro e
    have := congrArg List.length e
    simp at this
    omega)
  have hk : npArgmax (List.ofFn v) < n := by
    have := (List.getElem?_eq_some_iff.1 h1).1
    simpa using this
  have hm : m = v ⟨_, hk⟩ := by
    rw [List.getElem?_ofFn, dif_pos hk] at h1
    exact (Option.some.inj h1).symm
  refine ⟨⟨_, hk⟩, rfl, ?_, ?_⟩
  · intro j
    rw [← hm]
    exact h2 _ (List.mem_ofFn.2 ⟨j, rfl⟩)
  · intro j hj
    rw [← hm]
    exact h3 j.val hj _ (by simp)

theorem isArgmax_unique {n : ℕ} {v : Fin n → K} {c d : Fin n} (hc : IsArgmax v c) (hd : IsArgmax v d) :
    c = d := by
  rcases lt_trichotomy c d with h | h | h
  · exact absurd (hd.2 c h) (not_lt.2 (hc.1 d))
  · exact h
  · exact absurd (hc.2 d h) (not_lt.2 (hd.1 c))

theorem npArgmin_range [IsStrictOrderedRing K] (D : ℕ) (hD : 0 < D) (f : ℕ → K) :
    ∃ b, npArgmin ((List.range D).map f) = .ok b ∧ b < D ∧ (∀ d < D, f b ≤ f d) ∧
      ∀ d < b, f b < f d := by
  have hne : (List.range D).map f ≠ [] := by
    intro e
    have := congrArg List.length e
    simp at this
    omega
  obtain ⟨m, h1, h2, h3⟩ := npArgmax_spec (((List.range D).map f).map fun x => -x) (by simpa using hne)
  have hb := (List.getElem?_eq_some_iff.1 h1).1
  rw [List.length_map, List.length_map, List.length_range] at hb
  refine ⟨npArgmax (((List.range D).map f).map fun x => -x), ?_, hb, ?_, ?_⟩
  · unfold npArgmin
    split
    · contradiction
    · rfl
  · intro d hd
    have e : m = - f (npArgmax (((List.range D).map f).map fun x => -x)) := by
      rw [List.getElem?_map, List.getElem?_map, List.getElem?_range hb] at h1
      exact (Option.some.inj h1).symm
    have := h2 (- f d) (by simp only [List.mem_map, List.mem_range]; exact ⟨f d, ⟨d, hd, rfl⟩, rfl⟩)
    rw [e] at this
    exact neg_le_neg_iff.1 this
  · intro d hd
    have e : m = - f (npArgmax (((List.range D).map f).map fun x => -x)) := by
      rw [List.getElem?_map, List.getElem?_map, List.getElem?_range hb] at h1
      exact (Option.some.inj h1).symm
    have := h3 d hd (- f d) (by
      rw [List.getElem?_map, List.getElem?_map, List.getElem?_range (by omega)]; rfl)
    rw [e] at this
    exact neg_lt_neg_iff.1 this

/-! ### losses -/

variable [IsStrictOrderedRing K] [NeZero C]

theorem pointLoss_nonneg (kind : Kind) (v : Fin C → K) (y : K) : 0 ≤ pointLoss kind v y := by
  unfold pointLoss
  cases kind
  · exact sq_nonneg _
  · simp only; split_ifs <;> simp

theorem truncLoss_nonneg (kind : Kind) (t : SkTree K C) (tr : t.Node → t.Node)
    (rows : List (LossRow K)) : 0 ≤ truncLoss kind t tr rows := by
  apply List.sum_nonneg
  intro x hx
  obtain ⟨r, -, rfl⟩ := List.mem_map.1 hx
  split_ifs
  · exact pointLoss_nonneg _ _ _
  · exact le_rfl

theorem treeLoss_eq (kind : Kind) (t : SkTree K C) (tr : t.Node → t.Node) (rows : List (LossRow K))
    (hr : ∀ r ∈ rows, r.leaf < t.nLeaves) (hne : rows ≠ []) :
    treeLoss kind rows ((List.finRange t.nLeaves).map fun r => t.value (tr (t.leafNode r))) =
      .ok (truncLoss kind t tr rows) := by
  have hC : 0 < C := Nat.pos_of_ne_zero (NeZero.ne C)
  have hg : ∀ r : LossRow K, ∀ h : r.leaf < t.nLeaves,
      pyGet ((List.finRange t.nLeaves).map fun r => t.value (tr (t.leafNode r))) r.leaf =
        .ok (t.value (tr (t.leafNode ⟨r.leaf, h⟩))) := by
    intro r h
    apply pyGet_some
    rw [List.getElem?_map, finRange_getElem? ⟨r.leaf, h⟩]
    rfl
  cases kind
  · unfold treeLoss
    rw [if_neg (by simpa using hne)]
    simp only
    rw [mapM_ok _ _ (fun r => if h : r.leaf < t.nLeaves then
      pointLoss .reg (t.value (tr (t.leafNode ⟨r.leaf, h⟩))) r.y else 0)]
    · rfl
    · intro r hrr
      rw [hg r (hr r hrr), dif_pos (hr r hrr)]
      simp only [bind, Except.bind]
      rw [pyGet_some (a := t.value (tr (t.leafNode ⟨r.leaf, hr r hrr⟩)) 0)]
      · rfl
      · rw [List.getElem?_ofFn, dif_pos hC]; rfl
  · unfold treeLoss
    rw [if_neg (by simpa using hne)]
    simp only
    rw [mapM_ok _ _ (fun r => if h : r.leaf < t.nLeaves then
      pointLoss .cls (t.value (tr (t.leafNode ⟨r.leaf, h⟩))) r.y else 0)]
    · rfl
    · intro r hrr
      rw [hg r (hr r hrr), dif_pos (hr r hrr)]
      simp only [bind, Except.bind, pure, Except.pure, pointLoss]
      obtain ⟨c, h1, h2⟩ := npArgmax_ofFn (t.value (tr (t.leafNode ⟨r.leaf, hr r hrr⟩))) hC
      rw [h1]
      by_cases hy : ((c.val : ℕ) : K) = r.y
      · rw [if_neg (by simpa using hy), if_pos ⟨c, h2, hy⟩]
      · rw [if_pos hy, if_neg]
        rintro ⟨c', h3, h4⟩
        rw [isArgmax_unique h3 h2] at h4
        exact hy h4

theorem treeLossVec_eq (maxDepth : ℕ) (prev : Option ℕ) (D : ℕ) (hD : 0 < D) (hle : D ≤ maxDepth)
    (L : ℕ → K) (hL : ∀ d, 0 ≤ L d) :
    treeLossVec maxDepth prev ((List.range D).map L) =
      .ok ((List.range maxDepth).map fun d => L (min d (D - 1)), some (D - 1)) := by
  unfold treeLossVec
  simp only [List.length_map, List.length_range]
  rw [if_neg (by omega)]
  have e : ((List.range D).map L ++ List.replicate (maxDepth - D) (-1))[D - 1]? = some (L (D - 1)) := by
    rw [List.getElem?_append_left (by simp; omega), List.getElem?_map, List.getElem?_range (by omega)]
    rfl
  simp only [pyGet_some e, bind, Except.bind, pure, Except.pure]
  congr 2
  apply List.ext_getElem
  · simp; omega
  · intro i h1 h2
    have hne : ∀ d, L d ≠ -1 := fun d hd => by
      have := hL d
      rw [hd] at this
      exact absurd this (by simp)
    simp only [List.getElem_map, List.getElem_append, List.length_map, List.length_range,
      List.getElem_range, List.getElem_replicate]
    by_cases hi : i < D
    · rw [dif_pos hi, if_neg (hne _)]
      congr 1; omega
    · rw [dif_neg hi, if_pos rfl]
      congr 1; omega

theorem depthFold (kind : Kind) (maxDepth : ℕ) (tune : ℕ → List (LossRow K))
    (dep : SkTree K C → ℕ) (tr : (t : SkTree K C) → ℕ → t.Node → t.Node)
    (l : List (SkTree K C × ℕ))
    (hl : ∀ tt ∈ l, tt.1.WF ∧ tt.1.IsTreeDepth (dep tt.1) ∧ 0 < dep tt.1 ∧ dep tt.1 ≤ maxDepth ∧
      (∀ d i, tt.1.Deepest d i (tr tt.1 d i)) ∧ (∀ r ∈ tune tt.2, r.leaf < tt.1.nLeaves) ∧ tune tt.2 ≠ [])
    (A : ℕ → K) (i : Option ℕ) :
    ∃ j, l.foldlM (depthTuneStep kind maxDepth tune) ((List.range maxDepth).map A, i) =
      .ok ((List.range maxDepth).map fun d => A d +
        (l.map fun tt => truncLoss kind tt.1 (tr tt.1 (min d (dep tt.1 - 1))) (tune tt.2)).sum, j) := by
  induction l generalizing A i with
  | nil => exact ⟨i, by simp [pure, Except.pure]⟩
  | cons tt l ih =>
    obtain ⟨h1, h2, h3, h4, h5, h6, h7⟩ := hl tt (by simp)
    have e : depthTuneStep kind maxDepth tune ((List.range maxDepth).map A, i) tt =
        .ok ((List.range maxDepth).map (fun d => A d +
          truncLoss kind tt.1 (tr tt.1 (min d (dep tt.1 - 1))) (tune tt.2)), some (dep tt.1 - 1)) := by
      unfold depthTuneStep
      rw [leafPredictedValues_eq h1 h2 h5]
      simp only [bind, Except.bind]
      rw [mapM_ok _ _ fun pred => match treeLoss kind (tune tt.2) pred with | .ok x => x | .error _ => 0]
      · simp only [List.map_map]
        have e2 : (List.range (dep tt.1)).map ((fun pred => match treeLoss kind (tune tt.2) pred with
            | .ok x => x | .error _ => 0) ∘ fun d =>
              (List.finRange tt.1.nLeaves).map fun r => tt.1.value (tr tt.1 d (tt.1.leafNode r))) =
            (List.range (dep tt.1)).map fun d => truncLoss kind tt.1 (tr tt.1 d) (tune tt.2) := by
          refine List.map_congr_left fun d _ => ?_
          simp only [Function.comp_apply, treeLoss_eq kind tt.1 (tr tt.1 d) (tune tt.2) h6 h7]
        rw [e2, treeLossVec_eq maxDepth i _ h3 h4 _ fun d => truncLoss_nonneg _ _ _ _]
        simp only [pure, Except.pure]
        rw [List.zipWith_map, List.zipWith_self]
      · intro p hp
        obtain ⟨d, -, rfl⟩ := List.mem_map.1 hp
        rw [treeLoss_eq kind tt.1 (tr tt.1 d) (tune tt.2) h6 h7]
    obtain ⟨j, hj⟩ := ih (fun tt' h => hl tt' (by simp [h])) (fun d => A d +
          truncLoss kind tt.1 (tr tt.1 (min d (dep tt.1 - 1))) (tune tt.2)) (some (dep tt.1 - 1))
    refine ⟨j, ?_⟩
    rw [List.foldlM_cons, e]
    simp only [bind, Except.bind]
    rw [hj]
    simp only [List.map_cons, List.sum_cons, add_assoc]

theorem truncateTree_eq {t : SkTree K C} (h : t.WF) {D : ℕ} (hD : t.IsTreeDepth D) (hpos : 0 < D)
    {tr : ℕ → t.Node → t.Node} (htr : ∀ d i, t.Deepest d i (tr d i)) (best : ℕ) :
    ∃ t', truncateTree best t = .ok t' ∧
      LeafUpdate t t' fun r => t.value (tr (min best (D - 1)) (t.leafNode r)) := by
  have hw := writeLeaves_spec t h ((List.finRange t.nLeaves).map fun r =>
    t.value (tr (min best (D - 1)) (t.leafNode r))) (by simp)
  obtain ⟨t', h1, h2⟩ := hw
  refine ⟨t', ?_, ?_⟩
  · unfold truncateTree
    rw [leafPredictedValues_eq h hD htr]
    simp only [bind, Except.bind, List.length_map, List.length_range]
    rw [if_neg (by omega)]
    rw [pyGet_some (a := (List.finRange t.nLeaves).map fun r =>
      t.value (tr (min best (D - 1)) (t.leafNode r)))]
    · exact h1
    · rw [List.getElem?_map, List.getElem?_range (by omega), min_comm]; rfl
  · convert h2 using 3
    simp

theorem mapM_forall2 {α β : Type} {l : List α} {f : α → Except PyErr β} {R : α → β → Prop}
    (h : ∀ a ∈ l, ∃ b, f a = .ok b ∧ R a b) : ∃ m, l.mapM f = .ok m ∧ List.Forall₂ R l m := by
  induction l with
  | nil => exact ⟨[], rfl, .nil⟩
  | cons a l ih =>
    obtain ⟨b, h1, h2⟩ := h a (by simp)
    obtain ⟨m, h3, h4⟩ := ih fun a ha => h a (by simp [ha])
    refine ⟨b :: m, ?_, .cons h2 h4⟩
    rw [List.mapM_cons, h1]
    simp only [bind, Except.bind, h3]
    rfl

end SmoothRF
