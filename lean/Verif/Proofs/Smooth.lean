import Verif.Model.Smooth
import Verif.Spec.Smooth
import Verif.Props.GammaProps
import Verif.Props.SgdProps

set_option linter.unusedSectionVars false

namespace SmoothRF
open SkTree Topo

variable {K : Type} [Field K] [LinearOrder K] {C : ℕ}

/-- All leaves of a forest in row order. -/
def leafList (forest : List (SkTree K C)) : List ((t : SkTree K C) × Fin t.nLeaves) :=
  forest.flatMap fun t => (List.finRange t.nLeaves).map fun r => ⟨t, r⟩

theorem leafList_cons (t : SkTree K C) (ts : List (SkTree K C)) :
    leafList (t :: ts) = ((List.finRange t.nLeaves).map fun r => ⟨t, r⟩) ++ leafList ts := by
  simp [leafList]

theorem leafList_map {β : Type} (forest : List (SkTree K C))
    (f : (t : SkTree K C) → Fin t.nLeaves → β) :
    (leafList forest).map (fun p => f p.1 p.2) =
      forest.flatMap fun t => (List.finRange t.nLeaves).map (f t) := by
  induction forest with
  | nil => rfl
  | cons t ts ih =>
    rw [leafList_cons, List.map_append, ih]
    simp [Function.comp_def]

theorem nLeaves_le_leafList {forest : List (SkTree K C)} {t : SkTree K C} (ht : t ∈ forest) :
    t.nLeaves ≤ (leafList forest).length := by
  induction forest with
  | nil => cases ht
  | cons u us ih =>
    rw [leafList_cons, List.length_append]
    rcases List.mem_cons.1 ht with rfl | h
    · simp
    · have := ih h; omega

theorem range_map_getD {α β : Type} (L : List α) (F : ℕ → β) (G : α → β)
    (h : ∀ i (hi : i < L.length), F i = G L[i]) : (List.range L.length).map F = L.map G := by
  apply List.ext_getElem
  · simp
  · intro i h1 h2
    simp only [List.getElem_map, List.getElem_range]
    exact h i (by simpa using h2)

/-- The smoothed values of the flattened rows. -/
theorem flatRows_values (kind : Kind) (forest : List (SkTree K C)) (hwf : ∀ t ∈ forest, t.WF)
    (s : Style) (pa allTrees : Bool) (yw : List ((Fin C → K) × K))
    (lamb : Fin (forestDepth forest + 1) → K) :
    (flatRows (forestDepth forest + 1) allTrees (gammaEtaForest kind forest s pa) yw).map
        (fun r => smoothValue r lamb) =
      (List.finRange C).flatMap fun c =>
        (leafList forest).map fun p => smoothSpec kind p.1 s pa lamb p.2 c := by
  obtain ⟨h1, h2, -⟩ := C16_forest_stacking kind forest hwf s pa
  rw [flatRows, List.map_flatMap]
  congr 1
  funext c
  rw [List.map_map]
  have e1 := h1 c
  rw [← leafList_map] at e1 h2
  rw [h2, List.length_map]
  refine range_map_getD _ _ _ fun i hi => ?_
  have hrow : ∀ (v : ℕ → K) (j : Fin (forestDepth forest + 1)),
      toVec (forestDepth forest + 1) ((List.range (forestDepth forest + 1)).map v) j = v j := by
    intro v j
    simp [toVec, List.getD_eq_getElem?_getD, List.getElem?_map, List.getElem?_range j.2]
  have key : ∀ (r : Row K (forestDepth forest + 1)) (p : (t : SkTree K C) × Fin t.nLeaves),
      (∀ j, r.eta j = levelSum pa (p.1.distDepth s) (fun j => p.1.nSamp (p.1.leafNode j)) p.2 j) →
      (∀ j, r.gam j = levelSum pa (p.1.distDepth s) (fun j => p.1.mass kind (p.1.leafNode j) c) p.2 j) →
      smoothValue r lamb = smoothSpec kind p.1 s pa lamb p.2 c := by
    intro r p he hg
    have hden : dot r.eta lamb = smoothDen p.1 s pa lamb p.2 := by simp only [dot, smoothDen, he]
    have hnum : dot r.gam lamb = smoothNum kind p.1 s pa lamb p.2 c := by
      simp only [dot, smoothNum, hg]
    unfold smoothValue smoothSpec etaFill
    rw [hden, hnum]
    split_ifs <;> rfl
  apply key
  · intro j
    simp only [List.getD_eq_getElem?_getD, List.getElem?_map, List.getElem?_eq_getElem hi,
      Option.map_some, Option.getD_some]
    exact hrow _ j
  · intro j
    simp only [e1, List.getD_eq_getElem?_getD, List.getElem?_map, List.getElem?_eq_getElem hi,
      Option.map_some, Option.getD_some]
    exact hrow _ j

theorem flatMap_block {γ α β : Type} (L : List α) (f : α → γ → β) (cs : List γ) (k i : ℕ)
    (hi : i < L.length) :
    (cs.flatMap fun c => L.map fun p => f p c)[k * L.length + i]? =
      cs[k]?.map fun c => f L[i] c := by
  induction cs generalizing k with
  | nil => simp
  | cons c cs ih =>
    rw [List.flatMap_cons]
    cases k with
    | zero =>
      rw [List.getElem?_append_left (by simpa using hi)]
      simp [hi]
    | succ k =>
      rw [List.getElem?_append_right (by simp; nlinarith)]
      have : (k + 1) * L.length + i - (L.map fun p => f p c).length = k * L.length + i := by
        simp [Nat.add_mul]; omega
      rw [this, ih]; simp

theorem flatMap_block_length {γ α β : Type} (L : List α) (f : α → γ → β) (cs : List γ) :
    (cs.flatMap fun c => L.map fun p => f p c).length = cs.length * L.length := by
  induction cs with
  | nil => simp
  | cons c cs ih => rw [List.flatMap_cons, List.length_append, ih]; simp [Nat.add_mul, Nat.add_comm]

theorem reshapeF_flat {α : Type} (hC : 0 < C) (L : List α) (f : α → Fin C → K) :
    reshapeF C ((List.finRange C).flatMap fun c => L.map fun p => f p c) = L.map f := by
  have hlen : ((List.finRange C).flatMap fun c => L.map fun p => f p c).length / C = L.length := by
    rw [flatMap_block_length, List.length_finRange, Nat.mul_div_cancel_left _ hC]
  unfold reshapeF
  simp only [hlen]
  refine range_map_getD _ _ _ fun i hi => ?_
  funext c
  rw [List.getD_eq_getElem?_getD, flatMap_block L f _ _ _ hi, finRange_getElem?]
  rfl

theorem writeLeaves_spec (t : SkTree K C) (h : t.WF) (vals : List (Fin C → K))
    (hl : vals.length = t.nLeaves) :
    ∃ t', writeLeaves t vals = .ok t' ∧
      LeafUpdate t t' fun r c => (vals[r.val]'(by rw [hl]; exact r.2)) c := by
  refine ⟨_, by rw [writeLeaves, if_pos (Or.inl hl)], _, rfl, ?_, ?_⟩
  · intro r c
    have hr : r.val < vals.length := by rw [hl]; exact r.2
    unfold newValue
    rw [if_pos (leafNode_right r), leafIdx_leafNode]
    have : (if vals.length = 1 then 0 else (r.val : ℤ).toNat) = r.val := by
      split_ifs with h1
      · omega
      · simp
    rw [this, List.getElem?_eq_getElem hr]
    rfl
  · intro i c hi
    unfold newValue
    rw [if_neg fun hn => hi ((isLeaf_iff h).2 hn)]

theorem writeBack1_spec (f : ((t : SkTree K C) × Fin t.nLeaves) → Fin C → K)
    (ts : List (SkTree K C)) (hwf : ∀ t ∈ ts, t.WF) (pre : List (Fin C → K)) :
    ∃ ts', writeBack1 (pre ++ (leafList ts).map f) pre.length ts = .ok ts' ∧
      List.Forall₂ (fun t t' => LeafUpdate t t' fun r => f ⟨t, r⟩) ts ts' := by
  induction ts generalizing pre with
  | nil => exact ⟨[], rfl, .nil⟩
  | cons t ts ih =>
    have hv : ((pre ++ (leafList (t :: ts)).map f).drop pre.length).take t.nLeaves =
        (List.finRange t.nLeaves).map fun r => f ⟨t, r⟩ := by
      rw [leafList_cons, List.drop_left, List.map_append, List.take_append_of_le_length (by simp),
        List.take_of_length_le (by simp)]
      simp [Function.comp_def]
    obtain ⟨t', h1, h2⟩ := writeLeaves_spec t (hwf t (by simp))
      ((List.finRange t.nLeaves).map fun r => f ⟨t, r⟩) (by simp)
    obtain ⟨ts', h3, h4⟩ := ih (fun u hu => hwf u (by simp [hu]))
      (pre ++ (List.finRange t.nLeaves).map fun r => f ⟨t, r⟩)
    refine ⟨t' :: ts', ?_, .cons ?_ h4⟩
    · rw [writeBack1, hv, h1]
      simp only [List.length_append, List.length_map, List.length_finRange] at h3
      have e : pre ++ (leafList (t :: ts)).map f =
          pre ++ (List.finRange t.nLeaves).map (fun r => f ⟨t, r⟩) ++ (leafList ts).map f := by
        rw [leafList_cons, List.map_append, List.append_assoc]
        simp [Function.comp_def]
      rw [e]
      show (writeBack1 _ _ ts >>= fun ts' => pure (t' :: ts')) = _
      rw [h3]; rfl
    · simpa using h2

theorem writeBack2_spec (all : List (Fin C → K)) (ts : List (SkTree K C)) (hwf : ∀ t ∈ ts, t.WF)
    (hlen : ∀ t ∈ ts, t.nLeaves ≤ all.length) :
    ∃ ts', writeBack2 all 0 ts = .ok ts' ∧
      List.Forall₂ (fun t t' => LeafUpdate t t' fun r c => (all[r.val]?).elim 0 fun v => v c) ts ts' := by
  induction ts with
  | nil => exact ⟨[], rfl, .nil⟩
  | cons t ts ih =>
    have hl := hlen t (by simp)
    obtain ⟨t', h1, h2⟩ := writeLeaves_spec t (hwf t (by simp)) (all.take t.nLeaves)
      (by simpa using hl)
    obtain ⟨ts', h3, h4⟩ := ih (fun u hu => hwf u (by simp [hu])) (fun u hu => hlen u (by simp [hu]))
    refine ⟨t' :: ts', ?_, .cons ?_ h4⟩
    · rw [writeBack2, List.drop_zero, h1]
      show (writeBack2 _ _ ts >>= fun ts' => pure (t' :: ts')) = _
      rw [h3]; rfl
    · obtain ⟨v, e, hv, hw⟩ := h2
      refine ⟨v, e, fun r c => ?_, hw⟩
      rw [hv]
      have hr : r.val < all.length := lt_of_lt_of_le r.2 hl
      simp only [List.getElem?_eq_getElem hr, List.getElem_take, Option.elim_some]

/-- Inversion of a successful run of `smooth`. -/
theorem smooth_ok {sqrt : K → K}
    {ce : (n : ℕ) → SgdOpts K → K → List (Row K n) → List K → List ℕ →
      Except PyErr ((Fin n → K) × (Fin n → K) × List K)}
    {rf : Option Kind} {forest : List (SkTree K C)} {cfg : SmoothCfg K}
    {sources : TuneSrc → ℕ → List (TuneRow K C)} {out : SmoothOut K C (forestDepth forest + 1)}
    (h : smooth sqrt ce rf forest cfg sources = .ok out) :
    ∃ kind src yw lamb, rf = some kind ∧ smoothCheck rf cfg.data cfg.noConstraint = .ok (kind, src) ∧
      tuneSummaries (decide (kind = .cls) && decide (src ≠ .given)) forest (sources src) = .ok yw ∧
      initLamb kind cfg.seed cfg.classEps = .ok lamb ∧
      smoothOptimise sqrt (ce _) kind cfg
        (flatRows (forestDepth forest + 1) cfg.allTrees
          (gammaEtaForest kind forest cfg.style cfg.parentsAll) yw) lamb =
        .ok (out.lamb1, out.lamb2, out.costs) ∧
      writeBack1 (reshapeF C ((flatRows (forestDepth forest + 1) cfg.allTrees
          (gammaEtaForest kind forest cfg.style cfg.parentsAll) yw).map
          fun r => smoothValue r out.lamb1)) 0 forest = .ok out.rf1 ∧
      writeBack2 (reshapeF C ((flatRows (forestDepth forest + 1) cfg.allTrees
          (gammaEtaForest kind forest cfg.style cfg.parentsAll) yw).map
          fun r => smoothValue r out.lamb2)) 0 forest = .ok out.rf2 := by
  unfold smooth at h
  obtain ⟨⟨kind, src⟩, h1, h⟩ := bind_ok h
  obtain ⟨yw, h2, h⟩ := bind_ok h
  obtain ⟨lamb, h3, h⟩ := bind_ok h
  obtain ⟨⟨l1, l2, cs⟩, h4, h⟩ := bind_ok h
  obtain ⟨rf1, h5, h⟩ := bind_ok h
  obtain ⟨rf2, h6, h⟩ := bind_ok h
  cases h
  refine ⟨kind, src, yw, lamb, ?_, h1, h2, h3, h4, h5, h6⟩
  cases rf with
  | none => cases h1
  | some k =>
    unfold smoothCheck at h1
    obtain ⟨s, -, h1⟩ := bind_ok h1
    split_ifs at h1
    cases h1; rfl

theorem forall2_imp_mem {α β : Type} {R S : α → β → Prop} {l : List α} {m : List β}
    (h : List.Forall₂ R l m) (f : ∀ a ∈ l, ∀ b, R a b → S a b) : List.Forall₂ S l m := by
  induction h with
  | nil => exact .nil
  | cons hr _ ih => exact .cons (f _ (by simp) _ hr) (ih fun a ha => f a (by simp [ha]))

/-- Both forests of a successful run. -/
theorem smooth_forests (hC : 0 < C) {sqrt : K → K}
    {ce : (n : ℕ) → SgdOpts K → K → List (Row K n) → List K → List ℕ →
      Except PyErr ((Fin n → K) × (Fin n → K) × List K)}
    {kind : Kind} {forest : List (SkTree K C)} (hwf : ∀ t ∈ forest, t.WF) {cfg : SmoothCfg K}
    {sources : TuneSrc → ℕ → List (TuneRow K C)} {out : SmoothOut K C (forestDepth forest + 1)}
    (h : smooth sqrt ce (some kind) forest cfg sources = .ok out) :
    List.Forall₂ (fun t t' => LeafUpdate t t'
      fun r => smoothSpec kind t cfg.style cfg.parentsAll out.lamb1 r) forest out.rf1 ∧
    List.Forall₂ (fun t t' => LeafUpdate t t' fun r c =>
      (((leafList forest)[r.val]?).elim 0 fun p =>
        smoothSpec kind p.1 cfg.style cfg.parentsAll out.lamb2 p.2 c)) forest out.rf2 := by
  obtain ⟨kind', src, yw, lamb, h0, -, -, -, -, h5, h6⟩ := smooth_ok h
  cases h0
  rw [flatRows_values kind forest hwf, reshapeF_flat hC (leafList forest)] at h5 h6
  obtain ⟨ts', h7, h8⟩ := writeBack1_spec
    (fun p => smoothSpec kind p.1 cfg.style cfg.parentsAll out.lamb1 p.2) forest hwf []
  rw [List.nil_append, List.length_nil, h5] at h7
  cases h7
  obtain ⟨ts', h9, h10⟩ := writeBack2_spec ((leafList forest).map
    fun p : (t : SkTree K C) × Fin t.nLeaves => smoothSpec kind p.1 cfg.style cfg.parentsAll out.lamb2 p.2) forest hwf
    (fun t ht => by simpa using nLeaves_le_leafList ht)
  rw [h6] at h9
  cases h9
  refine ⟨h8, forall2_imp_mem h10 fun t ht t' hu => ?_⟩
  obtain ⟨v, e, hv, hw⟩ := hu
  refine ⟨v, e, fun r c => ?_, hw⟩
  rw [hv]
  simp only [List.getElem?_map]
  cases (leafList forest)[r.val]? <;> rfl

end SmoothRF
