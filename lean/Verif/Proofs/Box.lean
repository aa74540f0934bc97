import Verif.Spec.Box
import Verif.Proofs.Prune

set_option linter.unusedSectionVars false

namespace SmoothRF
namespace SplitTree
open Topo

variable {K : Type} [Field K] [LinearOrder K] [IsStrictOrderedRing K] {p : ℕ}

theorem foldl_min_spec {α : Type} (f : α → K) (l : List α) (a : K) :
    l.foldl (fun acc r => min acc (f r)) a ≤ a ∧
    (∀ r ∈ l, l.foldl (fun acc r => min acc (f r)) a ≤ f r) ∧
    (l.foldl (fun acc r => min acc (f r)) a = a ∨ ∃ r ∈ l, l.foldl (fun acc r => min acc (f r)) a = f r) := by
  induction l generalizing a with
  | nil => simp
  | cons x l ih =>
    obtain ⟨h1, h2, h3⟩ := ih (min a (f x))
    simp only [List.foldl_cons]
    refine ⟨h1.trans (min_le_left _ _), ?_, ?_⟩
    · intro r hr
      rcases List.mem_cons.1 hr with rfl | hr
      · exact h1.trans (min_le_right _ _)
      · exact h2 r hr
    · rcases h3 with h3 | ⟨r, hr, h3⟩
      · rcases min_choice a (f x) with h | h
        · exact Or.inl (h3.trans h)
        · exact Or.inr ⟨x, by simp, h3.trans h⟩
      · exact Or.inr ⟨r, by simp [hr], h3⟩

theorem foldl_max_spec {α : Type} (f : α → K) (l : List α) (a : K) :
    a ≤ l.foldl (fun acc r => max acc (f r)) a ∧
    (∀ r ∈ l, f r ≤ l.foldl (fun acc r => max acc (f r)) a) ∧
    (l.foldl (fun acc r => max acc (f r)) a = a ∨ ∃ r ∈ l, l.foldl (fun acc r => max acc (f r)) a = f r) := by
  induction l generalizing a with
  | nil => simp
  | cons x l ih =>
    obtain ⟨h1, h2, h3⟩ := ih (max a (f x))
    simp only [List.foldl_cons]
    refine ⟨(le_max_left _ _).trans h1, ?_, ?_⟩
    · intro r hr
      rcases List.mem_cons.1 hr with rfl | hr
      · exact (le_max_right _ _).trans h1
      · exact h2 r hr
    · rcases h3 with h3 | ⟨r, hr, h3⟩
      · rcases max_choice a (f x) with h | h
        · exact Or.inl (h3.trans h)
        · exact Or.inr ⟨x, by simp, h3.trans h⟩
      · exact Or.inr ⟨r, by simp [hr], h3⟩

/-- The box a left / right child gets from its parent's box. -/
def leftBox (t : SplitTree K p) (i : t.Node) (b : Fin p → K × K) : Fin p → K × K :=
  Function.update b (t.feature i) ((b (t.feature i)).1, t.threshold i)

@[inherit_doc leftBox]
def rightBox (t : SplitTree K p) (i : t.Node) (b : Fin p → K × K) : Fin p → K × K :=
  Function.update b (t.feature i) (t.threshold i, (b (t.feature i)).2)

theorem boxRec_spec {t : SplitTree K p} (h : t.WF) (fuel : ℕ) (st : t.Boxes) (i : t.Node)
    (hf : t.m + 1 ≤ i.val + fuel) :
    ∃ st', t.boxRec fuel st i = .ok st' ∧ (∀ x, (¬ t.Anc i x ∨ x = i) → st' x = st x) ∧
      ∀ a, t.Anc i a → (∀ l, t.left a = some l → st' l = t.leftBox a (st' a)) ∧
        (∀ r, t.right a = some r → st' r = t.rightBox a (st' a)) := by
  induction fuel generalizing st i with
  | zero => exact absurd i.2 (by omega)
  | succ fuel ih =>
    by_cases hi : t.IsLeaf i
    · have hl := left_none_of_leaf h hi
      refine ⟨st, ?_, fun _ _ => rfl, ?_⟩
      · unfold boxRec; rw [hl]
      · intro a ha
        have := leaf_anc_eq h hi ha
        subst this
        rw [hl, (isLeaf_iff h).1 hi]
        exact ⟨nofun, nofun⟩
    · obtain ⟨l, r, hl, hr⟩ := children_of_not_leaf h hi
      have hcl : t.IsChild i l := Or.inl hl
      have hcr : t.IsChild i r := Or.inr hr
      have hlr : l ≠ r := fun e => h.ne i l hl (e ▸ hr)
      have hil : i.val < l.val := h.lt _ _ hcl
      have hir : i.val < r.val := h.lt _ _ hcr
      have hli : l ≠ i := by rintro rfl; omega
      have hri : r ≠ i := by rintro rfl; omega
      let s1 : t.Boxes := Function.update (Function.update st l (st i)) l (t.leftBox i (st i))
      obtain ⟨s2, e2, k2, c2⟩ := ih s1 l (by omega)
      let s3 : t.Boxes := Function.update (Function.update s2 r (s2 i)) r (t.rightBox i (s2 i))
      obtain ⟨s4, e4, k4, c4⟩ := ih s3 r (by omega)
      have a1 : s2 i = st i := by
        rw [k2 i (Or.inl (not_anc_child h hcl))]
        simp only [s1, Function.update_of_ne (Ne.symm hli)]
      have a2 : s4 i = st i := by
        rw [k4 i (Or.inl (not_anc_child h hcr))]
        simp only [s3, Function.update_of_ne (Ne.symm hri), a1]
      have a3 : s4 l = t.leftBox i (st i) := by
        rw [k4 l (Or.inl fun e => siblings_disjoint h hcl hcr hlr (.refl _) e)]
        simp only [s3, Function.update_of_ne hlr]
        rw [k2 l (Or.inr rfl)]
        simp only [s1, Function.update_self]
      have a4 : s4 r = t.rightBox i (st i) := by
        rw [k4 r (Or.inr rfl)]
        simp only [s3, Function.update_self, a1]
      refine ⟨s4, ?_, ?_, ?_⟩
      · unfold boxRec
        rw [hl, hr]
        simp only [Option.getD_some, Function.update_self, bind, Except.bind]
        have : t.boxRec fuel (Function.update (Function.update st l (st i)) l
            (Function.update (st i) (t.feature i) ((st i (t.feature i)).1, t.threshold i))) l =
            .ok s2 := e2
        rw [this]
        exact e4
      · rintro x (hx | rfl)
        · have hxl : ¬ t.Anc l x := fun e => hx ((Anc.step (.refl _) hcl).trans e)
          have hxr : ¬ t.Anc r x := fun e => hx ((Anc.step (.refl _) hcr).trans e)
          have n1 : x ≠ l := by rintro rfl; exact hxl (.refl _)
          have n2 : x ≠ r := by rintro rfl; exact hxr (.refl _)
          rw [k4 x (Or.inl hxr)]
          simp only [s3, Function.update_of_ne n2]
          rw [k2 x (Or.inl hxl)]
          simp only [s1, Function.update_of_ne n1]
        · exact a2
      · intro a ha
        by_cases hai : i = a
        · subst hai
          rw [hl, hr, a2]
          refine ⟨fun y e => ?_, fun y e => ?_⟩
          · cases e; exact a3
          · cases e; exact a4
        · obtain ⟨c, hc, hca⟩ := anc_top h ha hai
          rcases hc with hc | hc
          · rw [hl] at hc; cases hc
            -- inside the left subtree nothing changes during the second call
            have keep : ∀ x, t.Anc l x → s4 x = s2 x := by
              intro x hx
              have hxr : ¬ t.Anc r x := fun e => siblings_disjoint h hcl hcr hlr hx e
              have n2 : x ≠ r := by rintro rfl; exact hxr (.refl _)
              rw [k4 x (Or.inl hxr)]
              simp only [s3, Function.update_of_ne n2]
            obtain ⟨q1, q2⟩ := c2 a hca
            rw [keep a hca]
            refine ⟨fun y e => ?_, fun y e => ?_⟩
            · rw [keep y (Anc.step hca (Or.inl e))]; exact q1 y e
            · rw [keep y (Anc.step hca (Or.inr e))]; exact q2 y e
          · rw [hr] at hc; cases hc
            exact c4 a hca

theorem boundBox_spec {t : SplitTree K p} (h : t.WF) (x : Fin p → K) (xs : List (Fin p → K)) :
    ∃ b, t.boundBox (x :: xs) = .ok b ∧
      (∀ j, b 0 j = (colMin x xs j, colMax x xs j)) ∧
      ∀ a, (∀ l, t.left a = some l → b l = t.leftBox a (b a)) ∧
        (∀ r, t.right a = some r → b r = t.rightBox a (b a)) := by
  obtain ⟨b, e, k, c⟩ := boxRec_spec h (t.m + 1)
    (Function.update (fun _ _ => (0, 0)) 0 fun j => (colMin x xs j, colMax x xs j)) 0 (by omega)
  refine ⟨b, e, fun j => ?_, fun a => c a (anc_root h a)⟩
  rw [k 0 (Or.inr rfl), Function.update_self]

theorem colMin_le (x : Fin p → K) (xs : List (Fin p → K)) (j : Fin p) :
    ∀ r ∈ x :: xs, colMin x xs j ≤ r j := by
  intro r hr
  obtain ⟨h1, h2, -⟩ := foldl_min_spec (fun r : Fin p → K => r j) xs (x j)
  rcases List.mem_cons.1 hr with rfl | hr
  · exact h1
  · exact h2 r hr

theorem le_colMax (x : Fin p → K) (xs : List (Fin p → K)) (j : Fin p) :
    ∀ r ∈ x :: xs, r j ≤ colMax x xs j := by
  intro r hr
  obtain ⟨h1, h2, -⟩ := foldl_max_spec (fun r : Fin p → K => r j) xs (x j)
  rcases List.mem_cons.1 hr with rfl | hr
  · exact h1
  · exact h2 r hr

theorem colMin_mem (x : Fin p → K) (xs : List (Fin p → K)) (j : Fin p) :
    ∃ r ∈ x :: xs, colMin x xs j = r j := by
  rcases (foldl_min_spec (fun r : Fin p → K => r j) xs (x j)).2.2 with h | ⟨r, hr, h⟩
  · exact ⟨x, by simp, h⟩
  · exact ⟨r, by simp [hr], h⟩

theorem colMax_mem (x : Fin p → K) (xs : List (Fin p → K)) (j : Fin p) :
    ∃ r ∈ x :: xs, colMax x xs j = r j := by
  rcases (foldl_max_spec (fun r : Fin p → K => r j) xs (x j)).2.2 with h | ⟨r, hr, h⟩
  · exact ⟨x, by simp, h⟩
  · exact ⟨r, by simp [hr], h⟩

theorem inBox_left {t : SplitTree K p} {i : t.Node} {b : Fin p → K × K} {z : Fin p → K}
    (hz : InBox b z) (hc : z (t.feature i) ≤ t.threshold i) : InBox (t.leftBox i b) z := by
  intro j
  by_cases hj : j = t.feature i
  · subst hj
    simp only [leftBox, Function.update_self]
    exact ⟨(hz _).1, hc⟩
  · simp only [leftBox, Function.update_of_ne hj]
    exact hz j

theorem inBox_right {t : SplitTree K p} {i : t.Node} {b : Fin p → K × K} {z : Fin p → K}
    (hz : InBox b z) (hc : t.threshold i ≤ z (t.feature i)) : InBox (t.rightBox i b) z := by
  intro j
  by_cases hj : j = t.feature i
  · subst hj
    simp only [rightBox, Function.update_self]
    exact ⟨hc, (hz _).2⟩
  · simp only [rightBox, Function.update_of_ne hj]
    exact hz j

theorem routed_inBox {t : SplitTree K p} {b : t.Boxes}
    (hc : ∀ a, (∀ l, t.left a = some l → b l = t.leftBox a (b a)) ∧
      (∀ r, t.right a = some r → b r = t.rightBox a (b a)))
    {z : Fin p → K} (h0 : InBox (b 0) z) {i : t.Node} (hr : t.Routed z i) : InBox (b i) z := by
  induction hr with
  | root => exact h0
  | goLeft _ hl hle ih => rw [(hc _).1 _ hl]; exact inBox_left ih hle
  | goRight _ hr hlt ih => rw [(hc _).2 _ hr]; exact inBox_right ih hlt.le

/-- A routed child comes from a routed parent. -/
theorem routed_child {t : SplitTree K p} (h : t.WF) {x : Fin p → K} {a c : t.Node}
    (hr : t.Routed x c) :
    (t.left a = some c → t.Routed x a ∧ x (t.feature a) ≤ t.threshold a) ∧
    (t.right a = some c → t.Routed x a ∧ t.threshold a < x (t.feature a)) := by
  have h0 : ∀ a, ¬ t.IsChild a 0 := fun a e => absurd (h.lt a 0 e) (Nat.not_lt_zero _)
  cases hr with
  | root => exact ⟨fun e => absurd (Or.inl e) (h0 a), fun e => absurd (Or.inr e) (h0 a)⟩
  | @goLeft i _ hi hl hle =>
    refine ⟨fun e => ?_, fun e => ?_⟩
    · have := h.uniq a i c (Or.inl e) (Or.inl hl)
      subst this
      exact ⟨hi, hle⟩
    · have := h.uniq a i c (Or.inr e) (Or.inl hl)
      subst this
      exact absurd e (h.ne _ _ hl)
  | @goRight i _ hi hl hle =>
    refine ⟨fun e => ?_, fun e => ?_⟩
    · have := h.uniq a i c (Or.inl e) (Or.inr hl)
      subst this
      exact absurd hl (h.ne _ _ e)
    · have := h.uniq a i c (Or.inr e) (Or.inr hl)
      subst this
      exact ⟨hi, hle⟩

theorem inRegion_child {t : SplitTree K p} (h : t.WF) {a c : t.Node} (hc : t.IsChild a c)
    (z : Fin p → K) : t.InRegion z c ↔ t.InRegion z a ∧
      (t.left a = some c → z (t.feature a) ≤ t.threshold a) ∧
      (t.right a = some c → t.threshold a ≤ z (t.feature a)) := by
  constructor
  · intro hz
    exact ⟨fun a' c' h' => hz a' c' (h'.step hc), hz a c (.refl _)⟩
  · rintro ⟨h1, h2⟩ a' c' h'
    rcases (anc_child_iff h hc).1 h' with rfl | h'
    · refine ⟨fun e => ?_, fun e => ?_⟩
      · have := h.uniq a' a c' (Or.inl e) hc
        subst this
        exact h2.1 e
      · have := h.uniq a' a c' (Or.inr e) hc
        subst this
        exact h2.2 e
    · exact h1 a' c' h'

end SplitTree
end SmoothRF
