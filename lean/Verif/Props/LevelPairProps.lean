import Verif.Props.LevelProps
import Verif.Proofs.Torch3
import Mathlib.SetTheory.Cardinal.Finite

/-!
# smooth_level.py 73-193 on dictionaries of two different forests, and on dictionaries in any order (C225)
-/

set_option linter.unusedSectionVars false

namespace SmoothRF
open Topo SkTree

/-- Number of nodes at depth `k`. -/
noncomputable def Topo.levelSize (t : Topo) (k : ℕ) : ℕ := Nat.card {i // t.DepthIs i k}

/-- Number of nodes at depth `k` stored before node `i`. -/
noncomputable def Topo.levelRank (t : Topo) (k : ℕ) (i : t.Node) : ℕ :=
  Nat.card {j // t.DepthIs j k ∧ j < i}

/-- The nodes through which `i` and `j` pass at depth `k` have the same position within their levels. -/
def SamePlace (s t : Topo) (k : ℕ) (i : s.Node) (j : t.Node) : Prop :=
  ∃ a b, s.DepthIs a k ∧ s.Anc a i ∧ t.DepthIs b k ∧ t.Anc b j ∧ s.levelRank k a = t.levelRank k b

/-- Two trees whose level `k` can be multiplied. -/
def LevelFits (s t : Topo) (k : ℕ) : Prop := (∃ i, t.DepthIs i k) → s.levelSize k = t.levelSize k

theorem mapM_first {α β : Type} {f : α → Except PyErr β} {e : PyErr} :
    ∀ {pre : List α} {x : α} {post : List α}, (∀ y ∈ pre, ∃ v, f y = .ok v) → f x = .error e →
      (pre ++ x :: post).mapM f = .error e
  | [], x, post, _, h => by
    rw [List.nil_append, List.mapM_cons, h]
    rfl
  | y :: pre, x, post, hp, h => by
    obtain ⟨v, hv⟩ := hp y (List.mem_cons_self ..)
    rw [List.cons_append, List.mapM_cons, hv, mapM_first (fun z hz => hp z (List.mem_cons_of_mem _ hz)) h]
    rfl

theorem mapM_all {α β : Type} {f : α → Except PyErr β} :
    ∀ {l : List α} {r : List β}, l.mapM f = .ok r → ∀ x ∈ l, ∃ v, f x = .ok v
  | [], _, _, _, hx => nomatch hx
  | y :: l, r, h, x, hx => by
    rw [List.mapM_cons] at h
    cases hy : f y with
    | error e => rw [hy] at h; cases h
    | ok v =>
      rw [hy] at h
      cases hl : l.mapM f with
      | error e => rw [hl] at h; cases h
      | ok w =>
        rcases List.mem_cons.1 hx with rfl | hx
        · exact ⟨v, hy⟩
        · exact mapM_all hl x hx

theorem mapM_total {α β : Type} {f : α → Except PyErr β} {l : List α} (h : ∀ x ∈ l, ∃ v, f x = .ok v) :
    ∃ r, l.mapM f = .ok r := by
  obtain ⟨r, e, -⟩ := mapM_forall2 (R := fun _ _ => True) (l := l) (f := f) fun x hx =>
    (h x hx).imp fun _ hv => ⟨hv, trivial⟩
  exact ⟨r, e⟩

/-- The nodes at depth `k` in order. -/
abbrev levelList (t : Topo) (k : ℕ) : List t.Node :=
  (List.finRange (t.m + 1)).filter fun i => t.depthPerNode i = k

theorem mem_levelList {t : Topo} (h : t.WF) {k : ℕ} {i : t.Node} : i ∈ levelList t k ↔ t.DepthIs i k := by
  rw [depthIs_iff h]
  simp [levelList]

theorem levelList_sorted (t : Topo) (k : ℕ) : (levelList t k).Pairwise (· < ·) :=
  (List.pairwise_lt_finRange _).filter _

theorem levelSize_eq {t : Topo} (h : t.WF) (k : ℕ) : t.levelSize k = (levelList t k).length := by
  classical
  unfold Topo.levelSize
  have hn : (levelList t k).Nodup := (levelList_sorted t k).imp fun h => ne_of_lt h
  rw [← List.toFinset_card_of_nodup hn, Nat.card_eq_fintype_card, Fintype.card_subtype]
  congr 1
  ext i
  simp only [Finset.mem_filter, Finset.mem_univ, true_and, List.mem_toFinset]
  exact (mem_levelList h).symm

theorem rank_sorted {α : Type} [LinearOrder α] : ∀ {l : List α} {m : ℕ} {a : α}, l.Pairwise (· < ·) →
    l[m]? = some a → (l.filter fun x => x < a).length = m
  | [], m, a, _, h => by simp at h
  | x :: l, 0, a, hp, h => by
    simp only [List.getElem?_cons_zero, Option.some.injEq] at h
    subst h
    rw [List.length_eq_zero_iff, List.filter_eq_nil_iff]
    intro y hy
    rcases List.mem_cons.1 hy with rfl | hy
    · simp
    · have := (List.pairwise_cons.1 hp).1 y hy
      simpa using this.le
  | x :: l, m + 1, a, hp, h => by
    simp only [List.getElem?_cons_succ] at h
    have hx := (List.pairwise_cons.1 hp).1 a (List.mem_of_getElem? h)
    rw [List.filter_cons_of_pos (by simpa using hx), List.length_cons, rank_sorted (List.pairwise_cons.1 hp).2 h]

theorem levelRank_eq {t : Topo} (h : t.WF) {k m : ℕ} {i : t.Node} (hi : (levelList t k)[m]? = some i) :
    t.levelRank k i = m := by
  classical
  rw [← rank_sorted (levelList_sorted t k) hi]
  unfold Topo.levelRank
  have hn : ((levelList t k).filter fun x => x < i).Nodup :=
    ((levelList_sorted t k).imp fun h => ne_of_lt h).filter _
  rw [← List.toFinset_card_of_nodup hn, Nat.card_eq_fintype_card, Fintype.card_subtype]
  congr 1
  ext j
  rw [Finset.mem_filter, List.mem_toFinset, List.mem_filter, mem_levelList h]
  simp

open Classical in
theorem zip_once {α β : Type} {P : α → Prop} {Q : β → Prop} : ∀ (l : List α) (m : List β),
    l.Pairwise (fun a b => ¬(P a ∧ P b)) →
    ((l.zip m).map fun c => (if P c.1 then 1 else 0) * (if Q c.2 then 1 else 0)).sum =
      if ∃ (n : ℕ) (a : α) (b : β), l[n]? = some a ∧ m[n]? = some b ∧ P a ∧ Q b then 1 else 0
  | [], m, _ => by simp
  | a :: l, [], _ => by simp
  | a :: l, b :: m, h => by
    obtain ⟨h1, h2⟩ := List.pairwise_cons.1 h
    have ih := zip_once (Q := Q) l m h2
    rw [List.zip_cons_cons, List.map_cons, List.sum_cons, ih]
    by_cases hab : P a ∧ Q b
    · rw [if_pos hab.1, if_pos hab.2, if_neg, if_pos ⟨0, a, b, rfl, rfl, hab.1, hab.2⟩]
      rintro ⟨n, a', b', e1, -, e3, -⟩
      exact h1 a' (List.mem_of_getElem? e1) ⟨hab.1, e3⟩
    · have : ((if P a then 1 else 0) * (if Q b then 1 else 0) : ℕ) = 0 := by
        by_cases hp : P a
        · rw [if_neg fun hq => hab ⟨hp, hq⟩, mul_zero]
        · rw [if_neg hp, zero_mul]
      rw [this, zero_add]
      congr 1
      apply propext
      constructor
      · rintro ⟨n, a', b', e⟩
        exact ⟨n + 1, a', b', by simpa using e⟩
      · rintro ⟨n, a', b', e1, e2, e3, e4⟩
        cases n with
        | zero =>
          simp only [List.getElem?_cons_zero, Option.some.injEq] at e1 e2
          subst e1 e2
          exact absurd ⟨e3, e4⟩ hab
        | succ n => exact ⟨n, a', b', by simpa using e1, by simpa using e2, e3, e4⟩

/-- The step of `utLevel` for a pair of trees. -/
abbrev pairStep {a b : ℕ} (k : ℕ) (p : List (ℕ × List (Fin a → ℕ)) × List (ℕ × List (Fin b → ℕ))) :
    Except PyErr (Fin a → Fin b → ℕ) :=
  if (p.2.lookup k).isSome then do
    let A ← dGet p.1 k
    let B ← dGet p.2 k
    dotT A B
  else .ok fun _ _ => 0

theorem dGet_missing {α : Type} {d : List (ℕ × α)} {k : ℕ} (h : d.lookup k = none) : dGet d k = .error .keyError := by
  unfold dGet
  rw [h]

section
variable {a b : ℕ} {f : Paths a} {g : Paths b}

theorem lookup_level (hf : f.t.WF) {k : ℕ} (h : ∃ i, f.t.DepthIs i k) :
    (vtTree f.t f.path none).lookup k = some ((levelList f.t k).map fun i x => f.path x i) := by
  rw [vtTree_lookup, if_pos]
  obtain ⟨i, hi⟩ := h
  exact ⟨i, (depthIs_iff hf _ _).1 hi⟩

theorem lookup_no_level (hf : f.t.WF) {k : ℕ} (h : ¬ ∃ i, f.t.DepthIs i k) :
    (vtTree f.t f.path none).lookup k = none := by
  rw [vtTree_lookup, if_neg]
  rintro ⟨i, hi⟩
  exact h ⟨i, (depthIs_iff hf _ _).2 hi⟩

theorem pairStep_key (hf : f.t.WF) (hg : g.t.WF) {k : ℕ} (h1 : ∃ i, g.t.DepthIs i k) (h2 : ¬ ∃ i, f.t.DepthIs i k) :
    pairStep k (vtTree f.t f.path none, vtTree g.t g.path none) = .error .keyError := by
  unfold pairStep
  dsimp only
  rw [lookup_level hg h1, dGet_missing (lookup_no_level hf h2)]
  rfl

theorem pairStep_value (hf : f.t.WF) (hg : g.t.WF) {k : ℕ} (h1 : ∃ i, g.t.DepthIs i k)
    (h2 : ∃ i, f.t.DepthIs i k) (h3 : f.t.levelSize k ≠ g.t.levelSize k) :
    pairStep k (vtTree f.t f.path none, vtTree g.t g.path none) = .error .valueError := by
  unfold pairStep
  dsimp only
  rw [levelSize_eq hf, levelSize_eq hg] at h3
  rw [dGet_ok (lookup_level hg h1), lookup_level hg h1, dGet_ok (lookup_level hf h2)]
  simp only [Option.isSome_some, if_true, bind, Except.bind]
  unfold dotT
  rw [if_neg (by simpa using h3)]

theorem level_nonempty {t : Topo} (h : t.WF) {k : ℕ} : (∃ i, t.DepthIs i k) ↔ 0 < t.levelSize k := by
  rw [levelSize_eq h, List.length_pos_iff_exists_mem]
  simp only [mem_levelList h]

theorem pairStep_fits (hf : f.t.WF) (hg : g.t.WF) {k : ℕ} (h : LevelFits f.t g.t k) :
    ∃ M, pairStep k (vtTree f.t f.path none, vtTree g.t g.path none) = .ok M := by
  by_cases h1 : ∃ i, g.t.DepthIs i k
  · have h3 := h h1
    have h2 : ∃ i, f.t.DepthIs i k := by
      rw [level_nonempty hf, h3, ← level_nonempty hg]
      exact h1
    unfold pairStep
    dsimp only
    rw [levelSize_eq hf, levelSize_eq hg] at h3
    rw [dGet_ok (lookup_level hg h1), lookup_level hg h1, dGet_ok (lookup_level hf h2)]
    simp only [Option.isSome_some, if_true, bind, Except.bind]
    unfold dotT
    rw [if_pos (by simpa using h3)]
    exact ⟨_, rfl⟩
  · unfold pairStep
    dsimp only
    rw [lookup_no_level hg h1]
    exact ⟨_, rfl⟩

theorem pairStep_iff (hf : f.t.WF) (hg : g.t.WF) {k : ℕ} :
    (∃ M, pairStep k (vtTree f.t f.path none, vtTree g.t g.path none) = .ok M) ↔ LevelFits f.t g.t k := by
  refine ⟨?_, pairStep_fits hf hg⟩
  rintro ⟨M, hM⟩ h1
  by_contra h3
  by_cases h2 : ∃ i, f.t.DepthIs i k
  · rw [pairStep_value hf hg h1 h2 h3] at hM
    cases hM
  · rw [pairStep_key hf hg h1 h2] at hM
    cases hM

open Classical in
theorem pairStep_entry (hf : f.t.WF) (hg : g.t.WF) {k : ℕ} {lf : Fin a → f.t.Node} {lg : Fin b → g.t.Node}
    (pf : f.t.IsPath f.path lf) (pg : g.t.IsPath g.path lg) {M : Fin a → Fin b → ℕ}
    (h : pairStep k (vtTree f.t f.path none, vtTree g.t g.path none) = .ok M) (x : Fin a) (y : Fin b) :
    M x y = if SamePlace f.t g.t k (lf x) (lg y) then 1 else 0 := by
  by_cases h1 : ∃ i, g.t.DepthIs i k
  · have h3 := (pairStep_iff hf hg).1 ⟨M, h⟩ h1
    have h2 : ∃ i, f.t.DepthIs i k := by
      rw [level_nonempty hf, h3, ← level_nonempty hg]
      exact h1
    unfold pairStep at h
    dsimp only at h
    rw [levelSize_eq hf, levelSize_eq hg] at h3
    rw [dGet_ok (lookup_level hg h1), lookup_level hg h1, dGet_ok (lookup_level hf h2)] at h
    simp only [Option.isSome_some, if_true, bind, Except.bind] at h
    unfold dotT at h
    rw [if_pos (by simpa using h3)] at h
    cases h
    dsimp only
    rw [List.zip_map, List.map_map]
    have e : ((levelList f.t k).zip (levelList g.t k)).map ((fun c : (Fin a → ℕ) × (Fin b → ℕ) => c.1 x * c.2 y) ∘
        Prod.map (fun i x => f.path x i) fun i x => g.path x i) =
        ((levelList f.t k).zip (levelList g.t k)).map fun c =>
          (if f.t.Anc c.1 (lf x) then 1 else 0) * (if g.t.Anc c.2 (lg y) then 1 else 0) := by
      refine List.map_congr_left fun c _ => ?_
      simp only [Function.comp, Prod.map]
      rw [pf, pg]
    rw [e, zip_once (P := fun c => f.t.Anc c (lf x)) (Q := fun c => g.t.Anc c (lg y))]
    · congr 1
      apply propext
      constructor
      · rintro ⟨n, i, j, e1, e2, e3, e4⟩
        exact ⟨i, j, (mem_levelList hf).1 (List.mem_of_getElem? e1), e3,
          (mem_levelList hg).1 (List.mem_of_getElem? e2), e4, (levelRank_eq hf e1).trans (levelRank_eq hg e2).symm⟩
      · rintro ⟨i, j, d1, e3, d2, e4, e5⟩
        obtain ⟨n, hn⟩ := List.mem_iff_getElem?.1 ((mem_levelList hf).2 d1)
        obtain ⟨n', hn'⟩ := List.mem_iff_getElem?.1 ((mem_levelList hg).2 d2)
        rw [levelRank_eq hf hn, levelRank_eq hg hn'] at e5
        subst e5
        exact ⟨n, i, j, hn, hn', e3, e4⟩
    · refine (levelList_sorted f.t k).imp_of_mem fun {i j} hi hj hlt => ?_
      rintro ⟨e1, e2⟩
      have d1 := (depthIs_iff hf _ _).1 ((mem_levelList hf).1 hi)
      have d2 := (depthIs_iff hf _ _).1 ((mem_levelList hf).1 hj)
      refine hlt.ne ?_
      rcases anc_chain hf e1 e2 with e | e
      · exact anc_eq_of_depth hf e (d1.trans d2.symm)
      · exact (anc_eq_of_depth hf e (d2.trans d1.symm)).symm
  · unfold pairStep at h
    dsimp only at h
    rw [lookup_no_level hg h1] at h
    cases h
    rw [if_neg]
    rintro ⟨i, j, -, -, d, -⟩
    exact h1 ⟨j, d⟩

end

theorem utMaxDepth_same (n : ℕ) (md : Option ℕ) : utMaxDepth n n md = md.getD (n - 1) := by
  unfold utMaxDepth
  congr 1
  rw [max_self]
  have : ∀ (n c a : ℕ), (List.range n).foldl (fun acc _ => max acc c) a = if n = 0 then a else max a c := by
    intro n c
    induction n with
    | zero => simp
    | succ n ih =>
      intro a
      rw [List.range_succ, List.foldl_append, ih]
      by_cases hn : n = 0 <;> simp [hn]
  rw [this]
  simp
  omega

section
variable {a b : ℕ} {new : List (Paths a)} {old : List (Paths b)}

/-- `makeUt` for two forests with the same number of trees. -/
theorem makeUt_pair (hl : new.length = old.length) (hne : old ≠ []) (h1 : ∀ f ∈ new, f.t.WF)
    (h2 : ∀ g ∈ old, g.t.WF) (md : Option ℕ) :
    makeUt (makeVt new) (makeVt old) md = (List.range (md.getD (old.length - 1))).mapM fun k => (do
      let u ← (new.zip old).mapM fun p => pairStep k (vtTree p.1.t p.1.path none, vtTree p.2.t p.2.path none)
      pure (k, u)) := by
  obtain ⟨g, gs, rfl⟩ := List.exists_cons_of_ne_nil hne
  obtain ⟨f, fs, rfl⟩ := List.exists_cons_of_ne_nil (l := new) (by rintro rfl; simp at hl)
  have z1 := dGet_ok (lookup_level (h1 f (by simp)) ⟨0, .root⟩)
  have z2 := dGet_ok (lookup_level (h2 g (by simp)) ⟨0, .root⟩)
  unfold makeUt
  rw [if_neg (by simpa [makeVt] using hl)]
  have hm : utMaxDepth (makeVt (f :: fs)).length (makeVt (g :: gs)).length md = md.getD ((g :: gs).length - 1) := by
    simp only [makeVt, List.length_map, hl]
    exact utMaxDepth_same _ _
  rw [hm]
  show (do
    let _ ← dGet (vtTree g.t g.path none) 0
    let _ ← dGet (vtTree f.t f.path none) 0
    (List.range (md.getD ((g :: gs).length - 1))).mapM fun k => do
      let u ← utLevel (makeVt (f :: fs)) (makeVt (g :: gs)) k
      (pure (k, u) : Except PyErr _)) = _
  rw [z1, z2]
  simp only [bind, Except.bind]
  congr 1
  funext k
  unfold utLevel makeVt
  rw [List.zip_map, mapM_map']
  rfl

theorem level_ok {k : ℕ} (h1 : ∀ f ∈ new, f.t.WF) (h2 : ∀ g ∈ old, g.t.WF) :
    (∃ u, ((do
      let u ← (new.zip old).mapM fun p => pairStep k (vtTree p.1.t p.1.path none, vtTree p.2.t p.2.path none)
      pure (k, u)) : Except PyErr _) = .ok u) ↔ ∀ p ∈ new.zip old, LevelFits p.1.t p.2.t k := by
  constructor
  · rintro ⟨u, hu⟩ p hp
    cases e : (new.zip old).mapM fun p => pairStep k (vtTree p.1.t p.1.path none, vtTree p.2.t p.2.path none) with
    | error e' => rw [e] at hu; cases hu
    | ok Ms =>
      exact (pairStep_iff (h1 _ (List.of_mem_zip hp).1) (h2 _ (List.of_mem_zip hp).2)).1 (mapM_all e p hp)
  · intro h
    obtain ⟨Ms, e, -⟩ := mapM_forall2 (R := fun _ _ => True) (l := new.zip old)
      (f := fun p => pairStep k (vtTree p.1.t p.1.path none, vtTree p.2.t p.2.path none)) fun p hp => by
        obtain ⟨M, hM⟩ := pairStep_fits (h1 _ (List.of_mem_zip hp).1) (h2 _ (List.of_mem_zip hp).2) (h p hp)
        exact ⟨M, hM, trivial⟩
    rw [e]
    exact ⟨_, rfl⟩

/-- C225: `make_Ut_prime_mat_no_sym` on the dictionaries of two forests with the same number of trees, one for each
data set, returns exactly if in every pair of trees each level below `max_depth` that the second tree has holds
equally many nodes in both. Levels only the first tree has do no harm. -/
theorem C225_returns (hl : new.length = old.length) (hne : old ≠ []) (h1 : ∀ f ∈ new, f.t.WF)
    (h2 : ∀ g ∈ old, g.t.WF) (md : Option ℕ) :
    (∃ u, makeUt (makeVt new) (makeVt old) md = .ok u) ↔
      ∀ k < md.getD (old.length - 1), ∀ p ∈ new.zip old,
        (∃ i, p.2.t.DepthIs i k) → p.1.t.levelSize k = p.2.t.levelSize k := by
  rw [makeUt_pair hl hne h1 h2]
  constructor
  · rintro ⟨u, hu⟩ k hk
    exact (level_ok h1 h2).1 (mapM_all hu k (List.mem_range.2 hk))
  · intro h
    exact mapM_total fun k hk => (level_ok h1 h2).2 (h k (List.mem_range.1 hk))

/-- C225: otherwise the first level, and in it the first tree, decides about the exception: KeyError if the tree of
the first forest has no such level, ValueError if it has one with another number of nodes. -/
theorem C225_raises (h1 : ∀ f ∈ new, f.t.WF) (h2 : ∀ g ∈ old, g.t.WF) {md : Option ℕ} {k : ℕ}
    {n1 n2 : List (Paths a)} {g1 g2 : List (Paths b)} {f : Paths a} {g : Paths b} (en : new = n1 ++ f :: n2)
    (eo : old = g1 ++ g :: g2) (e1 : n1.length = g1.length) (e2 : n2.length = g2.length)
    (hk : k < md.getD (old.length - 1)) (hlow : ∀ j < k, ∀ p ∈ new.zip old, LevelFits p.1.t p.2.t j)
    (hbefore : ∀ p ∈ n1.zip g1, LevelFits p.1.t p.2.t k) (hg : ∃ i, g.t.DepthIs i k) :
    ((¬ ∃ i, f.t.DepthIs i k) → makeUt (makeVt new) (makeVt old) md = .error .keyError) ∧
    ((∃ i, f.t.DepthIs i k) → f.t.levelSize k ≠ g.t.levelSize k →
      makeUt (makeVt new) (makeVt old) md = .error .valueError) := by
  have hl : new.length = old.length := by rw [en, eo]; simp [e1, e2]
  have hne : old ≠ [] := by rw [eo]; simp
  have hf : f.t.WF := h1 f (by rw [en]; simp)
  have hg' : g.t.WF := h2 g (by rw [eo]; simp)
  have main : ∀ e, pairStep k (vtTree f.t f.path none, vtTree g.t g.path none) = .error e →
      makeUt (makeVt new) (makeVt old) md = .error e := by
    intro e he
    rw [makeUt_pair hl hne h1 h2]
    have hr : List.range (md.getD (old.length - 1)) =
        List.range k ++ k :: (List.range (md.getD (old.length - 1) - (k + 1))).map (k + 1 + ·) := by
      obtain ⟨n, hn⟩ := Nat.exists_eq_add_of_le hk
      rw [hn, List.range_add, Nat.add_sub_cancel_left, List.range_succ]
      simp
    rw [hr]
    refine mapM_first (fun j hj => (level_ok h1 h2).2 (hlow j (List.mem_range.1 hj))) ?_
    have hz : new.zip old = n1.zip g1 ++ (f, g) :: n2.zip g2 := by
      rw [en, eo, List.zip_append e1, List.zip_cons_cons]
    have := mapM_first (f := fun p : Paths a × Paths b =>
      pairStep k (vtTree p.1.t p.1.path none, vtTree p.2.t p.2.path none)) (e := e) (pre := n1.zip g1) (x := (f, g))
      (post := n2.zip g2) (fun p hp => ?_) he
    · rw [hz, this]
      rfl
    · have hm : p ∈ new.zip old := by rw [hz]; exact List.mem_append_left _ hp
      exact pairStep_fits (h1 _ (List.of_mem_zip hm).1) (h2 _ (List.of_mem_zip hm).2) (hbefore p hp)
  exact ⟨fun h => main _ (pairStep_key hf hg' hg h), fun h h' => main _ (pairStep_value hf hg' hg h h')⟩

open Classical in
/-- C225: what it returns then: one array per level below `max_depth`, with one matrix per pair of trees; the entry of
two observations is 1 if the nodes they pass through have the same position within their levels, whatever these nodes
are, and 0 otherwise. -/
theorem C225_entries (hl : new.length = old.length) (hne : old ≠ []) (h1 : ∀ f ∈ new, f.t.WF)
    (h2 : ∀ g ∈ old, g.t.WF) {md : Option ℕ} {u : List (ℕ × List (Fin a → Fin b → ℕ))}
    (h : makeUt (makeVt new) (makeVt old) md = .ok u) :
    u.length = md.getD (old.length - 1) ∧ ∀ k < md.getD (old.length - 1), ∃ Ms, u[k]? = some (k, Ms) ∧
      Ms.length = old.length ∧ ∀ (i : ℕ) (f : Paths a) (g : Paths b), new[i]? = some f → old[i]? = some g →
        ∃ M, Ms[i]? = some M ∧ ∀ (lf : Fin a → f.t.Node) (lg : Fin b → g.t.Node), f.t.IsPath f.path lf →
          g.t.IsPath g.path lg → ∀ x y, M x y = if SamePlace f.t g.t k (lf x) (lg y) then 1 else 0 := by
  rw [makeUt_pair hl hne h1 h2] at h
  obtain ⟨hlen, hget⟩ := mapM_get h
  refine ⟨by rw [hlen, List.length_range], fun k hk => ?_⟩
  obtain ⟨e, he, hke⟩ := hget k k (by rw [List.getElem?_range hk])
  cases em : (new.zip old).mapM fun p => pairStep k (vtTree p.1.t p.1.path none, vtTree p.2.t p.2.path none) with
  | error e' => rw [em] at hke; cases hke
  | ok Ms =>
    rw [em] at hke
    cases hke
    obtain ⟨hmlen, hmget⟩ := mapM_get em
    refine ⟨Ms, he, by rw [hmlen, List.length_zip, hl, min_self], fun i f g hf hg => ?_⟩
    obtain ⟨M, hM, hp⟩ := hmget i (f, g) (List.getElem?_zip_eq_some.2 ⟨hf, hg⟩)
    exact ⟨M, hM, fun lf lg pf pg x y => pairStep_entry (h1 f (List.mem_of_getElem? hf)) (h2 g (List.mem_of_getElem? hg))
      pf pg hp x y⟩

end

section
variable {K : Type} [Field K] [LinearOrder K] [IsStrictOrderedRing K]
variable {a b : ℕ}

theorem kernel_tail (lamb : List K) : ∀ (l : List (ℕ × List (Fin a → Fin b → ℕ))) (acc : Fin a → Fin b → K),
    (∀ e ∈ l, e.1 < lamb.length) → (∀ e ∈ l, e.1 ≠ 0) →
    l.foldlM (kernelStep lamb) acc =
      .ok fun x y => acc x y + (l.map fun e => lamb.getD e.1 0 * treeMean e.2 x y).sum
  | [], acc, _, _ => by simp; rfl
  | e :: l, acc, h1, h2 => by
    have hs : kernelStep lamb acc e = .ok fun x y => acc x y + lamb.getD e.1 0 * treeMean e.2 x y := by
      unfold kernelStep
      have := h1 e (by simp)
      rw [List.getElem?_eq_getElem this]
      dsimp only
      rw [if_neg (h2 e (by simp)), List.getD_eq_getElem?_getD, List.getElem?_eq_getElem this]
      rfl
    rw [List.foldlM_cons, hs]
    simp only [bind, Except.bind]
    rw [kernel_tail lamb l _ (fun e he => h1 e (by simp [he])) fun e he => h2 e (by simp [he])]
    simp only [List.map_cons, List.sum_cons, add_assoc]

theorem kernel_any (lamb : List K) : ∀ (l : List (ℕ × List (Fin a → Fin b → ℕ))) (acc : Fin a → Fin b → K),
    (∀ e ∈ l, e.1 < lamb.length) → ∃ acc', l.foldlM (kernelStep lamb) acc = .ok acc'
  | [], acc, _ => ⟨acc, rfl⟩
  | e :: l, acc, h => by
    have hs : ∃ k, kernelStep lamb acc e = .ok k := by
      unfold kernelStep
      rw [List.getElem?_eq_getElem (h e (by simp))]
      dsimp only
      split_ifs
      · exact ⟨_, rfl⟩
      · exact ⟨_, rfl⟩
    obtain ⟨k, hk⟩ := hs
    obtain ⟨acc', h'⟩ := kernel_any lamb l k fun e he => h e (by simp [he])
    exact ⟨acc', by rw [List.foldlM_cons, hk]; exact h'⟩

/-- C225: `make_kernel` sets, instead of adding, at key 0: of a dictionary in another order only the levels from key 0
on are in the kernel. -/
theorem C225_kernel_order {before after : List (ℕ × List (Fin a → Fin b → ℕ))} {u : List (Fin a → Fin b → ℕ)}
    {lamb : List K} (hl : lamb.length = before.length + 1 + after.length) (hb : ∀ e ∈ before, e.1 < lamb.length)
    (ha : ∀ e ∈ after, e.1 ≠ 0 ∧ e.1 < lamb.length) :
    ∃ k, makeKernel (before ++ (0, u) :: after) (some lamb) = .ok k ∧ ∀ x y, k x y =
      (((0, u) :: after).map fun e => lamb.getD e.1 0 * ((e.2.map fun M => (M x y : K)).sum / e.2.length)).sum := by
  unfold makeKernel
  rw [Option.getD_some, if_neg (by rw [hl]; simp; omega), List.foldlM_append]
  obtain ⟨k0, e0⟩ := kernel_any lamb before (fun _ _ => 0) hb
  rw [e0]
  simp only [bind, Except.bind]
  have hpos : 0 < lamb.length := by omega
  have hs : kernelStep lamb k0 (0, u) = .ok fun x y => lamb.getD 0 0 * treeMean u x y := by
    unfold kernelStep
    dsimp only
    rw [List.getD_eq_getElem?_getD, List.getElem?_eq_getElem hpos]
    rfl
  rw [List.foldlM_cons, hs]
  simp only [bind, Except.bind]
  rw [kernel_tail lamb after _ (fun e he => (ha e he).2) fun e he => (ha e he).1]
  exact ⟨_, rfl, fun x y => by simp only [List.map_cons, List.sum_cons]; rfl⟩

/-- C225: a key that is not a position of the weight vector raises IndexError. -/
theorem C225_kernel_index {d : List (ℕ × List (Fin a → Fin b → ℕ))} {lamb : Option (List K)}
    (hl : ∀ l, lamb = some l → l.length = d.length) (hd : ∃ e ∈ d, d.length ≤ e.1) :
    makeKernel d lamb = .error .indexError := by
  have hlen : (lamb.getD (List.replicate d.length 1)).length = d.length := by
    cases lamb with
    | none => simp
    | some l => exact hl l rfl
  unfold makeKernel
  generalize lamb.getD (List.replicate d.length 1) = w at hlen
  dsimp only
  rw [if_neg (by omega)]
  have : ∀ (l : List (ℕ × List (Fin a → Fin b → ℕ))) (acc : Fin a → Fin b → K), (∃ e ∈ l, w.length ≤ e.1) →
      l.foldlM (kernelStep w) acc = .error .indexError := by
    intro l
    induction l with
    | nil => rintro acc ⟨e, he, -⟩; cases he
    | cons e l ih =>
      rintro acc ⟨e', he', hk⟩
      rw [List.foldlM_cons]
      by_cases hlt : e.1 < w.length
      · obtain ⟨k, hk'⟩ := kernel_any w [e] acc (by simpa using hlt)
        rw [List.foldlM_cons] at hk'
        cases es : kernelStep w acc e with
        | error _ => rw [es] at hk'; cases hk'
        | ok k' =>
          refine ih k' ?_
          rcases List.mem_cons.1 he' with rfl | h
          · omega
          · exact ⟨e', h, hk⟩
      · unfold kernelStep
        rw [List.getElem?_eq_none (by omega)]
        rfl
  exact this d _ (by rw [hlen]; exact hd)

end

/-! ### Examples -/

/-- One observation per leaf. -/
abbrev exPairA : Paths 3 := ⟨exTopo, ![![1, 1, 1, 0, 0], ![1, 1, 0, 1, 0], ![1, 0, 0, 0, 1]]⟩

/-- The deeper tree with two observations. -/
abbrev exPairB : Paths 2 := ⟨exTopo2, ![![1, 0, 1, 0, 1, 0, 1], ![1, 1, 0, 0, 0, 0, 0]]⟩

/-- All levels full: four nodes at depth 2. -/
abbrev exPairC : Paths 1 :=
  ⟨⟨6, ![some 1, some 2, none, none, some 5, none, none], ![some 4, some 3, none, none, some 6, none, none]⟩,
    ![![1, 1, 1, 0, 0, 0, 0]]⟩

/-- Instance of `C225_returns` and `C225_entries`: the level sizes 1, 2, 2, 2 of the first tree contain those of the
second, 1, 2, 2. The observation ending in node 1 of the first tree counts as sharing depth 1 with those running
through node 1 of the second, which is another node. -/
example : exPairB.t.WF ∧ exPairA.t.WF ∧
    (match makeUt (makeVt [exPairB]) (makeVt [exPairA]) (some 4) with
     | .ok u => some (u.map fun e => (e.1, e.2.map fun M => (List.finRange 2).map fun x =>
        (List.finRange 3).map fun y => M x y))
     | .error _ => none) =
      some [(0, [[[1, 1, 1], [1, 1, 1]]]), (1, [[[0, 0, 1], [1, 1, 0]]]), (2, [[[0, 1, 0], [0, 0, 0]]]),
        (3, [[[0, 0, 0], [0, 0, 0]]])] := by
  refine ⟨exTopo2_wf, exTopo_wf, by decide +kernel⟩

/-- Instances of `C225_raises`: the same trees the other way round have no level 3 to multiply with, and with four
nodes at depth 2 the product is refused. -/
example : (match makeUt (makeVt [exPairA]) (makeVt [exPairB]) (some 4) with
     | .ok _ => none
     | .error e => some e) = some .keyError ∧
    (match makeUt (makeVt [exPairA]) (makeVt [exPairB]) (some 3) with
     | .ok u => some u.length
     | .error _ => none) = some 3 ∧
    exPairC.t.WF ∧ (match makeUt (makeVt [exPairA]) (makeVt [exPairC]) (some 3) with
     | .ok _ => none
     | .error e => some e) = some .valueError := by
  refine ⟨by decide +kernel, by decide +kernel, by decide, by decide +kernel⟩

/-- Instances of `C225_kernel_order` and `C225_kernel_index`: level 1 stored first is lost; a dictionary with the
keys 0 and 2 is refused. -/
example : (match makeKernel [(1, [fun _ _ : Fin 1 => 1]), (0, [fun _ _ => 1])] (some [3, (5 : ℚ)]) with
     | .ok k => some (k 0 0)
     | .error _ => none) = some 3 ∧
    (match makeKernel [(0, [fun _ _ : Fin 1 => 1]), (1, [fun _ _ => 1])] (some [3, (5 : ℚ)]) with
     | .ok k => some (k 0 0)
     | .error _ => none) = some 8 ∧
    (match makeKernel [(0, [fun _ _ : Fin 1 => 1]), (2, [fun _ _ => 1])] (some [3, (5 : ℚ)]) with
     | .ok _ => none
     | .error e => some e) = some .indexError := by
  refine ⟨by decide +kernel, by decide +kernel, by decide +kernel⟩

end SmoothRF
