import Verif.Spec.Level
import Verif.Proofs.DepthTune

set_option linter.unusedSectionVars false

namespace SmoothRF
open Topo SkTree

theorem lookup_map {α : Type} (l : List ℕ) (f : ℕ → α) (k : ℕ) :
    (l.map fun d => (d, f d)).lookup k = if k ∈ l then some (f k) else none := by
  induction l with
  | nil => simp
  | cons a l ih =>
    rw [List.map_cons, List.lookup_cons]
    by_cases h : k = a
    · subst h; simp
    · have : (k == a) = false := by simpa using h
      rw [this]
      simp [ih, h]

theorem vtTree_lookup (t : Topo) {n : ℕ} (path : Fin n → t.Node → ℕ) (k : ℕ) :
    (vtTree t path none).lookup k =
      if ∃ i, t.depthPerNode i = k then
        some (((List.finRange (t.m + 1)).filter fun i => t.depthPerNode i = k).map fun i x => path x i)
      else none := by
  unfold vtTree
  rw [lookup_map]
  congr 1
  simp [List.mem_insertionSort]

theorem zip_map_sum {α : Type} {a b : ℕ} (l : List α) (f : α → Fin a → ℕ) (g : α → Fin b → ℕ) (x : Fin a)
    (y : Fin b) : (((l.map f).zip (l.map g)).map fun c => c.1 x * c.2 y).sum =
      (l.map fun i => f i x * g i y).sum := by
  induction l with
  | nil => rfl
  | cons i l ih => simp [ih]

open Classical in
/-- Product of the path indicators summed over the nodes of one depth. -/
theorem level_sum {t : Topo} (h : t.WF) (k : ℕ) (i j : t.Node) :
    (((List.finRange (t.m + 1)).filter fun v => t.depthPerNode v = k).map fun v =>
      (if t.Anc v i then 1 else 0) * (if t.Anc v j then 1 else 0)).sum =
      if t.ShareAt k i j then 1 else 0 := by
  have e1 : (((List.finRange (t.m + 1)).filter fun v => t.depthPerNode v = k).map fun v =>
      (if t.Anc v i then 1 else 0) * (if t.Anc v j then 1 else 0)).sum =
      ((List.finRange (t.m + 1)).map fun v =>
        if t.depthPerNode v = k ∧ t.Anc v i ∧ t.Anc v j then 1 else 0).sum := by
    generalize List.finRange (t.m + 1) = l
    induction l with
    | nil => rfl
    | cons v l ih =>
      rw [List.filter_cons, List.map_cons, List.sum_cons]
      by_cases hv : t.depthPerNode v = k
      · simp only [hv, decide_true, if_true, List.map_cons, List.sum_cons, ih, true_and]
        by_cases h1 : t.Anc v i <;> by_cases h2 : t.Anc v j <;> simp [h1, h2]
      · simp only [hv, decide_false, Bool.false_eq_true, if_false, ih, false_and, zero_add]
  rw [e1, ← Fin.sum_univ_def]
  by_cases hs : t.ShareAt k i j
  · rw [if_pos hs]
    obtain ⟨a, hd, h1, h2⟩ := hs
    rw [depthIs_iff h] at hd
    rw [Finset.sum_eq_single a]
    · rw [if_pos ⟨hd, h1, h2⟩]
    · intro v _ hv
      rw [if_neg]
      rintro ⟨hd', h3, -⟩
      apply hv
      rcases anc_chain h h3 h1 with e | e
      · exact anc_eq_of_depth h e (hd'.trans hd.symm)
      · exact (anc_eq_of_depth h e (hd.trans hd'.symm)).symm
    · simp
  · rw [if_neg hs]
    refine Finset.sum_eq_zero fun v _ => ?_
    rw [if_neg]
    rintro ⟨hd', h1, h2⟩
    exact hs ⟨v, (depthIs_iff h _ _).2 hd', h1, h2⟩

open Classical in
/-- The level matrix of one tree. -/
noncomputable def shareMat {a b : ℕ} (r : Routes a b) (k : ℕ) (x : Fin a) (y : Fin b) : ℕ :=
  if r.t.ShareAt k (r.leafNew x) (r.leaf y) then 1 else 0

theorem dGet_ok {α : Type} {d : List (ℕ × α)} {k : ℕ} {v : α} (h : d.lookup k = some v) :
    dGet d k = .ok v := by unfold dGet; rw [h]

/-- The per-tree step of `utLevel`. -/
theorem utTree_spec {a b : ℕ} (r : Routes a b) (hr : r.Ok) (k : ℕ) :
    (if ((vtTree r.t r.path none).lookup k).isSome then do
      let A ← dGet (vtTree r.t r.pathNew none) k
      let B ← dGet (vtTree r.t r.path none) k
      dotT A B
    else (.ok fun _ _ => 0 : Except PyErr (Fin a → Fin b → ℕ))) = .ok (shareMat r k) := by
  classical
  by_cases hk : ∃ i, r.t.depthPerNode i = k
  · have e1 := vtTree_lookup r.t r.path k
    have e2 := vtTree_lookup r.t r.pathNew k
    rw [if_pos hk] at e1 e2
    rw [e1]
    simp only [Option.isSome_some, if_true]
    rw [dGet_ok e1, dGet_ok e2]
    simp only [bind, Except.bind]
    unfold dotT
    rw [if_pos (by simp)]
    congr 1
    funext x y
    rw [zip_map_sum]
    unfold shareMat
    rw [← level_sum hr.wf]
    congr 1
    refine List.map_congr_left fun v _ => ?_
    rw [hr.isNew x v, hr.isOld y v]
  · have e1 := vtTree_lookup r.t r.path k
    rw [if_neg hk] at e1
    rw [e1]
    simp only [Option.isSome_none, Bool.false_eq_true, if_false]
    congr 1
    funext x y
    unfold shareMat
    rw [if_neg]
    rintro ⟨v, hd, -⟩
    exact hk ⟨v, (depthIs_iff hr.wf _ _).1 hd⟩

/-- The two level dictionaries of a routed forest. -/
abbrev vtNew {a b : ℕ} (forest : List (Routes a b)) := makeVt (forest.map fun r => ⟨r.t, r.pathNew⟩)
@[inherit_doc vtNew]
abbrev vtOld {a b : ℕ} (forest : List (Routes a b)) := makeVt (forest.map fun r => ⟨r.t, r.path⟩)

theorem utLevel_spec {a b : ℕ} (forest : List (Routes a b)) (hf : ∀ r ∈ forest, r.Ok) (k : ℕ) :
    utLevel (vtNew forest) (vtOld forest) k = .ok (forest.map fun r => shareMat r k) := by
  induction forest with
  | nil => rfl
  | cons r l ih =>
    have h1 := utTree_spec r (hf r (by simp)) k
    have h2 := ih fun s hs => hf s (by simp [hs])
    unfold utLevel vtNew vtOld makeVt at h2 ⊢
    simp only [List.map_cons, List.zip_cons_cons, List.mapM_cons]
    rw [h1, h2]
    rfl

theorem makeUt_spec {a b : ℕ} (forest : List (Routes a b)) (hne : forest ≠ [])
    (hf : ∀ r ∈ forest, r.Ok) (md : Option ℕ) :
    makeUt (vtNew forest) (vtOld forest) md =
      .ok ((List.range (md.getD (forest.length - 1))).map fun k =>
        (k, forest.map fun r => shareMat r k)) := by
  obtain ⟨r, l, rfl⟩ := List.exists_cons_of_ne_nil hne
  have hr := hf r (by simp)
  have hmd : utMaxDepth (vtNew (r :: l)).length (vtOld (r :: l)).length md =
      md.getD ((r :: l).length - 1) := by
    unfold utMaxDepth
    congr 1
    simp only [makeVt, List.length_map, max_self]
    have : ∀ (n c a : ℕ), (List.range n).foldl (fun acc _ => max acc c) a = if n = 0 then a else max a c := by
      intro n c
      induction n with
      | zero => simp
      | succ n ih =>
        intro a
        rw [List.range_succ, List.foldl_append, ih]
        by_cases hn : n = 0 <;> simp [hn]
    rw [this]
    simp
  have h0 : ∀ (n : ℕ) (p : Fin n → r.t.Node → ℕ), ∃ v, dGet (vtTree r.t p none) 0 = .ok v := by
    intro n p
    have := vtTree_lookup r.t p 0
    rw [if_pos ⟨0, depth_root hr.wf⟩] at this
    exact ⟨_, dGet_ok this⟩
  obtain ⟨v1, e1⟩ := h0 _ r.path
  obtain ⟨v2, e2⟩ := h0 _ r.pathNew
  unfold makeUt
  rw [if_neg (by simp [makeVt]), hmd]
  have hm : ∀ ll : List ℕ, (ll.mapM fun l_1 => do
      let u ← utLevel (vtNew (r :: l)) (vtOld (r :: l)) l_1
      (pure (l_1, u) : Except PyErr _)) = .ok (ll.map fun k => (k, (r :: l).map fun r => shareMat r k)) := by
    intro ll
    refine mapM_ok _ _ _ fun k _ => ?_
    rw [utLevel_spec _ hf]
    rfl
  show (do
    let _ ← dGet (vtTree r.t r.path none) 0
    let _ ← dGet (vtTree r.t r.pathNew none) 0
    (List.range (md.getD ((r :: l).length - 1))).mapM fun l_1 => do
      let u ← utLevel (vtNew (r :: l)) (vtOld (r :: l)) l_1
      (pure (l_1, u) : Except PyErr _)) = _
  rw [e1, e2, hm]
  rfl

variable {K : Type} [Field K] [LinearOrder K] [IsStrictOrderedRing K]

/-- `make_kernel` on a dictionary with keys `0 .. d-1` in order. -/
theorem kernel_range {a b : ℕ} (d : ℕ) (u : ℕ → List (Fin a → Fin b → ℕ)) (lamb : List K)
    (hl : d ≤ lamb.length) :
    ((List.range d).map fun k => (k, u k)).foldlM (kernelStep lamb) (fun _ _ => 0) =
      .ok fun x y => ((List.range d).map fun k => lamb.getD k 0 * treeMean (u k) x y).sum := by
  induction d with
  | zero => rfl
  | succ d ih =>
    rw [List.range_succ, List.map_append, List.foldlM_append, ih (by omega)]
    simp only [bind, Except.bind, List.map_cons, List.map_nil, List.foldlM_cons, List.foldlM_nil]
    unfold kernelStep
    rw [List.getElem?_eq_getElem (by omega)]
    simp only
    by_cases hd : d = 0
    · subst hd
      simp only [if_true]
      show Except.ok _ = _
      congr 1
      funext x y
      simp [List.getElem?_eq_getElem (show 0 < lamb.length by omega)]
    · rw [if_neg hd]
      show Except.ok _ = _
      congr 1
      funext x y
      rw [List.map_append, List.sum_append]
      simp [List.getElem?_eq_getElem (show d < lamb.length by omega)]

open Classical in
theorem treeMean_share {a b : ℕ} (forest : List (Routes a b)) (k : ℕ) (x : Fin a) (y : Fin b) :
    (treeMean (forest.map fun r => shareMat r k) x y : K) =
      ((forest.filter fun r => decide (r.t.ShareAt k (r.leafNew x) (r.leaf y))).length : K) /
        (forest.length : K) := by
  unfold treeMean
  rw [List.length_map]
  congr 1
  induction forest with
  | nil => simp
  | cons r l ih =>
    rw [List.map_cons, List.map_cons, List.sum_cons, ih, List.filter_cons]
    unfold shareMat
    by_cases h : r.t.ShareAt k (r.leafNew x) (r.leaf y)
    · simp [h, add_comm]
    · simp [h]

/-! ### reshape -/

theorem npRepeat_reshape {n : ℕ} (v : Fin n → K) (i j : Fin n) : reshapeSq n (npRepeat v) i j = v i := by
  unfold reshapeSq npRepeat
  have key : ∀ (l : List (Fin n)) (q : ℕ), (l.flatMap fun i => List.replicate n (v i))[q * n + j.val]? =
      (l[q]?).map v := by
    intro l
    induction l with
    | nil => simp
    | cons a l ih =>
      intro q
      rw [List.flatMap_cons]
      cases q with
      | zero =>
        rw [List.getElem?_append_left (by simp), List.getElem?_replicate]
        simp
      | succ q =>
        rw [List.getElem?_append_right (by simp; nlinarith)]
        simp only [List.length_replicate, List.getElem?_cons_succ]
        rw [show (q + 1) * n + j.val - n = q * n + j.val by
          rw [Nat.add_mul, one_mul]; omega]
        exact ih q
  rw [List.getD_eq_getElem?_getD, key, finRange_getElem? i]
  rfl

/-! ### psd loop -/

/-- Total shift before the test number `k`. -/
def psdShift (unit : K) (k : ℕ) : K := if k = 0 then 0 else unit * 2 ^ (k - 1)

theorem psdShift_succ (unit : K) (k : ℕ) :
    psdShift unit k + (if k = 0 then unit else unit * (2 ^ k - 2 ^ (k - 1))) = psdShift unit (k + 1) := by
  unfold psdShift
  by_cases hk : k = 0
  · subst hk; simp
  · simp only [hk, if_false, Nat.add_eq_zero_iff, one_ne_zero, and_false, Nat.add_sub_cancel]
    ring

theorem psdLoop_spec {n : ℕ} (pd : (Fin n → Fin n → K) → Bool) (unit : K) (g : Fin n → Fin n → K)
    (fuel k : ℕ) (hk : ∀ j < k, pd (shiftMat g (psdShift unit j)) = false) :
    (∀ q, k ≤ q → q < k + fuel → pd (shiftMat g (psdShift unit q)) = true →
      (∀ j < q, pd (shiftMat g (psdShift unit j)) = false) →
      psdLoop pd unit fuel k (shiftMat g (psdShift unit k)) = some (shiftMat g (psdShift unit q))) ∧
    (∀ r, psdLoop pd unit fuel k (shiftMat g (psdShift unit k)) = some r →
      ∃ q, r = shiftMat g (psdShift unit q) ∧ pd r = true ∧
        ∀ j < q, pd (shiftMat g (psdShift unit j)) = false) := by
  induction fuel generalizing k with
  | zero =>
    refine ⟨fun q h1 h2 => by omega, fun r hr => ?_⟩
    simp [psdLoop] at hr
  | succ fuel ih =>
    unfold psdLoop
    by_cases hp : pd (shiftMat g (psdShift unit k)) = true
    · rw [if_pos hp]
      refine ⟨fun q h1 h2 h3 h4 => ?_, fun r hr => ?_⟩
      · rcases Nat.lt_or_ge k q with h | h
        · have := h4 k h
          rw [hp] at this
          cases this
        · have : k = q := by omega
          subst this
          rfl
      · cases hr
        exact ⟨k, rfl, hp, hk⟩
    · rw [if_neg hp]
      have hp' : pd (shiftMat g (psdShift unit k)) = false := by simpa using hp
      have e : (fun i j => shiftMat g (psdShift unit k) i j +
          if i = j then (if k = 0 then unit else unit * (2 ^ k - 2 ^ (k - 1))) else 0) =
          shiftMat g (psdShift unit (k + 1)) := by
        funext i j
        rw [← psdShift_succ]
        unfold shiftMat
        by_cases hij : i = j <;> simp [hij, add_assoc]
      simp only
      rw [e]
      obtain ⟨i1, i2⟩ := ih (k + 1) (fun j hj => by
        rcases Nat.lt_or_ge j k with h | h
        · exact hk j h
        · have : j = k := by omega
          subst this
          exact hp')
      refine ⟨fun q h1 h2 h3 h4 => i1 q ?_ (by omega) h3 h4, i2⟩
      rcases Nat.lt_or_ge k q with h | h
      · omega
      · have : k = q := by omega
        subst this
        rw [hp'] at h3
        cases h3

theorem posDef_shift {n : ℕ} (g : Fin n → Fin n → K) {w : K} (hw : ∑ i, ∑ j, |g i j| < w) :
    PosDefForm (shiftMat g w) := by
  intro x hx
  have hS : 0 < ∑ k, x k * x k := by
    obtain ⟨k, hk⟩ := Function.ne_iff.1 hx
    refine Finset.sum_pos' (fun i _ => mul_self_nonneg _) ⟨k, Finset.mem_univ _, ?_⟩
    exact mul_self_pos.2 hk
  have hle : ∀ k, x k * x k ≤ ∑ k, x k * x k := fun k =>
    Finset.single_le_sum (f := fun k => x k * x k) (fun i _ => mul_self_nonneg _) (Finset.mem_univ k)
  have hterm : ∀ i j, -(|g i j| * ∑ k, x k * x k) ≤ x i * g i j * x j := by
    intro i j
    have h1 : |x i * x j| ≤ ∑ k, x k * x k := by
      rw [abs_le]
      have a1 := hle i
      have a2 := hle j
      constructor
      · nlinarith [mul_self_nonneg (x i + x j)]
      · nlinarith [mul_self_nonneg (x i - x j)]
    have h2 : |x i * g i j * x j| ≤ |g i j| * ∑ k, x k * x k := by
      rw [show x i * g i j * x j = g i j * (x i * x j) by ring, abs_mul]
      exact mul_le_mul_of_nonneg_left h1 (abs_nonneg _)
    exact (abs_le.1 h2).1
  have hdiag : ∑ i, ∑ j, x i * shiftMat g w i j * x j =
      ∑ i, ∑ j, x i * g i j * x j + w * ∑ k, x k * x k := by
    rw [Finset.mul_sum, ← Finset.sum_add_distrib]
    refine Finset.sum_congr rfl fun i _ => ?_
    have : ∀ j, x i * shiftMat g w i j * x j = x i * g i j * x j + if i = j then w * (x i * x j) else 0 := by
      intro j
      unfold shiftMat
      by_cases hij : i = j
      · simp only [hij, if_true]; ring
      · simp [hij]
    rw [Finset.sum_congr rfl fun j _ => this j, Finset.sum_add_distrib, Finset.sum_ite_eq]
    simp
  rw [hdiag]
  have hlow : -((∑ i, ∑ j, |g i j|) * ∑ k, x k * x k) ≤ ∑ i, ∑ j, x i * g i j * x j := by
    rw [Finset.sum_mul, ← Finset.sum_neg_distrib]
    refine Finset.sum_le_sum fun i _ => ?_
    rw [Finset.sum_mul, ← Finset.sum_neg_distrib]
    exact Finset.sum_le_sum fun j _ => hterm i j
  nlinarith

end SmoothRF
