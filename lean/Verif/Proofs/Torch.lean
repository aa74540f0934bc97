import Verif.Spec.Torch
import Verif.Proofs.Smooth2

/-! Lemmas about the tensor loss, the data set and the network. -/

set_option linter.unusedSectionVars false

namespace SmoothRF
open Topo SkTree

variable {K : Type} [Field K] [LinearOrder K] {C p : ℕ}

/-! ### loss -/

theorem sum_flatMap_cons (l : List ℕ) (s : List (List ℕ)) (f : List ℕ → K) :
    ((l.flatMap fun i => s.map (i :: ·)).map f).sum =
      (l.map fun i => (s.map fun r => f (i :: r)).sum).sum := by
  induction l with
  | nil => rfl
  | cons a l ih =>
    rw [List.flatMap_cons, List.map_append, List.sum_append, ih, List.map_map]
    rfl

theorem sum_indices_cons (d : ℕ) (s : List ℕ) (f : List ℕ → K) :
    ((indices (d :: s)).map f).sum = ∑ i ∈ Finset.range d, ((indices s).map fun r => f (i :: r)).sum := by
  rw [← sum_map_range]
  exact sum_flatMap_cons _ _ _

theorem sum_indices_nil (f : List ℕ → K) : ((indices []).map f).sum = f [] := by
  simp [indices]

theorem map_range_getD {α : Type} (l : List K) (f : K → α) :
    (List.range l.length).map (fun i => f (l.getD i 0)) = l.map f := by
  apply List.ext_getElem
  · simp
  · intro i h1 h2
    have h : i < l.length := by simpa using h1
    simp [h]

theorem sum_range_getD (l : List K) (f : K → K) :
    ∑ i ∈ Finset.range l.length, f (l.getD i 0) = (l.map f).sum := by
  rw [← sum_map_range, map_range_getD]

theorem sum_range_zip (y w : List K) (h : w.length = y.length) (f : K → K → K) :
    ∑ i ∈ Finset.range y.length, f (y.getD i 0) (w.getD i 0) = ((y.zip w).map fun e => f e.1 e.2).sum := by
  rw [← sum_map_range]
  congr 1
  apply List.ext_getElem
  · simp [h]
  · intro i h1 h2
    have h3 : i < y.length := by simpa using h1
    have h4 : i < w.length := by omega
    simp [h3, h4]

theorem batchVec_sum (l : List K) : (batchVec l).sum = l.sum := by
  unfold Tensor.sum batchVec
  simp only [sum_indices_cons, sum_indices_nil, Finset.sum_range_one]
  simpa using sum_range_getD l id

theorem flatVec_sum (l : List K) : (flatVec l).sum = l.sum := by
  unfold Tensor.sum flatVec
  simp only [sum_indices_cons, sum_indices_nil]
  simpa using sum_range_getD l id

theorem one_idx {N i : ℕ} (h : i < N) : (if N = 1 then 0 else i) = i := by
  split_ifs <;> omega

/-- On shapes `(1,N)`, `(1,N,1)`, `(1,N)` every response meets every prediction. -/
theorem loss_broadcast (y pr w : List K) (h1 : w.length = y.length) (h2 : pr.length = y.length)
    (hw : w.sum ≠ 0) :
    weightedL2 (batchVec y) (batchCol pr) (batchVec w) =
      .ok ((pr.map fun q => ((y.zip w).map fun e => e.2 * (e.1 - q) ^ 2).sum).sum / w.sum) := by
  have b1 : bshape [y.length, 1] [1, pr.length, 1] = some [y.length, y.length, 1] := by
    rw [h2]
    by_cases hy : y.length = 1
    · rw [hy]; rfl
    · simp [bshape, hy, Ne.symm hy]
  have b2 : bshape [w.length, 1] [y.length, y.length, 1] = some [y.length, y.length, 1] := by
    rw [h1]
    by_cases hy : y.length = 1
    · rw [hy]; rfl
    · simp [bshape, hy, Ne.symm hy]
  unfold weightedL2
  rw [batchVec_sum]
  unfold Tensor.zip
  simp only [batchVec, batchCol, b1, b2, bind, Except.bind, if_neg hw, pure, Except.pure]
  congr 2
  unfold Tensor.sum
  simp only [sum_indices_cons, sum_indices_nil, Finset.sum_range_one, bindex, List.zipWith_cons_cons,
    List.zipWith_nil_left, List.zipWith_nil_right, List.getD_cons_zero, List.getD_cons_succ]
  rw [Finset.sum_comm, ← sum_range_getD pr, h2]
  refine Finset.sum_congr rfl fun a ha => ?_
  rw [← sum_range_zip y w h1 (fun y w => w * (y - pr.getD a 0) ^ 2)]
  refine Finset.sum_congr rfl fun b hb => ?_
  rw [h1]
  simp only [one_idx (Finset.mem_range.1 hb), one_idx (Finset.mem_range.1 ha)]

/-- On three tensors of one shape `(N,)` each response meets its own prediction. -/
theorem loss_flat (y pr w : List K) (h1 : w.length = y.length) (h2 : pr.length = y.length)
    (hw : w.sum ≠ 0) :
    weightedL2 (flatVec y) (flatVec pr) (flatVec w) = .ok (wL2 y pr w) := by
  have b1 : bshape [y.length] [pr.length] = some [y.length] := by rw [h2]; simp [bshape]
  have b2 : bshape [w.length] [y.length] = some [y.length] := by rw [h1]; simp [bshape]
  unfold weightedL2
  rw [flatVec_sum]
  unfold Tensor.zip
  simp only [flatVec, b1, b2, bind, Except.bind, if_neg hw, pure, Except.pure]
  congr 2
  unfold Tensor.sum
  simp only [sum_indices_cons, sum_indices_nil, bindex, List.zipWith_cons_cons,
    List.zipWith_nil_left, List.zipWith_nil_right, List.getD_cons_zero]
  rw [← sum_map_range]
  congr 1
  apply List.ext_getElem
  · simp [h1, h2]
  · intro i h3 h4
    have h5 : i < y.length := by simpa using h3
    have h6 : i < w.length := by omega
    have h7 : i < pr.length := by omega
    have e1 : (if w.length = 1 then 0 else i) = i := one_idx h6
    have e2 : (if pr.length = 1 then 0 else i) = i := one_idx h7
    have e3 : (if y.length = 1 then 0 else i) = i := one_idx h5
    simp [h5, h6, h7, e1, e2, e3]

/-! ### data set -/

/-- Filling of consecutive blocks of columns. -/
theorem writeBlocks {α : Type} (L : ℕ) (val : α → ℕ → ℕ → K) (ok : α → Prop)
    (step : ℕ × (ℕ → ℕ → K) → α → Except PyErr (ℕ × (ℕ → ℕ → K)))
    (hok : ∀ st a, ok a → step st a = .ok (st.1 + 1, fun i j =>
      if L * st.1 ≤ j ∧ j < L * (st.1 + 1) then val a i (j - L * st.1) else st.2 i j))
    (hbad : ∀ st a, ¬ ok a → step st a = .error .assertionError)
    (l : List α) (st : ℕ × (ℕ → ℕ → K)) :
    ((∀ a ∈ l, ok a) → ∃ f, l.foldlM step st = .ok (st.1 + l.length, f) ∧
      (∀ i j, j < L * st.1 → f i j = st.2 i j) ∧
      (∀ v (hv : v < l.length) i k, k < L → f i (L * (st.1 + v) + k) = val l[v] i k)) ∧
    (¬ (∀ a ∈ l, ok a) → l.foldlM step st = .error .assertionError) := by
  induction l generalizing st with
  | nil => exact ⟨fun _ => ⟨st.2, rfl, fun _ _ _ => rfl, fun v hv => absurd hv (by simp)⟩,
      fun h => absurd (by simp) h⟩
  | cons a l ih =>
    by_cases ha : ok a
    · have hs := hok st a ha
      constructor
      · intro h
        obtain ⟨f, e1, e2, e3⟩ := (ih (st.1 + 1, fun i j =>
          if L * st.1 ≤ j ∧ j < L * (st.1 + 1) then val a i (j - L * st.1) else st.2 i j)).1
          fun b hb => h b (by simp [hb])
        refine ⟨f, ?_, ?_, ?_⟩
        · rw [List.foldlM_cons, hs]
          simp only [bind, Except.bind]
          rw [e1]
          simp only [List.length_cons]
          rw [Nat.add_assoc, Nat.add_comm 1]
        · intro i j hj
          have hj2 : j < L * (st.1 + 1) := lt_of_lt_of_le hj (Nat.mul_le_mul_left _ (Nat.le_succ _))
          rw [e2 i j hj2]
          exact if_neg (by omega)
        · intro v hv i k hk
          cases v with
          | zero =>
            have h1 : L * (st.1 + 0) + k < L * (st.1 + 1) := by rw [Nat.add_zero, Nat.mul_succ]; omega
            rw [e2 _ _ h1]
            have h2 : L * st.1 ≤ L * (st.1 + 0) + k ∧ L * (st.1 + 0) + k < L * (st.1 + 1) :=
              ⟨by simp, h1⟩
            simp only [if_pos h2]
            simp
          | succ v =>
            have := e3 v (by simpa using hv) i k hk
            rw [List.getElem_cons_succ, ← this]
            congr 3
            simp only
            omega
      · intro h
        rw [List.foldlM_cons, hs]
        simp only [bind, Except.bind]
        refine (ih _).2 fun hl => h fun b hb => ?_
        rcases List.mem_cons.1 hb with rfl | hb
        · exact ha
        · exact hl b hb
    · refine ⟨fun h => absurd (h a (by simp)) ha, fun _ => ?_⟩
      rw [List.foldlM_cons, hbad st a ha]
      rfl

theorem softmaxStructure_ok {nObs L : ℕ} {one : List (String × List K)}
    {two : List (String × List (List K))} (h : DictOk nObs L one two) :
    ∃ f, softmaxStructure nObs L one two = .ok (one.length + two.length, f) ∧
      ∀ v < one.length + two.length, ∀ i, ∀ k < L, f i (L * v + k) = varLevel one two v i k := by
  obtain ⟨f, e1, -, e3⟩ := (writeBlocks L (fun e i _ => e.2.getD i 0)
    (fun e : String × List K => e.2.length = nObs) (fun st e => writeOne nObs L st e.2)
    (fun st a ha => by simp only [writeOne, if_pos ha]) (fun st a ha => by simp only [writeOne, if_neg ha])
    one (0, fun _ _ => 0)).1 h.1
  obtain ⟨g, d1, d2, d3⟩ := (writeBlocks L (fun e i k => (e.2.getD i []).getD k 0)
    (fun e : String × List (List K) => e.2.length = nObs ∧ ∀ r ∈ e.2, r.length = L)
    (fun st e => writeTwo nObs L st e.2)
    (fun st a ha => by simp only [writeTwo, if_pos ha]) (fun st a ha => by simp only [writeTwo, if_neg ha])
    two (0 + one.length, f)).1 h.2
  refine ⟨g, ?_, ?_⟩
  · unfold softmaxStructure
    rw [e1]
    simp only [bind, Except.bind]
    rw [d1]
    simp
  · intro v hv i k hk
    by_cases h1 : v < one.length
    · rw [d2 _ _ (by
        show L * v + k < L * (0 + one.length)
        calc L * v + k < L * v + L := by omega
          _ = L * (v + 1) := by ring
          _ ≤ _ := Nat.mul_le_mul_left _ (by omega))]
      have := e3 v h1 i k hk
      simp only [zero_add] at this
      simp only [varLevel, if_pos h1]
      rw [this]
      simp [h1]
    · have h2 : v - one.length < two.length := by omega
      have := d3 (v - one.length) h2 i k hk
      rw [show 0 + one.length + (v - one.length) = v by omega] at this
      simp only [varLevel, if_neg h1]
      rw [this]
      simp [h2]

theorem softmaxStructure_error {nObs L : ℕ} {one : List (String × List K)}
    {two : List (String × List (List K))} (h : ¬ DictOk nObs L one two) :
    softmaxStructure nObs L one two = .error .assertionError := by
  have A := writeBlocks L (fun e i _ => e.2.getD i 0)
    (fun e : String × List K => e.2.length = nObs) (fun st e => writeOne nObs L st e.2)
    (fun st a ha => by simp only [writeOne, if_pos ha]) (fun st a ha => by simp only [writeOne, if_neg ha])
    one (0, fun _ _ => 0)
  by_cases h1 : ∀ e ∈ one, e.2.length = nObs
  · obtain ⟨f, e1, -, -⟩ := A.1 h1
    have h2 : ¬ ∀ e ∈ two, e.2.length = nObs ∧ ∀ r ∈ e.2, r.length = L := fun h2 => h ⟨h1, h2⟩
    unfold softmaxStructure
    rw [e1]
    exact (writeBlocks L (fun e i k => (e.2.getD i []).getD k 0)
      (fun e : String × List (List K) => e.2.length = nObs ∧ ∀ r ∈ e.2, r.length = L)
      (fun st e => writeTwo nObs L st e.2)
      (fun st a ha => by simp only [writeTwo, if_pos ha])
      (fun st a ha => by simp only [writeTwo, if_neg ha])
      two (0 + one.length, f)).2 h2
  · unfold softmaxStructure
    rw [A.2 h1]
    rfl

theorem mkDataset_ok {n : ℕ} {rows : List (Row K n)} {one : List (String × List K)}
    {two : List (String × List (List K))} {d : Dataset K n} (h : mkDataset rows one two = .ok d) :
    DictOk rows.length n one two ∧ d.y = rows.map Row.y ∧ d.gamma = rows.map Row.gam ∧
      d.eta = rows.map Row.eta ∧ d.weights = rows.map Row.w ∧ d.tVec = rows.map Row.tree ∧
      d.numTrees = (rows.map Row.tree).dedup.length ∧ d.numVars = one.length + two.length ∧
      ∀ v < d.numVars, ∀ i, ∀ k < n, d.feats i (n * v + k) = varLevel one two v i k := by
  by_cases hd : DictOk rows.length n one two
  · obtain ⟨f, e, hf⟩ := softmaxStructure_ok hd
    unfold mkDataset at h
    rw [e] at h
    simp only [bind, Except.bind, pure, Except.pure, Except.ok.injEq] at h
    subst h
    exact ⟨hd, rfl, rfl, rfl, rfl, rfl, rfl, rfl, hf⟩
  · unfold mkDataset at h
    rw [softmaxStructure_error hd] at h
    cases h

theorem mkDataset_returns {n : ℕ} {rows : List (Row K n)} {one : List (String × List K)}
    {two : List (String × List (List K))} (hd : DictOk rows.length n one two) :
    ∃ d, mkDataset rows one two = .ok d := by
  obtain ⟨f, e, -⟩ := softmaxStructure_ok hd
  unfold mkDataset
  rw [e]
  exact ⟨_, rfl⟩

theorem maskSel_map {α β : Type} (l : List α) (t : α → ℕ) (g : α → β) (idx : ℕ) :
    maskSel (l.map t) idx (l.map g) = (l.filter fun a => t a == idx).map g := by
  unfold maskSel
  rw [List.zip_map', List.filter_map, List.map_map]
  rfl

theorem maskSel_map_right {α β : Type} (l : List ℕ) (a : List α) (g : α → β) (idx : ℕ) :
    maskSel l idx (a.map g) = (maskSel l idx a).map g := by
  unfold maskSel
  rw [List.zip_map_right, List.filter_map, List.map_map, List.map_map]
  rfl

end SmoothRF
