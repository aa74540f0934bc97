import Verif.Spec.Clean
import Verif.Proofs.Smooth2

set_option linter.unusedSectionVars false

namespace SmoothRF
open SkTree Topo

variable {K : Type} [Field K] [LinearOrder K] {k : ℕ}

/-! ### grids: lists over (observation, tree) -/

/-- Row-by-row list of `f ob t`. -/
def grid {α β : Type} (T : ℕ) (obs : List α) (f : α → ℕ → β) : List β :=
  obs.flatMap fun ob => (List.range T).map (f ob)

theorem grid_cons {α β : Type} (T : ℕ) (a : α) (obs : List α) (f : α → ℕ → β) :
    grid T (a :: obs) f = (List.range T).map (f a) ++ grid T obs f := by simp [grid]

theorem grid_map {α β γ : Type} (T : ℕ) (obs : List α) (f : α → ℕ → β) (g : β → γ) :
    (grid T obs f).map g = grid T obs fun a t => g (f a t) := by
  simp only [grid, List.map_flatMap, List.map_map]; rfl

theorem grid_zipWith {α β γ δ : Type} (T : ℕ) (obs : List α) (f : α → ℕ → β) (g : α → ℕ → γ)
    (op : β → γ → δ) :
    List.zipWith op (grid T obs f) (grid T obs g) = grid T obs fun a t => op (f a t) (g a t) := by
  induction obs with
  | nil => rfl
  | cons a obs ih =>
    rw [grid_cons, grid_cons, grid_cons, List.zipWith_append (by simp), ih]
    congr 1
    apply List.ext_getElem <;> simp

theorem grid_length {α β : Type} (T : ℕ) (obs : List α) (f : α → ℕ → β) :
    (grid T obs f).length = obs.length * T := by
  induction obs with
  | nil => simp [grid]
  | cons a obs ih => rw [grid_cons, List.length_append, ih]; simp [Nat.add_mul, Nat.add_comm]

theorem grid_getElem? {α β : Type} (T : ℕ) (obs : List α) (f : α → ℕ → β) (i t : ℕ) (ht : t < T) :
    (grid T obs f)[i * T + t]? = obs[i]?.map fun a => f a t := by
  have := flatMap_block (List.range T) (fun t a => f a t) obs i t (by simpa using ht)
  simp only [List.length_range, List.getElem_range] at this
  exact this

theorem grid_congr {α β : Type} (T : ℕ) (obs : List α) (f g : α → ℕ → β)
    (h : ∀ a ∈ obs, ∀ t < T, f a t = g a t) : grid T obs f = grid T obs g := by
  unfold grid
  apply List.flatMap_congr
  intro a ha
  exact List.map_congr_left fun t ht => h a ha t (List.mem_range.1 ht)

theorem sum_range_mul {M : Type} [AddCommMonoid M] (m T : ℕ) (F : ℕ → M) :
    ∑ q ∈ Finset.range (m * T), F q = ∑ a ∈ Finset.range m, ∑ t ∈ Finset.range T, F (a * T + t) := by
  induction m with
  | zero => simp
  | succ m ih => rw [Nat.add_mul, one_mul, Finset.sum_range_add, ih, Finset.sum_range_succ]

theorem blockSum_grid {α : Type} (T : ℕ) (obs : List α) (f : α → ℕ → K) (i : ℕ) (a : α)
    (hi : obs[i]? = some a) : blockSum T (grid T obs f) i = ∑ t ∈ Finset.range T, f a t := by
  have hil : i < obs.length := (List.getElem?_eq_some_iff.1 hi).1
  unfold blockSum
  rw [sum_map_range, grid_length, sum_range_mul, Finset.sum_eq_single i]
  · refine Finset.sum_congr rfl fun t ht => ?_
    have ht := Finset.mem_range.1 ht
    have : (i * T + t) / T = i := by
      rw [Nat.mul_comm, Nat.mul_add_div (by omega), Nat.div_eq_of_lt ht, add_zero]
    rw [if_pos this, List.getD_eq_getElem?_getD, grid_getElem? T obs f i t ht, hi]
    rfl
  · intro b _ hb
    refine Finset.sum_eq_zero fun t ht => ?_
    have ht := Finset.mem_range.1 ht
    have : (b * T + t) / T = b := by
      rw [Nat.mul_comm, Nat.mul_add_div (by omega), Nat.div_eq_of_lt ht, add_zero]
    rw [if_neg (by rw [this]; exact hb)]
  · intro h; exact absurd (Finset.mem_range.2 hil) h

theorem range_map_blockSum {α : Type} (T : ℕ) (obs : List α) (f : α → ℕ → K) :
    (List.range obs.length).map (blockSum T (grid T obs f)) =
      obs.map fun a => ∑ t ∈ Finset.range T, f a t :=
  range_map_getD obs _ _ fun i hi => blockSum_grid T obs f i _ (List.getElem?_eq_getElem hi)

/-! ### array access -/

theorem pyGet_some {α : Type} {l : List α} {i : ℕ} {a : α} (h : l[i]? = some a) :
    pyGet l i = .ok a := by unfold pyGet; rw [h]

variable {d : CleanData K k} {n : ℕ} {g h : ℕ → ℕ → Fin k → K} {w : ℕ → ℕ → K}

theorem createGH_eq (V : CleanView d n g h w) (obs : List ℕ) (ho : ∀ o ∈ obs, o < n) :
    createGH d obs = .ok (grid d.nTrees obs g, grid d.nTrees obs h) := by
  have h1 : obs.mapM (pyGet d.idxMat) = .ok (obs.map fun o => (d.idxMat[o]?).getD []) := by
    apply mapM_ok
    intro o hoo
    obtain ⟨row, hr, -⟩ := V.rows o (ho o hoo)
    rw [pyGet_some hr, hr]; rfl
  have h2 : ∀ (L : List (Fin k → K)) (f : ℕ → ℕ → Fin k → K),
      (∀ o < n, ∀ row, d.idxMat[o]? = some row → ∀ t < d.nTrees, ∀ q, row[t]? = some q →
        L[q]? = some (f o t)) →
      (obs.map fun o => (d.idxMat[o]?).getD []).flatten.mapM (pyGet L) =
        .ok (grid d.nTrees obs f) := by
    intro L f hL
    have e1 : (obs.map fun o => (d.idxMat[o]?).getD []).flatten.mapM (pyGet L) =
        .ok ((obs.map fun o => (d.idxMat[o]?).getD []).flatten.map fun q => (L[q]?).getD (fun _ => 0)) := by
      apply mapM_ok
      intro q hq
      obtain ⟨row, hrow, hqr⟩ := List.mem_flatten.1 hq
      obtain ⟨o, hoo, rfl⟩ := List.mem_map.1 hrow
      obtain ⟨row, hr, hlen, -⟩ := V.rows o (ho o hoo)
      rw [hr] at hqr
      obtain ⟨t, ht, e⟩ := List.getElem_of_mem hqr
      have := hL o (ho o hoo) row hr t (by rw [← hlen]; exact ht) q
        (by rw [← e]; exact List.getElem?_eq_getElem ht)
      rw [pyGet_some this, this]; rfl
    rw [e1]
    congr 1
    rw [← List.flatMap_def, List.map_flatMap]
    unfold grid
    apply List.flatMap_congr
    intro o hoo
    obtain ⟨row, hr, hlen, -⟩ := V.rows o (ho o hoo)
    rw [hr, Option.getD_some, ← hlen]
    symm
    refine range_map_getD row _ _ fun t ht => ?_
    rw [hL o (ho o hoo) row hr t (by rw [← hlen]; exact ht) row[t] (List.getElem?_eq_getElem ht)]
    rfl
  unfold createGH
  rw [h1]
  simp only [bind, Except.bind, pure, Except.pure]
  rw [h2 d.gam g, h2 d.eta h]
  · intro o ho' row hr t ht q hq
    obtain ⟨row', hr', -, hh⟩ := V.rows o ho'
    rw [hr] at hr'; cases hr'
    obtain ⟨q', hq', -, he⟩ := hh t ht
    rw [hq] at hq'; cases hq'
    exact he
  · intro o ho' row hr t ht q hq
    obtain ⟨row', hr', -, hh⟩ := V.rows o ho'
    rw [hr] at hr'; cases hr'
    obtain ⟨q', hq', hg, -⟩ := hh t ht
    rw [hq] at hq'; cases hq'
    exact hg

theorem calcGHFill_eq (V : CleanView d n g h w) (lamb : Fin k → K) (obs : List ℕ)
    (ho : ∀ o ∈ obs, o < n) :
    calcGHFill d lamb obs = .ok (grid d.nTrees obs fun o t => dot (g o t) lamb,
      grid d.nTrees obs fun o t => dot (h o t) lamb) := by
  unfold calcGHFill
  rw [createGH_eq V obs ho]
  simp only [bind, Except.bind, pure, Except.pure, grid_map]

theorem oobInner_eq (V : CleanView d n g h w) (obs : List ℕ) (ho : ∀ o ∈ obs, o < n) :
    oobInner d obs = .ok (obs.map fun o => (List.range d.nTrees).map (w o)) := by
  unfold oobInner
  apply mapM_ok
  intro o hoo
  apply mapM_ok
  intro t ht
  exact pyGet_some (V.wts o (ho o hoo) t (List.mem_range.1 ht))

theorem calcYOob_eq (V : CleanView d n g h w) (lamb : Fin k → K) (obs : List ℕ)
    (ho : ∀ o ∈ obs, o < n)
    (hfin : ∀ o ∈ obs, ∀ t < d.nTrees, dot (h o t) lamb = 0 → dot (g o t) lamb = 0) :
    calcYOob d lamb obs = .ok
      (obs.map fun o => ∑ t ∈ Finset.range d.nTrees,
        w o t * (dot (g o t) lamb / dot (h o t) lamb),
       obs.map fun o => decide (∑ t ∈ Finset.range d.nTrees, w o t = 1)) := by
  unfold calcYOob
  rw [oobInner_eq V obs ho, calcGHFill_eq V lamb obs ho]
  simp only [bind, Except.bind, pure, Except.pure]
  have e : (obs.map fun o => (List.range d.nTrees).map (w o)).flatten = grid d.nTrees obs w := by
    rw [← List.flatMap_def]; rfl
  rw [e]
  simp only [grid_zipWith]
  rw [if_neg]
  · rw [range_map_blockSum]
    congr 2
    · refine List.map_congr_left fun o hoo => Finset.sum_congr rfl fun t ht => ?_
      by_cases h0 : dot (g o t) lamb = 0
      · rw [if_pos h0, h0]; simp
      · rw [if_neg h0]
    · rw [List.map_map]
      refine List.map_congr_left fun o hoo => ?_
      simp only [Function.comp_apply, sum_map_range]
  · rw [Bool.not_eq_true, List.any_eq_false]
    intro x hx
    simp only [grid, List.mem_flatMap, List.mem_map, List.mem_range] at hx
    obtain ⟨o, hoo, t, ht, rfl⟩ := hx
    simp only [decide_eq_true_eq]
    split_ifs with h0
    · exact one_ne_zero
    · exact fun hh => h0 (hfin o hoo t ht hh)

theorem calcYOobGrad_eq (V : CleanView d n g h w) (lamb : Fin k → K) (obs : List ℕ)
    (ho : ∀ o ∈ obs, o < n) :
    calcYOobGrad d lamb obs = .ok (obs.map fun o j =>
      (∑ t ∈ Finset.range d.nTrees,
        1 / (if dot (g o t) lamb = 0 then 1 else dot (g o t) lamb) * (w o t * g o t j)) -
      ∑ t ∈ Finset.range d.nTrees,
        dot (g o t) lamb / (if dot (h o t) lamb = 0 then 1 else dot (h o t) lamb) ^ 2 *
          (w o t * h o t j)) := by
  unfold calcYOobGrad
  rw [oobInner_eq V obs ho, calcGHFill_eq V lamb obs ho, createGH_eq V obs ho]
  simp only [bind, Except.bind, pure, Except.pure]
  have e : (obs.map fun o => (List.range d.nTrees).map (w o)).flatten = grid d.nTrees obs w := by
    rw [← List.flatMap_def]; rfl
  rw [e]
  simp only [grid_zipWith, grid_map]
  congr 1
  refine range_map_getD obs _ _ fun i hi => ?_
  funext j
  rw [blockSum_grid _ _ _ i _ (List.getElem?_eq_getElem hi),
    blockSum_grid _ _ _ i _ (List.getElem?_eq_getElem hi)]

/-! ### generate_oob_info -/

theorem natCumsum_getD (acc : ℕ) (l : List ℕ) (i : ℕ) (hi : i < l.length) :
    (natCumsum acc l)[i]? = some (acc + (l.take (i + 1)).sum) := by
  induction l generalizing acc i with
  | nil => simp at hi
  | cons x xs ih =>
    cases i with
    | zero => simp [natCumsum]
    | succ i =>
      rw [natCumsum, List.getElem?_cons_succ, ih _ _ (by simpa using hi)]
      simp [add_assoc]

theorem flatMap_offset {α β : Type} (L : List α) (f : α → List β) (t r : ℕ) (a : α)
    (ha : L[t]? = some a) (hr : r < (f a).length) :
    (L.flatMap f)[((L.take t).map fun x => (f x).length).sum + r]? = (f a)[r]? := by
  induction L generalizing t with
  | nil => simp at ha
  | cons x xs ih =>
    cases t with
    | zero =>
      simp only [List.getElem?_cons_zero, Option.some.injEq] at ha
      subst ha
      rw [List.flatMap_cons]
      simp only [List.take_zero, List.map_nil, List.sum_nil, zero_add]
      rw [List.getElem?_append_left hr]
    | succ t =>
      rw [List.getElem?_cons_succ] at ha
      rw [List.flatMap_cons, List.take_succ_cons, List.map_cons, List.sum_cons, add_assoc,
        List.getElem?_append_right (by omega), Nat.add_sub_cancel_left]
      exact ih t ha

theorem sum_pick (n m : ℕ) (h : m < n) :
    ((List.range n).map fun l => (if m = l then 1 else 0) * l).sum = m := by
  have : ((List.range n).map fun l => (if m = l then 1 else 0) * l).sum =
      ∑ l ∈ Finset.range n, (if m = l then 1 else 0) * l := by
    induction n with
    | zero => omega
    | succ n ih =>
      rw [List.range_succ, List.map_append, List.sum_append, Finset.sum_range_succ]
      simp only [List.map_cons, List.map_nil, List.sum_cons, List.sum_nil, add_zero]
      by_cases hm : m < n
      · rw [ih hm]
      · congr 1
  rw [this]
  simp [h]

/-- Entry of `idx_mat`. -/
theorem oobIdxMat_entry (forest : List (SkTree K 1)) (nObs : ℕ) (leafOf : ℕ → ℕ → ℕ) (i : ℕ)
    (hi : i < nObs) :
    (oobIdxMat forest nObs leafOf)[i]? = some (forest.zipIdx.map fun tt =>
      ((List.range tt.1.nLeaves).map fun l => (if leafOf tt.2 i = l then 1 else 0) * l).sum +
        ((forest.take tt.2).map fun t => t.nLeaves).sum) := by
  unfold oobIdxMat
  simp only [List.getElem?_map, List.getElem?_range hi, Option.map_some, Option.some.injEq]
  refine List.map_congr_left fun tt htt => ?_
  congr 1
  have hlt : tt.2 < forest.length := by
    obtain ⟨t, ti⟩ := tt
    have := List.snd_lt_of_mem_zipIdx htt
    simpa using this
  rw [List.getD_eq_getElem?_getD, List.getElem?_take_of_lt hlt, natCumsum_getD _ _ _ (by simp; omega)]
  simp only [Option.getD_some, zero_add, List.take_succ_cons, List.sum_cons, List.map_take]

theorem oobPrime_sum [IsStrictOrderedRing K] (nTrees : ℕ) (unsampled : ℕ → List ℕ) (i : ℕ) :
    ((List.range nTrees).map fun t => (oobPrime unsampled i t : K)).sum =
      (((Finset.range nTrees).filter fun t => i ∈ unsampled t).card : K) := by
  rw [sum_map_range]
  simp [oobPrime]

end SmoothRF
