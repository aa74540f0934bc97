import Verif.Proofs.Clean
import Verif.Spec.Clean

set_option linter.unusedSectionVars false

namespace SmoothRF
open SkTree Topo

variable {K : Type} [Field K] [LinearOrder K]

theorem toVec_range {n : ℕ} (v : ℕ → K) :
    toVec n ((List.range n).map v) = fun j : Fin n => v j.val := by
  funext j
  simp [toVec, List.getD_eq_getElem?_getD, List.getElem?_map, List.getElem?_range j.2]

/-- Level sums of a leaf as a vector. -/
def gVec (s : Style) (pa : Bool) (n : ℕ) (t : SkTree K 1) (r : Fin t.nLeaves) : Fin n → K :=
  fun k => levelSum pa (t.distDepth s) (fun j => t.mass .reg (t.leafNode j) 0) r k

def hVec (s : Style) (pa : Bool) (n : ℕ) (t : SkTree K 1) (r : Fin t.nLeaves) : Fin n → K :=
  fun k => levelSum pa (t.distDepth s) (fun j => t.nSamp (t.leafNode j)) r k

theorem cleanData_gam (forest : List (SkTree K 1)) (hwf : ∀ t ∈ forest, t.WF) (s : Style) (pa : Bool)
    (nObs : ℕ) (leafOf : ℕ → ℕ → ℕ) (uns : ℕ → List ℕ) :
    (cleanData forest s pa nObs leafOf uns).gam =
      forest.flatMap fun t => (List.finRange t.nLeaves).map (gVec s pa _ t) := by
  obtain ⟨h1, -, -⟩ := C16_forest_stacking .reg forest hwf s pa
  show ((gammaEtaForest .reg forest s pa).gamma 0).map (toVec _) = _
  rw [h1 0, List.map_flatMap]
  simp only [List.map_map]
  apply List.flatMap_congr
  intro t _
  refine List.map_congr_left fun i _ => ?_
  exact toVec_range _

theorem cleanData_eta (forest : List (SkTree K 1)) (hwf : ∀ t ∈ forest, t.WF) (s : Style) (pa : Bool)
    (nObs : ℕ) (leafOf : ℕ → ℕ → ℕ) (uns : ℕ → List ℕ) :
    (cleanData forest s pa nObs leafOf uns).eta =
      forest.flatMap fun t => (List.finRange t.nLeaves).map (hVec s pa _ t) := by
  obtain ⟨-, h1, -⟩ := C16_forest_stacking .reg forest hwf s pa
  show ((gammaEtaForest .reg forest s pa).eta).map (toVec _) = _
  rw [h1, List.map_flatMap]
  simp only [List.map_map]
  apply List.flatMap_congr
  intro t _
  refine List.map_congr_left fun i _ => ?_
  exact toVec_range _

theorem leafAt_pos {α : Type} {forest : List (SkTree K 1)} {d : α}
    {f : (t : SkTree K 1) → Fin t.nLeaves → α} {t r : ℕ} {tr : SkTree K 1} (ht : forest[t]? = some tr)
    (hr : r < tr.nLeaves) : leafAt forest d f t r = f tr ⟨r, hr⟩ := by
  unfold leafAt; rw [ht]; simp [hr]

/-- Row of leaf `r` of tree `t` in the stacking. -/
theorem stack_getElem? {α : Type} {forest : List (SkTree K 1)}
    (f : (t : SkTree K 1) → Fin t.nLeaves → α) {t r : ℕ} {tr : SkTree K 1}
    (ht : forest[t]? = some tr) (hr : r < tr.nLeaves) :
    (forest.flatMap fun t => (List.finRange t.nLeaves).map (f t))[
      r + ((forest.take t).map fun t => t.nLeaves).sum]? = some (f tr ⟨r, hr⟩) := by
  have := flatMap_offset forest (fun t => (List.finRange t.nLeaves).map (f t)) t r tr ht (by simpa using hr)
  simp only [List.length_map, List.length_finRange] at this
  rw [add_comm, this]
  simp [hr]

theorem oobIdxMat_get (forest : List (SkTree K 1)) (nObs : ℕ) (leafOf : ℕ → ℕ → ℕ) {i t : ℕ}
    {tr : SkTree K 1} (hi : i < nObs) (ht : forest[t]? = some tr) (hl : leafOf t i < tr.nLeaves) :
    ∃ row, (oobIdxMat forest nObs leafOf)[i]? = some row ∧ row.length = forest.length ∧
      row[t]? = some (leafOf t i + ((forest.take t).map fun t => t.nLeaves).sum) := by
  refine ⟨_, oobIdxMat_entry forest nObs leafOf i hi, by simp, ?_⟩
  rw [List.getElem?_map, List.getElem?_zipIdx, ht]
  simp only [Option.map_some, zero_add, Option.some.injEq]
  rw [sum_pick _ _ hl]

theorem oobWeights_get [IsStrictOrderedRing K] (T nObs : ℕ) (uns : ℕ → List ℕ) {i t : ℕ} (hi : i < nObs)
    (ht : t < T) :
    (oobWeights T nObs uns : List K)[T * i + t]? = some
      (if i ∈ uns t then 1 / ((oobTrees T uns i).card : K) else 0) := by
  have e : (oobWeights T nObs uns : List K) = grid T (List.range nObs) fun i t =>
      oobPrime uns i t / (if ((List.range T).map fun t => (oobPrime uns i t : K)).sum = 0 then 1
        else ((List.range T).map fun t => (oobPrime uns i t : K)).sum) := rfl
  rw [e, Nat.mul_comm, grid_getElem? _ _ _ _ _ ht, List.getElem?_range hi, Option.map_some,
    oobPrime_sum]
  congr 1
  unfold oobPrime oobTrees
  split_ifs with h1 h2
  · exfalso
    rw [Nat.cast_eq_zero, Finset.card_eq_zero] at h2
    have : t ∈ (Finset.range T).filter fun t => i ∈ uns t := by simp [ht, h1]
    rw [h2] at this; simp at this
  · rfl
  · simp
  · simp

theorem oobWeights_sum [IsStrictOrderedRing K] (T : ℕ) (uns : ℕ → List ℕ) (i : ℕ) (p : ℕ → K) :
    ∑ t ∈ Finset.range T, (if i ∈ uns t then 1 / ((oobTrees T uns i).card : K) else 0) * p t =
      oobMean T uns p i := by
  have : ∑ t ∈ Finset.range T, (if i ∈ uns t then 1 / ((oobTrees T uns i).card : K) else 0) * p t =
      (∑ t ∈ oobTrees T uns i, p t) / ((oobTrees T uns i).card : K) := by
    conv_rhs => rw [oobTrees, Finset.sum_filter, Finset.sum_div]
    refine Finset.sum_congr rfl fun t _ => ?_
    split_ifs
    · rw [one_div, inv_mul_eq_div]; rfl
    · simp
  rw [this, oobMean]
  split_ifs with h
  · simp [h]
  · rfl

theorem oobWeights_total [IsStrictOrderedRing K] (T : ℕ) (uns : ℕ → List ℕ) (i : ℕ) :
    ∑ t ∈ Finset.range T, (if i ∈ uns t then 1 / ((oobTrees T uns i).card : K) else 0) =
      if oobTrees T uns i = ∅ then 0 else 1 := by
  have := oobWeights_sum T uns i (fun _ => (1 : K))
  simp only [mul_one] at this
  rw [this, oobMean]
  split_ifs with h
  · rfl
  · rw [Finset.sum_const, nsmul_eq_mul, mul_one, div_self]
    rw [Nat.cast_ne_zero, Finset.card_ne_zero]
    exact Finset.nonempty_iff_ne_empty.2 h

/-- The arrays built by `smooth_clean`, by observation and tree. -/
theorem cleanView [IsStrictOrderedRing K] (forest : List (SkTree K 1)) (hwf : ∀ t ∈ forest, t.WF)
    (s : Style) (pa : Bool) (nObs : ℕ) (leafOf : ℕ → ℕ → ℕ) (uns : ℕ → List ℕ)
    (hl : ∀ t tr, forest[t]? = some tr → ∀ i < nObs, leafOf t i < tr.nLeaves) :
    CleanView (cleanData forest s pa nObs leafOf uns) nObs
      (fun i t => leafAt forest 0 (gVec s pa _) t (leafOf t i))
      (fun i t => leafAt forest 0 (hVec s pa _) t (leafOf t i))
      (fun i t => if i ∈ uns t then 1 / ((oobTrees forest.length uns i).card : K) else 0) where
  len := by simp [cleanData, oobIdxMat]
  rows i hi := by
    refine ⟨_, oobIdxMat_entry forest nObs leafOf i hi, by simp [cleanData], fun t ht => ?_⟩
    have ht' : t < forest.length := ht
    have htr : forest[t]? = some forest[t] := List.getElem?_eq_getElem ht'
    have hlt := hl t _ htr i hi
    refine ⟨leafOf t i + ((forest.take t).map fun t => t.nLeaves).sum, ?_, ?_, ?_⟩
    · rw [List.getElem?_map, List.getElem?_zipIdx, htr]
      simp only [Option.map_some, zero_add, Option.some.injEq]
      rw [sum_pick _ _ hlt]
    · rw [cleanData_gam forest hwf, stack_getElem? _ htr hlt, leafAt_pos htr hlt]
    · rw [cleanData_eta forest hwf, stack_getElem? _ htr hlt, leafAt_pos htr hlt]
  wts i hi t ht := oobWeights_get forest.length nObs uns hi ht

/-! ### descent -/

variable {k : ℕ} {sqrt : K → K} {approxOne : K → Bool} {d : CleanData K k} {y : List K} {o : CleanOpts K}

theorem cleanStep_ok {s s' : CleanState K k} {obs : List ℕ}
    (h : cleanStep sqrt d y o s obs = .ok s') :
    s'.started = true ∧
    (s'.costAll.length = if s.started then s.costAll.length + 1 else s.costAll.length + 2) ∧
    (o.useFullLoss = true → s.started = true → s'.best = s.best) ∧
    (o.useFullLoss = true → s.started = false → ∃ c, s'.best = some (s.lamb, c)) ∧
    (o.noConstraint = false → ∃ l, proxProject l = .ok s'.lamb) := by
  unfold cleanStep at h
  split_ifs at h with h0
  obtain ⟨s1, h1, h⟩ := bind_ok h
  obtain ⟨p, h2, h⟩ := bind_ok h
  have A : s1.started = true ∧ (s1.costAll.length = if s.started then s.costAll.length
      else s.costAll.length + 1) ∧ s1.lamb = s.lamb ∧
      (s.started = true → s1.best = s.best) ∧
      (o.useFullLoss = true → s.started = false → ∃ c, s1.best = some (s.lamb, c)) := by
    unfold cleanStart at h1
    split_ifs at h1 with h3 h4
    · cases h1; simp [h3]
    · obtain ⟨c, -, h1⟩ := bind_ok h1
      cases h1
      simp [h3]
    · obtain ⟨c, -, h1⟩ := bind_ok h1
      cases h1
      simp [h3, h4]
  have B : o.noConstraint = false → ∃ l, proxProject l = .ok p.1 := by
    intro hn
    unfold cleanMove at h2
    obtain ⟨q, -, h2⟩ := bind_ok h2
    rw [hn] at h2
    simp only [Bool.false_eq_true, if_false] at h2
    obtain ⟨l2, h5, h2⟩ := bind_ok h2
    cases h2
    exact ⟨_, h5⟩
  obtain ⟨a1, a2, -, a4, a5⟩ := A
  unfold cleanRecord at h
  split_ifs at h with h3
  · obtain ⟨c, -, h⟩ := bind_ok h
    cases h
    refine ⟨a1, ?_, fun _ hs => ?_, fun _ hs => ?_, B⟩
    · simp only [List.length_append, a2, List.length_singleton]; split_ifs <;> rfl
    · rw [← a4 hs]; simp
    · obtain ⟨c', e⟩ := a5 h3 hs
      exact ⟨c', by simp [e]⟩
  · obtain ⟨c, -, h⟩ := bind_ok h
    cases h
    refine ⟨a1, ?_, fun hf => absurd hf h3, fun hf => absurd hf h3, B⟩
    simp only [List.length_append, a2, List.length_singleton]; split_ifs <;> rfl

theorem cleanFold_started {choices : List (List ℕ)} {s s' : CleanState K k} (hs : s.started = true)
    (h : choices.foldlM (cleanStep sqrt d y o) s = .ok s') :
    s'.costAll.length = s.costAll.length + choices.length ∧
    (o.useFullLoss = true → s'.best = s.best) ∧
    (o.noConstraint = false → choices ≠ [] → ∃ l, proxProject l = .ok s'.lamb) := by
  induction choices generalizing s with
  | nil => cases h; simp
  | cons c cs ih =>
    rw [List.foldlM_cons] at h
    obtain ⟨s1, h1, h⟩ := bind_ok h
    obtain ⟨a, b, e, -, g⟩ := cleanStep_ok h1
    obtain ⟨x, y', z⟩ := ih a h
    rw [if_pos hs] at b
    refine ⟨by rw [x, b, List.length_cons]; omega, fun hf => (y' hf).trans (e hf hs), fun hn _ => ?_⟩
    cases cs with
    | nil => cases h; exact g hn
    | cons => exact z hn (by simp)

theorem cleanFold_init {choices : List (List ℕ)} (hc : choices ≠ []) {l : Fin k → K}
    {s' : CleanState K k}
    (h : choices.foldlM (cleanStep sqrt d y o) ⟨l, none, none, [], false⟩ = .ok s') :
    s'.costAll.length = choices.length + 1 ∧
    (o.useFullLoss = true → ∃ c, s'.best = some (l, c)) ∧
    (o.noConstraint = false → ∃ l, proxProject l = .ok s'.lamb) := by
  cases choices with
  | nil => exact absurd rfl hc
  | cons c cs =>
    rw [List.foldlM_cons] at h
    obtain ⟨s1, h1, h⟩ := bind_ok h
    obtain ⟨a, b, -, f, g⟩ := cleanStep_ok h1
    obtain ⟨x, y', z⟩ := cleanFold_started a h
    simp only [Bool.false_eq_true, if_false, List.length_nil] at b
    refine ⟨by rw [x, b, List.length_cons]; omega, fun hf => ?_, fun hn => ?_⟩
    · obtain ⟨c, e⟩ := f hf rfl
      exact ⟨c, (y' hf).trans e⟩
    · cases cs with
      | nil => cases h; exact g hn
      | cons => exact z hn (by simp)

theorem sgdClean_ok {choices : List (List ℕ)} {lambInit lb ll : Fin k → K} {costs : List K}
    (h : sgdClean sqrt approxOne d y o lambInit choices = .ok (lb, ll, costs)) :
    ¬ (o.noConstraint = false ∧ (approxOne (∑ i, lambInit i) = false ∨ ∃ i, lambInit i < 0)) ∧
    ∃ s, choices.foldlM (cleanStep sqrt d y o) ⟨lambInit, none, none, [], false⟩ = .ok s ∧
      ll = s.lamb ∧ costs = s.costAll ∧
      (o.useFullLoss = true → ∃ c, s.best = some (lb, c)) ∧ (o.useFullLoss = false → lb = s.lamb) := by
  unfold sgdClean at h
  by_cases h0 : o.noConstraint = false ∧ (approxOne (∑ i, lambInit i) = false ∨ ∃ i, lambInit i < 0)
  · rw [if_pos h0] at h; cases h
  rw [if_neg h0] at h
  refine ⟨h0, ?_⟩
  obtain ⟨s, h1, h⟩ := bind_ok h
  refine ⟨s, h1, ?_⟩
  split_ifs at h with hf
  · split at h
    · rename_i b hb
      cases h
      exact ⟨rfl, rfl, fun _ => ⟨b.2, hb⟩, fun h => by rw [hf] at h; cases h⟩
    · cases h
  · cases h
    exact ⟨rfl, rfl, fun h => absurd h hf, fun _ => rfl⟩

theorem ok_of_toOption {α : Type} {r : Except PyErr α} {a : α} (h : r.toOption = some a) : r = .ok a := by
  cases r with
  | error e => cases h
  | ok b => cases h; rfl

/-- Inversion of `smoothClean`. -/
theorem smoothClean_ok {forest : List (SkTree K 1)} (hwf : ∀ t ∈ forest, t.WF)
    {leafOf : ℕ → ℕ → ℕ} {uns : ℕ → List ℕ} {cfg : CleanCfg K} {choices : List (List ℕ)}
    {rf1 : List (SkTree K 1)} {lamb : Fin (forestDepth forest + 1) → K} {c : List K}
    {rf : Option Kind}
    (h : smoothClean sqrt approxOne rf forest y leafOf uns cfg choices = .ok (rf1, lamb, c)) :
    rf = some .reg ∧
    cleanLamb sqrt approxOne (cleanData forest cfg.style cfg.parentsAll y.length leafOf uns) y cfg
      choices = .ok (lamb, c) ∧
    List.Forall₂ (fun t t' => LeafUpdate t t'
      fun r => smoothSpec .reg t cfg.style cfg.parentsAll lamb r) forest rf1 := by
  unfold smoothClean at h
  split at h
  · refine ⟨rfl, ?_⟩
    obtain ⟨p, h1, h⟩ := bind_ok h
    obtain ⟨rf', h2, h⟩ := bind_ok h
    cases h
    refine ⟨h1, ?_⟩
    rw [cleanData_gam forest hwf, cleanData_eta forest hwf, ← leafList_map, ← leafList_map,
      List.zipWith_map, List.zipWith_self, List.map_map] at h2
    obtain ⟨ts', h7, h8⟩ := writeBack1_spec
      (fun p' => smoothSpec .reg p'.1 cfg.style cfg.parentsAll p.1 p'.2) forest hwf []
    rw [List.nil_append, List.length_nil] at h7
    have e : (leafList forest).map (((fun v _ => v) : K → Fin 1 → K) ∘ fun p' =>
        if dot (hVec cfg.style cfg.parentsAll _ p'.1 p'.2) p.1 = 0 then 0 else
          dot (gVec cfg.style cfg.parentsAll _ p'.1 p'.2) p.1 /
          (if dot (hVec cfg.style cfg.parentsAll _ p'.1 p'.2) p.1 = 0 then 1 else
            dot (hVec cfg.style cfg.parentsAll _ p'.1 p'.2) p.1)) =
        (leafList forest).map fun p' => smoothSpec .reg p'.1 cfg.style cfg.parentsAll p.1 p'.2 := by
      refine List.map_congr_left fun p' _ => ?_
      funext c
      have hc : c = 0 := Subsingleton.elim _ _
      subst hc
      show (if smoothDen p'.1 cfg.style cfg.parentsAll p.1 p'.2 = 0 then (0 : K) else
        smoothNum .reg p'.1 cfg.style cfg.parentsAll p.1 p'.2 0 /
          (if smoothDen p'.1 cfg.style cfg.parentsAll p.1 p'.2 = 0 then 1 else
            smoothDen p'.1 cfg.style cfg.parentsAll p.1 p'.2)) = _
      unfold smoothSpec
      split_ifs <;> rfl
    rw [e, h7] at h2
    cases h2
    exact h8
  · cases h

/-- `smoothClean` returns whenever the weights are computed. -/
theorem smoothClean_returns {forest : List (SkTree K 1)} (hwf : ∀ t ∈ forest, t.WF)
    {leafOf : ℕ → ℕ → ℕ} {uns : ℕ → List ℕ} {cfg : CleanCfg K} {choices : List (List ℕ)}
    {lamb : Fin (forestDepth forest + 1) → K} {c : List K}
    (h : cleanLamb sqrt approxOne (cleanData forest cfg.style cfg.parentsAll y.length leafOf uns) y cfg
      choices = .ok (lamb, c)) :
    ∃ rf1, smoothClean sqrt approxOne (some .reg) forest y leafOf uns cfg choices =
      .ok (rf1, lamb, c) := by
  obtain ⟨ts', h7, -⟩ := writeBack1_spec (fun p' _ =>
      if dot (hVec cfg.style cfg.parentsAll _ p'.1 p'.2) lamb = 0 then 0 else
        dot (gVec cfg.style cfg.parentsAll _ p'.1 p'.2) lamb /
        (if dot (hVec cfg.style cfg.parentsAll _ p'.1 p'.2) lamb = 0 then 1 else
          dot (hVec cfg.style cfg.parentsAll _ p'.1 p'.2) lamb)) forest hwf []
  rw [List.nil_append, List.length_nil] at h7
  refine ⟨ts', ?_⟩
  unfold smoothClean
  simp only
  rw [h, cleanData_gam forest hwf, cleanData_eta forest hwf, ← leafList_map, ← leafList_map]
  simp only [bind, Except.bind, pure, Except.pure, List.map_map, List.zipWith_map, List.zipWith_self]
  erw [h7]

theorem forest_same {forest rf1 : List (SkTree K 1)} (hwf : ∀ t ∈ forest, t.WF)
    (hn : ∀ t ∈ forest, ∀ r, t.nSamp (t.leafNode r) ≠ 0) {s : Style} {pa : Bool} {n : ℕ}
    {lamb : Fin (n + 1) → K} (hl : ∀ i, lamb i = if i = 0 then 1 else 0)
    (h : List.Forall₂ (fun t t' => LeafUpdate t t' fun r => smoothSpec .reg t s pa lamb r) forest rf1) :
    rf1 = forest := by
  refine forall2_eq (forall2_imp_mem h fun t ht t' hu => ?_)
  refine leafUpdate_same (hwf t ht) hu fun r c => ?_
  rw [smoothSpec, smoothDen_e0 (hwf t ht) _ _ _ _ hl, smoothNum_e0 _ (hwf t ht) _ _ _ _ _ hl,
    if_neg (hn t ht r)]
  exact mul_div_cancel_left₀ _ (hn t ht r)

end SmoothRF
