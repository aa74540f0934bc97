import Verif.Model.Oob
import Verif.Proofs.DepthTune
import Verif.Props.GammaProps
import Mathlib.Algebra.Order.BigOperators.Group.List

/-!
# C97, C98: `_append_oob_values` and the numpy losses
-/

set_option linter.unusedSectionVars false

namespace SmoothRF
open SkTree

variable {K : Type} [Field K] [LinearOrder K] [IsStrictOrderedRing K] {C : ℕ}

theorem concatRows_spec (t : Topo) (df : PDf K t) (nOob : t.Node → ℕ) (err : t.Node → K) :
    let out := concatRows t df nOob ((List.finRange (t.m + 1)).map err)
    out.length = 2 * (t.m + 1) ∧
    (∀ i : t.Node, out[i.val]? = some { orig := some (df i), oob := none }) ∧
    ∀ i : t.Node, out[t.m + 1 + i.val]? = some { orig := none, oob := some (nOob i, err i) } := by
  intro out
  refine ⟨?_, fun i => ?_, fun i => ?_⟩
  · simp only [out, concatRows, List.length_append, List.length_map, List.length_finRange]; omega
  · simp only [out, concatRows]
    rw [List.getElem?_append_left (by simpa using Nat.le_of_lt_succ i.isLt), List.getElem?_map,
      finRange_getElem?]
    rfl
  · simp only [out, concatRows]
    rw [List.getElem?_append_right (by simp)]
    simp only [List.length_map, List.length_finRange, Nat.add_sub_cancel_left]
    rw [List.getElem?_map, finRange_getElem?]
    simp [List.getD, finRange_getElem?]

/-- C97 (what holds, regression): with at least one out-of-bag row the function returns `2 n` rows, the
original ones followed by one per node with the number of out-of-bag observations through the node and
`R`, where `R` times the number of *all* out-of-bag rows is the node's sum of squared errors.
Missing: one row per node, and division by the node's own count (`C97_rows_refuted`,
`C97_reg_refuted`). -/
theorem C97_oob_reg_partial (t : SkTree K 1) (df : PDf K t.toTopo) (rows : List (OobRow t.toTopo K))
    (hrows : rows ≠ []) :
    ∃ out, appendOobReg t df rows = .ok out ∧ out.length = 2 * (t.m + 1) ∧
      (∀ i : t.Node, out[i.val]? = some { orig := some (df i), oob := none }) ∧
      ∀ i : t.Node, ∃ R, out[t.m + 1 + i.val]? =
          some { orig := none, oob := some ((rows.filter fun r => r.path i).length, R) } ∧
        R * (rows.length : K) = ((rows.filter fun r => r.path i).map fun r => (r.y - t.value i 0) ^ 2).sum := by
  have hN : rows.length ≠ 0 := fun h => hrows (List.length_eq_zero_iff.1 h)
  have hNK : (rows.length : K) ≠ 0 := by exact_mod_cast hN
  let R : t.Node → K := fun i => (rows.map fun r =>
      (if r.path i then (if r.path i then 1 else 0) * r.y - t.value i 0 else 0) ^ 2).sum /
    (rows.length : K)
  have hm : (List.finRange (t.m + 1)).mapM (oobErrReg t rows) = .ok ((List.finRange (t.m + 1)).map R) :=
    mapM_ok _ _ _ fun i _ => by unfold oobErrReg; rw [if_neg hN]
  obtain ⟨h1, h2, h3⟩ := concatRows_spec t.toTopo df (oobCount t.toTopo rows) R
  refine ⟨_, by unfold appendOobReg; rw [if_neg (by simpa using hrows), hm]; rfl, h1, h2, fun i => ⟨R i, h3 i, ?_⟩⟩
  simp only [R]
  rw [div_mul_cancel₀ _ hNK]
  clear hN hNK hm h1 h2 h3 R hrows
  induction rows with
  | nil => rfl
  | cons r rs ih =>
    rw [List.map_cons, List.sum_cons, ih]
    by_cases hp : r.path i
    · simp [hp]
    · simp [hp]

/-- C97 (what holds, classification): when every class occurs among the out-of-bag responses, the row
of a node holds the number of out-of-bag observations through it and the fraction of them that the
node classifies *correctly* (0 if there are none). `m` is the node's class, the first largest entry. -/
theorem C97_oob_cls_partial (t : SkTree K C) (df : PDf K t.toTopo)
    (rows : List (OobRow t.toTopo (Fin C))) (hC : 0 < C) (hall : ∀ c, ∃ r ∈ rows, r.y = c) :
    ∃ out, appendOobCls t df rows = .ok out ∧ out.length = 2 * (t.m + 1) ∧
      (∀ i : t.Node, out[i.val]? = some { orig := some (df i), oob := none }) ∧
      ∀ i : t.Node, ∃ (R : K) (m : Fin C), out[t.m + 1 + i.val]? =
          some { orig := none, oob := some ((rows.filter fun r => r.path i).length, R) } ∧
        (∀ c, t.value i c ≤ t.value i m) ∧ (∀ c, c < m → t.value i c < t.value i m) ∧
        ((∀ r ∈ rows, r.path i = false) → R = 0) ∧
        ((∃ r ∈ rows, r.path i = true) → 1 - R =
          ((rows.filter fun r => r.path i && r.y != m).length : K) /
            ((rows.filter fun r => r.path i).length : K)) := by
  have hcols : dummyCols (rows.map OobRow.y) = List.finRange C := by
    unfold dummyCols
    rw [List.filter_eq_self]
    intro c _
    obtain ⟨r, hr, hrc⟩ := hall c
    simpa using ⟨r, hr, hrc⟩
  have harg : ∀ i, ∃ m : Fin C, m.val = npArgmax (List.ofFn (t.value i)) ∧
      (∀ c, t.value i c ≤ t.value i m) ∧ (∀ c, c < m → t.value i c < t.value i m) := by
    intro i
    obtain ⟨m, e, h1, h2⟩ := npArgmax_ofFn (t.value i) hC
    exact ⟨m, e.symm, h1, h2⟩
  choose m hm h1m h2m using harg
  let R : t.Node → K := fun i => if oobCount t.toTopo rows i = 0 then 0
      else ((rows.filter fun r => r.path i && r.y == m i).length : K) / (oobCount t.toTopo rows i : K)
  have hmap : (List.finRange (t.m + 1)).mapM (oobErrCls t rows) =
      .ok ((List.finRange (t.m + 1)).map R) := mapM_ok _ _ _ fun i _ => by
    unfold oobErrCls
    rw [hcols, ← hm i, finRange_getElem?]
  obtain ⟨h1, h2, h3⟩ := concatRows_spec t.toTopo df (oobCount t.toTopo rows) R
  refine ⟨_, by
    unfold appendOobCls
    rw [if_neg (by obtain ⟨r, hr, -⟩ := hall ⟨0, hC⟩; simpa using List.ne_nil_of_mem hr), hmap]
    rfl, h1, h2, fun i => ⟨R i, m i, h3 i, h1m i, h2m i,
    ?_, ?_⟩⟩
  · intro hno
    have : oobCount t.toTopo rows i = 0 := by
      unfold oobCount
      rw [List.length_eq_zero_iff, List.filter_eq_nil_iff]
      intro r hr; rw [hno r hr]; simp
    simp only [R, this, if_true]
  · rintro ⟨r, hr, hri⟩
    have hpos : 0 < oobCount t.toTopo rows i :=
      List.length_pos_of_mem (List.mem_filter.2 ⟨hr, hri⟩)
    have hK : (oobCount t.toTopo rows i : K) ≠ 0 := by exact_mod_cast hpos.ne'
    have hsum : (oobCount t.toTopo rows i : K) =
        ((rows.filter fun r => r.path i && r.y == m i).length : K) +
        ((rows.filter fun r => r.path i && r.y != m i).length : K) := by
      rw [← Nat.cast_add]
      congr 1
      unfold oobCount
      clear hall hcols hmap h1 h2 h3 hpos hK hr R
      induction rows with
      | nil => rfl
      | cons r rs ih =>
        by_cases hp : r.path i <;> by_cases hy : r.y = m i <;>
          simp [List.filter_cons, hp, hy, ih] <;> omega
    show 1 - R i = _
    simp only [R, if_neg hpos.ne']
    rw [show ((rows.filter fun r => r.path i).length : K) = (oobCount t.toTopo rows i : K) from rfl,
      eq_div_iff hK, sub_mul, div_mul_cancel₀ _ hK, one_mul]
    linarith

/-- Example: three out-of-bag rows of the stump, two in the left leaf. -/
abbrev exOobRows : List (OobRow exStump.toTopo ℚ) :=
  [⟨![true, true, false], 2⟩, ⟨![true, true, false], 1⟩, ⟨![true, false, true], 6⟩]

abbrev exOobDf : PDf ℚ exStump.toTopo := fun _ => ⟨0, 0, .leaf, .leaf, 0, none, 0, .nan⟩

/-- Left leaf (prediction 1): squared errors 1 and 0, divided by 3 rather than 2. -/
example : exOobRows ≠ [] ∧ (match appendOobReg exStump exOobDf exOobRows with
    | .ok out => some (out.map OobOut.oob) | .error _ => none) =
    some [none, none, none, some (3, 59 / 12), some (2, 1 / 3), some (1, 4 / 3)] :=
  ⟨by simp, by decide +kernel⟩

/-- Example classifier on the stump: class counts per node. -/
abbrev exOobCls : SkTree ℚ 3 :=
  { toTopo := exStump.toTopo
    value := ![![2, 3, 1], ![0, 3, 1], ![2, 0, 0]]
    nSamp := ![6, 4, 2]
    impurity := ![0, 0, 0] }

abbrev exOobClsRows : List (OobRow exStump.toTopo (Fin 3)) :=
  [⟨![true, true, false], 1⟩, ⟨![true, true, false], 2⟩, ⟨![true, false, true], 0⟩,
    ⟨![true, true, false], 1⟩]

/-- Left leaf predicts class 1: two of three are right, and 2/3 is reported as its risk. -/
example : (∀ c, ∃ r ∈ exOobClsRows, r.y = c) ∧ (match appendOobCls exOobCls exOobDf exOobClsRows with
    | .ok out => some (out.map OobOut.oob) | .error _ => none) =
    some [none, none, none, some (4, 1 / 2), some (3, 2 / 3), some (1, 1)] :=
  ⟨by decide, by decide +kernel⟩

/-- C97 (refuted): the result does not have one row per node. -/
theorem C97_rows_refuted :
    ¬ ∀ (t : SkTree ℚ 1) (df : PDf ℚ t.toTopo) (rows : List (OobRow t.toTopo ℚ)) out, t.WF →
      appendOobReg t df rows = .ok out → out.length = t.m + 1 := by
  intro h
  obtain ⟨out, h1, h2, -⟩ := C97_oob_reg_partial exStump exOobDf exOobRows (by simp)
  have := h exStump exOobDf exOobRows out (by decide) h1
  rw [this] at h2
  exact absurd h2 (by decide)

/-- C97 (refuted, regression): `R_oob({t})` is not the mean squared error of the node's out-of-bag
observations. Witness: the left leaf of the stump, 1/3 against 1/2. -/
theorem C97_reg_refuted :
    ¬ ∀ (t : SkTree ℚ 1) (df : PDf ℚ t.toTopo) (rows : List (OobRow t.toTopo ℚ)) out, t.WF →
      appendOobReg t df rows = .ok out → ∀ o ∈ out, ∀ n R, o.oob = some (n, R) →
        ∃ i : t.Node, n = (rows.filter fun r => r.path i).length ∧
          R * n = ((rows.filter fun r => r.path i).map fun r => (r.y - t.value i 0) ^ 2).sum := by
  intro h
  rcases e : appendOobReg exStump exOobDf exOobRows with err | out
  · have : (appendOobReg exStump exOobDf exOobRows).isOk = true := by decide +kernel
    rw [e] at this; cases this
  have hmem : (match appendOobReg exStump exOobDf exOobRows with
    | .ok out => out.any (fun o => o.oob == some (2, 1 / 3)) | .error _ => false) = true := by
    decide +kernel
  rw [e] at hmem
  simp only at hmem
  obtain ⟨o, ho, hoo⟩ := List.any_eq_true.1 hmem
  obtain ⟨i, hi1, hi2⟩ := h exStump exOobDf exOobRows out (by decide) e o ho 2 (1 / 3) (by simpa using hoo)
  revert hi1 hi2
  revert i
  decide +kernel

/-- C97 (refuted, classification): `R_oob({t})` is the fraction classified correctly, not the
misclassification rate. Witness: the right leaf is always right and gets 1. -/
theorem C97_cls_refuted :
    ¬ ∀ (t : SkTree ℚ 3) (df : PDf ℚ t.toTopo) (rows : List (OobRow t.toTopo (Fin 3))) out, t.WF →
      (∀ c, ∃ r ∈ rows, r.y = c) → appendOobCls t df rows = .ok out →
      ∀ (i : ℕ) (R : ℚ) (n : ℕ) (hi : i < t.m + 1) (c : Fin 3),
        (∀ c', c' ≠ c → t.value ⟨i, hi⟩ c' < t.value ⟨i, hi⟩ c) →
        out[t.m + 1 + i]? = some ⟨none, some (n, R)⟩ →
        R * n = ((rows.filter fun r => r.path ⟨i, hi⟩ && r.y != c).length : ℚ) := by
  intro h
  obtain ⟨out, h1, -, -, h4⟩ := C97_oob_cls_partial exOobCls exOobDf exOobClsRows (by decide) (by decide)
  obtain ⟨R, m, hR, -, -, -, hm⟩ := h4 (2 : Fin 3)
  have hR1 : R = 1 := by
    have : (match appendOobCls exOobCls exOobDf exOobClsRows with
      | .ok out => out[5]?.bind fun o => o.oob.map Prod.snd | .error _ => none) = some (1 : ℚ) := by
      decide +kernel
    rw [h1] at this
    simp only at this
    rw [show out[5]? = _ from hR] at this
    simpa using this
  have := h exOobCls exOobDf exOobClsRows out (by decide) (by decide) h1 2 R _ (by decide) 0
    (by decide +kernel) hR
  rw [hR1] at this
  revert this
  decide +kernel

/-- C97 (absent class): if a class has no out-of-bag response the dummy columns shift. With classes 1
and 2 only, the left leaf (class 1) is credited with the class-2 rows, and with class 2 alone the
function raises IndexError. -/
theorem C97_absent_class :
    (match appendOobCls exOobCls exOobDf
        [⟨![true, true, false], 1⟩, ⟨![true, true, false], 2⟩, ⟨![true, true, false], 2⟩] with
      | .ok out => out[4]?.bind fun o => o.oob | .error _ => none) = some (3, 2 / 3) ∧
    (match appendOobCls exOobCls exOobDf [⟨![true, true, false], 2⟩] with
      | .ok _ => none | .error e => some e) = some PyErr.indexError :=
  ⟨by decide +kernel, by decide +kernel⟩

/-! ### C98 -/

theorem list_sum_zero_iff {α : Type} (l : List α) (f : α → K) (h : ∀ x ∈ l, 0 ≤ f x) :
    0 ≤ (l.map f).sum ∧ ((l.map f).sum = 0 ↔ ∀ x ∈ l, f x = 0) := by
  induction l with
  | nil => simp
  | cons a l ih =>
    obtain ⟨i1, i2⟩ := ih fun x hx => h x (by simp [hx])
    have ha := h a (by simp)
    rw [List.map_cons, List.sum_cons]
    refine ⟨add_nonneg ha i1, ?_⟩
    rw [add_eq_zero_iff_of_nonneg ha i1, i2]
    simp

/-- C98: `weighted_l2_np` with non-negative weights: it returns unless all weights are zero; the value
is the weighted mean of the squared errors, so non-negative, and zero exactly when prediction and
response agree wherever the weight is positive; it does not change when all weights are scaled. -/
theorem C98_weighted_l2 (rows : List (K × K × K)) (hw : ∀ r ∈ rows, 0 ≤ r.2.2) :
    ((∃ v, weightedL2Np rows = .ok v) ↔ ∃ r ∈ rows, 0 < r.2.2) ∧
    (∀ v, weightedL2Np rows = .ok v → 0 ≤ v ∧
      (v = 0 ↔ ∀ r ∈ rows, 0 < r.2.2 → r.1 = r.2.1) ∧
      v * (rows.map fun r => r.2.2).sum = (rows.map fun r => r.2.2 * (r.1 - r.2.1) ^ 2).sum) ∧
    ∀ a : K, 0 < a → weightedL2Np (rows.map fun r => (r.1, r.2.1, a * r.2.2)) = weightedL2Np rows := by
  obtain ⟨hT, h0⟩ := list_sum_zero_iff rows (fun r => r.2.2) hw
  obtain ⟨hE, hE0⟩ := list_sum_zero_iff rows (fun r => r.2.2 * (r.1 - r.2.1) ^ 2)
    (fun r hr => mul_nonneg (hw r hr) (sq_nonneg _))
  have hex : (∃ r ∈ rows, 0 < r.2.2) ↔ (rows.map fun r => r.2.2).sum ≠ 0 := by
    rw [Ne, h0]; push Not
    exact exists_congr fun r => and_congr_right fun hr =>
      ⟨fun h => h.ne', fun h => lt_of_le_of_ne (hw r hr) h.symm⟩
  refine ⟨?_, ?_, ?_⟩
  · rw [hex]; unfold weightedL2Np
    by_cases h : (rows.map fun r => r.2.2).sum = 0 <;> simp [h]
  · intro v hv
    unfold weightedL2Np at hv
    simp only at hv
    split at hv
    · cases hv
    rename_i hne
    obtain rfl := Except.ok.inj hv
    refine ⟨div_nonneg hE hT, ?_, div_mul_cancel₀ _ hne⟩
    rw [div_eq_zero_iff, or_iff_left hne, hE0]
    refine forall₂_congr fun r hr => ?_
    rw [mul_eq_zero, sq_eq_zero_iff, sub_eq_zero]
    constructor
    · rintro (h | h) hp
      · exact absurd h hp.ne'
      · exact h
    · intro h
      rcases eq_or_lt_of_le (hw r hr) with e | e
      · exact Or.inl e.symm
      · exact Or.inr (h e)
  · intro a ha
    unfold weightedL2Np
    simp only [List.map_map, Function.comp_def]
    have e1 : (rows.map fun r => a * r.2.2).sum = a * (rows.map fun r => r.2.2).sum :=
      List.sum_map_mul_left rows (fun r => r.2.2) a
    have e2 : (rows.map fun r => a * r.2.2 * (r.1 - r.2.1) ^ 2).sum =
        a * (rows.map fun r => r.2.2 * (r.1 - r.2.1) ^ 2).sum := by
      rw [← List.sum_map_mul_left]
      congr 1
      exact List.map_congr_left fun r _ => mul_assoc _ _ _
    rw [e1, e2]
    by_cases h : (rows.map fun r => r.2.2).sum = 0
    · simp [h]
    · rw [if_neg h, if_neg (mul_ne_zero ha.ne' h), mul_div_mul_left _ _ ha.ne']

/-- C98 (best constant): among constant predictions the loss exceeds that of the weighted mean of the
responses by the squared distance to that mean. -/
theorem C98_best_constant (obs : List (K × K)) (mean : K)
    (hW : (obs.map Prod.snd).sum ≠ 0)
    (hmean : mean * (obs.map Prod.snd).sum = (obs.map fun o => o.2 * o.1).sum) (p : K) :
    ∃ v v0, weightedL2Np (obs.map fun o => (o.1, p, o.2)) = .ok v ∧
      weightedL2Np (obs.map fun o => (o.1, mean, o.2)) = .ok v0 ∧ v = v0 + (p - mean) ^ 2 := by
  have key : ∀ q : K, (obs.map fun o => o.2 * (o.1 - q) ^ 2).sum =
      (obs.map fun o => o.2 * o.1 ^ 2).sum - 2 * q * (obs.map fun o => o.2 * o.1).sum +
        q ^ 2 * (obs.map Prod.snd).sum := by
    intro q
    clear hW hmean
    induction obs with
    | nil => simp
    | cons o os ih => simp only [List.map_cons, List.sum_cons, ih]; ring
  have hrun : ∀ q : K, weightedL2Np (obs.map fun o => (o.1, q, o.2)) =
      .ok ((obs.map fun o => o.2 * (o.1 - q) ^ 2).sum / (obs.map Prod.snd).sum) := by
    intro q
    unfold weightedL2Np
    simp only [List.map_map, Function.comp_def]
    rw [if_neg hW]
  refine ⟨_, _, hrun p, hrun mean, ?_⟩
  rw [key, key, ← hmean]
  field_simp
  ring

/-- C98: `l2_np` is the loss with equal weights, and `acc_np` the proportion of equal pairs; both raise
(nan) exactly on empty input. -/
theorem C98_unweighted (rows : List (K × K)) {α : Type} [DecidableEq α] (labels : List (α × α)) :
    (l2Np rows = weightedL2Np (rows.map fun r => (r.1, r.2, 1))) ∧
    (accNp (K := K) [] (α := α) = .error .nonFinite) ∧
    (labels ≠ [] → ∃ v : K, accNp labels = .ok v ∧ 0 ≤ v ∧ v ≤ 1 ∧
      v * labels.length = ((labels.filter fun r => r.1 = r.2).length : K) ∧
      (v = 1 ↔ ∀ r ∈ labels, r.1 = r.2)) := by
  refine ⟨?_, rfl, fun hne => ?_⟩
  · unfold l2Np weightedL2Np
    simp only [List.map_map, Function.comp_def, one_mul]
    have : (rows.map fun _ => (1 : K)).sum = rows.length := by simp
    rw [this]
    by_cases h : rows.length = 0
    · simp [h]
    · rw [if_neg h, if_neg (by exact_mod_cast h)]
  · have hlen : labels.length ≠ 0 := fun h => hne (List.length_eq_zero_iff.1 h)
    have hpos : (0 : K) < labels.length := by exact_mod_cast Nat.pos_of_ne_zero hlen
    have hsum : (labels.map fun r => if r.1 = r.2 then (1 : K) else 0).sum =
        ((labels.filter fun r => r.1 = r.2).length : K) := by
      clear hne hlen hpos
      induction labels with
      | nil => simp
      | cons r rs ih =>
        rw [List.map_cons, List.sum_cons, ih]
        by_cases h : r.1 = r.2 <;> simp [h, add_comm]
    have hle : (labels.filter fun r => r.1 = r.2).length ≤ labels.length := List.length_filter_le _ _
    refine ⟨((labels.filter fun r => r.1 = r.2).length : K) / labels.length, ?_, by positivity, ?_,
      div_mul_cancel₀ _ hpos.ne', ?_⟩
    · unfold accNp; rw [if_neg hlen, hsum]
    · rw [div_le_one hpos]; exact_mod_cast hle
    · rw [div_eq_one_iff_eq hpos.ne', Nat.cast_inj, List.length_filter_eq_length_iff]
      simp

example : (match weightedL2Np (K := ℚ) [(1, 2, 3), (5, 5, 1)] with
    | .ok v => some v | .error _ => none) = some (3 / 4) ∧
    (match accNp (K := ℚ) [(1, 2), (5, 5)] with | .ok v => some v | .error _ => none) = some (1 / 2) :=
  ⟨by decide +kernel, by decide +kernel⟩

end SmoothRF
