import Verif.Model.OldScripts
import Verif.Props.GrowProps
import Verif.Props.SmoothProps
import Verif.Props.CleanProps
import Verif.Props.SmoothAllProps

/-! The helpers of the scripts in main_old/ (C186). -/

set_option linter.unusedSectionVars false

namespace SmoothRF
open SkTree Topo

variable {K : Type} [Field K] [LinearOrder K] [IsStrictOrderedRing K] {C : ℕ}

/-! ### average_depth -/

theorem pathCount_eq {t : SkTree K C} (h : t.WF) {l : ℕ} (hl : l < t.nLeaves) :
    pathCount t l = t.depthPerNode (t.leafNode ⟨l, hl⟩) + 1 := by
  classical
  rw [pathCount, dif_pos hl, ← card_ancs h, Finset.card_eq_sum_ones, ancs, Finset.sum_filter]
  obtain ⟨-, -, h01, h1, -⟩ := C05_create_decision_per_leafs t.toTopo h
  refine Finset.sum_congr rfl fun j _ => ?_
  split_ifs with ha
  · exact (h1 _ _).2 ha
  · exact (h01 _ _).resolve_right fun he => ha ((h1 _ _).1 he)

theorem foldl_add_map {α : Type} (f : α → K) (l : List α) (d : K) :
    l.foldl (fun d a => d + f a) d = d + (l.map f).sum := by
  induction l generalizing d with
  | nil => simp
  | cons a l ih => rw [List.foldl_cons, ih, List.map_cons, List.sum_cons, add_assoc]

/-- C186: `average_depth` is the mean over the trees of the depth of the leaf reached, plus one: nodes are counted, not
edges. -/
theorem C186_average_depth {forest : List (SkTree K C)} (hne : forest ≠ []) (hwf : ∀ t ∈ forest, t.WF) {leaf : ℕ → ℕ}
    (hl : ∀ tt ∈ forest.zipIdx, leaf tt.2 < tt.1.nLeaves) :
    ∃ ds : List ℕ, List.Forall₂ (fun tt d => ∃ h : leaf tt.2 < tt.1.nLeaves,
        tt.1.DepthIs (tt.1.leafNode ⟨leaf tt.2, h⟩) d) forest.zipIdx ds ∧
      averageDepth forest leaf = .ok ((ds.sum : K) / (forest.length : K) + 1) := by
  refine ⟨forest.zipIdx.map fun tt => pathCount tt.1 (leaf tt.2) - 1, ?_, ?_⟩
  · rw [List.forall₂_map_right_iff]
    refine List.forall₂_same.2 fun tt htt => ⟨hl tt htt, ?_⟩
    have hw := hwf _ (List.fst_mem_of_mem_zipIdx htt)
    rw [pathCount_eq hw (hl tt htt), Nat.add_sub_cancel]
    exact depthPerNode_spec hw _
  · have hlen : forest.length ≠ 0 := fun h => hne (List.length_eq_zero_iff.1 h)
    have hK : (forest.length : K) ≠ 0 := by exact_mod_cast hlen
    rw [averageDepth, if_neg hlen, foldl_add_map, zero_add, div_add_one hK]
    congr 2
    have : ∀ l : List (SkTree K C × ℕ), (∀ tt ∈ l, 1 ≤ pathCount tt.1 (leaf tt.2)) →
        (l.map fun tt => (pathCount tt.1 (leaf tt.2) : K)).sum =
          ((l.map fun tt => pathCount tt.1 (leaf tt.2) - 1).sum : ℕ) + (l.length : K) := by
      intro l
      induction l with
      | nil => simp
      | cons a l ih =>
        intro hl
        rw [List.map_cons, List.sum_cons, ih fun tt ht => hl tt (by simp [ht]), List.map_cons, List.sum_cons,
          List.length_cons]
        push_cast [Nat.cast_sub (hl a (by simp))]
        ring
    rw [this _ fun tt htt => by rw [pathCount_eq (hwf _ (List.fst_mem_of_mem_zipIdx htt)) (hl tt htt)]; omega]
    simp

theorem averageDepth_congr {forest rf : List (SkTree K C)}
    (h : List.Forall₂ (fun t t' => ∃ v, t' = { t with value := v }) forest rf) (leaf : ℕ → ℕ) :
    averageDepth rf leaf = averageDepth forest leaf := by
  have key : ∀ {l l' : List (SkTree K C)}, List.Forall₂ (fun t t' => ∃ v, t' = { t with value := v }) l l' → ∀ k,
      (l'.zipIdx k).map (fun tt => (pathCount tt.1 (leaf tt.2) : K)) =
        (l.zipIdx k).map fun tt => (pathCount tt.1 (leaf tt.2) : K) := by
    intro l l' hl
    induction hl with
    | nil => simp
    | cons h0 _ ih =>
      intro k
      obtain ⟨v, rfl⟩ := h0
      simp only [List.zipIdx_cons, List.map_cons, ih]
      rfl
  unfold averageDepth
  rw [foldl_add_map, foldl_add_map, key h, h.length_eq]

/-- C186: the test in the comment of `average_depth` (44-49): smoothing does not change it. -/
theorem C186_average_depth_smooth {sqrt : K → K}
    {ce : (n : ℕ) → SgdOpts K → K → List (Row K n) → List K → List ℕ →
      Except PyErr ((Fin n → K) × (Fin n → K) × List K)} (hC : 0 < C) {kind : Kind} {forest : List (SkTree K C)}
    (hwf : ∀ t ∈ forest, t.WF) {cfg : SmoothCfg K} {sources : TuneSrc → ℕ → List (TuneRow K C)}
    {out : SmoothOut K C (forestDepth forest + 1)} (h : smooth sqrt ce (some kind) forest cfg sources = .ok out)
    (leaf : ℕ → ℕ) :
    averageDepth out.rf1 leaf = averageDepth forest leaf ∧ averageDepth out.rf2 leaf = averageDepth forest leaf :=
  ⟨averageDepth_congr ((C37_only_leaf_values hC hwf h).1.imp fun _ _ ⟨v, e, _⟩ => ⟨v, e⟩) leaf,
    averageDepth_congr ((C37_only_leaf_values hC hwf h).2.imp fun _ _ ⟨v, e, _⟩ => ⟨v, e⟩) leaf⟩

example : averageDepth [exStump, exTree] (fun _ => 1) = .ok (5 / 2) := by decide +kernel

/-! ### cleanup -/

theorem joinRepr_cons (c d : Char) (cs : List Char) :
    joinRepr (c :: d :: cs) = reprChar c ++ [',', ' '] ++ joinRepr (d :: cs) := rfl

/-- The characters that the replacements of `cleanup` keep. -/
def keepChar (c : Char) : Bool := decide (c ≠ ']') && (decide (c ≠ '[') && decide (c ≠ '\''))

theorem cleanup_eq (s : List Char) : cleanup s = (joinRepr (removeChar ' ' s)).filter keepChar := by
  unfold cleanup removeChar
  simp only [List.filter_filter]
  rw [List.filter_append, List.filter_append]
  have e : (fun a => decide (a ≠ '\'') && (decide (a ≠ '[') && decide (a ≠ ']'))) = keepChar := by
    funext a
    unfold keepChar
    cases decide (a ≠ '\'') <;> cases decide (a ≠ '[') <;> cases decide (a ≠ ']') <;> rfl
  rw [e]
  have e1 : ['['].filter keepChar = [] := by decide
  have e2 : [']'].filter keepChar = [] := by decide
  rw [e1, e2, List.nil_append, List.append_nil]

/-- A character that reaches the columns as it is. -/
def PlainChar (c : Char) : Prop := c ≠ '[' ∧ c ≠ ']' ∧ c ≠ '\'' ∧ c ≠ '\\'

theorem reprChar_plain {c : Char} (h : PlainChar c) : (reprChar c).filter keepChar = [c] := by
  obtain ⟨h1, h2, h3, h4⟩ := h
  rw [reprChar, if_neg h3, if_neg h4]
  have e : keepChar c = true := by simp [keepChar, h1, h2, h3]
  have e2 : keepChar '\'' = false := by decide
  simp [e, e2]

theorem splitComma_char {c : Char} (rest : List Char) (h : ∀ r, rest ≠ ' ' :: r) {w : List Char} {ws : List (List Char)}
    (hr : splitComma rest = w :: ws) : splitComma (c :: rest) = (c :: w) :: ws := by
  rw [splitComma]
  · rw [hr]
  · rintro r rfl hr'
    exact h r hr'

theorem splitComma_join : ∀ (l : List Char), l ≠ [] → (∀ c ∈ l, PlainChar c ∧ c ≠ ' ') →
    splitComma ((joinRepr l).filter keepChar) = l.map fun c => [c]
  | [], h, _ => absurd rfl h
  | [c], _, h => by
    rw [show joinRepr [c] = reprChar c from rfl, reprChar_plain (h c (by simp)).1]
    rw [splitComma_char [] (by simp) (w := []) (ws := []) rfl]
    rfl
  | c :: d :: cs, _, h => by
    have ih := splitComma_join (d :: cs) (by simp) fun x hx => h x (by simp [List.mem_cons.1 hx])
    rw [joinRepr_cons, List.filter_append, List.filter_append, reprChar_plain (h c (by simp)).1,
      show [',', ' '].filter keepChar = [',', ' '] by decide, List.map_cons]
    show splitComma (c :: (',' :: ' ' :: _)) = _
    rw [splitComma_char _ (by simp) (w := []) (ws := (d :: cs).map fun c => [c])]
    rw [splitComma]
    exact congrArg _ ih

/-- C186: for a gene string that has a letter and no bracket, quote or backslash, the columns are its letters in order,
blanks left out. A string of blanks gives one empty entry. -/
theorem C186_cleanup (s : List Char) :
    (((∃ c ∈ s, c ≠ ' ') ∧ ∀ c ∈ s, c ≠ ' ' → PlainChar c) →
      splitComma (cleanup s) = (s.filter fun c => decide (c ≠ ' ')).map fun c => [c]) ∧
    ((∀ c ∈ s, c = ' ') → splitComma (cleanup s) = [[]]) := by
  rw [cleanup_eq]
  constructor
  · rintro ⟨⟨c, hc, hne⟩, hp⟩
    refine splitComma_join _ (List.ne_nil_of_mem (a := c) ?_) fun x hx => ?_
    · exact List.mem_filter.2 ⟨hc, by simpa using hne⟩
    · obtain ⟨h1, h2⟩ := List.mem_filter.1 hx
      have h3 : x ≠ ' ' := by simpa using h2
      exact ⟨hp x h1 h3, h3⟩
  · intro h
    have e : removeChar ' ' s = [] := by
      unfold removeChar
      rw [List.filter_eq_nil_iff]
      intro c hc
      simp [h c hc]
    rw [e]
    rfl

example : splitComma (cleanup "  CCAG,".toList) = [['C'], ['C'], ['A'], ['G'], [',']] ∧
    splitComma (cleanup "A]C".toList) = [['A'], [], ['C']] := by decide +kernel

/-! ### regression_prep, depth_error_vis -/

/-- C186: `regression_prep` raises ValueError for an unknown model string, whatever the data (`generate_rf` does not,
C127); otherwise one score per depth, in order. -/
theorem C186_regression_prep {D : Type} (score : Kind → D → ℕ → Except PyErr K) (s : String) (depths : List D) :
    (s ≠ "reg" → s ≠ "class" → regressionPrep score s depths = .error .valueError) ∧
    ∀ out, regressionPrep score s depths = .ok out → ∃ kind, (s = "reg" ∧ kind = Kind.reg ∨ s = "class" ∧ kind = .cls) ∧
      out.length = depths.length ∧ ∀ (i : ℕ) d, depths[i]? = some d → ∃ x, out[i]? = some x ∧ score kind d i = .ok x := by
  constructor
  · intro h1 h2
    rw [regressionPrep, if_neg h1, if_neg h2]
    rfl
  · intro out h
    have key : ∀ kind, (depths.zipIdx.mapM fun di => score kind di.1 di.2) = .ok out →
        out.length = depths.length ∧ ∀ (i : ℕ) d, depths[i]? = some d → ∃ x, out[i]? = some x ∧ score kind d i = .ok x := by
      intro kind hm
      obtain ⟨hl, hg⟩ := mapM_get hm
      refine ⟨by simpa using hl, fun i d hd => ?_⟩
      exact hg i (d, i) (by simp [hd])
    unfold regressionPrep at h
    by_cases h1 : s = "reg"
    · rw [if_pos h1] at h
      exact ⟨.reg, Or.inl ⟨h1, rfl⟩, key _ h⟩
    · rw [if_neg h1] at h
      by_cases h2 : s = "class"
      · rw [if_pos h2] at h
        exact ⟨.cls, Or.inr ⟨h2, rfl⟩, key _ h⟩
      · rw [if_neg h2] at h
        cases h

/-- C186: the old `depth_error_vis`: the band has the standard error (of the population form) as half width, so it
differs from that of main/1.0 (C132); `lower` is above and `upper` below the mean. -/
theorem C186_band {nSim : ℕ} {cols : List (List ℝ)} (hn : ∀ l ∈ cols, l.length = nSim) {idx : Option (List ℝ)}
    {out : List (VisRow ℝ)} (h : depthErrorVisOld Real.sqrt nSim cols idx = .ok out) :
    out.length = cols.length ∧ ∀ (i : ℕ) (row : VisRow ℝ), out[i]? = some row → ∃ draws : List ℝ, cols[i]? = some draws ∧
      row.mu * (nSim : ℝ) = draws.sum ∧ row.upper ≤ row.mu ∧ row.mu ≤ row.lower ∧
      row.lower - row.mu = row.mu - row.upper ∧
      (row.lower - row.mu) ^ 2 * (nSim : ℝ) * (nSim : ℝ) = (draws.map fun x => (x - row.mu) ^ 2).sum := by
  unfold depthErrorVisOld at h
  dsimp only at h
  split_ifs at h with h1 h2
  rw [not_not] at h1
  cases h
  have hpos : (0 : ℝ) < nSim := by exact_mod_cast Nat.pos_of_ne_zero h2
  refine ⟨by rw [List.length_zipWith, h1, min_self], fun i row hi => ?_⟩
  rw [List.getElem?_zipWith] at hi
  cases hc : cols[i]? with
  | none => simp [hc] at hi
  | some draws =>
    cases hx : (idx.getD ((List.range cols.length).map fun i : ℕ => (i : ℝ)))[i]? with
    | none => simp [hc, hx] at hi
    | some x =>
      simp only [hc, hx, Option.some.injEq] at hi
      subst hi
      have hlen := hn draws (List.mem_of_getElem? hc)
      have hsd : 0 ≤ rowStd Real.sqrt draws / Real.sqrt (nSim : ℝ) := div_nonneg (Real.sqrt_nonneg _) (Real.sqrt_nonneg _)
      refine ⟨draws, rfl, ?_, ?_, ?_, ?_, ?_⟩
      · show rowMean draws * _ = _
        rw [rowMean, hlen, div_mul_cancel₀ _ hpos.ne']
      · show rowMean draws - _ ≤ rowMean draws
        linarith
      · show rowMean draws ≤ rowMean draws + _
        linarith
      · show rowMean draws + _ - rowMean draws = rowMean draws - (rowMean draws - _)
        ring
      · show (rowMean draws + _ - rowMean draws) ^ 2 * _ * _ = _
        rw [add_sub_cancel_left, div_pow, Real.sq_sqrt hpos.le, div_mul_cancel₀ _ hpos.ne', rowStd, Real.sq_sqrt]
        · show rowMean (draws.map fun x => (x - rowMean draws) ^ 2) * _ = (draws.map fun x => (x - rowMean draws) ^ 2).sum
          generalize rowMean draws = m
          rw [rowMean, List.length_map, hlen, div_mul_cancel₀ _ hpos.ne']
        · refine div_nonneg (List.sum_nonneg fun y hy => ?_) (Nat.cast_nonneg _)
          obtain ⟨z, -, rfl⟩ := List.mem_map.1 hy
          exact sq_nonneg _

/-! ### Data preparation -/

/-- C186: the spiral script trains on frames that contain the label: whenever its preparation succeeds the features have
the column `class`, equal to the labels, so one feature predicts every row without error. -/
theorem C186_spiral_leak {V : Type} {f X : Frame V} {y : List V} (h : spiralPrep f = .ok (X, y)) :
    X.col "class" = .ok y ∧ X = f ∧ ∃ Z, f.drop ["class", "t"] = .ok Z ∧ Z.col "class" = .error .keyError := by
  unfold spiralPrep at h
  obtain ⟨y', h1, h⟩ := bind_ok h
  obtain ⟨Z, h2, h⟩ := bind_ok h
  cases h
  refine ⟨h1, rfl, Z, h2, ?_⟩
  unfold Frame.drop at h2
  split_ifs at h2
  cases h2
  have : List.lookup "class" (f.filter fun p => !(["class", "t"].contains p.1)) = none := by
    rw [List.lookup_eq_none_iff]
    intro p hp
    have := (List.mem_filter.1 hp).2
    simp at this
    simpa using fun e => this.1 e.symm
  unfold Frame.col
  rw [this]

/-- C186: the frame of `spirals` passes the preparation, for any rows; the labels are the classes. -/
theorem C186_spiral_frame (rows : List (SpiralRow K)) :
    spiralPrep (spiralFrame rows) = .ok (spiralFrame rows, rows.map fun r => (r.cls : K)) := by
  rfl

/-- Without the label two rows can coincide, so the drop that was meant matters: equal `x`, `y`, different class. -/
example : (spiralFrame [(⟨1, 0, 0, 0⟩ : SpiralRow ℚ), ⟨2, 0, 0, 1⟩]).drop ["class", "t"] =
    .ok [("x", [0, 0]), ("y", [0, 0])] := by decide +kernel

/-- C186: the splice script never uses the splice data: the simulations are the same for every file. -/
theorem C186_splice_unused {X Y : Type} (file : X × Y) (generated : ℕ → X × Y) (nSim : ℕ) :
    spliceLoop file generated nSim = (List.range nSim).map generated := by
  unfold spliceLoop
  have key : ∀ (l : List ℕ) (st : (X × Y) × List (X × Y)), (l.foldl (fun (st : (X × Y) × List (X × Y)) s =>
      let all := generated s
      (all, st.2 ++ [all])) st).2 = st.2 ++ l.map generated := by
    intro l
    induction l with
    | nil => simp
    | cons a l ih => intro st; rw [List.foldl_cons, ih]; simp
  rw [key, List.nil_append]

/-- C186: prelim_examination.py ends with NameError in every scope that has no name `reg_or_class`: the string is bound
to `reg_and_class`. With that name in the scope the statements run. -/
theorem C186_prelim_name (scope : List String) (hp : "pd" ∈ scope) (ha : "path" ∈ scope) (hn : "np" ∈ scope) :
    ("reg_or_class" ∉ scope → runNames prelimTop scope = .error .nameError) ∧
    ("reg_or_class" ∈ scope → ∃ s, runNames prelimTop scope = .ok s ∧ "data_name" ∈ s) := by
  constructor
  · intro h
    simp [prelimTop, runNames, hp, ha, h]
  · intro h
    simp [prelimTop, runNames, hp, ha, hn, h]

end SmoothRF
