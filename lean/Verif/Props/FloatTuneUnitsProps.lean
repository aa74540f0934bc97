import Verif.Props.FloatUnitsProps
import Verif.Props.TuneUnitsProps
import Verif.Props.FloatDepthProps
import Verif.Model.FloatPrune

/-!
# Change of units in depth_tune and the pruning table in double precision (C228)

Multiplying the response by plus or minus a power of two changes no digit.
-/

set_option linter.unusedSectionVars false

namespace SmoothRF

open Topo SkTree

variable {C : ℕ}

/-! ### depth_tune -/

/-- Squared error of one tuning row in doubles. -/
def flRegLossAt (pred : List (Fin C → ℚ)) (r : LossRow ℚ) : Except PyErr ℚ := do
  let v ← pyGet pred r.leaf
  let yhat ← pyGet (List.ofFn v) 0
  pure (fl (fl (r.y - yhat) ^ 2))

theorem flTreeLoss_reg (rows : List (LossRow ℚ)) (pred : List (Fin C → ℚ)) : flTreeLoss .reg rows pred =
    if rows.isEmpty then .error .valueError else (rows.mapM (flRegLossAt pred)).map npSum := by
  unfold flTreeLoss
  split_ifs
  · rfl
  · show (rows.mapM (flRegLossAt pred) >>= fun ls => pure (npSum ls)) = _
    cases rows.mapM (flRegLossAt pred) <;> rfl

theorem flTreeLoss_reg_nonneg {rows : List (LossRow ℚ)} {pred : List (Fin C → ℚ)} {x : ℚ}
    (h : flTreeLoss .reg rows pred = .ok x) : 0 ≤ x := by
  rw [flTreeLoss_reg] at h
  split_ifs at h
  cases h1 : rows.mapM (flRegLossAt pred) with
  | error e => rw [h1] at h; cases h
  | ok ls =>
    rw [h1] at h
    cases h
    have hl : ∀ q ∈ ls, 0 ≤ q := fun q hq => by
      obtain ⟨r, -, h2⟩ := mapM_res_mem h1 hq
      obtain ⟨v, -, h2⟩ := bind_ok h2
      obtain ⟨z, -, h2⟩ := bind_ok h2
      cases h2
      exact fl_nonneg (sq_nonneg _)
    exact le_trans (mul_nonneg (pow_nonneg (by norm_num) _) (List.sum_nonneg hl)) (npSum_bounds ls hl).1

section units

variable {a : ℚ} (ha : ExactFactor a)
include ha

theorem ExactFactor.sq : ExactFactor (a ^ 2) := by
  rw [pow_two]
  exact ha.mul ha

theorem flRegLossAt_unit (pred : List (Fin C → ℚ)) (r : LossRow ℚ) :
    flRegLossAt (pred.map fun v c => a * v c + 0) (affLossRow a 0 r) = (flRegLossAt pred r).map (a ^ 2 * ·) := by
  unfold flRegLossAt
  show (pyGet (pred.map fun v c => a * v c + 0) r.leaf >>= _) = _
  rw [pyGet_map]
  cases pyGet pred r.leaf with
  | error e => rfl
  | ok v =>
    show (pyGet (List.ofFn fun c => a * v c + 0) 0 >>= _) = Except.map _ (pyGet (List.ofFn v) 0 >>= _)
    rw [show (List.ofFn fun c => a * v c + 0) = (List.ofFn v).map fun x => a * x + 0 by rw [List.map_ofFn]; rfl, pyGet_map]
    cases pyGet (List.ofFn v) 0 with
    | error e => rfl
    | ok x =>
      show Except.ok (fl (fl (a * r.y + 0 - (a * x + 0)) ^ 2)) = Except.ok (a ^ 2 * fl (fl (r.y - x) ^ 2))
      rw [add_zero, add_zero, ← mul_sub, ha.2, mul_pow, ha.sq.2]

theorem flTreeLoss_unit (rows : List (LossRow ℚ)) (pred : List (Fin C → ℚ)) :
    flTreeLoss .reg (rows.map (affLossRow a 0)) (pred.map fun v c => a * v c + 0) =
      (flTreeLoss .reg rows pred).map (a ^ 2 * ·) := by
  rw [flTreeLoss_reg, flTreeLoss_reg, List.isEmpty_map]
  split_ifs
  · rfl
  · rw [List.mapM_map, show (flRegLossAt (pred.map fun v c => a * v c + 0) ∘ affLossRow a 0) =
      fun r => (flRegLossAt pred r).map (a ^ 2 * ·) from funext (flRegLossAt_unit ha pred), mapM_map_res]
    cases rows.mapM (flRegLossAt pred) with
    | error e => rfl
    | ok ls =>
      show Except.ok (npSum (ls.map (a ^ 2 * ·))) = Except.ok (a ^ 2 * npSum ls)
      rw [npSum_scales ha.sq]

theorem zipWith_fl_unit : ∀ u v : List ℚ,
    List.zipWith (fun x y => fl (x + y)) (u.map (a * ·)) (v.map (a * ·)) = (List.zipWith (fun x y => fl (x + y)) u v).map (a * ·)
  | [], _ => by simp
  | _ :: _, [] => by simp
  | x :: u, y :: v => by
    simp only [List.map_cons, List.zipWith_cons_cons, zipWith_fl_unit u v]
    rw [← mul_add, ha.2]

theorem flDepthTuneStep_unit (m : ℕ) (tune : ℕ → List (LossRow ℚ)) (u : List ℚ) (i : Option ℕ) (tt : SkTree ℚ C × ℕ)
    (hd : Topo.npMax tt.1.depthPerNode ≠ 0) :
    flDepthTuneStep .reg m (fun k => (tune k).map (affLossRow a 0)) (u.map (a ^ 2 * ·), i) (affTree a 0 tt.1, tt.2) =
      (flDepthTuneStep .reg m tune (u, i) tt).map fun p => (p.1.map (a ^ 2 * ·), p.2) := by
  unfold flDepthTuneStep
  simp only [leafPredictedValues_aff]
  cases hp : leafPredictedValues tt.1 with
  | error e => rfl
  | ok pred =>
    have hlen : pred.length = Topo.npMax tt.1.depthPerNode := by
      have := mapM_res_length hp
      rw [List.length_range] at this
      exact this
    have e1 : ((pred.map (List.map fun v c => a * v c + 0)).mapM (flTreeLoss .reg ((tune tt.2).map (affLossRow a 0)))) =
        (pred.mapM (flTreeLoss .reg (tune tt.2))).map (List.map (a ^ 2 * ·)) := by
      rw [List.mapM_map, ← mapM_map_res]
      congr 1
      funext q
      exact flTreeLoss_unit ha _ _
    show (((pred.map (List.map fun v c => a * v c + 0)).mapM (flTreeLoss .reg ((tune tt.2).map (affLossRow a 0)))) >>= _) =
      Except.map _ (pred.mapM (flTreeLoss .reg (tune tt.2)) >>= _)
    rw [e1]
    cases hl : pred.mapM (flTreeLoss .reg (tune tt.2)) with
    | error e => rfl
    | ok ls =>
      have hpos : 0 < a ^ 2 := by
        have := ha.1
        positivity
      obtain ⟨c, h1, h2⟩ := treeLossVec_scale (s := a ^ 2) hpos m i (ls := ls) fun x hx => by
        obtain ⟨q, -, e⟩ := mapM_res_mem hl hx
        exact flTreeLoss_reg_nonneg e
      have hc : c = 0 := by
        by_contra hc
        refine hd ?_
        rw [← hlen, ← mapM_res_length hl, h1 hc]
        rfl
      subst hc
      show (treeLossVec m i (ls.map (a ^ 2 * ·)) >>= _) = Except.map _ (treeLossVec m i ls >>= _)
      rw [h2]
      cases treeLossVec m i ls with
      | error e => rfl
      | ok q =>
        simp only [add_zero]
        show Except.ok (List.zipWith (fun x y => fl (x + y)) (u.map (a ^ 2 * ·)) (q.1.map (a ^ 2 * ·)), q.2) = _
        rw [zipWith_fl_unit ha.sq]
        rfl

theorem flDepthFold_unit (m : ℕ) (tune : ℕ → List (LossRow ℚ)) : ∀ (l : List (SkTree ℚ C × ℕ)) (u : List ℚ) (i : Option ℕ),
    (∀ tt ∈ l, Topo.npMax tt.1.depthPerNode ≠ 0) →
      (l.map fun tt => (affTree a 0 tt.1, tt.2)).foldlM (flDepthTuneStep .reg m fun k => (tune k).map (affLossRow a 0))
        (u.map (a ^ 2 * ·), i) =
      (l.foldlM (flDepthTuneStep .reg m tune) (u, i)).map fun p => (p.1.map (a ^ 2 * ·), p.2)
  | [], _, _, _ => rfl
  | tt :: l, u, i, h => by
    rw [List.map_cons, List.foldlM_cons, List.foldlM_cons, flDepthTuneStep_unit ha m tune u i tt (h tt List.mem_cons_self)]
    cases flDepthTuneStep .reg m tune (u, i) tt with
    | error e => rfl
    | ok p => exact flDepthFold_unit m tune l p.1 p.2 fun q hq => h q (List.mem_cons_of_mem _ hq)

end units

/-- C228, depth_tune in doubles: with forest and tuning responses multiplied by plus or minus a power of two, `depth_tune` raises the
same exception, or stores exactly `a^2` times the losses and returns the same forest times `a`. Every tree is split at least once. -/
theorem C228_depth_tune {a : ℚ} (ha : ∃ k : ℤ, a = 2 ^ k ∨ a = -2 ^ k) {forest : List (SkTree ℚ C)}
    (hd : ∀ t ∈ forest, Topo.npMax t.depthPerNode ≠ 0) (data : DataArgs) (sources : TuneSrc → ℕ → List (LossRow ℚ)) :
    flDepthTune (some .reg) (forest.map (affTree a 0)) data (fun s k => (sources s k).map (affLossRow a 0)) =
      (flDepthTune (some .reg) forest data sources).map fun p => (p.1.map (affTree a 0), p.2.map (a ^ 2 * ·)) := by
  have ha := (C206_factors a).2 ha
  unfold flDepthTune
  simp only [forestDepth_aff]
  cases tuneSource data with
  | error e => rfl
  | ok src =>
    have h2 := flDepthFold_unit ha (forestDepth forest) (sources src) forest.zipIdx (List.replicate (forestDepth forest) 0) none
      fun tt htt => hd _ (List.fst_mem_of_mem_zipIdx htt)
    have e0 : (List.replicate (forestDepth forest) (0 : ℚ)).map (a ^ 2 * ·) = List.replicate (forestDepth forest) 0 := by
      rw [List.map_replicate, mul_zero]
    have ez : (forest.map (affTree a 0)).zipIdx = forest.zipIdx.map fun tt => (affTree a 0 tt.1, tt.2) := by
      rw [List.zipIdx_map]
      rfl
    rw [e0] at h2
    show ((forest.map (affTree a 0)).zipIdx.foldlM _ _ >>= _) = Except.map _ (forest.zipIdx.foldlM _ _ >>= _)
    rw [ez, h2]
    cases forest.zipIdx.foldlM (flDepthTuneStep .reg (forestDepth forest) (sources src))
        (List.replicate (forestDepth forest) 0, none) with
    | error e => rfl
    | ok s =>
      have hpos : 0 < a ^ 2 := by
        have := ha.1
        positivity
      have hm := npArgmin_scale hpos 0 s.1
      simp only [add_zero] at hm
      show (npArgmin (s.1.map (a ^ 2 * ·)) >>= _) = Except.map _ (npArgmin s.1 >>= _)
      rw [hm]
      cases npArgmin s.1 with
      | error e => rfl
      | ok best =>
        show ((forest.map (affTree a 0)).mapM (truncateTree best) >>= _) = Except.map _ (forest.mapM (truncateTree best) >>= _)
        rw [List.mapM_map, show (truncateTree best ∘ affTree a 0) = fun t => (truncateTree best t).map (affTree a 0) from
          funext (truncateTree_aff (C := C) a 0 best), mapM_map_res]
        cases forest.mapM (truncateTree best) <;> rfl

/-- C228: the same for every run that returns, whatever the trees. -/
theorem C228_depth_tune_returns {a : ℚ} (ha : ∃ k : ℤ, a = 2 ^ k ∨ a = -2 ^ k) {forest out : List (SkTree ℚ C)} {loss : List ℚ}
    {data : DataArgs} {sources : TuneSrc → ℕ → List (LossRow ℚ)}
    (h : flDepthTune (some .reg) forest data sources = .ok (out, loss)) :
    flDepthTune (some .reg) (forest.map (affTree a 0)) data (fun s k => (sources s k).map (affLossRow a 0)) =
      .ok (out.map (affTree a 0), loss.map (a ^ 2 * ·)) := by
  have hd : ∀ t ∈ forest, Topo.npMax t.depthPerNode ≠ 0 := by
    intro t ht hz
    unfold flDepthTune at h
    obtain ⟨src, -, h⟩ := bind_ok h
    obtain ⟨s, -, h⟩ := bind_ok h
    obtain ⟨best, -, h⟩ := bind_ok h
    obtain ⟨o, ho, -⟩ := bind_ok h
    obtain ⟨q, hq⟩ := mapM_res_at ho ht
    unfold truncateTree at hq
    obtain ⟨pred, hp, hq⟩ := bind_ok hq
    have := mapM_res_length hp
    rw [List.length_range, hz] at this
    rw [if_pos this] at hq
    cases hq
  rw [C228_depth_tune ha hd, h]
  rfl

/-! ### The pruning table -/

section prune

variable {s : ℚ} (hs : ExactFactor s) {t : Topo}
include hs

theorem flDivR_unit (x d : ℚ) : flDivR (s * x) d = (flDivR x d).scale s := by
  unfold flDivR
  by_cases hd : d = 0
  · rw [if_pos hd, if_pos hd]
    by_cases hx : x = 0
    · rw [if_pos hx, if_pos (by rw [hx, mul_zero])]
      rfl
    · rw [if_neg hx, if_neg (mul_ne_zero hs.1 hx)]
      rfl
  · rw [if_neg hd, if_neg hd, mul_div_assoc, hs.2]
    rfl

theorem flComb_unit (rl nl rr nr n : ℚ) : flComb (s * rl) nl (s * rr) nr n = s * flComb rl nl rr nr n := by
  unfold flComb
  rw [mul_assoc, mul_assoc, hs.2, hs.2, ← mul_add, hs.2, mul_div_assoc, hs.2]

theorem flG1_unit (x y : ℚ) (n : ℕ) : flG1 (s * x) (s * y) n = (flG1 x y n).scale s := by
  unfold flG1
  rw [← mul_sub, hs.2, flDivR_unit hs]

theorem flRecInit_unit : ∀ (fuel : ℕ) (df : PDf ℚ t) (i : t.Node),
    flRecInit t fuel (scaleDf s df) i = (flRecInit t fuel df i).map (scaleDf s)
  | 0, _, _ => rfl
  | fuel + 1, df, i => by
    unfold flRecInit
    show (match (df i).cLeft, (df i).cRight with
      | .leaf, _ => _
      | .node l, .node r => _
      | _, _ => _) = _
    cases hl : (df i).cLeft with
    | leaf =>
      show Except.ok _ = Except.ok _
      rw [scaleDf_update]
      rfl
    | pruned => rfl
    | node l =>
      cases hr : (df i).cRight with
      | leaf => rfl
      | pruned => rfl
      | node r =>
        show (flRecInit t fuel (scaleDf s df) l >>= _) = Except.map _ (flRecInit t fuel df l >>= _)
        rw [flRecInit_unit fuel df l]
        cases flRecInit t fuel df l with
        | error e => rfl
        | ok d1 =>
          show (flRecInit t fuel (scaleDf s d1) r >>= _) = Except.map _ (flRecInit t fuel d1 r >>= _)
          rw [flRecInit_unit fuel d1 r]
          cases flRecInit t fuel d1 r with
          | error e => rfl
          | ok d2 =>
            show (if (d2 i).nObs = 0 then _ else _) = Except.map _ (if (d2 i).nObs = 0 then _ else _)
            split_ifs
            · rfl
            · show Except.ok _ = Except.ok _
              rw [scaleDf_update]
              congr 2
              show PRow.mk _ _ _ _ _ _ _ _ = PRow.mk _ _ _ _ _ _ _ _
              congr 1
              exact flComb_unit hs _ _ _ _ _

theorem flUpStep_unit (df : PDf ℚ t) (i : t.Node) :
    flUpStep t (scaleDf s df) i = (flUpStep t df i).map (scaleDf s) := by
  unfold flUpStep
  show (match (df i).cLeft, (df i).cRight with
    | .node l, .node r => _
    | _, _ => _) = _
  cases (df i).cLeft with
  | leaf => rfl
  | pruned => rfl
  | node l =>
    cases (df i).cRight with
    | leaf => rfl
    | pruned => rfl
    | node r =>
      show (if (df i).nObs = 0 then _ else _) = Except.map _ (if (df i).nObs = 0 then _ else _)
      split_ifs
      · rfl
      · show Except.ok _ = Except.ok _
        rw [scaleDf_update]
        have e : flComb (scaleDf s df l).rSub (df l).nObs (scaleDf s df r).rSub (df r).nObs (df i).nObs =
            s * flComb (df l).rSub (df l).nObs (df r).rSub (df r).nObs (df i).nObs := flComb_unit hs _ _ _ _ _
        congr 2
        show PRow.mk _ _ _ _ _ _ _ _ = PRow.mk _ _ _ _ _ _ _ _
        congr 1
        show flG1 (s * (df i).rOne) (flComb (scaleDf s df l).rSub (df l).nObs (scaleDf s df r).rSub (df r).nObs (df i).nObs) _ = _
        rw [e, flG1_unit hs]
        rfl

theorem flUpLoop_unit : ∀ (fuel : ℕ) (df : PDf ℚ t) (i : t.Node),
    flUpLoop t fuel (scaleDf s df) i = (flUpLoop t fuel df i).map (scaleDf s)
  | 0, _, _ => rfl
  | fuel + 1, df, i => by
    unfold flUpLoop
    rw [flUpStep_unit hs]
    cases flUpStep t df i with
    | error e => rfl
    | ok d1 =>
      show (match (d1 i).parent with
        | none => pure (scaleDf s d1)
        | some p => flUpLoop t fuel (scaleDf s d1) p) = (match (d1 i).parent with
        | none => pure d1
        | some p => flUpLoop t fuel d1 p : Except PyErr (PDf ℚ t)).map (scaleDf s)
      cases (d1 i).parent with
      | none => rfl
      | some p => exact flUpLoop_unit fuel d1 p

theorem flInnerPrune_unit (df : PDf ℚ t) (idx : ℕ) :
    flInnerPrune t (scaleDf s df) idx = (flInnerPrune t df idx).map (scaleDf s) := by
  unfold flInnerPrune
  by_cases h : idx < t.m + 1
  · rw [dif_pos h, dif_pos h]
    show (match (df ⟨idx, h⟩).cLeft with
      | .node _ => pruneDown t (scaleDf s df) ⟨idx, h⟩ >>= fun out => flPruneUp t out ⟨idx, h⟩
      | _ => .error .valueError) = (match (df ⟨idx, h⟩).cLeft with
      | .node _ => pruneDown t df ⟨idx, h⟩ >>= fun out => flPruneUp t out ⟨idx, h⟩
      | _ => .error .valueError : Except PyErr (PDf ℚ t)).map (scaleDf s)
    cases (df ⟨idx, h⟩).cLeft with
    | leaf => rfl
    | pruned => rfl
    | node _ =>
      show (pruneDown t (scaleDf s df) ⟨idx, h⟩ >>= _) = Except.map _ (pruneDown t df ⟨idx, h⟩ >>= _)
      rw [pruneDown_scale]
      cases pruneDown t df ⟨idx, h⟩ with
      | error e => rfl
      | ok d1 =>
        show flPruneUp t (scaleDf s d1) ⟨idx, h⟩ = (flPruneUp t d1 ⟨idx, h⟩).map (scaleDf s)
        unfold flPruneUp
        show (match (d1 ⟨idx, h⟩).parent with
          | none => .ok (scaleDf s d1)
          | some p => flUpLoop t (t.m + 1) (scaleDf s d1) p) = (match (d1 ⟨idx, h⟩).parent with
          | none => .ok d1
          | some p => flUpLoop t (t.m + 1) d1 p : Except PyErr (PDf ℚ t)).map (scaleDf s)
        cases (d1 ⟨idx, h⟩).parent with
        | none => rfl
        | some p => exact flUpLoop_unit hs _ d1 p
  · rw [dif_neg h, dif_neg h]
    rfl

theorem flPruneMany_unit (df : PDf ℚ t) (ops : List ℕ) :
    flPruneMany t (scaleDf s df) ops = (flPruneMany t df ops).map (scaleDf s) := by
  unfold flPruneMany
  induction ops generalizing df with
  | nil => rfl
  | cons i ops ih =>
    rw [List.foldlM_cons, List.foldlM_cons, flInnerPrune_unit hs]
    cases flInnerPrune t df i with
    | error e => rfl
    | ok d1 => exact ih d1

theorem flInitDfOf_unit (t : SkTree ℚ C) (r : t.Node → ℚ) :
    flInitDfOf t (fun i => s * r i) = (flInitDfOf t r).map (scaleDf s) := by
  unfold flInitDfOf
  have e : rawDf t (fun i => s * r i) = scaleDf s (rawDf t r) := rfl
  rw [e, flRecInit_unit hs]
  cases flRecInit t.toTopo (t.m + 1) (rawDf t r) 0 with
  | error e => rfl
  | ok df =>
    show Except.ok (flAppendG1 t.toTopo (scaleDf s df)) = Except.ok (scaleDf s (flAppendG1 t.toTopo df))
    congr 1
    funext i
    show PRow.mk _ _ _ _ _ _ _ _ = PRow.mk _ _ _ _ _ _ _ _
    congr 1
    exact flG1_unit hs _ _ _

end prune

theorem flInitDf_reg (sum : List ℚ → ℚ) (u : SkTree ℚ C) : flInitDf sum .reg u = flInitDfOf u u.impurity := by
  unfold flInitDf
  have e : (List.finRange (u.m + 1)).mapM (flRSingle sum .reg u) = .ok ((List.finRange (u.m + 1)).map u.impurity) :=
    mapM_ok _ _ _ fun i _ => rfl
  rw [e]
  show flInitDfOf u (fun i => ((List.finRange (u.m + 1)).map u.impurity).getD i 0) = _
  congr 1
  funext i
  rw [List.getD_eq_getElem?_getD, List.getElem?_map, List.getElem?_eq_getElem (by rw [List.length_finRange]; exact i.isLt),
    List.getElem_finRange]
  rfl

/-- C228, pruning in doubles: the table of a regression tree whose values are multiplied by plus or minus a power of two and whose
impurities by its square, after any sequence of cuts, is the old one with the risk columns and `g1` multiplied exactly. -/
theorem C228_pruning {a : ℚ} (ha : ∃ k : ℤ, a = 2 ^ k ∨ a = -2 ^ k) (sum sum' : List ℚ → ℚ) (t : SkTree ℚ 1) (ops : List ℕ) :
    (flInitDf sum' .reg (fitUnits a 0 t) >>= fun df => flPruneMany t.toTopo df ops) =
      (flInitDf sum .reg t >>= fun df => flPruneMany t.toTopo df ops).map (scaleDf (a ^ 2)) := by
  have hs := ((C206_factors a).2 ha).sq
  rw [flInitDf_reg, flInitDf_reg]
  have e : flInitDfOf (fitUnits a 0 t) (fitUnits a 0 t).impurity = (flInitDfOf t t.impurity).map (scaleDf (a ^ 2)) :=
    flInitDfOf_unit hs t t.impurity
  rw [e]
  cases flInitDfOf t t.impurity with
  | error e => rfl
  | ok df => exact flPruneMany_unit hs df ops

/-- A tree that predicts `-2^-53` at depth 0 and 0 below. -/
abbrev exBelow : SkTree ℚ 1 := { exTree with value := fun i _ => if i.val = 0 then -(1 / 2 ^ 53) else 0 }

/-- C228, other factors: the response 1 and this tree times three, all numbers being doubles before and after: before, the
differences round to 1 at both depths and depth 0 is chosen; after, depth 1 is chosen. -/
theorem C228_other_factor : ∃ (t : SkTree ℚ 1) (out out' : List (SkTree ℚ 1)) (L L' : List ℚ), t.WF ∧
    (∀ i c, IsFloat (t.value i c) ∧ IsFloat (3 * t.value i c)) ∧
    flDepthTune (some .reg) [t] exData (fun _ _ => [⟨0, 1⟩]) = .ok (out, L) ∧
    flDepthTune (some .reg) ([t].map (affTree 3 0)) exData (fun _ _ => [⟨0, 3 * 1⟩]) = .ok (out', L') ∧
    valuesOf out' ≠ valuesOf (out.map (affTree 3 0)) := by
  have e1 : (match flDepthTune (some .reg) [exBelow] exData (fun _ _ => [⟨0, 1⟩]) with
      | .ok (out, _) => some (valuesOf (out.map (affTree 3 0))) | .error _ => none) =
      some [[[-(3 / 2 ^ 53)], [0], [-(3 / 2 ^ 53)], [-(3 / 2 ^ 53)], [-(3 / 2 ^ 53)]]] := by decide +kernel
  have e2 : (match flDepthTune (some .reg) ([exBelow].map (affTree 3 0)) exData (fun _ _ => [⟨0, 3 * 1⟩]) with
      | .ok (out, _) => some (valuesOf out) | .error _ => none) =
      some [[[-(3 / 2 ^ 53)], [0], [0], [0], [0]]] := by decide +kernel
  cases a1 : flDepthTune (some .reg) [exBelow] exData (fun _ _ => [⟨0, 1⟩]) with
  | error e => rw [a1] at e1; cases e1
  | ok p =>
    cases a2 : flDepthTune (some .reg) ([exBelow].map (affTree 3 0)) exData (fun _ _ => [⟨0, 3 * 1⟩]) with
    | error e => rw [a2] at e2; cases e2
    | ok q =>
      rw [a1] at e1
      rw [a2] at e2
      refine ⟨exBelow, p.1, q.1, p.2, q.2, by decide, fun i c => ?_, a1, a2, ?_⟩
      · show IsFloat (if i.val = 0 then -(1 / 2 ^ 53) else 0) ∧ IsFloat (3 * (if i.val = 0 then -(1 / 2 ^ 53) else 0))
        split_ifs
        · exact ⟨⟨-1, -53, by norm_num, by norm_num⟩, ⟨-3, -53, by norm_num, by norm_num⟩⟩
        · exact ⟨⟨0, 0, by norm_num, by norm_num⟩, ⟨0, 0, by norm_num, by norm_num⟩⟩
      · simp only [Option.some.injEq] at e1 e2
        rw [e1, e2]
        decide +kernel

/-- Two trees, response 1/10, in two units. -/
example : (∀ t ∈ [exStump, exTree], Topo.npMax t.depthPerNode ≠ 0) ∧
    ([1, -8] : List ℚ).map (fun a => match flDepthTune (some .reg) ([exStump, exTree].map (affTree a 0)) exData
      (fun _ _ => [⟨0, a * fl (1 / 10)⟩, ⟨1, a * 4⟩]) with
    | .ok (out, L) => some (valuesOf out, L.map (· / a ^ 2))
    | .error _ => none) =
      [some ([[[5 / 2], [5 / 2], [5 / 2]], [[13 / 2], [3], [3], [3], [10]]],
        [7771524106981213 / 140737488355328, 1225823523574907 / 70368744177664]),
       some ([[[-20], [-20], [-20]], [[-52], [-24], [-24], [-24], [-80]]],
        [7771524106981213 / 140737488355328, 1225823523574907 / 70368744177664])] := by
  decide +kernel

/-- A tree with three leaves, one cut. -/
example : (match flInitDf npSum .reg (fitUnits (1) 0 exTree) with
    | .ok df => match flPruneMany exTree.toTopo df [1] with
      | .ok df' => some (colsOf df')
      | .error _ => none
    | .error _ => none) =
      some [(9, 5 / 2, 2, .fin (13 / 2)), (2, 2, 1, .fin (3002399751580331 / 2251799813685248)), (0, 0, 0, .nan), (1, 1, 0, .nan), (3, 3, 1, .nan)] := by
  decide +kernel

/-- The same in minus twice the unit. -/
example : (match flInitDf npSum .reg (fitUnits (-1 / 2) 0 exTree) with
    | .ok df => match flPruneMany exTree.toTopo df [1] with
      | .ok df' => some (colsOf df')
      | .error _ => none
    | .error _ => none) =
      some [(9 / 4, 5 / 8, 2, .fin (13 / 8)), (1 / 2, 1 / 2, 1, .fin (3002399751580331 / 9007199254740992)), (0, 0, 0, .nan), (1 / 4, 1 / 4, 0, .nan),
        (3 / 4, 3 / 4, 1, .nan)] := by
  decide +kernel

end SmoothRF
