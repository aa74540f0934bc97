import Verif.Props.FloatCleanForestProps
import Verif.Props.FloatUnitsProps
import Verif.Props.CleanUnitsProps

/-!
# C230: change of units in smooth_clean in double precision

All values of the forest and all responses are multiplied by `a`, plus or minus a power of two.
-/

set_option linter.unusedSectionVars false

namespace SmoothRF
open SkTree Topo

/-- One tree of an observation in the new units. -/
def unitOobTree (a : ℚ) (q : OobTree) : OobTree := ⟨affTree a 0 q.t, q.D, q.i, q.oob⟩

/-- An observation in the new units. -/
def unitObs (a : ℚ) (o : OobObs) : OobObs := ⟨o.trees.map (unitOobTree a), a * o.y⟩

theorem zipWith_map_congr {α β γ δ : Type} {f : α → β → γ} {g : α → β → δ} {h : γ → δ} (H : ∀ a b, g a b = h (f a b))
    (l : List α) (m : List β) : List.zipWith g l m = (List.zipWith f l m).map h := by
  rw [List.map_zipWith]
  congr 1
  funext x y
  exact H x y

theorem mapM_scaled {α β γ : Type} {f : α → Except PyErr β} {f' : α → Except PyErr γ} {h : β → γ}
    (H : ∀ x, f' x = (f x).map h) (l : List α) : l.mapM f' = (l.mapM f).map (List.map h) := by
  induction l with
  | nil => rfl
  | cons x l ih =>
    rw [List.mapM_cons, List.mapM_cons, H, ih]
    cases f x with
    | error => rfl
    | ok y => cases l.mapM f <;> rfl

theorem flLeafRow_gam_def (sum : List ℚ → ℚ) (n : ℕ) (pa : Bool) {C : ℕ} (t : SkTree ℚ C)
    (D : Fin t.nLeaves → Fin t.nLeaves → ℤ) (i : Fin t.nLeaves) (c : Fin C) : (flLeafRow sum .reg t pa D n i c).gam =
      toVec n (padRow pa n (flLevelRow sum t pa D (fun j => flNy .reg t (t.leafNode j) c) i)) := rfl

section costs

variable {sum : List ℚ → ℚ} {a : ℚ} (ha : ExactFactor a) (hs : SumScales sum a) {n : ℕ} (pa : Bool) (lamb : Fin n → ℚ)
include ha hs

theorem flLeafRow_unit {C : ℕ} (t : SkTree ℚ C) (D : Fin t.nLeaves → Fin t.nLeaves → ℤ) (i : Fin t.nLeaves) (c : Fin C) :
    (flLeafRow sum .reg (affTree a 0 t) pa D n i c).gam = (fun j => a * (flLeafRow sum .reg t pa D n i c).gam j) := by
  have h := flLevelRow_unit ha hs t pa D c i
  have h2 : toVec n (padRow pa n ((flLevelRow sum t pa D (fun j => flNy .reg t (t.leafNode j) c) i).map (a * ·))) =
      fun j => a * toVec n (padRow pa n (flLevelRow sum t pa D (fun j => flNy .reg t (t.leafNode j) c) i)) j := by
    rw [padRow_unit, toVec_unit]
  rw [← h] at h2
  have g1 := flLeafRow_gam_def sum n pa (affTree a 0 t) D i c
  have g2 := flLeafRow_gam_def sum n pa t D i c
  rw [g1, g2]
  exact h2

theorem flLeftPart_unit (q : OobTree) :
    flLeftPart sum (flLeafRow sum .reg (unitOobTree a q).t pa (unitOobTree a q).D n (unitOobTree a q).i 0) lamb =
      (flLeftPart sum (flLeafRow sum .reg q.t pa q.D n q.i 0) lamb).map (a * ·) := by
  obtain ⟨t, D, i, b⟩ := q
  have e := flLeafRow_unit (n := n) ha hs pa t D i 0
  have e' : (flLeafRow sum .reg (affTree a 0 t) pa D n i 0).eta = (flLeafRow sum .reg t pa D n i 0).eta := rfl
  show flLeftPart sum (flLeafRow sum .reg (affTree a 0 t) pa D n i 0) lamb =
    (flLeftPart sum (flLeafRow sum .reg t pa D n i 0) lamb).map (a * ·)
  unfold flLeftPart
  rw [e, e', flDot_unit ha hs]
  simp only [mul_eq_zero, ha.1, false_or]
  generalize flDot sum (flLeafRow sum .reg t pa D n i 0).gam lamb = g
  generalize flDot sum (flLeafRow sum .reg t pa D n i 0).eta lamb = h
  generalize (if g = 0 then 1 else h) = z
  split_ifs
  · rfl
  · simp only [Except.map]
    rw [mul_div_assoc, ha.2]

/-- C230, predictions: the out-of-bag prediction of an observation is multiplied by the factor exactly; exceptions and
`ever_oob` are unchanged. -/
theorem C230_predictions (o : OobObs) : flYOob sum pa n lamb (unitObs a o) =
    (flYOob sum pa n lamb o).map fun p => (a * p.1, p.2) := by
  unfold flYOob
  have e1 : (unitObs a o).trees.mapM (fun q => flLeftPart sum (flLeafRow sum .reg q.t pa q.D n q.i 0) lamb) =
      (o.trees.mapM fun q => flLeftPart sum (flLeafRow sum .reg q.t pa q.D n q.i 0) lamb).map (List.map (a * ·)) := by
    rw [← mapM_scaled (flLeftPart_unit ha hs pa lamb)]
    show (o.trees.map (unitOobTree a)).mapM _ = _
    rw [List.mapM_map]
    rfl
  have e2 : ((unitObs a o).trees.map fun q => q.oob) = o.trees.map fun q => q.oob := by
    show (o.trees.map (unitOobTree a)).map _ = _
    rw [List.map_map]
    rfl
  rw [e1, e2]
  cases o.trees.mapM fun q => flLeftPart sum (flLeafRow sum .reg q.t pa q.D n q.i 0) lamb with
  | error => rfl
  | ok left =>
    simp only [Except.map, bind, Except.bind, pure, Except.pure]
    congr 2
    rw [← hs, List.zipWith_map_right, ← zipWith_map_congr fun w l => ?_]
    rw [mul_left_comm, ha.2]

/-- C230, loss: multiplied by the square of the factor exactly. -/
theorem C230_cost (obs : List OobObs) : flCleanCost sum pa n (obs.map (unitObs a)) lamb =
    (flCleanCost sum pa n obs lamb).map (a * a * ·) := by
  unfold flCleanCost
  have e1 : (obs.map (unitObs a)).mapM (flYOob sum pa n lamb) =
      (obs.mapM (flYOob sum pa n lamb)).map (List.map fun p => (a * p.1, p.2)) := by
    rw [← mapM_scaled (C230_predictions ha hs pa lamb), List.mapM_map]
    rfl
  rw [e1]
  cases obs.mapM (flYOob sum pa n lamb) with
  | error => rfl
  | ok ps =>
    simp only [Except.map, bind, Except.bind, pure, Except.pure]
    have e2 : List.zipWith (fun (p : ℚ × Bool) (o : OobObs) => (p.2, fl (fl (p.1 - o.y) * fl (p.1 - o.y))))
        (ps.map fun p => (a * p.1, p.2)) (obs.map (unitObs a)) =
        (List.zipWith (fun (p : ℚ × Bool) (o : OobObs) => (p.2, fl (fl (p.1 - o.y) * fl (p.1 - o.y)))) ps obs).map
          fun q => (q.1, a * a * q.2) := by
      rw [List.zipWith_map]
      refine zipWith_map_congr (fun p o => ?_) _ _
      show (p.2, fl (fl (a * p.1 - a * o.y) * fl (a * p.1 - a * o.y))) = _
      rw [← mul_sub, ha.2, mul_mul_mul_comm, (ha.mul ha).2]
    rw [e2, List.filter_map, List.length_map,
      show ((fun q : Bool × ℚ => q.1) ∘ fun q : Bool × ℚ => (q.1, a * a * q.2)) = fun q => q.1 from rfl]
    split_ifs
    · rfl
    · rw [List.map_map]
      congr 1
      rw [← (ha.mul ha).2, ← mul_div_assoc, ← hs.mul hs, List.map_map]
      rfl

end costs

/-- C230, observations: what `smooth_clean` reads off the forest in the new units. -/
theorem C230_observations (a : ℚ) (forest : List (SkTree ℚ 1)) (style : Style) (y : List ℚ) (leafOf : ℕ → ℕ → ℕ)
    (uns : ℕ → List ℕ) : oobObsOf (forest.map (affTree a 0)) style (y.map (a * ·)) leafOf uns =
      (oobObsOf forest style y leafOf uns).map (List.map (unitObs a)) := by
  have e : ∀ i, (forest.map (affTree a 0)).zipIdx.mapM (oobTreeOf style leafOf uns i) =
      (forest.zipIdx.mapM (oobTreeOf style leafOf uns i)).map (List.map (unitOobTree a)) := by
    intro i
    rw [List.zipIdx_map, List.mapM_map]
    refine mapM_scaled (fun tt => ?_) _
    show oobTreeOf style leafOf uns i (affTree a 0 tt.1, tt.2) = _
    unfold oobTreeOf
    by_cases h : leafOf tt.2 i < tt.1.nLeaves
    · rw [dif_pos h, dif_pos (show leafOf tt.2 i < (affTree a 0 tt.1).nLeaves from h)]
      rfl
    · rw [dif_neg h, dif_neg (show ¬ leafOf tt.2 i < (affTree a 0 tt.1).nLeaves from h)]
      rfl
  unfold oobObsOf
  simp only [e]
  rw [List.zipIdx_map, List.mapM_map]
  refine mapM_scaled (fun yi => ?_) _
  simp only [Function.comp, Prod.map, id]
  cases forest.zipIdx.mapM (oobTreeOf style leafOf uns yi.2) <;> rfl

section run

variable {sum : List ℚ → ℚ} {pow : ℚ → ℕ → ℚ} {sqrt : ℚ → ℚ}

/-- `flSmoothClean` for a given width. -/
def flCleanAt (sum : List ℚ → ℚ) (pow : ℚ → ℕ → ℚ) (sqrt : ℚ → ℚ) (w : ℕ) (forest : List (SkTree ℚ 1))
    (y : List ℚ) (leafOf : ℕ → ℕ → ℕ) (unsampled : ℕ → List ℕ) (cfg : CleanCfg ℚ) (choices : List (List ℕ)) :
    Except PyErr (List (SkTree ℚ 1) × (Fin w → ℚ) × List ℚ) := do
  let ge := flGammaEtaForest sum .reg forest cfg.style cfg.parentsAll
  let obs ← oobObsOf forest cfg.style y leafOf unsampled
  let p ← flCleanLamb sum pow sqrt w obs cfg choices
  let vals := List.zipWith (fun g e => flSmoothValue sum ⟨0, 0, toVec w g, toVec w e, 0⟩ p.1) (ge.gamma 0) ge.eta
  let rf1 ← writeBack1 (vals.map fun v _ => v) 0 forest
  pure (rf1, p.1, p.2)

variable {a : ℚ} (ha : ExactFactor a) (hs : SumScales sum a) {forest : List (SkTree ℚ 1)} {y y' : List ℚ}
  {leafOf leafOf' : ℕ → ℕ → ℕ} {uns uns' : ℕ → List ℕ} {cfg cfg' : CleanCfg ℚ} {choices choices' : List (List ℕ)}

theorem flCleanAt_values (ha : ExactFactor a) (hs : SumScales sum a) {w : ℕ}
    {out out' : List (SkTree ℚ 1) × (Fin w → ℚ) × List ℚ}
    (h : flCleanAt sum pow sqrt w forest y leafOf uns cfg choices = .ok out)
    (h' : flCleanAt sum pow sqrt w (forest.map (affTree a 0)) y' leafOf' uns' cfg' choices' = .ok out')
    (hst : cfg'.style = cfg.style) (hpa : cfg'.parentsAll = cfg.parentsAll) (hw : out'.2.1 = out.2.1) :
    out'.1 = out.1.map (affTree a 0) := by
  unfold flCleanAt at h h'
  obtain ⟨obs, -, h⟩ := bind_ok h
  obtain ⟨p, -, h⟩ := bind_ok h
  obtain ⟨rf, h1, h⟩ := bind_ok h
  obtain ⟨obs', -, h'⟩ := bind_ok h'
  obtain ⟨p', -, h'⟩ := bind_ok h'
  obtain ⟨rf', h1', h'⟩ := bind_ok h'
  cases h
  cases h'
  simp only at hw
  show rf' = rf.map (affTree a 0)
  rw [hst, hpa, flGammaEtaForest_unit ha hs, hw] at h1'
  have e : (List.zipWith (fun g e => flSmoothValue sum ⟨0, 0, toVec w g, toVec w e, 0⟩ p.1)
      ((unitGE a (flGammaEtaForest sum .reg forest cfg.style cfg.parentsAll)).gamma 0)
      (unitGE a (flGammaEtaForest sum .reg forest cfg.style cfg.parentsAll)).eta).map (fun v (_ : Fin 1) => v) =
      ((List.zipWith (fun g e => flSmoothValue sum ⟨0, 0, toVec w g, toVec w e, 0⟩ p.1)
      ((flGammaEtaForest sum .reg forest cfg.style cfg.parentsAll).gamma 0)
      (flGammaEtaForest sum .reg forest cfg.style cfg.parentsAll).eta).map (fun v (_ : Fin 1) => v)).map
        fun v c => a * v c := by
    show (List.zipWith _ (((flGammaEtaForest sum .reg forest cfg.style cfg.parentsAll).gamma 0).map (List.map (a * ·)))
      (flGammaEtaForest sum .reg forest cfg.style cfg.parentsAll).eta).map _ = _
    rw [List.zipWith_map_left, List.map_map, List.map_zipWith, List.map_zipWith]
    congr 1
    funext g e
    simp only [Function.comp, toVec_unit]
    funext _
    exact flSmoothValue_unit ha hs ⟨0, 0, toVec w g, toVec w e, 0⟩ p.1
  rw [e, writeBack1_unit, h1] at h1'
  exact (Except.ok.inj h1').symm

theorem flCleanAt_start (ha : ExactFactor a) (hs : SumScales sum a) {w : ℕ}
    {out out' : List (SkTree ℚ 1) × (Fin w → ℚ) × List ℚ} (hf : cfg.allObs = true ∨ cfg.useFullLoss = true)
    (h : flCleanAt sum pow sqrt w forest y leafOf uns cfg choices = .ok out)
    (h' : flCleanAt sum pow sqrt w (forest.map (affTree a 0)) (y.map (a * ·)) leafOf uns cfg choices = .ok out') :
    out'.2.1 = out.2.1 ∧ out'.2.2.head? = out.2.2.head?.map (a * a * ·) := by
  unfold flCleanAt at h h'
  obtain ⟨obs, ho, h⟩ := bind_ok h
  obtain ⟨p, h1, h⟩ := bind_ok h
  obtain ⟨rf, -, h⟩ := bind_ok h
  obtain ⟨obs', ho', h'⟩ := bind_ok h'
  rw [C230_observations, ho] at ho'
  obtain rfl := Except.ok.inj ho'
  obtain ⟨p', h1', h'⟩ := bind_ok h'
  obtain ⟨rf', -, h'⟩ := bind_ok h'
  cases h
  cases h'
  show p'.1 = p.1 ∧ p'.2.head? = p.2.head?.map (a * a * ·)
  unfold flCleanLamb at h1 h1'
  split at h1
  · cases h1
  split at h1'
  · cases h1'
  obtain ⟨l, h2, h1⟩ := bind_ok h1
  obtain ⟨l', h2', h1'⟩ := bind_ok h1'
  rw [h2] at h2'
  cases h2'
  by_cases hsc : cfg.sanityCheck = true
  · rw [if_pos hsc] at h1 h1'
    cases h1
    cases h1'
    exact ⟨rfl, rfl⟩
  rw [if_neg hsc] at h1 h1'
  obtain ⟨⟨b, m, c⟩, h3, h1⟩ := bind_ok h1
  obtain ⟨⟨b', m', c'⟩, h3', h1'⟩ := bind_ok h1'
  cases h1
  cases h1'
  have hfl : (cfg.allObs || cfg.useFullLoss) = true := by rcases hf with hf | hf <;> simp [hf]
  obtain ⟨vs, -, -, e3, e4, e5⟩ := C200_descent h3
  obtain ⟨vs', -, -, e3', e4', e5'⟩ := C200_descent h3'
  simp only [hfl, if_true] at e3 e3'
  refine ⟨e3'.trans e3.symm, ?_⟩
  by_cases hc : choices = []
  · show c'.head? = c.head?.map _
    rw [e4 hc, e4' hc]
    rfl
  · obtain ⟨x, xs, v, r, rfl, -, k1, -⟩ := e5 hc
    obtain ⟨x', xs', v', r', rfl, -, k1', -⟩ := e5' hc
    unfold costObs at k1 k1'
    simp only [hfl, if_true] at k1 k1'
    rw [C230_cost ha hs, k1] at k1'
    cases k1'
    rfl

theorem flSmoothClean_at (forest : List (SkTree ℚ 1)) (y : List ℚ) (leafOf : ℕ → ℕ → ℕ) (uns : ℕ → List ℕ) (cfg : CleanCfg ℚ)
    (choices : List (List ℕ)) : flSmoothClean sum pow sqrt (some .reg) forest y leafOf uns cfg choices =
      flCleanAt sum pow sqrt (forestDepth forest + 1) forest y leafOf uns cfg choices := rfl

/-- C230, forest: two runs that end with the same weights, whatever their responses and options, return forests that differ
by the factor only. -/
theorem C230_values (ha : ExactFactor a) (hs : SumScales sum a)
    {out : List (SkTree ℚ 1) × (Fin (forestDepth forest + 1) → ℚ) × List ℚ}
    {out' : List (SkTree ℚ 1) × (Fin (forestDepth (forest.map (affTree a 0)) + 1) → ℚ) × List ℚ}
    (h : flSmoothClean sum pow sqrt (some .reg) forest y leafOf uns cfg choices = .ok out)
    (h' : flSmoothClean sum pow sqrt (some .reg) (forest.map (affTree a 0)) y' leafOf' uns' cfg' choices' = .ok out')
    (hst : cfg'.style = cfg.style) (hpa : cfg'.parentsAll = cfg.parentsAll)
    (hw : List.ofFn out'.2.1 = List.ofFn out.2.1) : out'.1 = out.1.map (affTree a 0) := by
  rw [flSmoothClean_at] at h h'
  have e : forestDepth (forest.map (affTree a 0)) + 1 = forestDepth forest + 1 := by rw [forestDepth_aff]
  have key : ∀ w, w = forestDepth forest + 1 → ∀ out' : List (SkTree ℚ 1) × (Fin w → ℚ) × List ℚ,
      flCleanAt sum pow sqrt w (forest.map (affTree a 0)) y' leafOf' uns' cfg' choices' = .ok out' →
      List.ofFn out'.2.1 = List.ofFn out.2.1 → out'.1 = out.1.map (affTree a 0) := by
    rintro w rfl out' h' hw
    exact flCleanAt_values ha hs h h' hst hpa (List.ofFn_injective hw)
  exact key _ e out' h' hw

/-- C230: with `all_obs` or `use_full_loss`, whose runs keep their starting weights, the unit makes no difference in doubles
either: same weights, first cost multiplied by the square, and forests that differ by the unit only. -/
theorem C230_full_loss_partial (ha : ExactFactor a) (hs : SumScales sum a)
    {out : List (SkTree ℚ 1) × (Fin (forestDepth forest + 1) → ℚ) × List ℚ}
    {out' : List (SkTree ℚ 1) × (Fin (forestDepth (forest.map (affTree a 0)) + 1) → ℚ) × List ℚ}
    (hf : cfg.allObs = true ∨ cfg.useFullLoss = true)
    (h : flSmoothClean sum pow sqrt (some .reg) forest y leafOf uns cfg choices = .ok out)
    (h' : flSmoothClean sum pow sqrt (some .reg) (forest.map (affTree a 0)) (y.map (a * ·)) leafOf uns cfg choices = .ok out') :
    List.ofFn out'.2.1 = List.ofFn out.2.1 ∧ out'.2.2.head? = out.2.2.head?.map (a * a * ·) ∧
      out'.1 = out.1.map (affTree a 0) := by
  rw [flSmoothClean_at] at h h'
  have e : forestDepth (forest.map (affTree a 0)) + 1 = forestDepth forest + 1 := by rw [forestDepth_aff]
  have key : ∀ w, w = forestDepth forest + 1 → ∀ out' : List (SkTree ℚ 1) × (Fin w → ℚ) × List ℚ,
      flCleanAt sum pow sqrt w (forest.map (affTree a 0)) (y.map (a * ·)) leafOf uns cfg choices = .ok out' →
      List.ofFn out'.2.1 = List.ofFn out.2.1 ∧ out'.2.2.head? = out.2.2.head?.map (a * a * ·) ∧
        out'.1 = out.1.map (affTree a 0) := by
    rintro w rfl out' h'
    obtain ⟨e1, e2⟩ := flCleanAt_start ha hs hf h h'
    exact ⟨by rw [e1], e2, flCleanAt_values ha hs h h' rfl rfl e1⟩
  exact key _ e out' h'

/-- Weights of one plain step without projection. -/
theorem flClean_one_step {w : ℕ} {c : List ℕ} {out : List (SkTree ℚ 1) × (Fin w → ℚ) × List ℚ}
    (hnc : cfg.noConstraint = true) (hsc : cfg.sanityCheck = false) (hao : cfg.allObs = false)
    (hfl : cfg.useFullLoss = false) (had : cfg.adam = none)
    (h : flCleanAt sum pow sqrt w forest y leafOf uns cfg [c] = .ok out) :
    ∃ obs sub l g, oobObsOf forest cfg.style y leafOf uns = .ok obs ∧ drawn obs c = .ok sub ∧
      flBaseLambE w cfg.seed = .ok l ∧ flL2Grad sum cfg.parentsAll w sub (toVec w l) = .ok g ∧
      out.2.1 = fun j => fl (toVec w l j - fl (cfg.tFix * g j)) := by
  unfold flCleanAt at h
  obtain ⟨obs, ho, h⟩ := bind_ok h
  obtain ⟨p, h1, h⟩ := bind_ok h
  obtain ⟨rf, -, h⟩ := bind_ok h
  cases h
  unfold flCleanLamb at h1
  split at h1
  · cases h1
  obtain ⟨l, h2, h1⟩ := bind_ok h1
  rw [if_neg (by rw [hsc]; exact Bool.false_ne_true)] at h1
  obtain ⟨⟨b, m, cs⟩, h3, h1⟩ := bind_ok h1
  cases h1
  obtain ⟨vs, e1, e2, e3, -, -⟩ := C200_descent h3
  simp only [hao, hfl, Bool.or_self, Bool.false_eq_true, if_false] at e3
  simp only [cleanVisited] at e1
  obtain ⟨sub, k1, e1⟩ := bind_ok e1
  obtain ⟨q, k2, e1⟩ := bind_ok e1
  unfold flCleanMove flCleanPre at k2
  simp only [had, hnc, if_true] at k2
  obtain ⟨q', k3, k2⟩ := bind_ok k2
  cases k2
  obtain ⟨g, k4, k3⟩ := bind_ok k3
  cases k3
  refine ⟨obs, sub, l, g, ho, k1, h2, k4, ?_⟩
  cases e1
  rw [e3, e2]
  rfl

end run

/-- C230 fails as a whole, whatever the step size: one step of size 1/8 on the forest with leaves 1 and 4 and the response 3
gives weights that no step gives with the response in half the unit, although the factor is 2. -/
theorem C230_refuted : ∃ out, flSmoothClean npSum (fun x _ => x) id (some .reg) [exStump] [3] (fun _ _ => 0) (fun _ => [0])
      (cleanPlain (1 / 8)) [[0]] = .ok out ∧
    ∀ t out', flSmoothClean npSum (fun x _ => x) id (some .reg) ([exStump].map (affTree 2 0)) ([3].map (2 * ·))
      (fun _ _ => 0) (fun _ => [0]) (cleanPlain t) [[0]] = .ok out' → List.ofFn out'.2.1 ≠ List.ofFn out.2.1 := by
  have hr : (match flSmoothClean npSum (fun x _ => x) id (some .reg) [exStump] [3] (fun _ _ => 0) (fun _ => [0])
      (cleanPlain (1 / 8)) [[0]] with
    | .ok out => some (List.ofFn out.2.1)
    | .error _ => none) = some [1, 3 / 2] := by decide +kernel
  cases h : flSmoothClean npSum (fun x _ => x) id (some .reg) [exStump] [3] (fun _ _ => 0) (fun _ => [0])
      (cleanPlain (1 / 8)) [[0]] with
  | error e => rw [h] at hr; cases hr
  | ok out =>
    rw [h] at hr
    have hr : List.ofFn out.2.1 = [1, 3 / 2] := Option.some.inj hr
    refine ⟨out, rfl, fun t out' h' => ?_⟩
    rw [hr]
    have key : ∀ w, w = 2 → ∀ out' : List (SkTree ℚ 1) × (Fin w → ℚ) × List ℚ,
        flCleanAt npSum (fun x _ => x) id w ([exStump].map (affTree 2 0)) ([3].map (2 * ·)) (fun _ _ => 0) (fun _ => [0])
          (cleanPlain t) [[0]] = .ok out' → List.ofFn out'.2.1 ≠ [1, 3 / 2] := by
      rintro w rfl out' h'
      obtain ⟨obs, sub, l, g, h1, h2, h3, h4, h5⟩ := flClean_one_step rfl rfl rfl rfl rfl h'
      have hg : (match (do
          let obs ← oobObsOf ([exStump].map (affTree 2 0)) .standard ([3].map (2 * ·)) (fun _ _ => 0) (fun _ => [0])
          let sub ← drawn obs [0]
          let l ← flBaseLambE 2 none
          flL2Grad npSum true 2 sub (toVec 2 l) : Except PyErr (Fin 2 → ℚ)) with
        | .ok g => some (List.ofFn g)
        | .error _ => none) = some [8, -8] := by decide +kernel
      rw [show oobObsOf ([exStump].map (affTree 2 0)) .standard ([3].map (2 * ·)) (fun _ _ => 0) (fun _ => [0]) =
        .ok obs from h1] at hg
      simp only [bind, Except.bind] at hg
      rw [h2, show flBaseLambE 2 none = .ok l from h3] at hg
      simp only at hg
      rw [show flL2Grad npSum true 2 sub (toVec 2 l) = .ok g from h4] at hg
      have hg : List.ofFn g = [8, -8] := Option.some.inj hg
      have hg := List.ofFn_injective (show List.ofFn g = List.ofFn ![8, -8] from hg)
      cases h3
      rw [h5, hg]
      show [fl (1 - fl (t * 8)), fl (0 - fl (t * -8))] ≠ _
      intro he
      simp only [List.cons.injEq, and_true] at he
      obtain ⟨e1, e2⟩ := he
      rw [mul_neg, fl_neg, sub_neg_eq_add, zero_add, fl_of_float (fl_isFloat _)] at e2
      rw [e2, fl_of_float ⟨-1, -1, by norm_num, by norm_num⟩] at e1
      norm_num at e1
    exact key _ (by rw [forestDepth_aff]; rfl) out' h'

/-! ## Meeting the hypotheses -/

/-- Runs with `all_obs` and the response 1/10 in the units 1, -8 and 3: the first cost scales exactly for -8 and, 3 not being
an exact factor, not for 3. -/
example : ([1, -8, 3] : List ℚ).map (fun a => match flSmoothClean npSum (fun x _ => x) id (some .reg)
      ([exStump26].map (affTree a 0)) [a * fl (1 / 10)] exLeafOf exUns { cleanPlain (1 / 8) with allObs := true } [[0]] with
    | .ok r => some (valuesOf r.1, List.ofFn r.2.1, r.2.2.head?.map (· / a ^ 2))
    | .error _ => none) =
    [some ([[[4], [2], [6]]], [1, 0], some (8128997327403745 / 2251799813685248)),
     some ([[[-32], [-16], [-48]]], [1, 0], some (8128997327403745 / 2251799813685248)),
     some ([[[12], [6], [18]]], [1, 0], some (4572560996664607 / 1266637395197952))] := by decide +kernel

/-- The factor -8 meets the hypotheses. -/
example : ExactFactor (-8) ∧ SumScales npSum (-8) :=
  have h := C206_numpy 3 (-8) (.inr (by norm_num))
  ⟨h.1, h.2.1⟩

end SmoothRF
