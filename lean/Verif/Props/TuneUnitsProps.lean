import Verif.Props.AffineProps
import Verif.Props.DepthTuneProps
import Verif.Props.PruneProps
import Verif.Spec.Fit

/-!
# Change of units of the response in depth_tune and in the pruning table (C208)
-/

set_option linter.unusedSectionVars false

namespace SmoothRF

open Topo SkTree

variable {K : Type} [Field K] [LinearOrder K] [IsStrictOrderedRing K] {C : ℕ}

/-- The same tuning row with response `a * y + b`. -/
def affLossRow (a b : K) (r : LossRow K) : LossRow K := { r with y := a * r.y + b }

/-! ### depth_tune -/

theorem mapM_map_res {α β γ : Type} (l : List α) (f : α → Except PyErr β) (g : β → γ) :
    (l.mapM fun x => (f x).map g) = (l.mapM f).map (List.map g) := by
  induction l with
  | nil => rfl
  | cons x l ih =>
    rw [List.mapM_cons, List.mapM_cons, ih]
    cases f x with
    | error e => rfl
    | ok y =>
      cases l.mapM f with
      | error e => rfl
      | ok ys => rfl

theorem pyGet_map {α β : Type} (l : List α) (g : α → β) (i : ℕ) : pyGet (l.map g) i = (pyGet l i).map g := by
  unfold pyGet
  rw [List.getElem?_map]
  cases l[i]? <;> rfl

theorem leafPredictedValues_aff (a b : K) (t : SkTree K C) :
    leafPredictedValues (affTree a b t) = (leafPredictedValues t).map (List.map (List.map fun v c => a * v c + b)) := by
  unfold leafPredictedValues
  rw [← mapM_map_res]
  show (List.range (Topo.npMax t.depthPerNode)).mapM _ = _
  congr 1
  funext d
  rw [← mapM_map_res]
  show (List.finRange t.nLeaves).mapM _ = _
  congr 1
  funext r
  show valAt (affTree a b t) (lowestViable t.toTopo d r) = _
  unfold valAt
  by_cases h : lowestViable t.toTopo d r < t.m + 1
  · rw [dif_pos h]
    exact dif_pos h
  · rw [dif_neg h]
    exact dif_neg h

/-- Squared error of one tuning row. -/
def regLossAt (pred : List (Fin C → K)) (r : LossRow K) : Except PyErr K := do
  let v ← pyGet pred r.leaf
  let yhat ← pyGet (List.ofFn v) 0
  pure ((r.y - yhat) ^ 2)

theorem treeLoss_reg (rows : List (LossRow K)) (pred : List (Fin C → K)) : treeLoss .reg rows pred =
    if rows.isEmpty then .error .valueError else (rows.mapM (regLossAt pred)).map List.sum := by
  unfold treeLoss
  split_ifs
  · rfl
  · show (rows.mapM (regLossAt pred) >>= fun ls => pure ls.sum) = _
    cases rows.mapM (regLossAt pred) <;> rfl

theorem regLossAt_aff (a b : K) (pred : List (Fin C → K)) (r : LossRow K) :
    regLossAt (pred.map fun v c => a * v c + b) (affLossRow a b r) = (regLossAt pred r).map (a ^ 2 * ·) := by
  unfold regLossAt
  show (pyGet (pred.map fun v c => a * v c + b) r.leaf >>= _) = _
  rw [pyGet_map]
  cases pyGet pred r.leaf with
  | error e => rfl
  | ok v =>
    show (pyGet (List.ofFn fun c => a * v c + b) 0 >>= _) = Except.map _ (pyGet (List.ofFn v) 0 >>= _)
    rw [show (List.ofFn fun c => a * v c + b) = (List.ofFn v).map fun x => a * x + b by rw [List.map_ofFn]; rfl, pyGet_map]
    cases pyGet (List.ofFn v) 0 with
    | error e => rfl
    | ok x =>
      show Except.ok ((a * r.y + b - (a * x + b)) ^ 2) = Except.ok (a ^ 2 * (r.y - x) ^ 2)
      congr 1
      ring

theorem treeLoss_aff (a b : K) (rows : List (LossRow K)) (pred : List (Fin C → K)) :
    treeLoss .reg (rows.map (affLossRow a b)) (pred.map fun v c => a * v c + b) =
      (treeLoss .reg rows pred).map (a ^ 2 * ·) := by
  rw [treeLoss_reg, treeLoss_reg, List.isEmpty_map]
  split_ifs
  · rfl
  · rw [List.mapM_map, show (regLossAt (pred.map fun v c => a * v c + b) ∘ affLossRow a b) =
      fun r => (regLossAt pred r).map (a ^ 2 * ·) from funext (regLossAt_aff a b pred), mapM_map_res]
    cases rows.mapM (regLossAt pred) with
    | error e => rfl
    | ok ls =>
      show Except.ok (ls.map (a ^ 2 * ·)).sum = Except.ok (a ^ 2 * ls.sum)
      rw [List.sum_map_mul_left, List.map_id']

theorem mapM_res_mem {α β : Type} {f : α → Except PyErr β} {y : β} : ∀ {l : List α} {ys : List β}, l.mapM f = .ok ys → y ∈ ys →
    ∃ x ∈ l, f x = .ok y
  | [], ys, h, hy => by
    cases h
    cases hy
  | x :: l, ys, h, hy => by
    rw [List.mapM_cons] at h
    obtain ⟨z, h1, h⟩ := bind_ok h
    obtain ⟨zs, h2, h⟩ := bind_ok h
    cases h
    rcases List.mem_cons.1 hy with rfl | hy
    · exact ⟨x, List.mem_cons_self, h1⟩
    · obtain ⟨w, hw, e⟩ := mapM_res_mem h2 hy
      exact ⟨w, List.mem_cons_of_mem _ hw, e⟩

theorem mapM_res_length {α β : Type} {f : α → Except PyErr β} : ∀ {l : List α} {ys : List β}, l.mapM f = .ok ys → ys.length = l.length
  | [], ys, h => by
    cases h
    rfl
  | x :: l, ys, h => by
    rw [List.mapM_cons] at h
    obtain ⟨z, h1, h⟩ := bind_ok h
    obtain ⟨zs, h2, h⟩ := bind_ok h
    cases h
    rw [List.length_cons, List.length_cons, mapM_res_length h2]

theorem mapM_res_at {α β : Type} {f : α → Except PyErr β} {x : α} : ∀ {l : List α} {ys : List β}, l.mapM f = .ok ys → x ∈ l →
    ∃ y, f x = .ok y
  | [], ys, h, hx => by cases hx
  | z :: l, ys, h, hx => by
    rw [List.mapM_cons] at h
    obtain ⟨w, h1, h⟩ := bind_ok h
    obtain ⟨ws, h2, h⟩ := bind_ok h
    rcases List.mem_cons.1 hx with rfl | hx
    · exact ⟨w, h1⟩
    · exact mapM_res_at h2 hx

theorem treeLoss_reg_nonneg {rows : List (LossRow K)} {pred : List (Fin C → K)} {x : K}
    (h : treeLoss .reg rows pred = .ok x) : 0 ≤ x := by
  rw [treeLoss_reg] at h
  split_ifs at h
  cases h1 : rows.mapM (regLossAt pred) with
  | error e => rw [h1] at h; cases h
  | ok ls =>
    rw [h1] at h
    cases h
    refine List.sum_nonneg fun q hq => ?_
    obtain ⟨r, -, h2⟩ := mapM_res_mem h1 hq
    obtain ⟨v, -, h2⟩ := bind_ok h2
    obtain ⟨z, -, h2⟩ := bind_ok h2
    cases h2
    exact sq_nonneg _

/-- The fill of the sentinel: a tree with candidate depths scales, one without gives -1 throughout. -/
theorem treeLossVec_scale {s : K} (hs : 0 < s) (m : ℕ) (prev : Option ℕ) {ls : List K} (hl : ∀ x ∈ ls, 0 ≤ x) :
    ∃ c : K, (c ≠ 0 → ls = []) ∧ treeLossVec m prev (ls.map (s * ·)) =
      (treeLossVec m prev ls).map fun p => (p.1.map (fun x => s * x + c), p.2) := by
  by_cases h0 : ls = []
  · subst h0
    refine ⟨s - 1, fun _ => rfl, ?_⟩
    unfold treeLossVec
    simp only [List.map_nil, List.length_nil, if_true, List.nil_append, Nat.sub_zero]
    cases prev with
    | none => rfl
    | some i =>
      show (pyGet (List.replicate m (-1 : K)) i >>= _) = Except.map _ (pyGet (List.replicate m (-1 : K)) i >>= _)
      cases hp : pyGet (List.replicate m (-1 : K)) i with
      | error e => rfl
      | ok f =>
        have hf : f = -1 := by
          unfold pyGet at hp
          rw [List.getElem?_replicate] at hp
          split_ifs at hp
          cases hp
          rfl
        show Except.ok (_, some i) = Except.ok (_, some i)
        rw [hf]
        have : (-1 : K) = -s + (s - 1) := by ring
        simp [← this]
  · have hlen : ls.length ≠ 0 := fun e => h0 (List.length_eq_zero_iff.1 e)
    refine ⟨0, fun h => absurd rfl h, ?_⟩
    unfold treeLossVec
    simp only [List.length_map, if_neg hlen]
    have e1 : pyGet (ls.map (s * ·) ++ List.replicate (m - ls.length) (-1)) (ls.length - 1) =
        (pyGet ls (ls.length - 1)).map (s * ·) := by
      rw [← pyGet_map]
      unfold pyGet
      rw [List.getElem?_append_left (by rw [List.length_map]; omega)]
    have e2 : pyGet (ls ++ List.replicate (m - ls.length) (-1)) (ls.length - 1) = pyGet ls (ls.length - 1) := by
      unfold pyGet
      rw [List.getElem?_append_left (by omega)]
    rw [e1, e2]
    cases hp : pyGet ls (ls.length - 1) with
    | error e => rfl
    | ok f =>
      show Except.ok (_, _) = Except.ok (_, _)
      congr 2
      rw [List.map_append, List.map_append, List.map_append, List.map_map, List.map_map]
      congr 1
      · refine List.map_congr_left fun x hx => ?_
        have h1 : ¬ x = -1 := fun e => by linarith [hl x hx]
        have h2 : ¬ s * x = -1 := fun e => by linarith [mul_nonneg hs.le (hl x hx)]
        simp [h1, h2]
      · simp

theorem zipWith_add_scale (s c c' : K) : ∀ u v : List K,
    List.zipWith (· + ·) (u.map fun x => s * x + c) (v.map fun x => s * x + c') =
      (List.zipWith (· + ·) u v).map fun x => s * x + (c + c')
  | [], _ => by simp
  | _ :: _, [] => by simp
  | x :: u, y :: v => by
    simp only [List.map_cons, List.zipWith_cons_cons, zipWith_add_scale s c c' u v]
    congr 1
    ring

theorem depthTuneStep_aff {a : K} (ha : a ≠ 0) (b : K) (m : ℕ) (tune : ℕ → List (LossRow K)) (u : List K) (i : Option ℕ) (c : K)
    (tt : SkTree K C × ℕ) : ∃ c' : K, (c' ≠ 0 → c ≠ 0 ∨ Topo.npMax tt.1.depthPerNode = 0) ∧
      depthTuneStep .reg m (fun k => (tune k).map (affLossRow a b)) (u.map fun x => a ^ 2 * x + c, i) (affTree a b tt.1, tt.2) =
      (depthTuneStep .reg m tune (u, i) tt).map fun p => (p.1.map (fun x => a ^ 2 * x + c'), p.2) := by
  unfold depthTuneStep
  simp only [leafPredictedValues_aff]
  cases hp : leafPredictedValues tt.1 with
  | error e => exact ⟨0, fun h => absurd rfl h, rfl⟩
  | ok pred =>
    have hlen : pred.length = Topo.npMax tt.1.depthPerNode := by
      have := mapM_res_length hp
      rw [List.length_range] at this
      exact this
    have e1 : ((pred.map (List.map fun v c => a * v c + b)).mapM (treeLoss .reg ((tune tt.2).map (affLossRow a b)))) =
        (pred.mapM (treeLoss .reg (tune tt.2))).map (List.map (a ^ 2 * ·)) := by
      rw [List.mapM_map, ← mapM_map_res]
      congr 1
      funext q
      exact treeLoss_aff a b _ _
    show ∃ c', _ ∧ (((pred.map (List.map fun v c => a * v c + b)).mapM (treeLoss .reg ((tune tt.2).map (affLossRow a b)))) >>= _) =
      Except.map _ (pred.mapM (treeLoss .reg (tune tt.2)) >>= _)
    rw [e1]
    cases hl : pred.mapM (treeLoss .reg (tune tt.2)) with
    | error e => exact ⟨0, fun h => absurd rfl h, rfl⟩
    | ok ls =>
      obtain ⟨c1, h1, h2⟩ := treeLossVec_scale (s := a ^ 2) (by positivity) m i (ls := ls) fun x hx => by
        obtain ⟨q, -, e⟩ := mapM_res_mem hl hx
        exact treeLoss_reg_nonneg e
      refine ⟨c + c1, fun hc => ?_, ?_⟩
      · by_cases h0 : c = 0
        · right
          have := h1 fun e => hc (by rw [h0, e, add_zero])
          rw [← hlen, ← mapM_res_length hl, this]
          rfl
        · exact Or.inl h0
      · show (treeLossVec m i (ls.map (a ^ 2 * ·)) >>= _) = Except.map _ (treeLossVec m i ls >>= _)
        rw [h2]
        cases treeLossVec m i ls with
        | error e => rfl
        | ok q =>
          show Except.ok (List.zipWith (· + ·) (u.map fun x => a ^ 2 * x + c) (q.1.map fun x => a ^ 2 * x + c1), q.2) = _
          rw [zipWith_add_scale]
          rfl

theorem depthFold_aff {a : K} (ha : a ≠ 0) (b : K) (m : ℕ) (tune : ℕ → List (LossRow K)) : ∀ (l : List (SkTree K C × ℕ)) (u : List K)
    (i : Option ℕ) (c : K), ∃ c' : K, (c' ≠ 0 → c ≠ 0 ∨ ∃ tt ∈ l, Topo.npMax tt.1.depthPerNode = 0) ∧
      (l.map fun tt => (affTree a b tt.1, tt.2)).foldlM (depthTuneStep .reg m fun k => (tune k).map (affLossRow a b))
        (u.map fun x => a ^ 2 * x + c, i) =
      (l.foldlM (depthTuneStep .reg m tune) (u, i)).map fun p => (p.1.map (fun x => a ^ 2 * x + c'), p.2)
  | [], u, i, c => ⟨c, fun h => Or.inl h, rfl⟩
  | tt :: l, u, i, c => by
    obtain ⟨c1, h1, h2⟩ := depthTuneStep_aff ha b m tune u i c tt
    rw [List.map_cons, List.foldlM_cons, List.foldlM_cons, h2]
    cases depthTuneStep .reg m tune (u, i) tt with
    | error e => exact ⟨0, fun h => absurd rfl h, rfl⟩
    | ok p =>
      obtain ⟨c2, h3, h4⟩ := depthFold_aff ha b m tune l p.1 p.2 c1
      refine ⟨c2, fun hc => ?_, h4⟩
      rcases h3 hc with h | ⟨q, hq, e⟩
      · rcases h1 h with h | h
        · exact Or.inl h
        · exact Or.inr ⟨tt, List.mem_cons_self, h⟩
      · exact Or.inr ⟨q, List.mem_cons_of_mem _ hq, e⟩

/-- One comparison of `npArgmax`. -/
def argStep (b : Option K × ℕ) (x : K × ℕ) : Option K × ℕ :=
  match b.1 with
  | none => (some x.1, x.2)
  | some m => if m < x.1 then (some x.1, x.2) else b

theorem npArgmax_mono {f : K → K} (hf : ∀ x y, f x < f y ↔ x < y) (v : List K) : npArgmax (v.map f) = npArgmax v := by
  have h : ∀ (l : List (K × ℕ)) (b : Option K × ℕ), (l.map (Prod.map f id)).foldl argStep (b.1.map f, b.2) =
      ((l.foldl argStep b).1.map f, (l.foldl argStep b).2) := by
    intro l
    induction l with
    | nil => exact fun b => rfl
    | cons x l ih =>
      intro b
      rw [List.map_cons, List.foldl_cons, List.foldl_cons, ← ih]
      congr 1
      obtain ⟨b1, b2⟩ := b
      cases b1 with
      | none => rfl
      | some m =>
        show (if f m < f x.1 then (some (f x.1), x.2) else (some (f m), b2)) =
          ((if m < x.1 then (some x.1, x.2) else (some m, b2)).1.map f, (if m < x.1 then (some x.1, x.2) else (some m, b2)).2)
        by_cases h : m < x.1
        · rw [if_pos ((hf _ _).2 h), if_pos h]
          rfl
        · rw [if_neg (mt (hf _ _).1 h), if_neg h]
          rfl
  show ((v.map f).zipIdx.foldl argStep (none, 0)).2 = (v.zipIdx.foldl argStep (none, 0)).2
  rw [List.zipIdx_map]
  have := congrArg Prod.snd (h v.zipIdx (none, 0))
  exact this

theorem npArgmin_scale {s : K} (hs : 0 < s) (c : K) (v : List K) : npArgmin (v.map fun x => s * x + c) = npArgmin v := by
  cases v with
  | nil => rfl
  | cons x v =>
    show Except.ok (npArgmax (((x :: v).map fun x => s * x + c).map fun x => -x)) = Except.ok (npArgmax ((x :: v).map fun x => -x))
    rw [List.map_map, show ((fun x : K => -x) ∘ fun x => s * x + c) = (fun x => s * x - c) ∘ fun x : K => -x by
      funext z; simp only [Function.comp]; ring, ← List.map_map]
    congr 1
    refine npArgmax_mono (fun p q => ?_) _
    rw [sub_lt_sub_iff_right, mul_lt_mul_iff_right₀ hs]

theorem writeLeaves_aff (a b : K) (t : SkTree K C) (vals : List (Fin C → K)) :
    writeLeaves (affTree a b t) (vals.map fun v c => a * v c + b) = (writeLeaves t vals).map (affTree a b) := by
  unfold writeLeaves
  rw [List.length_map]
  by_cases h : vals.length = t.nLeaves ∨ vals.length = 1
  · rw [if_pos h]
    refine (if_pos h).trans ?_
    have hv : newValue (affTree a b t) (vals.map fun v c => a * v c + b) = fun i c => a * newValue t vals i c + b := by
      funext i c
      unfold newValue
      by_cases hr : t.right i = none
      · rw [if_pos hr]
        refine (if_pos hr).trans ?_
        obtain ⟨r, rfl⟩ := exists_leafNode (t := t.toTopo) (i := i) hr
        have hi : (if vals.length = 1 then 0 else (t.leafIdx (t.leafNode r)).toNat) < vals.length := by
          split_ifs with h1
          · omega
          · rw [leafIdx_leafNode]
            have := r.isLt
            simp only [Int.toNat_natCast]
            omega
        show ((vals.map fun v c => a * v c + b)[if (vals.map fun v c => a * v c + b).length = 1 then 0 else
          (t.leafIdx (t.leafNode r)).toNat]?).elim 0 (fun v => v c) = _
        rw [List.length_map, List.getElem?_map, List.getElem?_eq_getElem hi]
        rfl
      · rw [if_neg hr]
        exact if_neg hr
    show Except.ok _ = Except.ok _
    rw [hv]
    rfl
  · rw [if_neg h]
    exact if_neg h

theorem truncateTree_aff (a b : K) (best : ℕ) (t : SkTree K C) :
    truncateTree best (affTree a b t) = (truncateTree best t).map (affTree a b) := by
  unfold truncateTree
  rw [leafPredictedValues_aff]
  cases leafPredictedValues t with
  | error e => rfl
  | ok pred =>
    show (if (pred.map (List.map fun v c => a * v c + b)).length = 0 then _ else _) = Except.map _ (if pred.length = 0 then _ else _)
    rw [List.length_map]
    split_ifs
    · rfl
    · rw [pyGet_map]
      cases pyGet pred (min (pred.length - 1) best) with
      | error e => rfl
      | ok v => exact writeLeaves_aff a b t v

/-- C208, depth_tune: with forest and tuning responses in other units (`a ≠ 0`, any `b`) `depth_tune` raises the same exception, or
stores `a^2` times the losses and returns the same forest in the other units, truncated at the same depth. -/
theorem C208_depth_tune {a : K} (ha : a ≠ 0) (b : K) (forest : List (SkTree K C)) (data : DataArgs)
    (sources : TuneSrc → ℕ → List (LossRow K)) :
    depthTune (some .reg) (forest.map (affTree a b)) data (fun s k => (sources s k).map (affLossRow a b)) =
      (depthTune (some .reg) forest data sources).map fun p => (p.1.map (affTree a b), p.2.map (a ^ 2 * ·)) := by
  unfold depthTune
  simp only [forestDepth_aff]
  cases tuneSource data with
  | error e => rfl
  | ok src =>
    obtain ⟨c, h1, h2⟩ := depthFold_aff ha b (forestDepth forest) (sources src) forest.zipIdx (List.replicate (forestDepth forest) 0)
      none 0
    have e0 : (List.replicate (forestDepth forest) (0 : K)).map (fun x => a ^ 2 * x + 0) = List.replicate (forestDepth forest) 0 := by
      rw [List.map_replicate, mul_zero, add_zero]
    have ez : (forest.map (affTree a b)).zipIdx = forest.zipIdx.map fun tt => (affTree a b tt.1, tt.2) := by
      rw [List.zipIdx_map]
      rfl
    rw [e0] at h2
    show ((forest.map (affTree a b)).zipIdx.foldlM _ _ >>= _) = Except.map _ (forest.zipIdx.foldlM _ _ >>= _)
    rw [ez, h2]
    cases forest.zipIdx.foldlM (depthTuneStep .reg (forestDepth forest) (sources src)) (List.replicate (forestDepth forest) 0, none) with
    | error e => rfl
    | ok s =>
      show (npArgmin (s.1.map fun x => a ^ 2 * x + c) >>= _) = Except.map _ (npArgmin s.1 >>= _)
      rw [npArgmin_scale (by positivity)]
      cases npArgmin s.1 with
      | error e => rfl
      | ok best =>
        show ((forest.map (affTree a b)).mapM (truncateTree best) >>= _) = Except.map _ (forest.mapM (truncateTree best) >>= _)
        rw [List.mapM_map, show (truncateTree best ∘ affTree a b) = fun t => (truncateTree best t).map (affTree a b) from
          funext (truncateTree_aff (C := C) a b best), mapM_map_res]
        cases ho : forest.mapM (truncateTree best) with
        | error e => rfl
        | ok out =>
          have hc : c = 0 := by
            by_contra hc
            rcases h1 hc with h | ⟨tt, htt, hz⟩
            · exact h rfl
            · obtain ⟨q, hq⟩ := mapM_res_at ho (List.fst_mem_of_mem_zipIdx htt)
              unfold truncateTree at hq
              obtain ⟨pred, hp, hq⟩ := bind_ok hq
              have := mapM_res_length hp
              rw [List.length_range, hz] at this
              rw [if_pos this] at hq
              cases hq
          subst hc
          show Except.ok (_, _) = Except.ok (_, _)
          simp only [add_zero]

/-! ### the pruning table -/

/-- A table entry in other units. -/
def Fl.scale (s : K) : Fl K → Fl K
  | .fin x => .fin (s * x)
  | .nan => .nan
  | .inf => .inf

/-- The pruning table with both risk columns and `g1` in other units. -/
def scaleDf {t : Topo} (s : K) (df : PDf K t) : PDf K t := fun i =>
  { df i with rOne := s * (df i).rOne, rSub := s * (df i).rSub, g1 := (df i).g1.scale s }

theorem flDiv_scale {s : K} (hs : s ≠ 0) (x d : K) : flDiv (s * x) d = (flDiv x d).scale s := by
  unfold flDiv
  by_cases hd : d = 0
  · rw [if_pos hd, if_pos hd]
    by_cases hx : x = 0
    · rw [if_pos hx, if_pos (by rw [hx, mul_zero])]
      rfl
    · rw [if_neg hx, if_neg (mul_ne_zero hs hx)]
      rfl
  · rw [if_neg hd, if_neg hd, mul_div_assoc]
    rfl

variable {t : Topo}

theorem scaleDf_update (s : K) (df : PDf K t) (i : t.Node) (r : PRow K (t.m + 1)) :
    scaleDf s (Function.update df i r) = Function.update (scaleDf s df) i
      { r with rOne := s * r.rOne, rSub := s * r.rSub, g1 := r.g1.scale s } := by
  funext j
  by_cases h : j = i
  · subst h
    simp only [scaleDf, Function.update_self]
  · simp only [scaleDf, Function.update_of_ne h]

theorem recInit_scale (s : K) : ∀ (fuel : ℕ) (df : PDf K t) (i : t.Node),
    recInit t fuel (scaleDf s df) i = (recInit t fuel df i).map (scaleDf s)
  | 0, _, _ => rfl
  | fuel + 1, df, i => by
    unfold recInit
    show (match (df i).cLeft, (df i).cRight with
      | .leaf, _ => _
      | .node l, .node r => _
      | _, _ => _) = _
    cases hl : (df i).cLeft with
    | leaf =>
      show Except.ok _ = Except.ok _
      rw [scaleDf_update]
      rfl
    | pruned => rfl
    | node l =>
      cases hr : (df i).cRight with
      | leaf => rfl
      | pruned => rfl
      | node r =>
        show (recInit t fuel (scaleDf s df) l >>= _) = Except.map _ (recInit t fuel df l >>= _)
        rw [recInit_scale s fuel df l]
        cases recInit t fuel df l with
        | error e => rfl
        | ok d1 =>
          show (recInit t fuel (scaleDf s d1) r >>= _) = Except.map _ (recInit t fuel d1 r >>= _)
          rw [recInit_scale s fuel d1 r]
          cases recInit t fuel d1 r with
          | error e => rfl
          | ok d2 =>
            show (if (d2 i).nObs = 0 then _ else _) = Except.map _ (if (d2 i).nObs = 0 then _ else _)
            split_ifs
            · rfl
            · show Except.ok _ = Except.ok _
              rw [scaleDf_update]
              congr 2
              show PRow.mk _ _ _ _ _ _ _ _ = PRow.mk _ _ _ _ _ _ _ _
              congr 1
              show (s * (d2 l).rSub * (d2 l).nObs + s * (d2 r).rSub * (d2 r).nObs) / (d2 i).nObs = _
              rw [← mul_div_assoc]
              congr 1
              ring

theorem recCut_scale (s : K) : ∀ (fuel : ℕ) (df out : PDf K t) (i : t.Node),
    recCut t (scaleDf s df) fuel (scaleDf s out) i = (recCut t df fuel out i).map (scaleDf s)
  | 0, _, _, _ => rfl
  | fuel + 1, df, out, i => by
    have hfin : ∀ o : PDf K t, Function.update (scaleDf s o) i (cutRow (scaleDf s o i) (scaleDf s df i).rOne) =
        scaleDf s (Function.update o i (cutRow (o i) (df i).rOne)) := by
      intro o
      rw [scaleDf_update]
      rfl
    have e1 : (scaleDf s df i).cLeft = (df i).cLeft := rfl
    have e2 : (scaleDf s df i).cRight = (df i).cRight := rfl
    have ih := recCut_scale s fuel
    unfold recCut
    cases hl : (df i).cLeft <;> cases hr : (df i).cRight <;> simp only [e1, e2, hl, hr, ih, pure_bind]
    all_goals first
      | exact congrArg Except.ok (hfin out)
      | (cases recCut t df fuel out _ with
         | error e => rfl
         | ok o1 =>
           first
             | exact congrArg Except.ok (hfin o1)
             | (show (recCut t (scaleDf s df) fuel (scaleDf s o1) _ >>= _) = Except.map _ (recCut t df fuel o1 _ >>= _)
                rw [ih]
                cases recCut t df fuel o1 _ with
                | error e => rfl
                | ok o2 => exact congrArg Except.ok (hfin o2)))

theorem pruneDown_scale (s : K) (df : PDf K t) (i : t.Node) :
    pruneDown t (scaleDf s df) i = (pruneDown t df i).map (scaleDf s) := by
  have e0 : Function.update (scaleDf s df) i
      { scaleDf s df i with size := 1, rSub := (scaleDf s df i).rOne, cLeft := .leaf, cRight := .leaf } =
      scaleDf s (Function.update df i { df i with size := 1, rSub := (df i).rOne, cLeft := .leaf, cRight := .leaf }) := by
    rw [scaleDf_update]
    rfl
  have e1 : (scaleDf s df i).cLeft = (df i).cLeft := rfl
  have e2 : (scaleDf s df i).cRight = (df i).cRight := rfl
  have ih := recCut_scale (t := t) s (t.m + 1)
  unfold pruneDown
  rw [e0]
  generalize Function.update df i { df i with size := 1, rSub := (df i).rOne, cLeft := .leaf, cRight := .leaf } = out
  cases hl : (df i).cLeft <;> cases hr : (df i).cRight <;> simp only [e1, e2, hl, hr, ih, pure_bind]
  all_goals first
    | rfl
    | (cases recCut t df (t.m + 1) out _ with
       | error e => rfl
       | ok o1 =>
         first
           | rfl
           | exact ih df o1 _)

theorem upStep_scale {s : K} (hs : s ≠ 0) (df : PDf K t) (i : t.Node) :
    upStep t (scaleDf s df) i = (upStep t df i).map (scaleDf s) := by
  unfold upStep
  show (match (df i).cLeft, (df i).cRight with
    | .node l, .node r => _
    | _, _ => _) = _
  cases (df i).cLeft with
  | leaf => rfl
  | pruned => rfl
  | node l =>
    cases (df i).cRight with
    | leaf => rfl
    | pruned => rfl
    | node r =>
      show (if (df i).nObs = 0 then _ else _) = Except.map _ (if (df i).nObs = 0 then _ else _)
      split_ifs
      · rfl
      · show Except.ok _ = Except.ok _
        rw [scaleDf_update]
        have e : ((scaleDf s df l).rSub * (df l).nObs + (scaleDf s df r).rSub * (df r).nObs) / (df i).nObs =
            s * (((df l).rSub * (df l).nObs + (df r).rSub * (df r).nObs) / (df i).nObs) := by
          show (s * (df l).rSub * (df l).nObs + s * (df r).rSub * (df r).nObs) / (df i).nObs = _
          rw [← mul_div_assoc]
          congr 1
          ring
        congr 2
        show PRow.mk _ _ _ _ _ _ _ _ = PRow.mk _ _ _ _ _ _ _ _
        congr 1
        show flDiv (s * (df i).rOne - ((scaleDf s df l).rSub * (df l).nObs + (scaleDf s df r).rSub * (df r).nObs) / (df i).nObs) _ = _
        rw [e, ← mul_sub, flDiv_scale hs]
        rfl

theorem upLoop_scale {s : K} (hs : s ≠ 0) : ∀ (fuel : ℕ) (df : PDf K t) (i : t.Node),
    upLoop t fuel (scaleDf s df) i = (upLoop t fuel df i).map (scaleDf s)
  | 0, _, _ => rfl
  | fuel + 1, df, i => by
    unfold upLoop
    rw [upStep_scale hs]
    cases upStep t df i with
    | error e => rfl
    | ok d1 =>
      show (match (d1 i).parent with
        | none => pure (scaleDf s d1)
        | some p => upLoop t fuel (scaleDf s d1) p) = (match (d1 i).parent with
        | none => pure d1
        | some p => upLoop t fuel d1 p : Except PyErr (PDf K t)).map (scaleDf s)
      cases (d1 i).parent with
      | none => rfl
      | some p => exact upLoop_scale hs fuel d1 p

theorem innerPrune_scale {s : K} (hs : s ≠ 0) (df : PDf K t) (idx : ℕ) :
    innerPrune t (scaleDf s df) idx = (innerPrune t df idx).map (scaleDf s) := by
  unfold innerPrune
  by_cases h : idx < t.m + 1
  · rw [dif_pos h, dif_pos h]
    show (match (df ⟨idx, h⟩).cLeft with
      | .node _ => pruneDown t (scaleDf s df) ⟨idx, h⟩ >>= fun out => pruneUp t out ⟨idx, h⟩
      | _ => .error .valueError) = (match (df ⟨idx, h⟩).cLeft with
      | .node _ => pruneDown t df ⟨idx, h⟩ >>= fun out => pruneUp t out ⟨idx, h⟩
      | _ => .error .valueError : Except PyErr (PDf K t)).map (scaleDf s)
    cases (df ⟨idx, h⟩).cLeft with
    | leaf => rfl
    | pruned => rfl
    | node _ =>
      show (pruneDown t (scaleDf s df) ⟨idx, h⟩ >>= _) = Except.map _ (pruneDown t df ⟨idx, h⟩ >>= _)
      rw [pruneDown_scale]
      cases pruneDown t df ⟨idx, h⟩ with
      | error e => rfl
      | ok d1 =>
        show pruneUp t (scaleDf s d1) ⟨idx, h⟩ = (pruneUp t d1 ⟨idx, h⟩).map (scaleDf s)
        unfold pruneUp
        show (match (d1 ⟨idx, h⟩).parent with
          | none => .ok (scaleDf s d1)
          | some p => upLoop t (t.m + 1) (scaleDf s d1) p) = (match (d1 ⟨idx, h⟩).parent with
          | none => .ok d1
          | some p => upLoop t (t.m + 1) d1 p : Except PyErr (PDf K t)).map (scaleDf s)
        cases (d1 ⟨idx, h⟩).parent with
        | none => rfl
        | some p => exact upLoop_scale hs _ d1 p
  · rw [dif_neg h, dif_neg h]
    rfl

/-- C208, cuts: the table after any sequence of cuts has both risk columns and `g1` in the other units and is the same otherwise;
an exception stays the same. -/
theorem C208_cuts {s : K} (hs : s ≠ 0) (df : PDf K t) (ops : List ℕ) :
    pruneMany t (scaleDf s df) ops = (pruneMany t df ops).map (scaleDf s) := by
  unfold pruneMany
  induction ops generalizing df with
  | nil => rfl
  | cons i ops ih =>
    rw [List.foldlM_cons, List.foldlM_cons, innerPrune_scale hs]
    cases innerPrune t df i with
    | error e => rfl
    | ok d1 => exact ih d1

theorem initDfOf_scale {s : K} (hs : s ≠ 0) (t : SkTree K C) (r : t.Node → K) :
    initDfOf t (fun i => s * r i) = (initDfOf t r).map (scaleDf s) := by
  unfold initDfOf
  have e : rawDf t (fun i => s * r i) = scaleDf s (rawDf t r) := rfl
  rw [e, recInit_scale]
  cases recInit t.toTopo (t.m + 1) (rawDf t r) 0 with
  | error e => rfl
  | ok df =>
    show Except.ok (appendG1 t.toTopo (scaleDf s df)) = Except.ok (scaleDf s (appendG1 t.toTopo df))
    congr 1
    funext i
    show PRow.mk _ _ _ _ _ _ _ _ = PRow.mk _ _ _ _ _ _ _ _
    congr 1
    show flDiv (s * (df i).rOne - s * (df i).rSub) _ = _
    rw [← mul_sub, flDiv_scale hs]
    rfl

/-- C208, table: the initial table of a regression tree whose impurities are in other units (squared factor `s`; the stored values
are not used). -/
theorem C208_table {s : K} (hs : s ≠ 0) (t : SkTree K C) (v : t.Node → Fin C → K) :
    initDf .reg { t with value := v, impurity := fun i => s * t.impurity i } = (initDf .reg t).map (scaleDf s) := by
  have h1 : ∀ u : SkTree K C, initDf .reg u = initDfOf u u.impurity := by
    intro u
    unfold initDf rSingleAll
    have e : (List.finRange (u.m + 1)).mapM (rSingle .reg u) = .ok ((List.finRange (u.m + 1)).map u.impurity) :=
      mapM_ok _ _ _ fun i _ => rfl
    rw [e]
    show initDfOf u (fun i => ((List.finRange (u.m + 1)).map u.impurity).getD i 0) = _
    congr 1
    funext i
    rw [List.getD_eq_getElem?_getD, List.getElem?_map, List.getElem?_eq_getElem (by rw [List.length_finRange]; exact i.isLt),
      List.getElem_finRange]
    rfl
  rw [h1, h1, ← initDfOf_scale hs]
  rfl

/-- The regression tree that is fitted when all responses are `a * y + b`. -/
def fitUnits (a b : K) (t : SkTree K 1) : SkTree K 1 :=
  { t with value := fun i c => a * t.value i c + b, impurity := fun i => a ^ 2 * t.impurity i }

/-- C208, training: a tree fitted to `rows` becomes, in other units, a tree fitted to the rows in the other units: values as the
responses, impurities with the squared factor. -/
theorem C208_fit {a : K} (b : K) {t : SkTree K 1} {rows : List (OobRow t.toTopo K)} (h : FitReg t rows) :
    FitReg (fitUnits a b t) (rows.map fun r => (⟨r.path, a * r.y + b⟩ : OobRow t.toTopo K)) := by
  have ht : ∀ i : t.Node, through (rows.map fun r => (⟨r.path, a * r.y + b⟩ : OobRow t.toTopo K)) i =
      (through rows i).map fun r => (⟨r.path, a * r.y + b⟩ : OobRow t.toTopo K) := by
    intro i
    unfold through
    rw [List.filter_map]
    rfl
  have h2 : ∀ i : t.Node, through (rows.map fun r => (⟨r.path, a * r.y + b⟩ : OobRow t.toTopo K)) i ≠ [] := by
    intro i
    rw [ht i]
    exact fun e => h.seen i (List.map_eq_nil_iff.1 e)
  have h3 : ∀ i : t.Node, t.nSamp i = ((through (rows.map fun r => (⟨r.path, a * r.y + b⟩ : OobRow t.toTopo K)) i).length : K) := by
    intro i
    rw [ht i, List.length_map]
    exact h.count i
  have h4 : ∀ i : t.Node, t.nSamp i * (a * t.value i 0 + b) =
      ((through (rows.map fun r => (⟨r.path, a * r.y + b⟩ : OobRow t.toTopo K)) i).map fun r => r.y).sum := by
    intro i
    rw [ht i, List.map_map]
    show t.nSamp i * (a * t.value i 0 + b) = ((through rows i).map fun r => a * r.y + b).sum
    rw [List.sum_map_add, List.sum_map_mul_left, ← h.mean i, List.map_const', List.sum_replicate, nsmul_eq_mul, ← h.count i]
    ring
  have h5 : ∀ i : t.Node, t.nSamp i * (a ^ 2 * t.impurity i) =
      ((through (rows.map fun r => (⟨r.path, a * r.y + b⟩ : OobRow t.toTopo K)) i).map fun r =>
        (r.y - (a * t.value i 0 + b)) ^ 2).sum := by
    intro i
    rw [ht i, List.map_map]
    show t.nSamp i * (a ^ 2 * t.impurity i) = ((through rows i).map fun r => (a * r.y + b - (a * t.value i 0 + b)) ^ 2).sum
    rw [mul_left_comm, h.mse i, ← List.sum_map_mul_left]
    congr 1
    exact List.map_congr_left fun r _ => by ring
  refine ⟨fun r hr => ?_, h2, h3, h4, h5⟩
  obtain ⟨q, hq, rfl⟩ := List.mem_map.1 hr
  exact h.routed q hq

/-- C208, pruning a regression tree in other units: the same cuts give the same exceptions, or the same table with both risk columns
and `g1` multiplied by `a^2`. -/
theorem C208_pruning {a : K} (ha : a ≠ 0) (b : K) (t : SkTree K 1) (ops : List ℕ) :
    (initDf .reg (fitUnits a b t) >>= fun df => pruneMany t.toTopo df ops) =
      (initDf .reg t >>= fun df => pruneMany t.toTopo df ops).map (scaleDf (a ^ 2)) := by
  have hs : a ^ 2 ≠ 0 := pow_ne_zero 2 ha
  have e : initDf .reg (fitUnits a b t) = (initDf .reg t).map (scaleDf (a ^ 2)) := C208_table hs t _
  rw [e]
  cases initDf .reg t with
  | error e => rfl
  | ok df => exact C208_cuts hs df ops

/-- C208, which node to cut: a node has the smallest finite `g1` in one unit exactly if it has it in the other. -/
theorem C208_smallest_g1 {a : K} (ha : a ≠ 0) {t : Topo} (df : PDf K t) (i : t.Node) :
    (∃ x, (scaleDf (a ^ 2) df i).g1 = .fin x ∧ ∀ j y, (scaleDf (a ^ 2) df j).g1 = .fin y → x ≤ y) ↔
      ∃ x, (df i).g1 = .fin x ∧ ∀ j y, (df j).g1 = .fin y → x ≤ y := by
  have hs : 0 < a ^ 2 := by positivity
  have key : ∀ j y, (df j).g1 = .fin y → (scaleDf (a ^ 2) df j).g1 = .fin (a ^ 2 * y) := by
    intro j y h
    show ((df j).g1).scale (a ^ 2) = _
    rw [h]
    rfl
  have back : ∀ j y, (scaleDf (a ^ 2) df j).g1 = .fin y → ∃ z, (df j).g1 = .fin z ∧ y = a ^ 2 * z := by
    intro j y h
    have h : ((df j).g1).scale (a ^ 2) = .fin y := h
    cases hg : (df j).g1 with
    | fin z =>
      rw [hg] at h
      exact ⟨z, rfl, (Fl.fin.inj h).symm⟩
    | nan => rw [hg] at h; cases h
    | inf => rw [hg] at h; cases h
  constructor
  · rintro ⟨x, hx, hmin⟩
    obtain ⟨z, hz, rfl⟩ := back i x hx
    exact ⟨z, hz, fun j y hy => le_of_mul_le_mul_left (hmin j _ (key j y hy)) hs⟩
  · rintro ⟨x, hx, hmin⟩
    refine ⟨_, key i x hx, fun j y hy => ?_⟩
    obtain ⟨z, hz, rfl⟩ := back j y hy
    exact mul_le_mul_of_nonneg_left (hmin j z hz) hs.le

/-- Two runs of `depth_tune`, the second with responses `-2 y + 5`: same depth, four times the losses. -/
example : ([(1, 0), (-2, 5)] : List (ℚ × ℚ)).map (fun u => match depthTune (some .reg) ([exStump, exTree].map (affTree u.1 u.2)) exData
      (fun _ _ => [⟨0, u.1 * 1 + u.2⟩, ⟨1, u.1 * 4 + u.2⟩]) with
    | .ok r => some (valuesOf r.1, r.2)
    | .error _ => none) = [some ([[[5 / 2], [5 / 2], [5 / 2]], [[13 / 2], [3], [3], [3], [10]]], [41, 19 / 2]),
      some ([[[0], [0], [0]], [[-8], [-1], [-1], [-1], [-15]]], [164, 38])] := by decide +kernel

/-- A tree with three leaves, one cut. -/
example : (match initDf .reg exTree with
    | .ok df => match pruneMany exTree.toTopo df [1] with
      | .ok df' => some (colsOf df')
      | .error _ => none
    | .error _ => none) =
      some [(9, 5 / 2, 2, .fin (13 / 2)), (2, 2, 1, .fin (4 / 3)), (0, 0, 0, .nan), (1, 1, 0, .nan), (3, 3, 1, .nan)] := by
  decide +kernel

/-- The same in a third of the unit. -/
example : (match initDf .reg (fitUnits 3 7 exTree) with
    | .ok df => match pruneMany exTree.toTopo df [1] with
      | .ok df' => some (colsOf df')
      | .error _ => none
    | .error _ => none) =
      some [(81, 45 / 2, 2, .fin (117 / 2)), (18, 18, 1, .fin 12), (0, 0, 0, .nan), (9, 9, 0, .nan), (27, 27, 1, .nan)] := by
  decide +kernel

end SmoothRF
