import Verif.Model.Experiment
import Verif.Props.SmoothImpProps
import Verif.Props.TorchCenterProps

/-! # The experiment drivers (C122-C127) -/

set_option linter.unusedSectionVars false

namespace SmoothRF
open SkTree

variable {K : Type} [Field K] [LinearOrder K] [IsStrictOrderedRing K] {C : ℕ}

/-! ### Labels -/

/-- A rendering of numbers that can be told apart and has no separator in it. -/
structure GoodStr (str : K → String) : Prop where
  inj : Function.Injective str
  clean : ∀ x, ',' ∉ (str x).toList ∧ '_' ∉ (str x).toList

theorem split_at {sep : Char} : ∀ {a b x y : List Char}, sep ∉ a → sep ∉ b →
    a ++ sep :: x = b ++ sep :: y → a = b ∧ x = y
  | [], [], _, _, _, _, h => by simpa using h
  | [], b :: bs, _, _, _, hb, h => by
    simp only [List.nil_append, List.cons_append, List.cons.injEq] at h
    exact absurd (by simp [h.1]) hb
  | a :: as, [], _, _, ha, _, h => by
    simp only [List.nil_append, List.cons_append, List.cons.injEq] at h
    exact absurd (by simp [h.1]) ha
  | a :: as, b :: bs, x, y, ha, hb, h => by
    simp only [List.cons_append, List.cons.injEq] at h
    obtain ⟨h1, h2⟩ := split_at (fun h => ha (by simp [h])) (fun h => hb (by simp [h])) h.2
    exact ⟨by rw [h.1, h1], h2⟩

theorem split_field {lab a b x y : List Char} (hl : lab.head? = some ',') (ha : ',' ∉ a) (hb : ',' ∉ b)
    (h : a ++ (lab ++ x) = b ++ (lab ++ y)) : a = b ∧ x = y := by
  cases lab with
  | nil => cases hl
  | cons c l =>
    cases hl
    obtain ⟨h1, h2⟩ := split_at ha hb h
    exact ⟨h1, List.append_cancel_left h2⟩

theorem distStr_inj {a b : Bool} (h : (distStr a).toList = (distStr b).toList) : a = b := by
  revert h; cases a <;> cases b <;> decide

theorem distStr_comma (a : Bool) : ',' ∉ (distStr a).toList := by cases a <;> decide

theorem boolStr_inj {a b : Bool} (h : (boolStr a).toList = (boolStr b).toList) : a = b := by
  revert h; cases a <;> cases b <;> decide

theorem boolStr_comma (a : Bool) : ',' ∉ (boolStr a).toList := by cases a <;> decide

theorem styleStr_inj {a b : Topo.Style} (h : (styleStr a).toList = (styleStr b).toList) : a = b := by
  revert h; cases a <;> cases b <;> decide

theorem styleStr_comma (a : Topo.Style) : ',' ∉ (styleStr a).toList := by cases a <;> decide

theorem repr_digits {n : ℕ} {c : Char} (h : c ∈ n.repr.toList) : c.isDigit = true := by
  rw [Nat.toList_repr] at h
  exact Nat.isDigit_of_mem_toDigits (by decide) (by decide) h

theorem levelStr_comma (l : Option ℕ) : ',' ∉ (levelStr l).toList := by
  cases l with
  | none => decide
  | some n => exact fun h => absurd (repr_digits h) (by decide)

theorem bothLevelStr_comma (l : Option ℕ) : ',' ∉ (bothLevelStr l).toList := by
  cases l with
  | none => decide
  | some n =>
    intro h
    rw [bothLevelStr, String.toList_append, List.mem_append] at h
    exact h.elim (by decide) fun h => absurd (repr_digits h) (by decide)

theorem seedStr_comma (l : Option ℕ) : ',' ∉ (seedStr l).toList := by
  cases l with
  | none => decide
  | some n => exact fun h => absurd (repr_digits h) (by decide)

theorem repr_ne_rf (n : ℕ) : n.repr.toList ≠ "rf".toList := fun h =>
  absurd (repr_digits (n := n) (c := 'r') (by rw [h]; decide)) (by decide)

theorem seedStr_inj {a b : Option ℕ} (h : (seedStr a).toList = (seedStr b).toList) : a = b := by
  cases a <;> cases b
  · rfl
  · exact absurd h.symm (repr_ne_rf _)
  · exact absurd h (repr_ne_rf _)
  · exact congrArg some (Nat.repr_injective (String.toList_injective h))

theorem adamStr_inj {str : K → String} (hs : GoodStr str) {a b : Option (AdamOpts K)}
    (h : (adamStr str a).toList = (adamStr str b).toList) : a = b := by
  have key : ∀ x : AdamOpts K, (adamStr str (some x)).toList =
      '(' :: ((str x.alpha).toList ++ '_' :: ((str x.beta1).toList ++ '_' ::
        ((str x.beta2).toList ++ '_' :: ((str x.eps).toList ++ [')'])))) := by
    intro x
    simp [adamStr, String.toList_append]
  cases a with
  | none =>
    cases b with
    | none => rfl
    | some b => rw [key] at h; exact absurd (congrArg List.head? h) (by simp [adamStr])
  | some a =>
    cases b with
    | none => rw [key] at h; exact absurd (congrArg List.head? h) (by simp [adamStr])
    | some b =>
      rw [key, key, List.cons.injEq] at h
      obtain ⟨h1, h⟩ := split_at (hs.clean _).2 (hs.clean _).2 h.2
      obtain ⟨h2, h⟩ := split_at (hs.clean _).2 (hs.clean _).2 h
      obtain ⟨h3, h⟩ := split_at (hs.clean _).2 (hs.clean _).2 h
      have h4 := List.append_cancel_right h
      have e1 := hs.inj (String.toList_injective h1)
      have e2 := hs.inj (String.toList_injective h2)
      have e3 := hs.inj (String.toList_injective h3)
      have e4 := hs.inj (String.toList_injective h4)
      cases a; cases b
      simp only at e1 e2 e3 e4
      subst e1 e2 e3 e4
      rfl

/-- C122: the label of a `smooth_clean` job determines all six parameters. -/
theorem C122_names {str : K → String} (hs : GoodStr str) (levels : Option ℕ) :
    Function.Injective (cleanName str levels) := by
  intro p q h
  have h := congrArg String.toList h
  unfold cleanName at h
  simp only [String.toList_append, List.append_assoc] at h
  have h := List.append_cancel_left (List.append_cancel_left h)
  obtain ⟨h1, h⟩ := split_field (by decide) (distStr_comma _) (distStr_comma _) h
  obtain ⟨-, h⟩ := split_field (by decide) (levelStr_comma _) (levelStr_comma _) h
  obtain ⟨h2, h⟩ := split_field (by decide) (styleStr_comma _) (styleStr_comma _) h
  obtain ⟨h3, h⟩ := split_field (by decide) (boolStr_comma _) (boolStr_comma _) h
  obtain ⟨h4, h⟩ := split_field (by decide) (boolStr_comma _) (boolStr_comma _) h
  obtain ⟨h5, h⟩ := split_field (by decide) (seedStr_comma _) (seedStr_comma _) h
  have h6 := adamStr_inj hs h
  have e1 := distStr_inj h1
  have e2 := styleStr_inj h2
  have e3 := boolStr_inj h3
  have e4 := boolStr_inj h4
  have e5 := seedStr_inj h5
  cases p; cases q
  simp only [Bool.not_inj_iff] at e1 e2 e3 e4 e5 h6
  subst e1 e2 e3 e4 e5 h6
  rfl

/-! ### Storing the records -/

theorem foldl_dictSet {R : Type} : ∀ (l : List (String × R)) (d : List (String × R)),
    (l.map Prod.fst).Nodup →
    (∀ e ∈ d, ∀ x ∈ l, e.1 ≠ "smooth_element_based," ++ x.1) →
    l.foldl (fun d nr => dictSet d ("smooth_element_based," ++ nr.1) nr.2) d =
      d ++ l.map fun x => ("smooth_element_based," ++ x.1, x.2)
  | [], d, _, _ => by simp
  | x :: l, d, hn, hd => by
    rw [List.foldl_cons, dictSet_new _ _ _ fun e he => hd e he x (by simp)]
    rw [List.map_cons, List.nodup_cons] at hn
    rw [foldl_dictSet l _ hn.2]
    · simp
    · intro e he y hy
      rcases List.mem_append.1 he with he | he
      · exact hd e he y (by simp [hy])
      · simp only [List.mem_singleton] at he
        subst he
        intro h
        have h := congrArg String.toList h
        rw [String.toList_append, String.toList_append] at h
        have := String.toList_injective (List.append_cancel_left h)
        exact hn.1 (by rw [this]; exact List.mem_map_of_mem hy)

theorem mapM_name {P R : Type} {job : P → Except PyErr (String × R)} {name : P → String}
    (hname : ∀ p o, job p = .ok o → o.1 = name p) :
    ∀ {grid : List P} {out : List (String × R)}, grid.mapM job = .ok out →
      out.map Prod.fst = grid.map name ∧ List.Forall₂ (fun p o => job p = .ok o) grid out
  | [], out, h => by cases h; simp
  | p :: ps, out, h => by
    rw [List.mapM_cons] at h
    obtain ⟨o, h1, h⟩ := bind_ok h
    obtain ⟨os, h2, h⟩ := bind_ok h
    cases h
    obtain ⟨a, b⟩ := mapM_name hname h2
    exact ⟨by simp [a, hname p o h1], .cons h1 b⟩

/-- One entry per job, in job order, appended to what was stored before. -/
theorem runJobs_records {P R : Type} {job : P → Except PyErr (String × R)} {name : P → String}
    (hname : ∀ p o, job p = .ok o → o.1 = name p) {grid : List P}
    (hinj : ∀ p ∈ grid, ∀ q ∈ grid, name p = name q → p = q) (hn : grid.Nodup)
    {dict d : List (String × R)}
    (hd : ∀ e ∈ dict, ¬ "smooth_element_based,".toList <+: e.1.toList)
    (h : runJobs job grid dict = .ok d) :
    ∃ recs, d = dict ++ recs ∧
      List.Forall₂ (fun p e => e.1 = "smooth_element_based," ++ name p ∧ job p = .ok (name p, e.2))
        grid recs := by
  unfold runJobs at h
  obtain ⟨out, h1, h⟩ := bind_ok h
  cases h
  obtain ⟨a, b⟩ := mapM_name hname h1
  rw [foldl_dictSet]
  · refine ⟨_, rfl, ?_⟩
    rw [List.forall₂_map_right_iff]
    refine b.imp fun p o ho => ?_
    have := hname p o ho
    exact ⟨by rw [this], by rw [ho, ← this]⟩
  · rw [a]
    exact List.Nodup.map_on hinj hn
  · intro e he x hx hh
    refine hd e he ⟨x.1.toList, ?_⟩
    rw [hh, String.toList_append]

theorem cleanJob_ok {str : K → String} {e : CleanEnv K} {p : CleanParams K} {o : String × JobRecord K}
    (h : cleanJob str e p = .ok o) :
    o.1 = cleanName str e.levels p ∧
    ∃ r, cleanJobRun e p = .ok r ∧ npMinE r.2.2 = .ok o.2.bestOob ∧
      assessRf e.rf r.1 e.test = .ok o.2.score ∧ o.2.info = r.2.1 := by
  unfold cleanJob at h
  obtain ⟨r, h1, h⟩ := bind_ok h
  obtain ⟨m, h2, h⟩ := bind_ok h
  obtain ⟨s, h3, h⟩ := bind_ok h
  cases h
  exact ⟨rfl, r, h1, h2, h3, rfl⟩

theorem nodup_flatMap_tag {α β : Type} {l : List α} {f : α → List β} (tag : β → α) (hl : l.Nodup)
    (h : ∀ a ∈ l, (f a).Nodup) (ht : ∀ a ∈ l, ∀ b ∈ f a, tag b = a) : (l.flatMap f).Nodup := by
  rw [List.nodup_flatMap]
  refine ⟨h, List.Pairwise.imp_of_mem (fun {a b} ha hb hab => ?_) hl⟩
  intro x hx hx'
  exact hab ((ht a ha x hx).symm.trans (ht b hb x hx'))

/-- Reads a parameter off a grid point. -/
macro "grid_tag" : tactic => `(tactic| (
  intro a _ b hb
  simp only [List.mem_flatMap, List.mem_map] at hb
  aesop))

/-- C122: the grid holds every combination of the options once. -/
theorem C122_grid (kind : Kind) (mySeed : ℕ) (adams : List (AdamOpts K)) (hn : adams.Nodup) :
    (cleanGrid kind mySeed adams).Nodup ∧
    (cleanGrid kind mySeed adams).length =
      (match kind with | .reg => 48 | .cls => 24) * (adams.length + 1) ∧
    ∀ p : CleanParams K, p ∈ cleanGrid kind mySeed adams ↔
      (kind = .cls → p.noConstraint = false) ∧ (p.seed = some mySeed ∨ p.seed = none) ∧
      (∀ a, p.adam = some a → a ∈ adams) := by
  have hm : ∀ p : CleanParams K, p ∈ cleanGrid kind mySeed adams ↔
      (kind = .cls → p.noConstraint = false) ∧ (p.seed = some mySeed ∨ p.seed = none) ∧
      (∀ a, p.adam = some a → a ∈ adams) := by
    intro p
    obtain ⟨i, s, pa, nc, se, ad⟩ := p
    have h1 : (none :: adams.map some : List (Option (AdamOpts K))).Mem ad ↔
        ∀ a, ad = some a → a ∈ adams := by
      change ad ∈ none :: adams.map some ↔ _
      cases ad <;> simp
    have h2 : ad ∈ (none :: adams.map some : List (Option (AdamOpts K))) ↔
        ∀ a, ad = some a → a ∈ adams := h1
    simp only [cleanGrid, List.mem_flatMap, List.mem_map, CleanParams.mk.injEq]
    constructor
    · rintro ⟨_, -, _, -, _, -, _, hnc, _, hse, _, had, rfl, rfl, rfl, rfl, rfl, rfl⟩
      refine ⟨?_, by simpa using hse, h2.1 had⟩
      rintro rfl
      simpa using hnc
    · rintro ⟨a, b, c⟩
      refine ⟨i, by cases i <;> simp, s, by cases s <;> simp, pa, by cases pa <;> simp, nc, ?_, se,
        by simpa using b, ad, h2.2 c, rfl, rfl, rfl, rfl, rfl, rfl⟩
      cases kind
      · cases nc <;> simp
      · simpa using a rfl
  refine ⟨?_, ?_, hm⟩
  · have hA : (none :: adams.map some : List (Option (AdamOpts K))).Nodup := by
      rw [List.nodup_cons]
      exact ⟨by simp, hn.map (Option.some_injective _)⟩
    unfold cleanGrid
    refine nodup_flatMap_tag CleanParams.impurity (by simp) (fun i _ => ?_) (by grid_tag)
    refine nodup_flatMap_tag CleanParams.style (by simp) (fun s _ => ?_) (by grid_tag)
    refine nodup_flatMap_tag CleanParams.parentAll (by simp) (fun pa _ => ?_) (by grid_tag)
    refine nodup_flatMap_tag CleanParams.noConstraint (by cases kind <;> simp) (fun nc _ => ?_) (by grid_tag)
    refine nodup_flatMap_tag CleanParams.seed (by simp) (fun se _ => ?_) (by grid_tag)
    exact hA.map fun a b h => by simpa using h
  · cases kind <;> simp [cleanGrid] <;> ring

/-- C122: after the run the dictionary holds exactly one record per grid point, stored under that
point's label and equal to what its job returned. -/
theorem C122_records {str : K → String} (hs : GoodStr str) (e : CleanEnv K) (kind : Kind) (mySeed : ℕ)
    {adams : List (AdamOpts K)} (hn : adams.Nodup) {dict d : List (String × JobRecord K)}
    (hd : ∀ x ∈ dict, ¬ "smooth_element_based,".toList <+: x.1.toList)
    (h : runJobs (cleanJob str e) (cleanGrid kind mySeed adams) dict = .ok d) :
    ∃ recs, d = dict ++ recs ∧
      List.Forall₂ (fun p x => x.1 = "smooth_element_based," ++ cleanName str e.levels p ∧
        cleanJob str e p = .ok (cleanName str e.levels p, x.2)) (cleanGrid kind mySeed adams) recs :=
  runJobs_records (fun _ _ ho => (cleanJob_ok ho).1)
    (fun _ _ _ _ h => C122_names hs e.levels h) (C122_grid kind mySeed adams hn).1 hd h

theorem npMinE_spec : ∀ {l : List K} {m : K}, npMinE l = .ok m → m ∈ l ∧ ∀ x ∈ l, m ≤ x
  | [], m, h => by cases h
  | a :: l, m, h => by
    have h : l.foldl min a = m := by simpa [npMinE] using h
    have key : ∀ (l : List K) (a : K), l.foldl min a ∈ a :: l ∧ ∀ x ∈ a :: l, l.foldl min a ≤ x := by
      intro l
      induction l with
      | nil => simp
      | cons b l ih =>
        intro a
        obtain ⟨h1, h2⟩ := ih (min a b)
        rw [List.foldl_cons]
        refine ⟨?_, fun x hx => ?_⟩
        · rcases List.mem_cons.1 h1 with h1 | h1
          · rw [h1]; rcases min_choice a b with h | h <;> simp [h]
          · simp [h1]
        · have h3 := h2 (min a b) (by simp)
          rcases List.mem_cons.1 hx with rfl | hx
          · exact h3.trans (min_le_left _ _)
          rcases List.mem_cons.1 hx with rfl | hx
          · exact h3.trans (min_le_right _ _)
          · exact h2 x (by simp [hx])
    rw [← h]; exact key l a

/-- C122: what the label names is what ran. The record of a job holds the score and the weights of the
forest that `smooth_clean` returns for exactly the distance, style, parents, constraint, initial weights
and Adam options of the label (with 40 observations a step and the full loss), and the least of its
costs. -/
theorem C122_job {str : K → String} {e : CleanEnv K} {p : CleanParams K} {a : String × JobRecord K}
    (h : cleanJob str e p = .ok a) :
    ∃ (rf1 : List (SkTree K 1)) (costs : List K),
      (p.impurity = false →
        ∃ lamb, smoothClean e.sqrt e.approxOne e.rf e.forest e.y e.leafOf e.unsampled
          { parentsAll := p.parentAll, style := p.style, noConstraint := p.noConstraint
            adam := p.adam, seed := p.seed.map e.uniform, tFix := e.tFix
            sanityCheck := false, allObs := false, useFullLoss := true, nObs := 40 } (e.choices p) =
            .ok (rf1, lamb, costs) ∧ a.2.info = List.ofFn lamb) ∧
      (p.impurity = true →
        ∃ o, smoothCleanImp e.sqrt e.approxOne e.rf e.forest (e.levels.map .int) e.y e.leafOf e.unsampled
          { parentsAll := p.parentAll, style := p.style, noConstraint := p.noConstraint
            adam := p.adam, seed := p.seed.map e.uniform, tFix := e.tFix
            sanityCheck := false, allObs := false, useFullLoss := true, nObs := 40 } (e.choices p) =
            .ok o ∧ rf1 = o.rf1 ∧ costs = o.costs ∧ a.2.info = List.ofFn o.lamb) ∧
      assessRf e.rf rf1 e.test = .ok a.2.score ∧
      a.2.bestOob ∈ costs ∧ ∀ c ∈ costs, a.2.bestOob ≤ c := by
  obtain ⟨-, r, h1, h2, h3, h4⟩ := cleanJob_ok h
  obtain ⟨h5, h6⟩ := npMinE_spec h2
  refine ⟨r.1, r.2.2, fun hi => ?_, fun hi => ?_, h3, h5, h6⟩
  · unfold cleanJobRun at h1
    rw [if_neg (by simp [hi])] at h1
    obtain ⟨⟨x, l, c⟩, h7, h1⟩ := bind_ok h1
    cases h1
    exact ⟨l, h7, h4⟩
  · unfold cleanJobRun at h1
    rw [if_pos hi] at h1
    obtain ⟨o, h7, h1⟩ := bind_ok h1
    cases h1
    exact ⟨o, h7, rfl, rfl, h4⟩

/-! ### What the smooth_clean grid compares -/

theorem cleanLamb_job {e : CleanEnv K} {p : CleanParams K} {n : ℕ} {d : CleanData K (n + 1)}
    (hc : e.choices p ≠ []) {l : Fin (n + 1) → K} {c : List K}
    (h : cleanLamb e.sqrt e.approxOne d e.y (cleanJobCfg e p) (e.choices p) = .ok (l, c)) :
    baseLamb (p.seed.map e.uniform) = .ok l := by
  unfold cleanLamb at h
  split at h
  · cases h
  obtain ⟨b, h1, h⟩ := bind_ok h
  rw [if_neg (by simp [cleanJobCfg])] at h
  obtain ⟨⟨r1, r2, r3⟩, h2, h⟩ := bind_ok h
  cases h
  rw [C48_full_loss_partial (by simp [cleanJobCfg]) hc h2]
  exact h1

theorem smoothClean_ok' {sqrt : K → K} {approxOne : K → Bool} {rf : Option Kind}
    {forest : List (SkTree K 1)} {y : List K} {leafOf : ℕ → ℕ → ℕ} {uns : ℕ → List ℕ} {cfg : CleanCfg K}
    {choices : List (List ℕ)} {o}
    (h : smoothClean sqrt approxOne rf forest y leafOf uns cfg choices = .ok o) :
    rf = some .reg ∧
    let d := cleanData forest cfg.style cfg.parentsAll y.length leafOf uns
    cleanLamb sqrt approxOne d y cfg choices = .ok (o.2.1, o.2.2) ∧
    writeBack1 ((List.zipWith (fun g e => if dot e o.2.1 = 0 then 0 else
      dot g o.2.1 / (if dot e o.2.1 = 0 then 1 else dot e o.2.1)) d.gam d.eta).map fun v _ => v) 0
      forest = .ok o.1 := by
  unfold smoothClean at h
  split at h
  · refine ⟨rfl, ?_⟩
    obtain ⟨p, h1, h⟩ := bind_ok h
    obtain ⟨rf', h2, h⟩ := bind_ok h
    cases h
    exact ⟨h1, h2⟩
  · cases h

theorem smoothCleanFrom_ok' {sqrt : K → K} {approxOne : K → Bool} {n : ℕ} {ge : GE K 1}
    {forest : List (SkTree K 1)} {y : List K} {leafOf : ℕ → ℕ → ℕ} {uns : ℕ → List ℕ} {cfg : CleanCfg K}
    {choices : List (List ℕ)} {o}
    (h : smoothCleanFrom n sqrt approxOne ge forest y leafOf uns cfg choices = .ok o) :
    let d := cleanDataFrom n ge forest y.length leafOf uns
    cleanLamb sqrt approxOne d y cfg choices = .ok (o.2.1, o.2.2) ∧
    writeBack1 ((List.zipWith (fun g e => if dot e o.2.1 = 0 then 0 else
      dot g o.2.1 / (if dot e o.2.1 = 0 then 1 else dot e o.2.1)) d.gam d.eta).map fun v _ => v) 0
      forest = .ok o.1 := by
  unfold smoothCleanFrom at h
  obtain ⟨p, h1, h⟩ := bind_ok h
  obtain ⟨rf', h2, h⟩ := bind_ok h
  cases h
  exact ⟨h1, h2⟩

/-- Forest and weights of a job do not depend on the Adam options or the constraint. -/
theorem cleanJobRun_same {e : CleanEnv K} (hc : ∀ p, e.choices p ≠ []) {p q : CleanParams K}
    (h1 : p.impurity = q.impurity) (h2 : p.style = q.style) (h3 : p.parentAll = q.parentAll)
    (h4 : p.seed = q.seed) {r s : List (SkTree K 1) × List K × List K}
    (hr : cleanJobRun e p = .ok r) (hs : cleanJobRun e q = .ok s) : r.1 = s.1 ∧ r.2.1 = s.2.1 := by
  obtain ⟨i, st, pa, nc, se, ad⟩ := p
  obtain ⟨i', st', pa', nc', se', ad'⟩ := q
  simp only at h1 h2 h3 h4
  subst h1 h2 h3 h4
  unfold cleanJobRun at hr hs
  cases i
  · rw [if_neg (by simp)] at hr hs
    obtain ⟨o, a, hr⟩ := bind_ok hr
    obtain ⟨o', a', hs⟩ := bind_ok hs
    cases hr; cases hs
    obtain ⟨-, b, c⟩ := smoothClean_ok' a
    obtain ⟨-, b', c'⟩ := smoothClean_ok' a'
    have d := cleanLamb_job (hc _) b
    have d' := cleanLamb_job (hc _) b'
    have hl : o.2.1 = o'.2.1 := by simpa using d.symm.trans d'
    rw [hl] at c
    refine ⟨?_, by rw [hl]⟩
    have := c.symm.trans c'
    simpa using this
  · rw [if_pos rfl] at hr hs
    obtain ⟨o, a, hr⟩ := bind_ok hr
    obtain ⟨o', a', hs⟩ := bind_ok hs
    cases hr; cases hs
    obtain ⟨-, ge, g1, g2, g3⟩ := smoothCleanImp_ok a
    obtain ⟨-, ge', g1', g2', g3'⟩ := smoothCleanImp_ok a'
    have hge : ge = ge' := by simpa using g1.symm.trans g1'
    subst hge
    obtain ⟨n, rf1, lamb, costs⟩ := o
    obtain ⟨n', rf1', lamb', costs'⟩ := o'
    obtain rfl : n = lastLevel ge := g2
    obtain rfl : n' = lastLevel ge := g2'
    obtain ⟨b, c⟩ := smoothCleanFrom_ok' g3
    obtain ⟨b', c'⟩ := smoothCleanFrom_ok' g3'
    have d := cleanLamb_job (hc _) b
    have d' := cleanLamb_job (hc _) b'
    have hl : lamb = lamb' := by simpa using d.symm.trans d'
    subst hl
    refine ⟨?_, rfl⟩
    simpa using c.symm.trans c'

/-- C123: two jobs of the grid that differ only in the Adam options and the constraint store the same
score and the same weights. -/
theorem C123_no_effect {str : K → String} {e : CleanEnv K} (hc : ∀ p, e.choices p ≠ [])
    {p q : CleanParams K} (h1 : p.impurity = q.impurity) (h2 : p.style = q.style)
    (h3 : p.parentAll = q.parentAll) (h4 : p.seed = q.seed) {a b : String × JobRecord K}
    (hp : cleanJob str e p = .ok a) (hq : cleanJob str e q = .ok b) :
    a.2.score = b.2.score ∧ a.2.info = b.2.info := by
  obtain ⟨-, r, r1, -, r2, r3⟩ := cleanJob_ok hp
  obtain ⟨-, s, s1, -, s2, s3⟩ := cleanJob_ok hq
  obtain ⟨x, y⟩ := cleanJobRun_same hc h1 h2 h3 h4 r1 s1
  refine ⟨?_, by rw [r3, s3, y]⟩
  rw [x, s2] at r2
  simpa using r2.symm

/-- C123: an unseeded job with the depth distance stores the score of the unsmoothed forest (the
"rf_base" entry) and the weights `(1, 0, …, 0)`. -/
theorem C123_base {str : K → String} {e : CleanEnv K} (hc : ∀ p, e.choices p ≠ [])
    (hwf : ∀ t ∈ e.forest, t.WF) (hn : ∀ t ∈ e.forest, ∀ r, t.nSamp (t.leafNode r) ≠ 0)
    {p : CleanParams K} (h1 : p.impurity = false) (h2 : p.seed = none) {a : String × JobRecord K}
    (h : cleanJob str e p = .ok a) :
    assessRf e.rf e.forest e.test = .ok a.2.score ∧
    a.2.info = 1 :: List.replicate (forestDepth e.forest) 0 := by
  obtain ⟨-, r, r1, -, r2, r3⟩ := cleanJob_ok h
  unfold cleanJobRun at r1
  rw [if_neg (by simp [h1])] at r1
  obtain ⟨⟨rf1, lamb, c⟩, r4, r1⟩ := bind_ok r1
  cases r1
  have h0 := (smoothClean_ok' r4).1
  rw [h0] at r4
  obtain ⟨x, y⟩ := C48_no_smoothing hwf hn (by simp [cleanJobCfg, h2])
    (Or.inr (by simp [cleanJobCfg])) (hc p) r4
  refine ⟨by rw [← r2, x], ?_⟩
  rw [r3]
  have : lamb = fun i => if i = 0 then 1 else 0 := funext y
  simp only [this, List.ofFn_succ, if_pos]
  congr 1
  simp only [Fin.succ_ne_zero, if_false]
  exact List.ofFn_const _ _

/-! ### When the smooth_clean grid cannot finish -/

theorem mapM_fails {P R : Type} {job : P → Except PyErr R} {grid : List P} {p : P} (hp : p ∈ grid)
    (h : ∀ o, job p ≠ .ok o) (out : List R) : grid.mapM job ≠ .ok out := by
  intro hh
  obtain ⟨i, hi, rfl⟩ := List.mem_iff_getElem.1 hp
  obtain ⟨b, -, hb⟩ := (mapM_get hh).2 i grid[i] (by simp [hi])
  exact h b hb

theorem runJobs_fails {P R : Type} {job : P → Except PyErr (String × R)} {grid : List P} {p : P}
    (hp : p ∈ grid) (h : ∀ o, job p ≠ .ok o) (dict d : List (String × R)) :
    runJobs job grid dict ≠ .ok d := by
  intro hh
  unfold runJobs at hh
  obtain ⟨out, h1, -⟩ := bind_ok hh
  exact mapM_fails hp h out h1

/-- C124: for a classifier the script stops with ValueError at its first job. -/
theorem C124_classifier (str : K → String) (e : CleanEnv K) (hrf : e.rf ≠ some .reg) (kind : Kind)
    (mySeed : ℕ) (adams : List (AdamOpts K)) (dict : List (String × JobRecord K)) :
    runJobs (cleanJob str e) (cleanGrid kind mySeed adams) dict = .error .valueError := by
  have h0 : ∃ p ps, cleanGrid kind mySeed adams = p :: ps ∧ p.impurity = false := by
    cases kind <;> exact ⟨_, _, rfl, rfl⟩
  obtain ⟨p, ps, hg, hi⟩ := h0
  have h1 : cleanJob str e p = .error .valueError := by
    unfold cleanJob cleanJobRun
    rw [if_neg (by simp [hi]), C74_regression_only _ hrf]
    rfl
  unfold runJobs
  rw [hg, List.mapM_cons, h1]
  rfl

/-- C124: without the levels argument the impurity jobs raise, so the script stores nothing. -/
theorem C124_needs_levels (str : K → String) (e : CleanEnv K) (hl : e.levels = none) (kind : Kind)
    (mySeed : ℕ) (adams : List (AdamOpts K)) (dict d : List (String × JobRecord K)) :
    runJobs (cleanJob str e) (cleanGrid kind mySeed adams) dict ≠ .ok d := by
  refine runJobs_fails (p := ⟨true, .standard, true, false, none, none⟩)
    (by cases kind <;> simp [cleanGrid]) (fun o ho => ?_) dict d
  obtain ⟨-, r, r1, -⟩ := cleanJob_ok ho
  unfold cleanJobRun at r1
  rw [if_pos rfl] at r1
  obtain ⟨o, r2, -⟩ := bind_ok r1
  obtain ⟨-, ge, g, -⟩ := smoothCleanImp_ok r2
  rw [hl] at g
  unfold gammaEtaForestImp at g
  obtain ⟨lv, g1, -⟩ := bind_ok g
  cases g1

/-- C124: with fewer than 40 training rows no job returns. -/
theorem C124_few_rows (str : K → String) (e : CleanEnv K) (hc : ∀ p, e.choices p ≠ [])
    (hy : e.y.length < 40) (kind : Kind) (mySeed : ℕ) (adams : List (AdamOpts K))
    (dict d : List (String × JobRecord K)) :
    runJobs (cleanJob str e) (cleanGrid kind mySeed adams) dict ≠ .ok d := by
  refine runJobs_fails (p := ⟨false, .standard, true, false, none, none⟩)
    (by cases kind <;> simp [cleanGrid]) (fun o ho => ?_) dict d
  obtain ⟨-, r, r1, -⟩ := cleanJob_ok ho
  unfold cleanJobRun at r1
  rw [if_neg (by simp)] at r1
  obtain ⟨o, r2, -⟩ := bind_ok r1
  obtain ⟨-, r3, -⟩ := smoothClean_ok' r2
  unfold cleanLamb at r3
  split at r3
  · cases r3
  obtain ⟨b, -, r3⟩ := bind_ok r3
  rw [if_neg (by simp [cleanJobCfg])] at r3
  obtain ⟨⟨x1, x2, x3⟩, r4, -⟩ := bind_ok r3
  obtain ⟨-, s, h1, -⟩ := sgdClean_ok r4
  cases hch : e.choices ⟨false, .standard, true, false, none, none⟩ with
  | nil => exact hc _ hch
  | cons c cs =>
    rw [hch, List.foldlM_cons] at h1
    obtain ⟨s1, h2, -⟩ := bind_ok h1
    unfold cleanStep at h2
    rw [if_pos (by simpa [cleanData, oobIdxMat, cleanJobCfg] using hy)] at h2
    cases h2

/-! ### analysis_both.py -/

/-- C125: the label of a `smooth` job determines every parameter but the classification loss, and does
not mention the latter. -/
theorem C125_names {str : K → String} (hs : GoodStr str) (levels : Option ℕ) (p q : BothParams K) :
    bothName str levels p = bothName str levels q ↔ { p with lossL2 := q.lossL2 } = q := by
  constructor
  · intro h
    have h := congrArg String.toList h
    unfold bothName at h
    simp only [String.toList_append, List.append_assoc] at h
    have h := List.append_cancel_left (List.append_cancel_left h)
    have hd : ∀ x : Bool, ',' ∉ (distStr x).toList ++ (bothLevelStr levels).toList := fun x hx =>
      (List.mem_append.1 hx).elim (distStr_comma _) (bothLevelStr_comma _)
    rw [← List.append_assoc, ← List.append_assoc (distStr q.impurity).toList] at h
    obtain ⟨h1, h⟩ := split_field (by decide) (hd _) (hd _) h
    obtain ⟨h2, h⟩ := split_field (by decide) (styleStr_comma _) (styleStr_comma _) h
    obtain ⟨h3, h⟩ := split_field (by decide) (boolStr_comma _) (boolStr_comma _) h
    obtain ⟨h4, h⟩ := split_field (by decide) (boolStr_comma _) (boolStr_comma _) h
    obtain ⟨h5, h⟩ := split_field (by decide) (seedStr_comma _) (seedStr_comma _) h
    have h6 := Option.some.inj (adamStr_inj hs h)
    have e1 := distStr_inj (List.append_cancel_right h1)
    have e2 := styleStr_inj h2
    have e3 := boolStr_inj h3
    have e4 := boolStr_inj h4
    have e5 := seedStr_inj h5
    cases p; cases q
    simp only [Bool.not_inj_iff] at e1 e2 e3 e4 e5 h6
    subst e1 e2 e3 e4 e5 h6
    rfl
  · intro h
    rw [← h]
    rfl

theorem bothJob_ok {str : K → String} {e : BothEnv K C} {p : BothParams K} {o : String × JobRecord K}
    (h : bothJob str e p = .ok o) :
    o.1 = bothName str e.levels p ∧
    ∃ r, bothJobRun e p = .ok r ∧ npMinE r.2.2 = .ok o.2.bestOob ∧
      assessRf e.rf r.1 e.test = .ok o.2.score ∧ o.2.info = r.2.1 := by
  unfold bothJob at h
  obtain ⟨r, h1, h⟩ := bind_ok h
  obtain ⟨m, h2, h⟩ := bind_ok h
  obtain ⟨s, h3, h⟩ := bind_ok h
  cases h
  exact ⟨rfl, r, h1, h2, h3, rfl⟩

/-- The grid of `smooth` jobs. -/
theorem bothGrid_spec (kind : Kind) (mySeed : ℕ) (adams : List (AdamOpts K)) (hn : adams.Nodup) :
    (bothGrid kind mySeed adams).Nodup ∧
    ∀ p : BothParams K, p ∈ bothGrid kind mySeed adams ↔
      (kind = .cls → p.noConstraint = false) ∧ (p.seed = some mySeed ∨ p.seed = none) ∧
      (kind = .reg → p.lossL2 = true) ∧ p.adam ∈ adams := by
  constructor
  · unfold bothGrid
    refine nodup_flatMap_tag BothParams.impurity (by simp) (fun i _ => ?_) (by grid_tag)
    refine nodup_flatMap_tag BothParams.style (by simp) (fun s _ => ?_) (by grid_tag)
    refine nodup_flatMap_tag BothParams.parentAll (by simp) (fun pa _ => ?_) (by grid_tag)
    refine nodup_flatMap_tag BothParams.noConstraint (by cases kind <;> simp) (fun nc _ => ?_) (by grid_tag)
    refine nodup_flatMap_tag BothParams.seed (by simp) (fun se _ => ?_) (by grid_tag)
    refine nodup_flatMap_tag BothParams.lossL2 (by cases kind <;> simp) (fun se _ => ?_) (by grid_tag)
    exact hn.map fun a b h => by simpa using h
  · intro p
    obtain ⟨i, s, pa, nc, se, lo, ad⟩ := p
    simp only [bothGrid, List.mem_flatMap, List.mem_map, BothParams.mk.injEq]
    constructor
    · rintro ⟨_, -, _, -, _, -, _, hnc, _, hse, _, hlo, _, had, rfl, rfl, rfl, rfl, rfl, rfl, rfl⟩
      refine ⟨?_, by simpa using hse, ?_, had⟩
      · rintro rfl
        simpa using hnc
      · rintro rfl
        simpa using hlo
    · rintro ⟨a, b, c, d⟩
      refine ⟨i, by cases i <;> simp, s, by cases s <;> simp, pa, by cases pa <;> simp, nc, ?_, se,
        by simpa using b, lo, ?_, ad, d, rfl, rfl, rfl, rfl, rfl, rfl, rfl⟩
      · cases kind
        · cases nc <;> simp
        · simpa using a rfl
      · cases kind
        · simpa using c rfl
        · cases lo <;> simp

/-- C125: for a regression run the dictionary holds exactly one record per grid point, equal to what
its job returned. -/
theorem C125_records {str : K → String} (hs : GoodStr str) (e : BothEnv K C) (mySeed : ℕ)
    {adams : List (AdamOpts K)} (hn : adams.Nodup) {dict d : List (String × JobRecord K)}
    (hd : ∀ x ∈ dict, ¬ "smooth_element_based,".toList <+: x.1.toList)
    (h : runJobs (bothJob str e) (bothGrid .reg mySeed adams) dict = .ok d) :
    ∃ recs, d = dict ++ recs ∧
      List.Forall₂ (fun p x => x.1 = "smooth_element_based," ++ bothName str e.levels p ∧
        bothJob str e p = .ok (bothName str e.levels p, x.2)) (bothGrid .reg mySeed adams) recs := by
  obtain ⟨hg, hm⟩ := bothGrid_spec (K := K) .reg mySeed adams hn
  refine runJobs_records (fun _ _ ho => (bothJob_ok ho).1) (fun p hp q hq h => ?_) hg hd h
  have := (C125_names hs e.levels p q).1 h
  rw [← this, ((hm q).1 hq).2.2.1 rfl, ← ((hm p).1 hp).2.2.1 rfl]

/-- C125: what a `smooth` job stores: the score and the weights of the forest `smooth` returns for the
label's distance, style, constraint, initial weights and Adam options and the job's loss, on the
out-of-bag rows and never with `parents_all`, and the least of its costs. -/
theorem C125_job {str : K → String} {e : BothEnv K C} {p : BothParams K} {a : String × JobRecord K}
    (h : bothJob str e p = .ok a) :
    ∃ (rf1 : List (SkTree K C)) (costs : List K),
      (p.impurity = false →
        ∃ o, smooth e.sqrt e.ce e.rf e.forest
          { parentsAll := false, style := p.style, noConstraint := p.noConstraint, lossL2 := p.lossL2
            adam := some p.adam, seed := p.seed.map e.uniform, tFix := e.tFix, steps := e.steps p
            sanityCheck := false, allTrees := false, classEps := 1 / 10000
            data := { xTrained := true, yTrained := true, xTune := false, yTune := false
                      resample := false } } e.sources = .ok o ∧
          rf1 = o.rf1 ∧ costs = o.costs ∧ a.2.info = List.ofFn o.lamb1) ∧
      (p.impurity = true →
        ∃ o, smoothImp e.sqrt e.ce e.rf e.forest (e.levels.map .int)
          { parentsAll := false, style := p.style, noConstraint := p.noConstraint, lossL2 := p.lossL2
            adam := some p.adam, seed := p.seed.map e.uniform, tFix := e.tFix, steps := e.steps p
            sanityCheck := false, allTrees := false, classEps := 1 / 10000
            data := { xTrained := true, yTrained := true, xTune := false, yTune := false
                      resample := false } } e.sources = .ok o ∧
          rf1 = o.2.rf1 ∧ costs = o.2.costs ∧ a.2.info = List.ofFn o.2.lamb1) ∧
      assessRf e.rf rf1 e.test = .ok a.2.score ∧
      a.2.bestOob ∈ costs ∧ ∀ c ∈ costs, a.2.bestOob ≤ c := by
  obtain ⟨-, r, h1, h2, h3, h4⟩ := bothJob_ok h
  obtain ⟨h5, h6⟩ := npMinE_spec h2
  refine ⟨r.1, r.2.2, fun hi => ?_, fun hi => ?_, h3, h5, h6⟩
  · unfold bothJobRun at h1
    rw [if_neg (by simp [hi])] at h1
    obtain ⟨o, h7, h1⟩ := bind_ok h1
    cases h1
    exact ⟨o, h7, rfl, rfl, h4⟩
  · unfold bothJobRun at h1
    rw [if_pos hi] at h1
    obtain ⟨o, h7, h1⟩ := bind_ok h1
    cases h1
    exact ⟨o, h7, rfl, rfl, h4⟩

/-- C125: the parameter printed as "parents:" has no effect on a job: with the same random draws the
records agree, although the labels differ. -/
theorem C125_parents_label {str : K → String} (hs : GoodStr str) (e : BothEnv K C) (p : BothParams K)
    (hsteps : e.steps { p with parentAll := true } = e.steps { p with parentAll := false }) :
    (bothJob str e { p with parentAll := true }).map Prod.snd =
      (bothJob str e { p with parentAll := false }).map Prod.snd ∧
    bothName str e.levels { p with parentAll := true } ≠
      bothName str e.levels { p with parentAll := false } := by
  constructor
  · have hcfg : bothJobCfg e { p with parentAll := true } = bothJobCfg e { p with parentAll := false } := by
      unfold bothJobCfg
      rw [hsteps]
    have hrun : bothJobRun e { p with parentAll := true } = bothJobRun e { p with parentAll := false } := by
      unfold bothJobRun
      rw [hcfg]
    unfold bothJob
    rw [hrun]
    generalize bothName str e.levels { p with parentAll := true } = n1
    generalize bothName str e.levels { p with parentAll := false } = n2
    generalize bothJobRun e { p with parentAll := false } = x
    rcases x with x | r
    · rfl
    · simp only [bind, Except.bind, pure, Except.pure]
      generalize npMinE r.2.2 = y
      generalize assessRf e.rf r.1 e.test = z
      rcases y with y | y <;> rcases z with z | z <;> rfl
  · intro h
    have := (C125_names hs e.levels _ _).1 h
    simp at this

/-- C126: in a classification run the "ce" and the "l2" job of a grid point have the same label, so one
of the two records would be lost. -/
theorem C126_label_clash (str : K → String) (levels : Option ℕ) (mySeed : ℕ)
    {adams : List (AdamOpts K)} {a : AdamOpts K} (ha : a ∈ adams) (hn : adams.Nodup) :
    ∃ p ∈ bothGrid .cls mySeed adams, ∃ q ∈ bothGrid .cls mySeed adams, p ≠ q ∧
      p.lossL2 = false ∧ q.lossL2 = true ∧ bothName str levels p = bothName str levels q := by
  refine ⟨⟨false, .standard, true, false, none, false, a⟩, ?_, ⟨false, .standard, true, false, none, true, a⟩,
    ?_, by simp, rfl, rfl, rfl⟩
  all_goals
    rw [(bothGrid_spec .cls mySeed adams hn).2]
    simp [ha]

/-- C126: a classification run of the script never finishes: the "ce" jobs raise. -/
theorem C126_class_never_returns {str : ℝ → String} (sq : ℝ → ℝ) (approxOne : ℝ → Bool) {C : ℕ}
    (e : BothEnv ℝ C) (hce : e.ce = fun _ => sgdCe sq approxOne) (hsq : e.sqrt = sq)
    (hrf : e.rf = some .cls) (hst : ∀ p, e.steps p ≠ []) (mySeed : ℕ) {adams : List (AdamOpts ℝ)}
    (hA : adams ≠ []) (hn : adams.Nodup) (dict d : List (String × JobRecord ℝ)) :
    runJobs (bothJob str e) (bothGrid .cls mySeed adams) dict ≠ .ok d := by
  obtain ⟨a, as, rfl⟩ := List.exists_cons_of_ne_nil hA
  refine runJobs_fails (p := ⟨false, .standard, true, false, none, false, a⟩)
    (by rw [(bothGrid_spec .cls mySeed _ hn).2]; simp) (fun o ho => ?_) dict d
  obtain ⟨-, r, r1, -⟩ := bothJob_ok ho
  unfold bothJobRun at r1
  rw [if_neg (by simp)] at r1
  obtain ⟨o, r2, -⟩ := bind_ok r1
  rw [hce, hsq, hrf] at r2
  exact C31_refuted sq approxOne e.forest _ rfl rfl (hst _) e.sources ⟨o, r2⟩

/-- C126: the labels of the four `smooth_all` jobs are different. -/
theorem C126_wols_labels {a b c d : Bool} (h : wolsName a b = wolsName c d) : a = c ∧ b = d := by
  revert h
  cases a <;> cases b <;> cases c <;> cases d <;> decide

/-! ### assess_rf -/

/-- The value of the `l`-th leaf. -/
def leafVal (t : SkTree K C) (l : ℕ) (c : Fin C) : K :=
  if h : l < t.nLeaves then t.value (t.leafNode ⟨l, h⟩) c else 0

theorem treeVote_ok (kind : Kind) (r : TestRow K) (tt : SkTree K C × ℕ)
    (h : r.leaf tt.2 < tt.1.nLeaves) :
    treeVote kind r tt = .ok (match kind with
      | .reg => leafVal tt.1 (r.leaf tt.2)
      | .cls => fun c => leafVal tt.1 (r.leaf tt.2) c /
          (if ∑ c', leafVal tt.1 (r.leaf tt.2) c' = 0 then 1 else ∑ c', leafVal tt.1 (r.leaf tt.2) c')) := by
  have e : pyGet ((List.finRange tt.1.nLeaves).map fun l => tt.1.value (tt.1.leafNode l)) (r.leaf tt.2) =
      .ok (leafVal tt.1 (r.leaf tt.2)) := by
    unfold pyGet
    rw [List.getElem?_eq_getElem (by simpa using h)]
    simp only [List.getElem_map, List.getElem_finRange, Except.ok.injEq]
    funext c
    simp [leafVal, h]
  unfold treeVote
  simp only [e, bind, Except.bind, pure, Except.pure]
  cases kind <;> rfl

theorem mapM_pure_of {α β : Type} {l : List α} {f : α → Except PyErr β} {g : α → β}
    (h : ∀ a ∈ l, f a = .ok (g a)) : l.mapM f = .ok (l.map g) := by
  induction l with
  | nil => rfl
  | cons a l ih =>
    rw [List.mapM_cons, h a (by simp), ih fun b hb => h b (by simp [hb])]
    rfl

/-- Mean over the trees of the value of the leaf reached. -/
def meanLeaf (forest : List (SkTree K 1)) (r : TestRow K) : K :=
  (forest.zipIdx.map fun tt => leafVal tt.1 (r.leaf tt.2) 0).sum / (forest.length : K)

theorem forestPredict_reg (forest : List (SkTree K 1)) (r : TestRow K)
    (h : ∀ tt ∈ forest.zipIdx, r.leaf tt.2 < tt.1.nLeaves) :
    forestPredict .reg forest r = .ok (meanLeaf forest r) := by
  unfold forestPredict
  rw [mapM_pure_of fun tt htt => treeVote_ok .reg r tt (h tt htt)]
  simp only [bind, Except.bind, List.map_map]
  simp [pyGet, meanLeaf, List.ofFn_succ, Function.comp_def]

theorem zipWith_map_self {α β γ : Type} (f : β → α → γ) (g : α → β) (l : List α) :
    List.zipWith f (l.map g) l = l.map fun a => f (g a) a := by
  induction l with
  | nil => rfl
  | cons a l ih => simp [ih]

theorem sum_sq_zero {α : Type} {f : α → K} : ∀ {l : List α}, (l.map fun a => f a ^ 2).sum = 0 →
    ∀ a ∈ l, f a = 0
  | [], _, a, ha => by cases ha
  | b :: l, h, a, ha => by
    rw [List.map_cons, List.sum_cons] at h
    have h0 : 0 ≤ (l.map fun a => f a ^ 2).sum := by
      refine List.sum_nonneg ?_
      simp only [List.mem_map]
      rintro x ⟨r, -, rfl⟩
      positivity
    have h1 : f b ^ 2 = 0 := le_antisymm (by linarith) (sq_nonneg _)
    rcases List.mem_cons.1 ha with rfl | ha
    · exact pow_eq_zero_iff two_ne_zero |>.1 h1
    · exact sum_sq_zero (by rw [h1, zero_add] at h; exact h) a ha

/-- C127: the score of a regression forest is the mean over the test rows of the squared difference
between the response and the mean of the leaf values reached. It is never negative, and it is 0 exactly
when every row is predicted exactly. -/
theorem C127_mse (forest : List (SkTree K 1)) (test : List (TestRow K)) (hne : test ≠ [])
    (h : ∀ r ∈ test, ∀ tt ∈ forest.zipIdx, r.leaf tt.2 < tt.1.nLeaves) :
    ∃ s, assessRf (some .reg) forest test = .ok s ∧
      s * (test.length : K) = (test.map fun r => (r.y - meanLeaf forest r) ^ 2).sum ∧ 0 ≤ s ∧
      (s = 0 ↔ ∀ r ∈ test, r.y = meanLeaf forest r) := by
  have hlen : test.length ≠ 0 := by simpa using hne
  have hK : (0 : K) < test.length := by exact_mod_cast Nat.pos_of_ne_zero hlen
  refine ⟨(test.map fun r => (r.y - meanLeaf forest r) ^ 2).sum / (test.length : K), ?_, ?_, ?_, ?_⟩
  · unfold assessRf
    simp only
    rw [mapM_pure_of fun r hr => forestPredict_reg forest r (h r hr)]
    simp only [bind, Except.bind]
    rw [if_neg hlen, zipWith_map_self]
    rfl
  · field_simp
  · refine div_nonneg (List.sum_nonneg ?_) hK.le
    simp only [List.mem_map]
    rintro x ⟨r, -, rfl⟩
    positivity
  · rw [div_eq_zero_iff, or_iff_left hK.ne']
    constructor
    · intro hs r hr
      have := sum_sq_zero hs r hr
      exact sub_eq_zero.1 this
    · intro hs
      refine List.sum_eq_zero ?_
      simp only [List.mem_map]
      rintro x ⟨r, hr, rfl⟩
      simp [hs r hr]

/-- C127: the score of a classification forest lies in `[0, 1]`, and equals the share of the test rows
whose predicted code is the response. -/
theorem C127_accuracy (forest : List (SkTree K C)) (test : List (TestRow K)) (hne : test ≠ [])
    (h : ∀ r ∈ test, ∀ tt ∈ forest.zipIdx, r.leaf tt.2 < tt.1.nLeaves) :
    ∃ (s : K) (pred : TestRow K → K), assessRf (some .cls) forest test = .ok s ∧
      (∀ r ∈ test, forestPredict .cls forest r = .ok (pred r)) ∧
      s * (test.length : K) = ((test.countP fun r => decide (pred r = r.y) : ℕ) : K) ∧ 0 ≤ s ∧ s ≤ 1 := by
  have hlen : test.length ≠ 0 := by simpa using hne
  have hK : (0 : K) < test.length := by exact_mod_cast Nat.pos_of_ne_zero hlen
  have hp : ∀ r ∈ test, ∃ v, forestPredict .cls forest r = .ok v := by
    intro r hr
    unfold forestPredict
    rw [mapM_pure_of fun tt htt => treeVote_ok .cls r tt (h r hr tt htt)]
    exact ⟨_, rfl⟩
  let pred : TestRow K → K := fun r => (forestPredict .cls forest r).toOption.getD 0
  have hp' : ∀ r ∈ test, forestPredict .cls forest r = .ok (pred r) := by
    intro r hr
    obtain ⟨v, hv⟩ := hp r hr
    simp only [pred]
    rw [hv]
    rfl
  have hsum : (test.map fun r => if pred r = r.y then (1 : K) else 0).sum =
      ((test.countP fun r => decide (pred r = r.y) : ℕ) : K) := by
    clear hne h hlen hK hp hp'
    induction test with
    | nil => simp
    | cons a l ih =>
      rw [List.map_cons, List.sum_cons, ih, List.countP_cons]
      by_cases ha : pred a = a.y <;> simp [ha, add_comm]
  refine ⟨((test.countP fun r => decide (pred r = r.y) : ℕ) : K) / (test.length : K), pred, ?_, hp', ?_,
    ?_, ?_⟩
  · unfold assessRf
    simp only
    rw [mapM_pure_of hp']
    simp only [bind, Except.bind]
    rw [if_neg hlen, zipWith_map_self, hsum]
    rfl
  · field_simp
  · positivity
  · rw [div_le_one hK]
    exact_mod_cast List.countP_le_length

/-- Share of class `c` in a leaf; all 0 if the leaf's entries sum to 0. -/
def leafShare (t : SkTree K C) (l : ℕ) (c : Fin C) : K :=
  if ∑ c', leafVal t l c' = 0 then leafVal t l c else leafVal t l c / ∑ c', leafVal t l c'

/-- C127: the predicted class of a row is the first class with the largest mean share over the leaves
the row reaches. -/
theorem C127_predict_class (hC : 0 < C) (forest : List (SkTree K C)) (r : TestRow K)
    (h : ∀ tt ∈ forest.zipIdx, r.leaf tt.2 < tt.1.nLeaves) :
    ∃ c : Fin C, forestPredict .cls forest r = .ok (c.val : K) ∧
      (∀ c', (forest.zipIdx.map fun tt => leafShare tt.1 (r.leaf tt.2) c').sum / (forest.length : K) ≤
        (forest.zipIdx.map fun tt => leafShare tt.1 (r.leaf tt.2) c).sum / (forest.length : K)) ∧
      (∀ c' < c, (forest.zipIdx.map fun tt => leafShare tt.1 (r.leaf tt.2) c').sum / (forest.length : K) <
        (forest.zipIdx.map fun tt => leafShare tt.1 (r.leaf tt.2) c).sum / (forest.length : K)) := by
  obtain ⟨c, h1, h2, h3⟩ := npArgmax_ofFn
    (fun c' => (forest.zipIdx.map fun tt => leafShare tt.1 (r.leaf tt.2) c').sum / (forest.length : K)) hC
  refine ⟨c, ?_, h2, h3⟩
  unfold forestPredict
  rw [mapM_pure_of fun tt htt => treeVote_ok .cls r tt (h tt htt)]
  simp only [bind, Except.bind, List.map_map, pure, Except.pure]
  rw [← h1]
  have : ∀ (tt : SkTree K C × ℕ) c', leafVal tt.1 (r.leaf tt.2) c' /
      (if ∑ c', leafVal tt.1 (r.leaf tt.2) c' = 0 then 1 else ∑ c', leafVal tt.1 (r.leaf tt.2) c') =
      leafShare tt.1 (r.leaf tt.2) c' := by
    intro tt c'
    unfold leafShare
    split_ifs <;> simp
  simp only [Function.comp_def, this]

/-- C127: an unknown model string or an object that is neither forest class ends in UnboundLocalError:
the ValueError written in the code is built but not raised. -/
theorem C127_unknown (s : String) (h1 : s ≠ "reg") (h2 : s ≠ "class") (forest : List (SkTree K C))
    (test : List (TestRow K)) :
    modelType s = .error .unboundLocalError ∧ assessRf none forest test = .error .unboundLocalError := by
  refine ⟨?_, rfl⟩
  unfold modelType
  rw [if_neg h1, if_neg h2]

/-! ### Concrete cases -/

/-- Forty training rows, all out of bag, on the stump with leaf values 2 and 6. -/
abbrev exCleanEnv : CleanEnv ℚ :=
  { sqrt := fun x => x, approxOne := fun x => decide (x = 1), rf := some .reg, forest := [exStump26]
    y := List.replicate 40 4, leafOf := fun _ _ => 0, unsampled := fun _ => List.range 40
    levels := some 2, uniform := fun _ _ => 1, choices := fun _ => [List.range 40], tFix := 1 / 8
    test := [⟨fun _ => 0, 4⟩, ⟨fun _ => 1, 5⟩] }

/-- Numbers of the example rendered by numerator and denominator. -/
abbrev exStr (x : ℚ) : String := toString x.num ++ "/" ++ toString x.den

example : modelType "reg" = .ok .reg ∧ modelType "forest" = .error .unboundLocalError := by
  constructor <;> decide

example : (match cleanJob exStr exCleanEnv ⟨false, .standard, false, false, none, none⟩ with
    | .ok r => some (r.1, r.2.score, r.2.info)
    | .error _ => none) =
    some ("smooth_rf,dist_style:depth,levels:2,tree_dist:standard,parents:False," ++
      "constraints:True,initial_lamb:rf,adam_options:None", 5 / 2, [1, 0]) := by decide +kernel

example : forestPredict .cls [exClsStump] ⟨fun _ => 0, 0⟩ = .ok 0 ∧
    forestPredict .cls [exClsStump] ⟨fun _ => 1, 0⟩ = .ok 1 := by
  constructor <;> exact ok_of_toOption (by decide +kernel)

example : assessRf (some .reg) [exStump26] exCleanEnv.test = .ok (5 / 2) := by
  exact ok_of_toOption (by decide +kernel)

example : (match cleanJob exStr exCleanEnv ⟨false, .standard, false, true, some 7, none⟩,
      cleanJob exStr exCleanEnv ⟨false, .standard, false, false, some 7, none⟩ with
    | .ok r, .ok s => some (r.2.score, s.2.score, r.2.info, s.2.info)
    | _, _ => none) = some (1 / 2, 1 / 2, [1 / 2, 1 / 2], [1 / 2, 1 / 2]) := by decide +kernel

/-- A two-job run: both records are appended to the one stored before. -/
example : (match runJobs (cleanJob exStr exCleanEnv)
      [⟨false, .standard, false, false, none, none⟩, ⟨true, .standard, false, false, none, none⟩]
      [("rf_base", ⟨5 / 2, [], 0⟩)] with
    | .ok (d : List (String × JobRecord ℚ)) =>
        some (d.length, d.map fun (x : String × JobRecord ℚ) => (x.2.score, x.2.info))
    | .error _ => none) = some (3, [(5 / 2, []), (5 / 2, [1, 0]), (5 / 2, [1, 0, 0, 0])]) := by
  decide +kernel

/-- A rendering that meets the requirement. -/
example : GoodStr fun x : ℚ => (Encodable.encode x).repr where
  inj := fun _ _ h => Encodable.encode_injective (Nat.repr_injective h)
  clean := fun _ => ⟨fun h => absurd (repr_digits h) (by decide), fun h => absurd (repr_digits h) (by decide)⟩

example : (cleanGrid (K := ℚ) .reg 7 [⟨1, 1, 1, 1⟩]).length = 96 := by decide +kernel

example : wolsName true false = "wOLs_opt_parents:True,constraints:True" := by decide

abbrev exBothEnv : BothEnv ℚ 1 :=
  { sqrt := fun x => x, ce := noCe, rf := some .reg, forest := [exStump26]
    sources := fun _ _ => [⟨0, fun _ => 4⟩, ⟨1, fun _ => 5⟩], levels := some 2, uniform := fun _ _ => 1
    steps := fun _ => [0], tFix := 1 / 8, test := [⟨fun _ => 0, 4⟩, ⟨fun _ => 1, 5⟩] }

/-- The same record under two labels. -/
example : (match bothJob exStr exBothEnv ⟨false, .standard, true, true, none, true, ⟨1/10, 1/2, 1/2, 1⟩⟩,
      bothJob exStr exBothEnv ⟨false, .standard, false, true, none, true, ⟨1/10, 1/2, 1/2, 1⟩⟩ with
    | .ok r, .ok s => some (r.1 == s.1, r.2.info, s.2.info)
    | _, _ => none) = some (false, [1, 12 / 2885], [1, 12 / 2885]) := by decide +kernel

end SmoothRF
