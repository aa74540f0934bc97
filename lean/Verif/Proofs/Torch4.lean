import Verif.Proofs.Torch3

/-! The optimisation loop of `smooth_pytorch`. -/

set_option linter.unusedSectionVars false

namespace SmoothRF
open Topo SkTree

variable {K : Type} [Field K] [LinearOrder K] {C p : ℕ}

theorem optSeq_append {S : Type} {n : ℕ} (opt : S → Item K n → Params K → S × Params K) (s : S)
    (q : Params K) (xs : List (Item K n)) (x : Item K n) :
    optSeq opt s q (xs ++ [x]) =
      optSeq opt s q xs ++ [(opt (optFin opt s q xs).1 x (optFin opt s q xs).2).2] := by
  induction xs generalizing s q with
  | nil => rfl
  | cons y ys ih => simp only [List.cons_append, optSeq]; rw [ih]; rfl

theorem optSeq_length {S : Type} {n : ℕ} (opt : S → Item K n → Params K → S × Params K) (s : S)
    (q : Params K) (xs : List (Item K n)) : (optSeq opt s q xs).length = xs.length := by
  induction xs generalizing s q with
  | nil => rfl
  | cons y ys ih => simp only [optSeq, List.length_cons, ih]

theorem optFin_append {S : Type} {n : ℕ} (opt : S → Item K n → Params K → S × Params K) (s : S)
    (q : Params K) (xs : List (Item K n)) (x : Item K n) :
    optFin opt s q (xs ++ [x]) = opt (optFin opt s q xs).1 x (optFin opt s q xs).2 := by
  simp [optFin]

theorem optFin_last {S : Type} {n : ℕ} (opt : S → Item K n → Params K → S × Params K) (s : S)
    (q : Params K) (xs : List (Item K n)) (hx : xs ≠ []) :
    (optSeq opt s q xs).getLast? = some (optFin opt s q xs).2 := by
  obtain ⟨ys, y, rfl⟩ := List.eq_nil_or_concat xs |>.resolve_left hx
  rw [List.concat_eq_append, optSeq_append, optFin_append, List.getLast?_append]
  rfl

/-- State of the loop after the steps `xs`. -/
structure LoopInv {S : Type} {n : ℕ} (exp : K → K) (V : ℕ)
    (opt : S → Item K n → Params K → S × Params K) (s0 : S) (p0 : Params K) (all : Item K n)
    (xs : List (Item K n)) (st : RunSt K S) : Prop where
  fin : (st.opt, st.heap 0) = optFin opt s0 p0 xs
  len : st.losses.length = xs.length
  loss : ∀ (i : ℕ) q l, (optSeq opt s0 p0 xs)[i]? = some q → st.losses[i]? = some l →
    itemLoss exp ⟨V, q⟩ all = .ok l
  next : 0 < st.next
  empty : xs = [] → st.lossMin = none ∧ st.best = none ∧ st.paramsMin = none
  best : xs ≠ [] → ∃ m b i, st.lossMin = some m ∧ st.best = some b ∧ st.paramsMin = some 0 ∧ 0 < b ∧
    b < st.next ∧ st.losses[i]? = some m ∧ (optSeq opt s0 p0 xs)[i]? = some (st.heap b) ∧
    (∀ l ∈ st.losses, m ≤ l) ∧ ∀ (j : ℕ) l, i < j → st.losses[j]? = some l → m < l

theorem getElem?_append_one {α : Type} (l : List α) (x : α) (i : ℕ) :
    (l ++ [x])[i]? = if i < l.length then l[i]? else if i = l.length then some x else none := by
  rcases Nat.lt_trichotomy i l.length with h | h | h
  · rw [if_pos h, List.getElem?_append_left h]
  · subst h; simp
  · rw [if_neg (by omega), if_neg (by omega), List.getElem?_eq_none (by simp; omega)]

theorem runLoop_inv {S : Type} {n : ℕ} {exp : K → K} {V : ℕ}
    {opt : S → Item K n → Params K → S × Params K} {d all : Dataset K n} {s0 : S} {p0 : Params K}
    {draws : List ℕ} {st : RunSt K S} (h : runLoop exp V opt d all s0 p0 draws = .ok st) :
    LoopInv exp V opt s0 p0 (all.item 0) (draws.map d.item) st := by
  unfold runLoop at h
  induction draws using List.reverseRecOn generalizing st with
  | nil =>
    cases h
    exact ⟨rfl, rfl, by simp, Nat.one_pos, fun _ => ⟨rfl, rfl, rfl⟩, fun h => absurd rfl h⟩
  | append_singleton ds dr ih =>
    rw [List.foldlM_append] at h
    obtain ⟨st0, h0, h⟩ := bind_ok h
    have I := ih h0
    simp only [List.foldlM_cons, List.foldlM_nil] at h
    obtain ⟨st1, h1, h⟩ := bind_ok h
    cases h
    unfold runStep at h1
    obtain ⟨_, -, h1⟩ := bind_ok h1
    obtain ⟨cur, hcur, h1⟩ := bind_ok h1
    simp only [pure, Except.pure, Except.ok.injEq] at h1
    rw [List.map_append, List.map_singleton]
    generalize hxs : ds.map d.item = xs at I ⊢
    have ho1 : st0.opt = (optFin opt s0 p0 xs).1 := congrArg Prod.fst I.fin
    have ho2 : st0.heap 0 = (optFin opt s0 p0 xs).2 := congrArg Prod.snd I.fin
    have hseq := optSeq_append opt s0 p0 xs (d.item dr)
    have hfin := optFin_append opt s0 p0 xs (d.item dr)
    rw [← ho1, ← ho2] at hseq hfin
    generalize hq : opt st0.opt (d.item dr) (st0.heap 0) = sp at h1 hcur hseq hfin
    have hlenT : (optSeq opt s0 p0 xs).length = xs.length := optSeq_length ..
    have hloss : ∀ (i : ℕ) q l, (optSeq opt s0 p0 (xs ++ [d.item dr]))[i]? = some q →
        (st0.losses ++ [cur])[i]? = some l → itemLoss exp ⟨V, q⟩ (all.item 0) = .ok l := by
      intro i q l hi hl
      rw [hseq, getElem?_append_one] at hi
      rw [getElem?_append_one] at hl
      rw [hlenT] at hi
      rw [I.len] at hl
      split_ifs at hi hl with c1 c2
      · exact I.loss i q l hi hl
      · cases hi; cases hl; exact hcur
    unfold record at h1
    split_ifs at h1 with hrec
    · subst h1
      refine ⟨?_, by simp [I.len], hloss, Nat.succ_pos _, by simp, fun _ => ?_⟩
      · rw [hfin]
        simp only
        rw [Function.update_of_ne (by have := I.next; omega), Function.update_self]
      · refine ⟨cur, st0.next, xs.length, rfl, rfl, rfl, I.next, Nat.lt_succ_self _, ?_, ?_, ?_, ?_⟩
        · simp only; rw [getElem?_append_one, I.len]; simp
        · simp only
          rw [hseq, getElem?_append_one, hlenT, Function.update_self, Function.update_self]
          simp
        · intro l hl
          rcases List.mem_append.1 hl with hl | hl
          · have hne : xs ≠ [] := by
              intro e
              have := I.len
              rw [e] at this
              rw [List.length_eq_zero_iff.1 this] at hl
              cases hl
            obtain ⟨m, b, i, k1, k2, k3, k4, k5, k6, k7, k8, k9⟩ := I.best hne
            exact (hrec m k1).trans (k8 l hl)
          · simp at hl; rw [hl]
        · intro j l hj hl
          simp only at hl
          rw [getElem?_append_one, I.len, if_neg (by omega), if_neg (by omega)] at hl
          cases hl
    · subst h1
      push Not at hrec
      obtain ⟨m', hm', hlt⟩ := hrec
      have hne : xs ≠ [] := by
        intro e
        rw [(I.empty e).1] at hm'
        cases hm'
      obtain ⟨m, b, i, k1, k2, k3, k4, k5, k6, k7, k8, k9⟩ := I.best hne
      simp only at hm'
      rw [k1] at hm'
      cases hm'
      have hi : i < xs.length := by
        rw [← I.len]
        exact (List.getElem?_eq_some_iff.1 k6).1
      refine ⟨?_, by simp [I.len], hloss, I.next, by simp, fun _ => ?_⟩
      · rw [hfin]
        simp only
        rw [Function.update_self]
      · refine ⟨_, b, i, k1, k2, k3, k4, k5, ?_, ?_, ?_, ?_⟩
        · simp only; rw [getElem?_append_one, I.len, if_pos hi]; exact k6
        · simp only
          rw [hseq, getElem?_append_one, hlenT, if_pos hi, Function.update_of_ne (by omega)]
          exact k7
        · intro l hl
          rcases List.mem_append.1 hl with hl | hl
          · exact k8 l hl
          · simp at hl; rw [hl]; exact hlt.le
        · intro j l hj hl
          simp only at hl
          rw [getElem?_append_one, I.len] at hl
          split_ifs at hl with c1 c2
          · exact k9 j l hj hl
          · cases hl; exact hlt

/-! ### the whole function -/

theorem smoothPytorch_ok {S : Type} {env : TorchEnv K S} {rf : Option Kind}
    {forest : List (FullTree K C p)} {X : List (Fin p → K)} {a : TorchArgs K}
    {sources : PSrc → ℕ → List (TuneRow K C)}
    {out : TorchOut K C (forestDepth (forest.map FullTree.toSkTree) + 1)}
    (h : smoothPytorch env rf forest X a sources = .ok out) :
    ∃ (pr : Prep K (forestDepth (forest.map FullTree.toSkTree) + 1)) (one : List (String × List K))
      (two : List (String × List (List K)))
      (all : Dataset K (forestDepth (forest.map FullTree.toSkTree) + 1)) (net : Net K) (st : RunSt K S)
      (b : ℕ),
      pytorchPrep rf (forest.map FullTree.toSkTree) a.style a.parentsAll
        { a.data with xTune := false, yTune := false, resample := false } true sources = .ok pr ∧
      trainDicts forest X a pr = .ok (one, two) ∧
      mkDataset pr.rows one two = .ok out.data ∧
      mkDataset (pr.rows.map fun r => { r with tree := 0 }) one two = .ok all ∧
      initNet (one.length + two.length) a.init env.rnd = .ok net ∧
      (if a.allTrees then 1 else forest.length) ≠ 0 ∧
      runLoop env.exp net.numVars env.opt out.data all env.s0 net.params
        ((List.range (a.sgdMax / (if a.allTrees then 1 else forest.length) * out.data.numTrees)).map
          env.draws) = .ok st ∧
      st.best = some b ∧
      updateRf env.exp ⟨net.numVars, st.heap b⟩ rf (forest.map FullTree.toSkTree) a.style a.parentsAll
        a.data sources = .ok out.rf ∧
      out.losses = st.losses ∧ out.lossMin = st.lossMin ∧ out.paramsMin = st.paramsMin.map st.heap ∧
      out.best = ⟨net.numVars, st.heap b⟩ ∧ out.live = ⟨net.numVars, st.heap 0⟩ := by
  unfold smoothPytorch at h
  obtain ⟨⟨d, V, st⟩, h1, h⟩ := bind_ok h
  unfold torchTrain at h1
  obtain ⟨pr, g1, h1⟩ := bind_ok h1
  obtain ⟨⟨one, two⟩, g2, h1⟩ := bind_ok h1
  obtain ⟨d', g3, h1⟩ := bind_ok h1
  obtain ⟨all, g4, h1⟩ := bind_ok h1
  obtain ⟨net, g5, h1⟩ := bind_ok h1
  by_cases hnt : (if a.allTrees then 1 else forest.length) = 0
  · simp only [if_pos hnt] at h1
    cases h1
  simp only [if_neg hnt] at h1
  obtain ⟨st', g6, h1⟩ := bind_ok h1
  cases h1
  cases hb : st.best with
  | none => simp only [hb] at h; cases h
  | some b =>
    simp only [hb] at h
    obtain ⟨rf', g7, h⟩ := bind_ok h
    cases h
    exact ⟨pr, one, two, all, net, st, b, g1, g2, g3, g4, g5, hnt, g6, hb, g7, rfl, rfl, rfl, rfl, rfl⟩

end SmoothRF
