import Verif.Model.FloatSgd
import Verif.Props.FloatGradProps
import Verif.Props.FloatProxProps
import Verif.Props.FloatCostProps
import Verif.Proofs.Sgd

/-! Constrained descent in double precision (C198). -/

set_option linter.unusedSectionVars false

namespace SmoothRF

open Topo SkTree

variable {C : ℕ}

attribute [local irreducible] fl

/-- The arrays given to `stocastic_grad_descent`, in doubles: leaves with the number of their tree (`tree_idx_vec`). -/
def flRows (sum : List ℚ → ℚ) (kind : Kind) (pa : Bool) (n : ℕ) (L : List (ℕ × CostLeaf C)) : List (Row ℚ n) :=
  L.map fun p => { p.2.flRow sum kind pa n with tree := p.1 }

/-- The leaves of one tree. -/
def ofTree (L : List (ℕ × CostLeaf C)) (i : ℕ) : List (CostLeaf C) := (L.filter fun p => p.1 == i).map (·.2)

/-- The weights visited by a loop: the start is not listed. -/
def visitedBy {n : ℕ} (move : ℕ → (Fin n → ℚ) → Option (Iv ℚ n) → Except PyErr ((Fin n → ℚ) × Option (Iv ℚ n))) :
    (Fin n → ℚ) → Option (Iv ℚ n) → List ℕ → Except PyErr (List (Fin n → ℚ))
  | _, _, [] => .ok []
  | lamb, iv, c :: cs => do
    let p ← move c lamb iv
    let rest ← visitedBy move p.1 p.2 cs
    pure (p.1 :: rest)

theorem flCalcCost_tree (sum : List ℚ → ℚ) {n : ℕ} (rs : List (ℕ × Row ℚ n)) (lamb : Fin n → ℚ) :
    flCalcCost sum (rs.map fun p => { p.2 with tree := p.1 }) lamb = flCalcCost sum (rs.map (·.2)) lamb := by
  unfold flCalcCost flFillAssert
  simp only [List.map_map, List.all_map]
  rfl

theorem flTakeGradient_tree (sum : List ℚ → ℚ) {n : ℕ} (rs : List (ℕ × Row ℚ n)) (lamb : Fin n → ℚ) :
    flTakeGradient sum (rs.map fun p => { p.2 with tree := p.1 }) lamb = flTakeGradient sum (rs.map (·.2)) lamb := by
  unfold flTakeGradient flFillAssert
  simp only [List.map_map, List.all_map]
  rfl

theorem flRows_eq (sum : List ℚ → ℚ) (kind : Kind) (pa : Bool) (n : ℕ) (L : List (ℕ × CostLeaf C)) :
    flRows sum kind pa n L = (L.map fun p => (p.1, p.2.flRow sum kind pa n)).map
      fun p => { p.2 with tree := p.1 } := by
  unfold flRows
  rw [List.map_map]
  rfl

theorem flCalcCost_flRows (sum : List ℚ → ℚ) (kind : Kind) (pa : Bool) (n : ℕ) (L : List (ℕ × CostLeaf C))
    (lamb : Fin n → ℚ) : flCalcCost sum (flRows sum kind pa n L) lamb =
      flCalcCost sum ((L.map (·.2)).map fun l => l.flRow sum kind pa n) lamb := by
  rw [flRows_eq, flCalcCost_tree, List.map_map, List.map_map]
  congr 1

theorem flTakeGradient_flRows (sum : List ℚ → ℚ) (kind : Kind) (pa : Bool) (n : ℕ) (L : List (ℕ × CostLeaf C))
    (i : ℕ) (lamb : Fin n → ℚ) :
    flTakeGradient sum ((flRows sum kind pa n L).filter fun r => r.tree == i) lamb =
      flTakeGradient sum ((ofTree L i).map fun l => l.flRow sum kind pa n) lamb := by
  have e : (flRows sum kind pa n L).filter (fun r => r.tree == i) =
      flRows sum kind pa n (L.filter fun p => p.1 == i) := by
    unfold flRows
    rw [List.filter_map]
    congr 1
  rw [e, flRows_eq, flTakeGradient_tree, List.map_map]
  unfold ofTree
  rw [List.map_map]
  congr 1

theorem ofTree_mem {L : List (ℕ × CostLeaf C)} {i : ℕ} {l : CostLeaf C} (h : l ∈ ofTree L i) : ∃ p ∈ L, p.2 = l := by
  obtain ⟨p, hp, rfl⟩ := List.mem_map.1 h
  exact ⟨p, List.mem_of_mem_filter hp, rfl⟩

theorem ofTree_length (L : List (ℕ × CostLeaf C)) (i : ℕ) : (ofTree L i).length ≤ L.length := by
  unfold ofTree
  rw [List.length_map]
  exact List.length_filter_le _ _

/-- What `prox_project` returns in doubles is non-negative, and has a positive entry if the argument has. -/
theorem flProx_ok {n : ℕ} {y x : Fin n → ℚ} (h : flProxProject y = .ok x) :
    (∀ i, IsFloat (x i) ∧ 0 ≤ x i) ∧ ((∃ i, 0 < y i) → ∃ i, 0 < x i) := by
  unfold flProxProject at h
  dsimp only at h
  rcases hm : npMaxE ((flProxRho (clip0 y)).map (flProxThr (clip0 y))) with e | m
  · rw [hm] at h; cases h
  rw [hm] at h
  have hx := Except.ok.inj h
  subst hx
  refine ⟨fun i => ⟨?_, clip0_nonneg _ _⟩, ?_⟩
  · conv => arg 1; unfold clip0
    split
    · exact isFloat_zero
    · exact fl_isFloat _
  · rintro ⟨i, hi⟩
    have pos : ∀ z : ℚ, 0 < z → 0 < fl z := fun z hz =>
      lt_of_lt_of_le (mul_pos (by norm_num) hz) (fl_bounds hz.le).1
    rcases le_total m 0 with h0 | h0
    · refine ⟨i, ?_⟩
      rw [clip0_eq_max, max_eq_right h0, sub_zero, clip0_eq_max, max_eq_left hi.le]
      exact lt_max_of_lt_left (pos _ hi)
    · obtain ⟨j, hj, hjm⟩ := List.mem_map.1 (npMaxE_spec _ _ hm).1
      refine ⟨j, ?_⟩
      have hlt : m < clip0 y j := by
        rw [← hjm]
        simpa [flProxRho] using hj
      rw [clip0_eq_max, max_eq_left h0]
      exact lt_max_of_lt_left (pos _ (sub_pos.2 hlt))

/-- A constrained move in doubles: the projection of a trial vector. -/
theorem flSgdMove_ok {n : ℕ} {sum : List ℚ → ℚ} {pow : ℚ → ℕ → ℚ} {sqrt : ℚ → ℚ} {o : SgdOpts ℚ} (hc : o.constrained = true)
    {rows : List (Row ℚ n)} {c : ℕ} {lamb : Fin n → ℚ} {iv : Option (Iv ℚ n)} {p : (Fin n → ℚ) × Option (Iv ℚ n)}
    (h : flSgdMove sum pow sqrt o rows c lamb iv = .ok p) : ∀ k, IsFloat (p.1 k) ∧ 0 ≤ p.1 k := by
  unfold flSgdMove at h
  rcases hq : flSgdPre sum pow sqrt o rows c lamb iv with e | q
  · rw [hq] at h; cases h
  rw [hq] at h
  simp only [bind, Except.bind, hc, if_true] at h
  rcases hx : flProxProject q.1 with e | x
  · rw [hx] at h; cases h
  rw [hx] at h
  rw [← Except.ok.inj h]
  exact (flProx_ok hx).1

/-- The weights visited by a constrained descent in doubles are non-negative doubles, one per step. -/
theorem C198_visited {n : ℕ} {sum : List ℚ → ℚ} {pow : ℚ → ℕ → ℚ} {sqrt : ℚ → ℚ} {o : SgdOpts ℚ}
    (hc : o.constrained = true) {rows : List (Row ℚ n)} {choices : List ℕ} {lamb : Fin n → ℚ} {iv : Option (Iv ℚ n)}
    {vs : List (Fin n → ℚ)} (h : visitedBy (flSgdMove sum pow sqrt o rows) lamb iv choices = .ok vs) :
    vs.length = choices.length ∧ ∀ l ∈ vs, ∀ k, IsFloat (l k) ∧ 0 ≤ l k := by
  induction choices generalizing lamb iv vs with
  | nil => cases h; simp
  | cons c cs ih =>
    simp only [visitedBy] at h
    rcases hp : flSgdMove sum pow sqrt o rows c lamb iv with e | p
    · rw [hp] at h; cases h
    rw [hp] at h
    simp only [bind, Except.bind] at h
    rcases hr : visitedBy (flSgdMove sum pow sqrt o rows) p.1 p.2 cs with e | r
    · rw [hr] at h; cases h
    rw [hr] at h
    obtain ⟨h1, h2⟩ := ih hr
    rw [← Except.ok.inj h]
    refine ⟨by simp [h1], fun l hl => ?_⟩
    rcases List.mem_cons.1 hl with rfl | hl
    · exact flSgdMove_ok hc hp
    · exact h2 l hl

/-- The comparison made for every visited vector (the body of `trackBest`). -/
def trackStep {n : ℕ} (cost : (Fin n → ℚ) → Except PyErr ℚ) (acc : (Fin n → ℚ) × ℚ × List ℚ) (lamb : Fin n → ℚ) :
    Except PyErr ((Fin n → ℚ) × ℚ × List ℚ) := do
  let cNew ← cost lamb
  let all := acc.2.2 ++ [cNew]
  pure (if cNew < acc.2.1 then (lamb, cNew, all) else (acc.1, acc.2.1, all))

theorem flSgd_fold {n : ℕ} {sum : List ℚ → ℚ} {pow : ℚ → ℕ → ℚ} {sqrt : ℚ → ℚ} {o : SgdOpts ℚ}
    (hc : o.constrained = true) {rows : List (Row ℚ n)} {f : (Fin n → ℚ) → ℚ}
    (hf : ∀ l : Fin n → ℚ, (∀ k, 0 ≤ l k) → flCalcCost sum rows l = .ok (f l)) (choices : List ℕ) (lamb : Fin n → ℚ)
    (iv : Option (Iv ℚ n)) (b : Fin n → ℚ) (cb : ℚ) (all : List ℚ) :
    (do
      let s ← choices.foldlM (flSgdStep sum pow sqrt o rows) ⟨lamb, iv, b, cb, all⟩
      pure (s.lambBest, s.lamb, s.costAll)) =
    (do
      let vs ← visitedBy (flSgdMove sum pow sqrt o rows) lamb iv choices
      let r ← vs.foldlM (trackStep (flCalcCost sum rows)) (b, cb, all)
      pure (r.1, vs.getLast?.getD lamb, r.2.2) : Except PyErr ((Fin n → ℚ) × (Fin n → ℚ) × List ℚ)) := by
  induction choices generalizing lamb iv b cb all with
  | nil => rfl
  | cons c cs ih =>
    simp only [List.foldlM_cons, visitedBy, flSgdStep]
    rcases hp : flSgdMove sum pow sqrt o rows c lamb iv with e | p
    · rfl
    have hcost := hf p.1 (fun k => (flSgdMove_ok hc hp k).2)
    simp only [bind, Except.bind, pure, Except.pure, hcost] at ih ⊢
    have key := ih p.1 p.2
    rcases hr : visitedBy (flSgdMove sum pow sqrt o rows) p.1 p.2 cs with e | r
    · simp only [hr] at key ⊢
      split_ifs <;> exact key _ _ _
    · simp only [hr, List.foldlM_cons, trackStep, hcost, bind, Except.bind, pure, Except.pure] at key ⊢
      have hl : ((p.1 :: r).getLast?.getD lamb) = r.getLast?.getD p.1 := by
        cases r with
        | nil => rfl
        | cons a r => simp [List.getLast?_cons]
      rw [hl]
      split_ifs <;> exact key _ _ _

/-- C198: constrained descent in doubles is: make the moves, then keep the best of the weights visited. -/
theorem C198_run {sum : List ℚ → ℚ} (hs : IsFlSum sum) (pow : ℚ → ℕ → ℚ) (sqrt : ℚ → ℚ) (kind : Kind) (pa : Bool)
    (n N : ℕ) (M : ℚ) (hN : N ≤ 2 ^ 46) (L : List (ℕ × CostLeaf C)) (hL : ∀ p ∈ L, p.2.OK kind n N M) (hne : L ≠ [])
    (o : SgdOpts ℚ) (hc : o.constrained = true) (init : Fin n → ℚ) (hi : ∀ k, 0 ≤ init k) (choices : List ℕ) :
    flSgdRun sum pow sqrt o (flRows sum kind pa n L) init choices = (do
      let vs ← visitedBy (flSgdMove sum pow sqrt o (flRows sum kind pa n L)) init none choices
      let r ← trackBest (flCalcCost sum (flRows sum kind pa n L)) init vs
      pure (r.1, vs.getLast?.getD init, r.2.2)) := by
  have hf : ∀ l : Fin n → ℚ, (∀ k, 0 ≤ l k) → flCalcCost sum (flRows sum kind pa n L) l =
      .ok (sum ((L.map (·.2)).map fun q => flCostTerm sum (q.flRow sum kind pa n) l)) := fun l hl => by
    rw [flCalcCost_flRows]
    exact flCalcCost_rows hs (hN.trans (Nat.pow_le_pow_right (by norm_num) (by norm_num))) pa _
      (fun q hq => by obtain ⟨p, hp, rfl⟩ := List.mem_map.1 hq; exact hL p hp) l hl
  have hemp : (flRows sum kind pa n L).isEmpty = false := by
    cases L with
    | nil => exact absurd rfl hne
    | cons a L => rfl
  have key := flSgd_fold (pow := pow) (sqrt := sqrt) hc hf choices init none init
    (sum ((L.map (·.2)).map fun q => flCostTerm sum (q.flRow sum kind pa n) init))
    [sum ((L.map (·.2)).map fun q => flCostTerm sum (q.flRow sum kind pa n) init)]
  unfold flSgdRun trackBest
  rw [hf init hi]
  simp only [bind, Except.bind, hemp, Bool.false_eq_true, if_false]
  exact key

/-- C198: when it returns, the weights returned are non-negative doubles among those visited, and the exact loss of
`lamb_best` is within twice the error of a cost of the least one visited. -/
theorem C198_best {sum : List ℚ → ℚ} (hs : IsFlSum sum) (pow : ℚ → ℕ → ℚ) (sqrt : ℚ → ℚ) (kind : Kind) (pa : Bool)
    (n N : ℕ) (M : ℚ) (hM : 0 ≤ M) (hN : N ≤ 2 ^ 46) (L : List (ℕ × CostLeaf C)) (hL : ∀ p ∈ L, p.2.OK kind n N M)
    (hne : L ≠ []) (hR : L.length + 4 ≤ 2 ^ 49) (o : SgdOpts ℚ) (hc : o.constrained = true) (init : Fin n → ℚ)
    (hi : ∀ k, IsFloat (init k) ∧ 0 ≤ init k) (choices : List ℕ) {best last : Fin n → ℚ} {costs : List ℚ}
    (h : flSgdRun sum pow sqrt o (flRows sum kind pa n L) init choices = .ok (best, last, costs)) :
    ∃ vs, visitedBy (flSgdMove sum pow sqrt o (flRows sum kind pa n L)) init none choices = .ok vs ∧
      vs.length = choices.length ∧ costs.length = choices.length + 1 ∧
      best ∈ init :: vs ∧ last = vs.getLast?.getD init ∧
      (∀ l ∈ init :: vs, ∀ k, IsFloat (l k) ∧ 0 ≤ l k) ∧
      ∀ l ∈ init :: vs, ∃ c0 c, calcCost ((L.map (·.2)).map fun q => q.row kind pa n) best = .ok c0 ∧
        calcCost ((L.map (·.2)).map fun q => q.row kind pa n) l = .ok c ∧
        c0 ≤ c + 88 * (N + L.length + 4) / 2 ^ 53 * M ^ 2 * (L.map fun p => p.2.w).sum := by
  rw [C198_run hs pow sqrt kind pa n N M hN L hL hne o hc init (fun k => (hi k).2) choices] at h
  rcases hv : visitedBy (flSgdMove sum pow sqrt o (flRows sum kind pa n L)) init none choices with e | vs
  · rw [hv] at h; cases h
  rw [hv] at h
  obtain ⟨hlen, hvs⟩ := C198_visited hc hv
  have hall : ∀ l ∈ init :: vs, ∀ k, IsFloat (l k) ∧ 0 ≤ l k := fun l hl => by
    rcases List.mem_cons.1 hl with rfl | hl
    · exact hi
    · exact hvs l hl
  have hL' : ∀ q ∈ L.map (·.2), CostLeaf.OK kind n N M q := fun q hq => by
    obtain ⟨p, hp, rfl⟩ := List.mem_map.1 hq
    exact hL p hp
  obtain ⟨b, cb, all, e1, e2, e3, e4⟩ := C180_best hs kind pa n N M hM hN (L.map (·.2)) hL'
    (by rw [List.length_map]; exact hR) init vs (fun l hl k => (hall l hl k).2)
  have et : trackBest (flCalcCost sum (flRows sum kind pa n L)) init vs = .ok (b, cb, all) := by
    rw [← e1]
    congr 1
    funext l
    exact flCalcCost_flRows sum kind pa n L l
  simp only [bind, Except.bind, et, pure, Except.pure] at h
  have h' := Except.ok.inj h
  injection h' with h1 h2
  injection h2 with h2 h3
  subst h1 h2 h3
  refine ⟨vs, rfl, hlen, by rw [e3, hlen], e2, rfl, hall, fun l hl => ?_⟩
  obtain ⟨c0, c, g1, g2, g3⟩ := e4 l hl
  refine ⟨c0, c, g1, g2, ?_⟩
  rw [List.length_map, List.map_map] at g3
  exact g3

/-- C198: plain constrained descent in doubles stops only in `prox_project`, with a ValueError, and only after a step to
weights as large as `2^52 / ((n+1)(n+3))` for `n + 1` columns. -/
theorem C198_returns {sum : List ℚ → ℚ} (hs : IsFlSum sum) (pow : ℚ → ℕ → ℚ) (sqrt : ℚ → ℚ) (kind : Kind) (pa : Bool)
    (n N : ℕ) (M : ℚ) (hM : 0 ≤ M) (hN : N ≤ 2 ^ 46) (hn : n ≤ 2 ^ 50) (L : List (ℕ × CostLeaf C))
    (hL : ∀ p ∈ L, p.2.OK kind (n + 1) N M) (hne : L ≠ []) (hR : L.length + 4 ≤ 2 ^ 49) (o : SgdOpts ℚ)
    (hc : o.constrained = true) (ha : o.adam = none) (init : Fin (n + 1) → ℚ) (hi : ∀ k, 0 ≤ init k)
    (choices : List ℕ) {e : PyErr}
    (h : flSgdRun sum pow sqrt o (flRows sum kind pa (n + 1) L) init choices = .error e) :
    e = .valueError ∧ ∃ pre c post vs g k, choices = pre ++ c :: post ∧
      visitedBy (flSgdMove sum pow sqrt o (flRows sum kind pa (n + 1) L)) init none pre = .ok vs ∧
      flTakeGradient sum ((ofTree L c).map fun l => l.flRow sum kind pa (n + 1)) (vs.getLast?.getD init) = .ok g ∧
      2 ^ 52 ≤ ((n : ℚ) + 1) * (n + 3) * fl (vs.getLast?.getD init k - fl (o.tFix * g k)) := by
  rw [C198_run hs pow sqrt kind pa (n + 1) N M hN L hL hne o hc init hi choices] at h
  have hN' : N ≤ 2 ^ 50 := hN.trans (Nat.pow_le_pow_right (by norm_num) (by norm_num))
  have main : ∀ (cs : List ℕ) (lamb : Fin (n + 1) → ℚ) (iv : Option (Iv ℚ (n + 1))), (∀ k, 0 ≤ lamb k) → ∀ e,
      visitedBy (flSgdMove sum pow sqrt o (flRows sum kind pa (n + 1) L)) lamb iv cs = .error e →
      e = .valueError ∧ ∃ pre c post vs g k, cs = pre ++ c :: post ∧
        visitedBy (flSgdMove sum pow sqrt o (flRows sum kind pa (n + 1) L)) lamb iv pre = .ok vs ∧
        flTakeGradient sum ((ofTree L c).map fun l => l.flRow sum kind pa (n + 1)) (vs.getLast?.getD lamb) = .ok g ∧
        2 ^ 52 ≤ ((n : ℚ) + 1) * (n + 3) * fl (vs.getLast?.getD lamb k - fl (o.tFix * g k)) := by
    intro cs
    induction cs with
    | nil => intro lamb iv _ e he; cases he
    | cons c cs ih =>
      intro lamb iv hl e he
      have hg : flTakeGradient sum ((ofTree L c).map fun l => l.flRow sum kind pa (n + 1)) lamb = .ok fun j =>
          sum (((ofTree L c).map fun l => l.flRow sum kind pa (n + 1)).map fun r =>
            fl (flGradLeft sum r lamb * flGradYhat sum r lamb j)) := by
        unfold flTakeGradient
        rw [if_pos (flTakeGradient_rows hs hN' pa (ofTree L c) (fun l hlm => by
          obtain ⟨p, hp, rfl⟩ := ofTree_mem hlm; exact hL p hp) lamb hl)]
      simp only [visitedBy] at he
      rcases hp : flSgdMove sum pow sqrt o (flRows sum kind pa (n + 1) L) c lamb iv with e' | p
      · rw [hp] at he
        have hee : e' = e := by injection he
        subst hee
        generalize (fun j => sum (((ofTree L c).map fun l => l.flRow sum kind pa (n + 1)).map fun r =>
            fl (flGradLeft sum r lamb * flGradYhat sum r lamb j))) = g at hg
        unfold flSgdMove flSgdPre at hp
        simp only [ha, flTakeGradient_flRows, hg, bind, Except.bind, pure, Except.pure, hc, if_true] at hp
        by_cases hb : ∀ k, ((n : ℚ) + 1) * (n + 3) * fl (lamb k - fl (o.tFix * g k)) < 2 ^ 52
        · obtain ⟨x, hx, -⟩ := C163_returns (fun k => fl (lamb k - fl (o.tFix * g k))) (fun k => fl_isFloat _) hn hb
          rw [hx] at hp
          cases hp
        · push Not at hb
          obtain ⟨k, hk⟩ := hb
          refine ⟨?_, [], c, cs, [], g, k, rfl, rfl, hg, hk⟩
          rcases hx : flProxProject (fun k => fl (lamb k - fl (o.tFix * g k))) with e2 | x
          · rw [hx] at hp
            have : e2 = e' := by injection hp
            subst this
            unfold flProxProject at hx
            dsimp only at hx
            rcases hm : npMaxE ((flProxRho (clip0 fun k => fl (lamb k - fl (o.tFix * g k)))).map
                (flProxThr (clip0 fun k => fl (lamb k - fl (o.tFix * g k))))) with e3 | m
            · rw [hm] at hx
              have : e3 = e2 := by injection hx
              subst this
              exact npMaxE_error hm
            · rw [hm] at hx; cases hx
          · rw [hx] at hp; cases hp
      · rw [hp] at he
        simp only [bind, Except.bind] at he
        rcases hr : visitedBy (flSgdMove sum pow sqrt o (flRows sum kind pa (n + 1) L)) p.1 p.2 cs with e' | r
        · rw [hr] at he
          have hee : e' = e := by injection he
          subst hee
          obtain ⟨h1, pre, c', post, vs, g, k, h2, h3, h4, h5⟩ :=
            ih p.1 p.2 (fun k => (flSgdMove_ok hc hp k).2) e' hr
          have hlast : ((p.1 :: vs).getLast?.getD lamb) = vs.getLast?.getD p.1 := by
            cases vs with
            | nil => rfl
            | cons a r => simp [List.getLast?_cons]
          refine ⟨h1, c :: pre, c', post, p.1 :: vs, g, k, by rw [h2]; rfl, ?_, ?_, ?_⟩
          · simp only [visitedBy, hp, bind, Except.bind, h3, pure, Except.pure]
          · rw [hlast]; exact h4
          · rw [hlast]; exact h5
        · rw [hr] at he; cases he
  rcases hv : visitedBy (flSgdMove sum pow sqrt o (flRows sum kind pa (n + 1) L)) init none choices with e' | vs
  · rw [hv] at h
    have hee : e' = e := by injection h
    subst hee
    exact main choices init none hi e' hv
  · exfalso
    rw [hv] at h
    have hvs := (C198_visited hc hv).2
    obtain ⟨b, cb, all, e1, -⟩ := C180_best hs kind pa (n + 1) N M hM hN (L.map (·.2))
      (fun q hq => by obtain ⟨p, hp, rfl⟩ := List.mem_map.1 hq; exact hL p hp)
      (by rw [List.length_map]; exact hR) init vs (fun l hl k => by
        rcases List.mem_cons.1 hl with rfl | hl
        · exact hi k
        · exact (hvs l hl k).2)
    have et : trackBest (flCalcCost sum (flRows sum kind pa (n + 1) L)) init vs = .ok (b, cb, all) := by
      rw [← e1]
      congr 1
      funext l
      exact flCalcCost_flRows sum kind pa (n + 1) L l
    simp only [bind, Except.bind, et] at h
    cases h

/-- C198: error of the vector given to `prox_project` by a plain step. -/
theorem C198_step {sum : List ℚ → ℚ} (hs : IsFlSum sum) (kind : Kind) (pa : Bool) (n N : ℕ) (M : ℚ)
    (L : List (CostLeaf C)) (hL : ∀ l ∈ L, l.OK kind n N M) (hN : 8 * N + 10 + L.length ≤ 2 ^ 51) (t : ℚ)
    (lamb : Fin n → ℚ) (hl : ∀ k, 0 ≤ lamb k) :
    ∃ g g', takeGradient (L.map fun l => l.row kind pa n) lamb = .ok g ∧
      flTakeGradient sum (L.map fun l => l.flRow sum kind pa n) lamb = .ok g' ∧
      ∀ k, |fl (lamb k - fl (t * g' k)) - (lamb k - t * g k)| ≤ (lamb k + 3 * |t * g k|) / 2 ^ 53 +
        2 * |t| * (16 * (8 * N + 10 + L.length) / 2 ^ 53 * M ^ 2 *
          (L.map fun l => l.w * (l.row kind pa n).eta k / etaFill (l.row kind pa n) lamb).sum) := by
  obtain ⟨g, g', h1, h2, h3⟩ := C187_gradient hs kind pa n N M L hL hN lamb hl
  refine ⟨g, g', h1, h2, fun k => ?_⟩
  have h4 := h3 k
  generalize 16 * (8 * (N : ℚ) + 10 + L.length) / 2 ^ 53 * M ^ 2 *
    (L.map fun l => l.w * (l.row kind pa n).eta k / etaFill (l.row kind pa n) lamb).sum = E at h4 ⊢
  have e1 := fl_err (t * g' k)
  have e2 := fl_err (lamb k - fl (t * g' k))
  have e3 : |t * g' k - t * g k| ≤ |t| * E := by
    rw [← mul_sub, abs_mul]
    exact mul_le_mul_of_nonneg_left h4 (abs_nonneg _)
  have e4 : |t * g' k| ≤ |t * g k| + |t| * E := by
    have := abs_sub_abs_le_abs_sub (t * g' k) (t * g k)
    linarith
  have e5 : |fl (t * g' k)| ≤ |t * g' k| + |t * g' k| / 2 ^ 53 := by
    have := abs_sub_abs_le_abs_sub (fl (t * g' k)) (t * g' k)
    linarith
  have e6 : |lamb k - fl (t * g' k)| ≤ lamb k + |fl (t * g' k)| := by
    have := abs_sub (lamb k) (fl (t * g' k))
    rwa [abs_of_nonneg (hl k)] at this
  have e7 : |fl (lamb k - fl (t * g' k)) - (lamb k - t * g k)| ≤ |fl (lamb k - fl (t * g' k)) - (lamb k - fl (t * g' k))| +
      (|fl (t * g' k) - t * g' k| + |t * g' k - t * g k|) := by
    have a1 := abs_add_le (fl (lamb k - fl (t * g' k)) - (lamb k - fl (t * g' k)))
      (-((fl (t * g' k) - t * g' k) + (t * g' k - t * g k)))
    have a2 := abs_add_le (fl (t * g' k) - t * g' k) (t * g' k - t * g k)
    rw [abs_neg] at a1
    have : fl (lamb k - fl (t * g' k)) - (lamb k - t * g k) = fl (lamb k - fl (t * g' k)) - (lamb k - fl (t * g' k)) +
      -((fl (t * g' k) - t * g' k) + (t * g' k - t * g k)) := by ring
    rw [this]
    linarith
  have hE : 0 ≤ |t| * E := (abs_nonneg _).trans e3
  have ha := abs_nonneg (t * g' k)
  rw [mul_assoc 2 |t| E]
  generalize |t| * E = F at *
  linarith

/-- C198: a plain constrained step with a step size below `Σ λ² / (2 E)`, with `E` the bound of C187 on the product of
weights and gradient, leaves a positive weight. -/
theorem C198_positive {sum : List ℚ → ℚ} (hs : IsFlSum sum) (pow : ℚ → ℕ → ℚ) (sqrt : ℚ → ℚ) (kind : Kind) (pa : Bool)
    (n N : ℕ) (M : ℚ) (L : List (ℕ × CostLeaf C)) (hL : ∀ p ∈ L, p.2.OK kind n N M)
    (hN : 8 * N + 10 + L.length ≤ 2 ^ 51) (o : SgdOpts ℚ) (hc : o.constrained = true) (ha : o.adam = none)
    (ht : 0 ≤ o.tFix) (lamb : Fin n → ℚ) (hl : ∀ k, 0 ≤ lamb k) (c : ℕ) (iv : Option (Iv ℚ n))
    (hE : 2 * o.tFix * (16 * (8 * N + 10 + (ofTree L c).length) / 2 ^ 53 * M ^ 2 *
      ((ofTree L c).map fun l => l.w).sum) < ∑ k, lamb k ^ 2) {p : (Fin n → ℚ) × Option (Iv ℚ n)}
    (h : flSgdMove sum pow sqrt o (flRows sum kind pa n L) c lamb iv = .ok p) : ∃ k, 0 < p.1 k := by
  have hL' : ∀ l ∈ ofTree L c, CostLeaf.OK kind n N M l := fun l hlm => by
    obtain ⟨q, hq, rfl⟩ := ofTree_mem hlm; exact hL q hq
  have hN' : 8 * N + 10 + (ofTree L c).length ≤ 2 ^ 51 := by
    have := ofTree_length L c
    omega
  unfold flSgdMove flSgdPre at h
  simp only [ha, flTakeGradient_flRows, bind, Except.bind, pure, Except.pure, hc, if_true] at h
  rcases hg : flTakeGradient sum ((ofTree L c).map fun l => l.flRow sum kind pa n) lamb with e | g
  · rw [hg] at h; cases h
  rw [hg] at h
  simp only at h
  rcases hx : flProxProject (fun k => fl (lamb k - fl (o.tFix * g k))) with e | x
  · rw [hx] at h; cases h
  rw [hx] at h
  rw [← Except.ok.inj h]
  refine (flProx_ok hx).2 ?_
  have ho := C187_orthogonal hs kind pa n N M (ofTree L c) hL' hN' lamb hl hg
  by_contra hno
  push Not at hno
  have pos : ∀ z : ℚ, 0 < z → 0 < fl z := fun z hz =>
    lt_of_lt_of_le (mul_pos (by norm_num) hz) (fl_bounds hz.le).1
  have key : ∀ k ∈ Finset.univ, lamb k ^ 2 ≤ 2 * o.tFix * (lamb k * g k) := fun k _ => by
    have h1 : lamb k ≤ fl (o.tFix * g k) := by
      by_contra hlt
      push Not at hlt
      exact absurd (pos _ (sub_pos.2 hlt)) (not_lt.2 (hno k))
    rcases (hl k).eq_or_lt with h0 | h0
    · rw [← h0]; simp
    · have h2 : 0 < o.tFix * g k := by
        by_contra hle
        push Not at hle
        have := fl_nonpos hle
        linarith
      have h3 : fl (o.tFix * g k) ≤ 2 * (o.tFix * g k) := by
        refine (fl_bounds h2.le).2.trans ?_
        exact mul_le_mul_of_nonneg_right (by norm_num) h2.le
      have := mul_le_mul_of_nonneg_left (h1.trans h3) h0.le
      rw [sq]
      linarith
  have h5 := Finset.sum_le_sum key
  rw [← Finset.mul_sum] at h5
  have h6 := mul_le_mul_of_nonneg_left ((le_abs_self _).trans ho) (mul_nonneg zero_le_two ht)
  linarith

/-! ### Cases -/

/-- A tree with two leaves of the same value, `322122547.2` as a double. -/
abbrev exBig : SkTree ℚ 1 :=
  { toTopo := ⟨2, ![some 1, none, none], ![some 2, none, none]⟩
    value := fun _ _ => 5404319552844595 / 2 ^ 24
    nSamp := ![6, 5, 1]
    impurity := ![0, 0, 0] }

abbrev exBigLeaf : CostLeaf 1 := ⟨exBig, exBig.distDepth .standard, ⟨0, by decide⟩, 0, 0, 1⟩

theorem exBigLeaf_ok : exBigLeaf.OK .reg 2 7 (2 ^ 29) where
  whole := ⟨fun j => ⟨if j.val = 0 then 5 else 1, by revert j; decide +kernel⟩, by decide +kernel⟩
  pos := by decide +kernel
  cols := by decide +kernel
  size := by decide +kernel
  bound := by
    intro j
    show |exBig.value (exBig.leafNode j) 0| ≤ 2 ^ 29
    revert j
    decide +kernel
  resp := by decide +kernel
  weight := by decide +kernel

/-- Step size 1, constrained, no adam. -/
abbrev exOne : SgdOpts ℚ := ⟨1, true, none⟩

theorem exBig_run : (match flSgdRun npSum (fun x _ => x) id exOne (flRows npSum .reg false 2 [(0, exBigLeaf)]) ![1, 0] [0] with
    | .ok out => some (out.1 0, out.1 1, out.2.1 0, out.2.1 1, out.2.2)
    | .error _ => none) = some (0, 0, 0, 0, [103762935414616224, 0]) := by
  decide +kernel

/-- The exact gradient of the case: zero. -/
theorem exBig_grad : takeGradient ([exBigLeaf].map fun l => l.row .reg false 2) ![1, 0] = .ok ![0, 0] := by
  unfold takeGradient
  rw [if_pos (by decide +kernel)]
  congr 1
  funext k
  revert k
  decide +kernel

/-- C198: in doubles a plain constrained descent can return weights that are all zero (C112 excludes it in exact
arithmetic): here with step size 1, two leaves of the same value `322122547.2`, an exact gradient of zero. -/
theorem C198_positive_refuted :
    ¬ ∀ (sum : List ℚ → ℚ) (pow : ℚ → ℕ → ℚ) (sqrt : ℚ → ℚ) (kind : Kind) (pa : Bool) (n N : ℕ) (M : ℚ)
      (L : List (ℕ × CostLeaf 1)), IsFlSum sum → (∀ p ∈ L, p.2.OK kind n N M) → ∀ o : SgdOpts ℚ,
      o.constrained = true → o.adam = none → o.tFix = 1 → ∀ (init : Fin n → ℚ), (∀ k, 0 ≤ init k) → ∑ k, init k = 1 →
      ∀ choices best last costs, flSgdRun sum pow sqrt o (flRows sum kind pa n L) init choices = .ok (best, last, costs) →
        ∃ k, 0 < best k := by
  intro h
  have h1 := h npSum (fun x _ => x) id .reg false 2 7 (2 ^ 29) [(0, exBigLeaf)] npSum_rsum
    (by intro p hp; rw [List.mem_singleton.1 hp]; exact exBigLeaf_ok) exOne rfl rfl rfl ![1, 0] (by decide +kernel)
    (by simp [Fin.sum_univ_two]) [0]
  have h2 := exBig_run
  rcases hr : flSgdRun npSum (fun x _ => x) id exOne (flRows npSum .reg false 2 [(0, exBigLeaf)]) ![1, 0] [0] with e | r
  · rw [hr] at h2; cases h2
  · obtain ⟨b, l, c⟩ := r
    rw [hr] at h2
    have h3 := Option.some.inj h2
    obtain ⟨k, hk⟩ := h1 b l c hr
    injection h3 with a0 h3
    injection h3 with a1 h3
    fin_cases k
    · exact absurd hk (not_lt.2 (le_of_eq a0))
    · exact absurd hk (not_lt.2 (le_of_eq a1))

/-- Two trees, two steps of size 1: both costs fall. -/
theorem exThird_run : (match flSgdRun npSum (fun x _ => x) id exOne
      (flRows npSum .reg false 2 [(0, exThirdLeaf), (1, exThirdLeaf)]) ![1 / 4, 3 / 4] [0, 1] with
    | .ok out => some (out.1 0, out.1 1, out.2.1 0, out.2.1 1, out.2.2)
    | .error _ => none) = some (2817077319153097 / 72057594037927936, 1815966148530833 / 2251799813685248,
      2817077319153097 / 72057594037927936, 1815966148530833 / 2251799813685248,
      [5882252574524733 / 144115188075855872, 2406612754186637 / 288230376151711744,
        1291366097283959 / 1152921504606846976]) := by
  decide +kernel

/-- The case meets the assumptions of `C198_best` and `C198_returns`. -/
theorem exThird_pair : ∀ p ∈ [((0 : ℕ), exThirdLeaf), (1, exThirdLeaf)], p.2.OK .reg 2 7 1 := by
  intro p hp
  rcases List.mem_cons.1 hp with rfl | hp
  · exact exThirdLeaf_ok
  · rw [List.mem_singleton.1 hp]; exact exThirdLeaf_ok

/-- ... and those of `C198_positive`: its first step keeps a positive weight. -/
example {p : (Fin 2 → ℚ) × Option (Iv ℚ 2)}
    (h : flSgdMove npSum (fun x _ => x) id exOne (flRows npSum .reg false 2 [(0, exThirdLeaf), (1, exThirdLeaf)]) 0
      ![1 / 4, 3 / 4] none = .ok p) : ∃ k, 0 < p.1 k :=
  C198_positive npSum_rsum (fun x _ => x) id .reg false 2 7 1 _ exThird_pair (by simp) exOne rfl rfl (by norm_num)
    ![1 / 4, 3 / 4] (by decide +kernel) 0 none (by simp [ofTree, Fin.sum_univ_two]; norm_num) h

/-- The same leaf with response zero. -/
abbrev exThirdZero : CostLeaf 1 := { exThirdLeaf with y := 0 }

theorem exThirdZero_ok : exThirdZero.OK .reg 2 7 1 := { exThirdLeaf_ok with resp := by decide +kernel }

/-- A step size of `2^60`: the descent stops with a ValueError (`C198_returns`). -/
theorem exThird_stop : (match flSgdRun npSum (fun x _ => x) id ⟨2 ^ 60, true, none⟩
      (flRows npSum .reg false 2 [(0, exThirdZero)]) ![1 / 4, 3 / 4] [0] with
    | .ok _ => none
    | .error e => some e) = some .valueError := by
  decide +kernel

end SmoothRF
