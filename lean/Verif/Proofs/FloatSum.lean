import Verif.Proofs.Float
import Mathlib.Data.List.Perm.Basic
import Mathlib.Algebra.BigOperators.Group.List.Basic
import Mathlib.Algebra.Order.BigOperators.Group.List

/-! # Rounded sums

`np.sum` adds the entries pair by pair in some order and rounds every time. `RSum d l s` says that `s` comes
from such a computation on the entries of `l` with at most `d` roundings on the way of every entry. -/

set_option linter.unusedSectionVars false

namespace SmoothRF

inductive RSum : ℕ → List ℚ → ℚ → Prop
  | zero (d : ℕ) : RSum d [] 0
  | one (d : ℕ) (x : ℚ) : RSum d [x] x
  | add {d : ℕ} {a b l : List ℚ} {s t : ℚ} (ha : RSum d a s) (hb : RSum d b t) (hp : (a ++ b).Perm l) :
      RSum (d + 1) l (fl (s + t))

theorem RSum.mono {d d' : ℕ} {l : List ℚ} {s : ℚ} (h : RSum d l s) (hd : d ≤ d') : RSum d' l s := by
  induction h generalizing d' with
  | zero d => exact .zero d'
  | one d x => exact .one d' x
  | @add d a b l s t _ _ hp iha ihb =>
    obtain ⟨k, rfl⟩ := Nat.exists_eq_add_of_le' (show 1 ≤ d' by omega)
    exact .add (iha (by omega)) (ihb (by omega)) hp

theorem RSum.perm {d : ℕ} {l l' : List ℚ} {s : ℚ} (h : RSum d l s) (hp : l.Perm l') : RSum d l' s := by
  cases h with
  | zero d => rw [List.nil_perm.1 hp]; exact .zero d
  | one d x => rw [← List.singleton_perm.1 hp]; exact .one d _
  | add ha hb hq => exact .add ha hb (hq.trans hp)

/-- The plain loop. -/
theorem rsum_foldl (a : List ℚ) : ∀ {d : ℕ} {a0 : List ℚ} {r : ℚ}, RSum d a0 r →
    RSum (d + a.length) (a0 ++ a) (a.foldl (fun r x => fl (r + x)) r) := by
  induction a with
  | nil => intro d a0 r h; simpa using h
  | cons x t ih =>
    intro d a0 r h
    have h1 : RSum (d + 1) (a0 ++ [x]) (fl (r + x)) := .add h (.one d x) (List.Perm.refl _)
    have := ih h1
    simp only [List.foldl_cons, List.length_cons]
    rw [show d + (t.length + 1) = d + 1 + t.length by omega]
    simpa using this

theorem rsum_flSum (a : List ℚ) : RSum a.length a (flSum a) := by
  have := rsum_foldl a (RSum.zero 0)
  simpa [flSum] using this

/-- Every running sum of the unrolled loop. -/
def LaneOK (d : ℕ) (LL : List (List ℚ)) (r : List ℚ) : Prop := List.Forall₂ (RSum d) LL r

theorem laneOK_add {d : ℕ} : ∀ {LL : List (List ℚ)} {r a : List ℚ}, LaneOK d LL r → a.length = r.length →
    LaneOK (d + 1) (List.zipWith (fun x L => x :: L) a LL) (laneAdd r a) := by
  intro LL r a h
  induction h generalizing a with
  | nil => intro ha; simp at ha; subst ha; exact .nil
  | @cons L s LL r hL hr ih =>
    intro ha
    cases a with
    | nil => simp at ha
    | cons x a =>
      simp only [List.length_cons, Nat.add_right_cancel_iff] at ha
      refine .cons ?_ (ih ha)
      refine .add hL (.one d x) ?_
      exact List.perm_append_comm

theorem zipWith_cons_perm : ∀ (a : List ℚ) (LL : List (List ℚ)), a.length = LL.length →
    (List.zipWith (fun x L => x :: L) a LL).flatten.Perm (LL.flatten ++ a)
  | [], [], _ => by simp
  | x :: a, L :: LL, h => by
    have ih := zipWith_cons_perm a LL (by simpa using h)
    simp only [List.zipWith_cons_cons, List.flatten_cons, List.cons_append]
    have h1 : (L ++ (List.zipWith (fun x L => x :: L) a LL).flatten).Perm (L ++ LL.flatten ++ a) := by
      rw [List.append_assoc]; exact ih.append_left L
    refine (h1.cons x).trans ?_
    exact (List.perm_middle).symm

theorem lanes_ok : ∀ (b : ℕ) {d : ℕ} {LL : List (List ℚ)} {r a : List ℚ}, LaneOK d LL r → r.length = 8 →
    8 * b ≤ a.length →
    ∃ LL', LaneOK (d + b) LL' (lanes b r a).1 ∧ (lanes b r a).1.length = 8 ∧
      (lanes b r a).2 = a.drop (8 * b) ∧ LL'.flatten.Perm (LL.flatten ++ a.take (8 * b))
  | 0, d, LL, r, a, h, hr, _ => ⟨LL, by simpa [lanes] using h, by simpa [lanes] using hr, by simp [lanes], by simp⟩
  | b + 1, d, LL, r, a, h, hr, ha => by
    have ht : (a.take 8).length = 8 := by rw [List.length_take]; omega
    have h1 := laneOK_add h (ht.trans hr.symm)
    have hl : (laneAdd r (a.take 8)).length = 8 := by simp [laneAdd, hr]; omega
    obtain ⟨LL', h2, h3, h4, h5⟩ := lanes_ok b h1 hl (a := a.drop 8) (by rw [List.length_drop]; omega)
    have hLL : LL.length = 8 := h.length_eq.trans hr
    refine ⟨LL', ?_, h3, ?_, ?_⟩
    · rw [show d + (b + 1) = d + 1 + b by omega]; exact h2
    · show (lanes b (laneAdd r (a.take 8)) (a.drop 8)).2 = _
      rw [h4, List.drop_drop]; congr 1; omega
    · refine h5.trans ?_
      have h6 := (zipWith_cons_perm (a.take 8) LL (ht.trans hLL.symm)).append_right ((a.drop 8).take (8 * b))
      refine h6.trans ?_
      rw [List.append_assoc]
      refine List.Perm.append_left _ ?_
      rw [show 8 * (b + 1) = 8 + 8 * b by omega, List.take_add]

theorem laneTotal_ok {d : ℕ} {LL : List (List ℚ)} {r : List ℚ} (h : LaneOK d LL r) (hr : r.length = 8) :
    RSum (d + 3) LL.flatten (laneTotal r) := by
  rcases h with _ | ⟨h0, h⟩
  · simp at hr
  rcases h with _ | ⟨h1, h⟩
  · simp at hr
  rcases h with _ | ⟨h2, h⟩
  · simp at hr
  rcases h with _ | ⟨h3, h⟩
  · simp at hr
  rcases h with _ | ⟨h4, h⟩
  · simp at hr
  rcases h with _ | ⟨h5, h⟩
  · simp at hr
  rcases h with _ | ⟨h6, h⟩
  · simp at hr
  rcases h with _ | ⟨h7, h⟩
  · simp at hr
  rcases h with _ | ⟨h8, h⟩
  · have e : ∀ {x y : List ℚ} {s t : ℚ} {d : ℕ}, RSum d x s → RSum d y t → RSum (d + 1) (x ++ y) (fl (s + t)) :=
      fun hx hy => .add hx hy (List.Perm.refl _)
    have := e (e (e h0 h1) (e h2 h3)) (e (e h4 h5) (e h6 h7))
    simpa [laneTotal] using this
  · simp at hr

theorem rsum_pairwise : ∀ (fuel : ℕ) (a : List ℚ), RSum a.length a (pairwiseSum fuel a)
  | 0, a => rsum_flSum a
  | fuel + 1, a => by
    unfold pairwiseSum
    split
    · exact rsum_flSum a
    · rename_i h8
      split
      · have hone : ∀ l : List ℚ, LaneOK 0 (l.map fun x => [x]) l := by
          intro l
          induction l with
          | nil => exact .nil
          | cons x l ih => exact .cons (.one 0 x) ih
        have ht : (a.take 8).length = 8 := by rw [List.length_take]; omega
        obtain ⟨LL', h1, h2, h3, h4⟩ := lanes_ok (a.length / 8 - 1) (hone (a.take 8)) ht
          (a := a.drop 8) (by rw [List.length_drop]; omega)
        have h5 := laneTotal_ok h1 h2
        have h6 := rsum_foldl (lanes (a.length / 8 - 1) (a.take 8) (a.drop 8)).2 h5
        have hfl : (((a.take 8).map fun x => [x]).flatten) = a.take 8 := by
          generalize a.take 8 = l
          induction l with
          | nil => rfl
          | cons x l ih => simp [ih]
        rw [hfl] at h4
        have hlen : (lanes (a.length / 8 - 1) (a.take 8) (a.drop 8)).2.length =
            a.length - 8 - 8 * (a.length / 8 - 1) := by
          rw [h3, List.length_drop, List.length_drop]
        refine (h6.mono (d' := a.length) (by rw [hlen]; omega)).perm ?_
        refine (h4.append_right _).trans ?_
        rw [h3, List.append_assoc, List.take_append_drop, List.take_append_drop]
      · rename_i h128
        set n2 := a.length / 2 - (a.length / 2) % 8 with hn2
        have hb : 8 ≤ n2 := by omega
        have hb2 : n2 + 8 ≤ a.length := by omega
        have l1 : (a.take n2).length = n2 := by rw [List.length_take]; omega
        have l2 : (a.drop n2).length = a.length - n2 := List.length_drop
        have h1 := (rsum_pairwise fuel (a.take n2)).mono (d' := a.length - 1) (by omega)
        have h2 := (rsum_pairwise fuel (a.drop n2)).mono (d' := a.length - 1) (by omega)
        have := RSum.add h1 h2 (l := a) (by rw [List.take_append_drop])
        exact this.mono (by omega)

/-- `np.sum` rounds the contribution of every entry at most as often as there are entries. -/
theorem npSum_rsum (a : List ℚ) : RSum a.length a (npSum a) := rsum_pairwise _ a

theorem nonneg_sum {l : List ℚ} (h : ∀ x ∈ l, 0 ≤ x) : 0 ≤ l.sum := List.sum_nonneg h

/-- Error of a rounded sum of non-negative numbers. -/
theorem RSum.bounds {d : ℕ} {l : List ℚ} {s : ℚ} (h : RSum d l s) (hl : ∀ x ∈ l, 0 ≤ x) :
    (1 - 1 / 2 ^ 53) ^ d * l.sum ≤ s ∧ s ≤ (1 + 1 / 2 ^ 53) ^ d * l.sum := by
  induction h with
  | zero d => simp
  | one d x =>
    have hx : 0 ≤ x := hl x (by simp)
    simp only [List.sum_cons, List.sum_nil, add_zero]
    have h1 : (1 - 1 / 2 ^ 53 : ℚ) ^ d ≤ 1 := pow_le_one₀ (by norm_num) (by norm_num)
    have h2 : (1 : ℚ) ≤ (1 + 1 / 2 ^ 53) ^ d := one_le_pow₀ (by norm_num)
    exact ⟨mul_le_of_le_one_left hx h1, le_mul_of_one_le_left hx h2⟩
  | @add d a b l s t _ _ hp iha ihb =>
    have ha : ∀ x ∈ a, 0 ≤ x := fun x hx => hl x (hp.subset (List.mem_append_left _ hx))
    have hb : ∀ x ∈ b, 0 ≤ x := fun x hx => hl x (hp.subset (List.mem_append_right _ hx))
    obtain ⟨a1, a2⟩ := iha ha
    obtain ⟨b1, b2⟩ := ihb hb
    have hsum : l.sum = a.sum + b.sum := by rw [← hp.sum_eq, List.sum_append]
    have hlo : 0 ≤ (1 - 1 / 2 ^ 53 : ℚ) ^ d := pow_nonneg (by norm_num) d
    have hs : 0 ≤ s := le_trans (mul_nonneg hlo (nonneg_sum ha)) a1
    have ht : 0 ≤ t := le_trans (mul_nonneg hlo (nonneg_sum hb)) b1
    obtain ⟨f1, f2⟩ := fl_bounds (add_nonneg hs ht)
    rw [hsum]
    constructor
    · refine le_trans ?_ f1
      rw [pow_succ _ d]
      have : (1 - 1 / 2 ^ 53 : ℚ) ^ d * (a.sum + b.sum) ≤ s + t := by rw [mul_add]; linarith
      calc (1 - 1 / 2 ^ 53 : ℚ) ^ d * (1 - 1 / 2 ^ 53) * (a.sum + b.sum)
          = (1 - 1 / 2 ^ 53) * ((1 - 1 / 2 ^ 53) ^ d * (a.sum + b.sum)) := by ring
        _ ≤ _ := mul_le_mul_of_nonneg_left this (by norm_num)
    · refine le_trans f2 ?_
      rw [pow_succ _ d]
      have : s + t ≤ (1 + 1 / 2 ^ 53 : ℚ) ^ d * (a.sum + b.sum) := by rw [mul_add]; linarith
      calc (1 + 1 / 2 ^ 53) * (s + t)
          ≤ (1 + 1 / 2 ^ 53) * ((1 + 1 / 2 ^ 53 : ℚ) ^ d * (a.sum + b.sum)) :=
            mul_le_mul_of_nonneg_left this (by norm_num)
        _ = _ := by ring

/-- Whole multiples of one power of two are added without rounding up to `2^53` of them. -/
theorem RSum.exact {d : ℕ} {l : List ℚ} {s : ℚ} (h : RSum d l s) (e : ℤ)
    (hl : ∀ x ∈ l, ∃ n : ℕ, x = n * 2 ^ e) (hs : l.sum ≤ 2 ^ 53 * 2 ^ e) :
    s = l.sum ∧ ∃ n : ℕ, s = n * 2 ^ e := by
  have hpos : (0 : ℚ) < 2 ^ e := by positivity
  induction h with
  | zero d => exact ⟨by simp, 0, by simp⟩
  | one d x => exact ⟨by simp, hl x (by simp)⟩
  | @add d a b l s t _ _ hp iha ihb =>
    have ha : ∀ x ∈ a, ∃ n : ℕ, x = n * 2 ^ e := fun x hx => hl x (hp.subset (List.mem_append_left _ hx))
    have hb : ∀ x ∈ b, ∃ n : ℕ, x = n * 2 ^ e := fun x hx => hl x (hp.subset (List.mem_append_right _ hx))
    have hsum : l.sum = a.sum + b.sum := by rw [← hp.sum_eq, List.sum_append]
    have ha0 : 0 ≤ a.sum := nonneg_sum fun x hx => by obtain ⟨n, rfl⟩ := ha x hx; positivity
    have hb0 : 0 ≤ b.sum := nonneg_sum fun x hx => by obtain ⟨n, rfl⟩ := hb x hx; positivity
    obtain ⟨a1, n, a2⟩ := iha ha (by linarith)
    obtain ⟨b1, m, b2⟩ := ihb hb (by linarith)
    have hf : IsFloat (s + t) := by
      refine ⟨(n + m : ℕ), e, ?_, ?_⟩
      · have h1 : ((n + m : ℕ) : ℚ) * 2 ^ e ≤ 2 ^ 53 * 2 ^ e := by
          push_cast
          rw [add_mul, ← a2, ← b2, a1, b1, ← hsum]; exact hs
        have h2 := le_of_mul_le_mul_right h1 hpos
        rw [abs_of_nonneg (by positivity)]
        exact_mod_cast h2
      · rw [a2, b2]; push_cast; ring
    rw [fl_of_float hf]
    exact ⟨by rw [hsum, a1, b1], n + m, by rw [a2, b2]; push_cast; ring⟩

theorem npSum_exact (l : List ℚ) (e : ℤ) (hl : ∀ x ∈ l, ∃ n : ℕ, x = n * 2 ^ e)
    (hs : l.sum ≤ 2 ^ 53 * 2 ^ e) : npSum l = l.sum :=
  ((npSum_rsum l).exact e hl hs).1

theorem npSum_bounds (l : List ℚ) (hl : ∀ x ∈ l, 0 ≤ x) :
    (1 - 1 / 2 ^ 53) ^ l.length * l.sum ≤ npSum l ∧ npSum l ≤ (1 + 1 / 2 ^ 53) ^ l.length * l.sum :=
  (npSum_rsum l).bounds hl

end SmoothRF
