import Verif.Props.LevelProps

/-!
# smooth_level.py: kernels of one data set are positive semidefinite (C102)
-/

set_option linter.unusedSectionVars false

namespace SmoothRF
open Topo SkTree

variable {K : Type} [Field K] [LinearOrder K] [IsStrictOrderedRing K]

/-- No vector has a negative quadratic form. -/
def PsdForm {n : ℕ} (g : Fin n → Fin n → K) : Prop :=
  ∀ c : Fin n → K, 0 ≤ ∑ x, ∑ y, c x * g x y * c y

theorem psd_rank_one {n : ℕ} (u : Fin n → K) : PsdForm fun x y => u x * u y := by
  intro c
  have : ∑ x, ∑ y, c x * (u x * u y) * c y = (∑ x, c x * u x) ^ 2 := by
    rw [sq, Finset.sum_mul_sum]
    exact Finset.sum_congr rfl fun x _ => Finset.sum_congr rfl fun y _ => by ring
  rw [this]
  exact sq_nonneg _

theorem psd_mul {n : ℕ} {g : Fin n → Fin n → K} (h : PsdForm g) {w : K} (hw : 0 ≤ w) :
    PsdForm fun x y => w * g x y := by
  intro c
  have : ∑ x, ∑ y, c x * (w * g x y) * c y = w * ∑ x, ∑ y, c x * g x y * c y := by
    rw [Finset.mul_sum]
    refine Finset.sum_congr rfl fun x _ => ?_
    rw [Finset.mul_sum]
    exact Finset.sum_congr rfl fun y _ => by ring
  rw [this]
  exact mul_nonneg hw (h c)

theorem psd_list_sum {n : ℕ} {ι : Type} (l : List ι) (g : ι → Fin n → Fin n → K)
    (h : ∀ i ∈ l, PsdForm (g i)) : PsdForm fun x y => (l.map fun i => g i x y).sum := by
  induction l with
  | nil => intro c; simp
  | cons i l ih =>
    intro c
    have e : ∑ x, ∑ y, c x * (((i :: l).map fun i => g i x y).sum) * c y =
        (∑ x, ∑ y, c x * g i x y * c y) + ∑ x, ∑ y, c x * ((l.map fun i => g i x y).sum) * c y := by
      rw [← Finset.sum_add_distrib]
      refine Finset.sum_congr rfl fun x _ => ?_
      rw [← Finset.sum_add_distrib]
      refine Finset.sum_congr rfl fun y _ => ?_
      rw [List.map_cons, List.sum_cons]
      ring
    rw [e]
    exact add_nonneg (h i (by simp) c) (ih (fun j hj => h j (by simp [hj])) c)

open Classical in
theorem psd_shareMat {a : ℕ} (r : Routes a a) (hr : r.Ok) (hs : ∀ x, r.leafNew x = r.leaf x) (k : ℕ) :
    PsdForm fun x y => (shareMat r k x y : K) := by
  have e : (fun x y => (shareMat r k x y : K)) = fun x y =>
      (((List.finRange (r.t.m + 1)).filter fun v => r.t.depthPerNode v = k).map fun v =>
        (if r.t.Anc v (r.leaf x) then (1 : K) else 0) * (if r.t.Anc v (r.leaf y) then 1 else 0)).sum := by
    funext x y
    unfold shareMat
    rw [hs x, ← level_sum hr.wf k, Nat.cast_list_sum, List.map_map]
    congr 1
    refine List.map_congr_left fun v _ => ?_
    simp
  rw [e]
  exact psd_list_sum _ (fun v x y => (if r.t.Anc v (r.leaf x) then (1 : K) else 0) *
    (if r.t.Anc v (r.leaf y) then 1 else 0)) fun v _ => psd_rank_one fun x => if r.t.Anc v (r.leaf x) then 1 else 0

/-- C102: when both data sets are the same and the level weights are not negative, the kernel is a
symmetric matrix without negative quadratic form. -/
theorem C102_kernel_psd {a : ℕ} (forest : List (Routes a a)) (hne : forest ≠ []) (hf : ∀ r ∈ forest, r.Ok)
    (hs : ∀ r ∈ forest, ∀ x, r.leafNew x = r.leaf x) (d : ℕ) (lamb : List K) (hl : lamb.length = d)
    (h0 : ∀ w ∈ lamb, 0 ≤ w) :
    ∃ u k, makeUt (makeVt (forest.map fun r => ⟨r.t, r.pathNew⟩))
        (makeVt (forest.map fun r => ⟨r.t, r.path⟩)) (some d) = .ok u ∧
      makeKernel u (some lamb) = .ok k ∧ (∀ x y, k x y = k y x) ∧
      ∀ c : Fin a → K, 0 ≤ ∑ x, ∑ y, c x * k x y * c y := by
  have hlam : ∀ k, 0 ≤ lamb.getD k 0 := by
    intro k
    rw [List.getD_eq_getElem?_getD]
    cases hk : lamb[k]? with
    | none => simp
    | some w => simpa using h0 w (List.mem_of_getElem? hk)
  have hsym : ∀ r ∈ forest, ∀ k x y, shareMat r k x y = shareMat r k y x := by
    intro r hr k x y
    unfold shareMat
    rw [hs r hr x, hs r hr y]
    have : r.t.ShareAt k (r.leaf x) (r.leaf y) ↔ r.t.ShareAt k (r.leaf y) (r.leaf x) :=
      ⟨fun ⟨v, h1, h2, h3⟩ => ⟨v, h1, h3, h2⟩, fun ⟨v, h1, h2, h3⟩ => ⟨v, h1, h3, h2⟩⟩
    by_cases hsh : r.t.ShareAt k (r.leaf x) (r.leaf y)
    · rw [if_pos hsh, if_pos (this.1 hsh)]
    · rw [if_neg hsh, if_neg fun hh => hsh (this.2 hh)]
  refine ⟨_, fun x y => ((List.range d).map fun k =>
      lamb.getD k 0 * treeMean (forest.map fun r => shareMat r k) x y).sum,
    makeUt_spec forest hne hf (some d), ?_, ?_, ?_⟩
  · unfold makeKernel
    simp only [Option.getD_some]
    rw [if_neg (by simp [hl])]
    exact kernel_range d _ lamb hl.ge
  · intro x y
    refine congrArg List.sum (List.map_congr_left fun k _ => ?_)
    congr 1
    unfold treeMean
    rw [List.map_map, List.map_map]
    congr 2
    refine List.map_congr_left fun r hr => ?_
    simp only [Function.comp]
    rw [hsym r hr k x y]
  · refine psd_list_sum (List.range d) (fun k x y => lamb.getD k 0 *
      treeMean (forest.map fun r => shareMat r k) x y) fun k _ => psd_mul ?_ (hlam k)
    have e : (treeMean (forest.map fun r => shareMat r k) : Fin a → Fin a → K) =
        fun x y => (forest.length : K)⁻¹ * (forest.map fun r => (shareMat r k x y : K)).sum := by
      funext x y
      unfold treeMean
      rw [List.map_map, List.length_map, div_eq_inv_mul]
      rfl
    rw [e]
    exact psd_mul (psd_list_sum forest (fun r x y => (shareMat r k x y : K)) fun r hr =>
      psd_shareMat r (hf r hr) (hs r hr) k) (by positivity)

/-- The three observations of `exRoutes` with weights (1, 5); with a negative weight the conclusion fails. -/
example : exRoutes.Ok ∧ (∀ x, exRoutes.leafNew x = exRoutes.leaf x) ∧
    kernelOf [exRoutes] (some 2) (some [1, 5]) = some [[6, 6, 1], [6, 6, 1], [1, 1, 6]] ∧
    kernelOf [exRoutes] (some 2) (some [1, -5]) = some [[-4, -4, 1], [-4, -4, 1], [1, 1, -4]] :=
  ⟨exRoutes_ok, fun _ => rfl, by decide +kernel, by decide +kernel⟩

end SmoothRF
