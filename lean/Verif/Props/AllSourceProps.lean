import Verif.Props.SmoothAllProps

/-!
# Which tuning rows smooth_all uses
-/

namespace SmoothRF
open SkTree

set_option linter.unusedSectionVars false

variable {K : Type} [Field K] [LinearOrder K]

/-- The tuning rows the arguments ask for: resampled rows exactly with `resample_tune`; without it the
given rows if both `X_tune` and `y_tune` are given, and the out-of-bag rows otherwise. -/
def AllUses (c : AllCfg) : TuneSrc → Prop
  | .resample => c.resample = true
  | .oob => c.resample = false ∧ (c.xTune = false ∨ c.yTune = false)
  | .given => c.resample = false ∧ c.xTune = true ∧ c.yTune = true

theorem allUses_iff {c : AllCfg} {src : TuneSrc} : AllUses c src ↔ src = allSource c := by
  obtain ⟨n, y, a1, a2, a3, a4, a5, a6, a7⟩ := c
  cases a1 <;> cases a2 <;> cases a3 <;> cases src <;> simp [AllUses, allSource]

theorem allTune_congr {forest : List (SkTree K 1)} {t1 t2 : ℕ → List (TuneRow K 1)}
    (h : ∀ i < forest.length, t1 i = t2 i) : allTune forest t1 = allTune forest t2 := by
  unfold allTune
  have : ∀ (l : List (SkTree K 1 × ℕ)) (acc : List (K × K)), (∀ tt ∈ l, t1 tt.2 = t2 tt.2) →
      l.foldlM (m := Except PyErr) (fun acc tt => do
        let r ← processTuning tt.1.nLeaves (-1) (t1 tt.2)
        pure (acc ++ r)) acc =
      l.foldlM (fun acc tt => do
        let r ← processTuning tt.1.nLeaves (-1) (t2 tt.2)
        pure (acc ++ r)) acc := by
    intro l
    induction l with
    | nil => intros; rfl
    | cons x l ih =>
      intro acc hl
      rw [List.foldlM_cons, List.foldlM_cons, hl x (by simp)]
      congr 1
      funext z
      exact ih z fun tt ht => hl tt (by simp [ht])
  refine this _ _ fun tt ht => h _ ?_
  have := List.snd_lt_of_mem_zipIdx ht
  simpa using this

variable [IsStrictOrderedRing K] {o : AllOracles K} {fuel : ℕ} {forest : List (SkTree K 1)} {c : AllCfg}
  {sources sources' : TuneSrc → ℕ → List (TuneRow K 1)} {src : TuneSrc}

/-- C215: one of the three kinds of rows is asked for, and only one. -/
theorem C215_one (c : AllCfg) : ∃! src, AllUses c src :=
  ⟨allSource c, allUses_iff.2 rfl, fun _ h => allUses_iff.1 h⟩

/-- C215: no other rows matter. -/
theorem C215_only (hsrc : AllUses c src) (h : ∀ i < forest.length, sources src i = sources' src i) :
    smoothAll o fuel forest c sources = smoothAll o fuel forest c sources' := by
  have e : allTune forest (sources (allSource c)) = allTune forest (sources' (allSource c)) := by
    rw [← allUses_iff.1 hsrc]; exact allTune_congr h
  have : allPrepare forest c sources = allPrepare forest c sources' := by
    unfold allPrepare
    rw [e]
  unfold smoothAll
  rw [this]

/-- C215: these rows do matter; a tree without any is refused. -/
theorem C215_needed (hsrc : AllUses c src) (hn : c.nTrained ≠ 0) (hy : c.yLen = c.nTrained)
    (h : ∃ i < forest.length, sources src i = []) :
    smoothAll o fuel forest c sources = .error .valueError :=
  C64_argument_checks.2.2.2 hn hy (by rw [← allUses_iff.1 hsrc]; exact h)

/-- C215: with an exact quadratic-programming routine the weights minimise the loss on these rows, plus
the ridge of C83. -/
theorem C215_optimal {rf : List (SkTree K 1)} {lamb : Fin (forestDepth forest + 1) → K}
    (hsrc : AllUses c src) (hq : QpExact o) (hu : 0 ≤ o.unit) (hwf : ∀ t ∈ forest, t.WF)
    (hc : c.noConstraint = false) (hs : c.sanity = .bool false)
    (hr : ∀ tt ∈ forest.zipIdx, ∀ q ∈ sources src tt.2, q.leaf < tt.1.nLeaves)
    (h : smoothAll o fuel forest c sources = .ok (some (rf, lamb))) :
    InSimplex lamb ∧ ∃ w : K, 0 ≤ w ∧ ∀ l : Fin (forestDepth forest + 1) → K, InSimplex l →
      tuneLoss forest c.parentsAll (sources src) lamb + w / 2 * ∑ i, lamb i ^ 2 ≤
      tuneLoss forest c.parentsAll (sources src) l + w / 2 * ∑ i, l i ^ 2 := by
  rw [allUses_iff.1 hsrc] at hr ⊢
  exact C83_lambda_optimal hq hu hwf hc (tp := none) (by rw [hs]; rfl) hr h

/-- Half a tuning set is no tuning set, and `resample_tune` overrules a whole one. -/
example (s p : Bool) : AllUses ⟨3, 3, true, false, false, false, .bool s, p, true⟩ .oob ∧
    AllUses ⟨3, 3, true, true, true, false, .bool s, p, true⟩ .resample := ⟨⟨rfl, .inr rfl⟩, rfl⟩

/-- Only the given rows are filled: they are used. -/
example : AllUses (exAllCfg true (.bool false)) .given ∧
    allOf [exStump] (smoothAll exAllOracles 5 [exStump] (exAllCfg true (.bool false))
      fun s i => if s = .given then exAllRows s i else []) =
      some ([[5 / 2, 3 / 2, 7 / 2]], [2 / 3, 1 / 3]) := ⟨⟨rfl, rfl, rfl⟩, by decide +kernel⟩

end SmoothRF
