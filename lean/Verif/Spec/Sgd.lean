import Verif.Model.Py
import Mathlib.Data.List.Basic

/-! Specification vocabulary for iterated random steps. -/

namespace SmoothRF

/-- `Visits step s choices vs`: starting at `s` and applying `step c` for each choice in turn (never
raising), the points reached after the start are `vs`, in order. -/
inductive Visits {S : Type} (step : ℕ → S → Except PyErr S) : S → List ℕ → List S → Prop
  | nil (s : S) : Visits step s [] []
  | cons {s s' : S} {c : ℕ} {cs : List ℕ} {vs : List S} :
      step c s = .ok s' → Visits step s' cs vs → Visits step s (c :: cs) (s' :: vs)

theorem Visits.length {S : Type} {step : ℕ → S → Except PyErr S} {s : S} {cs : List ℕ} {vs : List S}
    (h : Visits step s cs vs) : vs.length = cs.length := by
  induction h with
  | nil => rfl
  | cons _ _ ih => simp [ih]

end SmoothRF
