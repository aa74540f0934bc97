import Verif.Model.Smooth

/-! Change of units of the response: `y ↦ a * y + b`. -/

namespace SmoothRF
open SkTree

variable {K : Type} [Field K] [LinearOrder K] {C : ℕ}

/-- The same tree fitted to responses `a * y + b` (regression: every stored mean changes so). -/
def affTree (a b : K) (t : SkTree K C) : SkTree K C :=
  { t with value := fun i c => a * t.value i c + b }

/-- The same tuning row with response `a * y + b`. -/
def affRow (a b : K) (r : TuneRow K C) : TuneRow K C := { r with y := fun c => a * r.y c + b }

/-- Adam options with `eps` in the new units of the gradient. -/
def affAdam (s : K) (o : AdamOpts K) : AdamOpts K := { o with eps := s * o.eps }

end SmoothRF
