import Verif.Model.Sgd

/-! Histories of Adam calls. -/

namespace SmoothRF

variable {K : Type} [Field K] [LinearOrder K] {k : ℕ}

/-- `AdamRun sqrt o gs iv`: `iv` is the dictionary after a first call without stored values followed by
further calls, each fed the dictionary returned by the previous one, with arbitrary gradient functions
and `lamb_init` arguments (None or an array); `gs` are the gradients evaluated, oldest first. -/
inductive AdamRun (sqrt : K → K) (o : AdamOpts K) : List (Fin k → K) → Iv K k → Prop
  | first {gf : (Fin k → K) → Except PyErr (Fin k → K)} {l g x : Fin k → K} {iv : Iv K k} :
      adamStep sqrt gf (some l) o none = .ok (x, iv) → gf l = .ok g → AdamRun sqrt o [g] iv
  | next {gf : (Fin k → K) → Except PyErr (Fin k → K)} {li : Option (Fin k → K)} {g x : Fin k → K}
      {gs : List (Fin k → K)} {iv iv' : Iv K k} :
      AdamRun sqrt o gs iv → adamStep sqrt gf li o (some iv) = .ok (x, iv') →
      gf (li.getD iv.lamb) = .ok g → AdamRun sqrt o (gs ++ [g]) iv'

/-- `∑_{i<t} b^(t-1-i) f(g_i)` at coordinate `j`: the exponentially weighted sum in Adam's moments. -/
def expSum (b : K) (f : K → K) (gs : List (Fin k → K)) (j : Fin k) : K :=
  ∑ i : Fin gs.length, b ^ (gs.length - 1 - i.val) * f (gs[i] j)

end SmoothRF
