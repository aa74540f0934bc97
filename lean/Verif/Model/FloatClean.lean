import Verif.Model.FloatCost

/-!
# calc_y_oob and the cost of smooth_clean in double precision

`calc_y_oob` (smooth_clean.py 241-303) and `calc_cost_l2_straight` (590-594) with every operation rounded, one
observation at a time. The rows of Gamma and eta are those of Model/FloatSmooth.lean, the out-of-bag weights those of
Model/Float.lean (`flOobRow`, smooth_clean.py 87-90). The exact version is Model/Clean.lean.

Simplification: observations carry the leaves they reach instead of going through `idx_mat` (C45); `sum` is any order of
summation, as in Model/FloatSmooth.lean.
-/

namespace SmoothRF

open Topo SkTree

/-- One tree as an observation sees it: the leaf reached, and whether the observation is out of bag. -/
structure OobTree where
  t : SkTree ℚ 1
  D : Fin t.nLeaves → Fin t.nLeaves → ℤ
  i : Fin t.nLeaves
  oob : Bool

/-- An observation: the trees in order, and the response. -/
structure OobObs where
  trees : List OobTree
  y : ℚ

/-- One entry of `left_part` in doubles, smooth_clean.py 290-296: the denominator is replaced by 1 where the numerator
is 0; a zero denominator that is left gives `inf`. -/
def flLeftPart (sum : List ℚ → ℚ) {n : ℕ} (r : Row ℚ n) (lamb : Fin n → ℚ) : Except PyErr ℚ :=
  let g := flDot sum r.gam lamb
  let h := if g = 0 then 1 else flDot sum r.eta lamb
  if h = 0 then .error .nonFinite else .ok (fl (g / h))

/-- `y_oob` and `ever_oob` of one observation in doubles, smooth_clean.py 282-303. -/
def flYOob (sum : List ℚ → ℚ) (pa : Bool) (n : ℕ) (lamb : Fin n → ℚ) (o : OobObs) : Except PyErr (ℚ × Bool) := do
  let left ← o.trees.mapM fun q => flLeftPart sum (flLeafRow sum .reg q.t pa q.D n q.i 0) lamb
  let oob := o.trees.map fun q => q.oob
  pure (sum (List.zipWith (fun w l => fl (w * l)) (flOobRow oob) left), flEverOob oob)

/-- The loss over all observations in doubles: `calc_y_oob`, then `calc_cost_l2_straight`, smooth_clean.py 590-594
(`np.mean` of nothing is `nan`). -/
def flCleanCost (sum : List ℚ → ℚ) (pa : Bool) (n : ℕ) (obs : List OobObs) (lamb : Fin n → ℚ) : Except PyErr ℚ := do
  let ps ← obs.mapM (flYOob sum pa n lamb)
  let sel := (List.zipWith (fun p o => (p.2, fl (fl (p.1 - o.y) * fl (p.1 - o.y)))) ps obs).filter fun q => q.1
  if sel.length = 0 then .error .nonFinite
  else pure (fl (sum (sel.map Prod.snd) / (sel.length : ℚ)))

end SmoothRF
