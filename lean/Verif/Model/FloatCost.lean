import Verif.Model.FloatSmooth

/-!
# calc_cost in double precision, and the choice of the best weights

`calc_cost` (smooth_base.py 956-997) with every operation rounded, on rows as `create_Gamma_eta_forest_more` stores
them in doubles (Model/FloatSmooth.lean), and the part of `stocastic_grad_descent` (smooth_base.py 1506-1553) that
compares costs. The steps between two comparisons (gradient, Adam, projection) only decide which weights are visited;
here the visited weights are an argument, any list of vectors.
-/

namespace SmoothRF

open Topo SkTree

/-- One entry of the arrays `y_leaf`, `weights_leaf`, `Gamma`, `eta` given to `calc_cost`: a leaf of a tree (and a class,
for classification with `class_loss="l2"`) with the response mean and the number of tuning observations. -/
structure CostLeaf (C : ℕ) where
  t : SkTree ℚ C
  D : Fin t.nLeaves → Fin t.nLeaves → ℤ
  i : Fin t.nLeaves
  c : Fin C
  y : ℚ
  w : ℚ

variable {C : ℕ}

/-- The row in doubles. -/
def CostLeaf.flRow (sum : List ℚ → ℚ) (kind : Kind) (pa : Bool) (n : ℕ) (l : CostLeaf C) : Row ℚ n :=
  { flLeafRow sum kind l.t pa l.D n l.i l.c with y := l.y, w := l.w }

/-- The row computed exactly. -/
def CostLeaf.row (kind : Kind) (pa : Bool) (n : ℕ) (l : CostLeaf C) : Row ℚ n :=
  { leafRow kind l.t pa l.D n l.i l.c with y := l.y, w := l.w }

/-- `(residuals**2) * weights` in doubles, smooth_base.py 993-997. Where `eta_fill` is 0 it is replaced by 1 and
`Gamma_fill` is 0 by the assertion, so the prediction is 0. -/
def flCostTerm (sum : List ℚ → ℚ) {n : ℕ} (r : Row ℚ n) (lamb : Fin n → ℚ) : ℚ :=
  let d := fl (r.y - flSmoothValue sum r lamb)
  fl (fl (d * d) * r.w)

/-- `calc_cost` in doubles, smooth_base.py 988-997. -/
def flCalcCost (sum : List ℚ → ℚ) {n : ℕ} (rows : List (Row ℚ n)) (lamb : Fin n → ℚ) : Except PyErr ℚ :=
  if flFillAssert sum rows lamb then .ok (sum (rows.map fun r => flCostTerm sum r lamb))
  else .error .assertionError

/-- The comparisons of `stocastic_grad_descent`, smooth_base.py 1506-1513 and 1545-1553: the best of the weights visited so
far, its cost, and all costs. -/
def trackBest {n : ℕ} (cost : (Fin n → ℚ) → Except PyErr ℚ) (init : Fin n → ℚ) (visited : List (Fin n → ℚ)) :
    Except PyErr ((Fin n → ℚ) × ℚ × List ℚ) := do
  let c0 ← cost init
  visited.foldlM (fun acc lamb => do
    let cNew ← cost lamb
    let all := acc.2.2 ++ [cNew]
    pure (if cNew < acc.2.1 then (lamb, cNew, all) else (acc.1, acc.2.1, all))) (init, c0, [c0])

end SmoothRF
