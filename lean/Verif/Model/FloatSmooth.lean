import Verif.Model.Smooth
import Verif.Model.Float
import Mathlib.Algebra.Field.Rat

/-!
# Smoothed leaf values in double precision

The path from a tree to a smoothed leaf value with every operation rounded: `create_Gamma_eta_tree`
(smooth_base.py 513-594), the matrix products `Gamma @ lamb`, `eta @ lamb` and the ratio (smooth_base.py 796-802,
988-993, 1368-1378). The exact version is `levelRow`, `padRow` and `smoothValue`.

The order in which `sparse` and numpy (BLAS) add is not fixed by the code, so the summation is an argument
`sum`; numpy's `np.sum` is `npSum`, the plain loop `flSum`.

Simplification: no fused multiply-add in `@`; no underflow and overflow (Model/Float.lean).
-/

namespace SmoothRF

open Topo SkTree

/-- `ny` in doubles, smooth_base.py 513-527. -/
def flNy {C : ℕ} (kind : Kind) (t : SkTree ℚ C) (i : t.Node) (c : Fin C) : ℚ :=
  match kind with
  | .reg => fl (t.nSamp i * t.value i c)
  | .cls => t.value i c

/-- The stored entries of row `i` of `inner_sparse[k]`, smooth_base.py 564-582. -/
def levelSel (pa : Bool) {n : ℕ} (D : Fin n → Fin n → ℤ) (i : Fin n) (k : ℕ) : List (Fin n) :=
  (List.finRange n).filter fun j => if pa then decide (D i j ≤ k) else decide (D i j = k)

/-- One row of `(inner_sparse @ v).T`, smooth_base.py 584-592. A sparse product adds the stored entries only;
multiplying by the stored 1 is exact. -/
def flLevelRow (sum : List ℚ → ℚ) {C : ℕ} (t : SkTree ℚ C) (pa : Bool)
    (D : Fin t.nLeaves → Fin t.nLeaves → ℤ) (v : Fin t.nLeaves → ℚ) (i : Fin t.nLeaves) : List ℚ :=
  (List.range (t.maxDist D + 1)).map fun k => sum ((levelSel pa D i k).map v)

/-- One entry of `M @ lamb` in doubles. -/
def flDot (sum : List ℚ → ℚ) {n : ℕ} (a lamb : Fin n → ℚ) : ℚ :=
  sum ((List.finRange n).map fun k => fl (a k * lamb k))

/-- `y_leaf_new_all` in doubles, smooth_base.py 1368-1378. -/
def flSmoothValue (sum : List ℚ → ℚ) {n : ℕ} (r : Row ℚ n) (lamb : Fin n → ℚ) : ℚ :=
  if flDot sum r.eta lamb = 0 then 0 else fl (flDot sum r.gam lamb / flDot sum r.eta lamb)

/-- `assert np.all(Gamma_fill[eta_fill == 0] == 0)` in doubles, smooth_base.py 799, 851, 990. -/
def flFillAssert (sum : List ℚ → ℚ) {n : ℕ} (rows : List (Row ℚ n)) (lamb : Fin n → ℚ) : Bool :=
  rows.all fun r => !decide (flDot sum r.eta lamb = 0) || decide (flDot sum r.gam lamb = 0)

/-- Row of leaf `i` and class `c` as `create_Gamma_eta_forest_more` stores it in doubles (widened to `n` columns,
smooth_base.py 718-748); `y`, `w` and `tree` are not used here. -/
def flLeafRow (sum : List ℚ → ℚ) {C : ℕ} (kind : Kind) (t : SkTree ℚ C) (pa : Bool)
    (D : Fin t.nLeaves → Fin t.nLeaves → ℤ) (n : ℕ) (i : Fin t.nLeaves) (c : Fin C) : Row ℚ n where
  y := 0
  w := 0
  gam := toVec n (padRow pa n (flLevelRow sum t pa D (fun j => flNy kind t (t.leafNode j) c) i))
  eta := toVec n (padRow pa n (flLevelRow sum t pa D (fun j => t.nSamp (t.leafNode j)) i))
  tree := 0

/-- The same row computed exactly. -/
def leafRow {C : ℕ} (kind : Kind) (t : SkTree ℚ C) (pa : Bool)
    (D : Fin t.nLeaves → Fin t.nLeaves → ℤ) (n : ℕ) (i : Fin t.nLeaves) (c : Fin C) : Row ℚ n where
  y := 0
  w := 0
  gam := toVec n (padRow pa n (t.levelRow pa D (fun j => t.ny kind (t.leafNode j) c) i))
  eta := toVec n (padRow pa n (t.levelRow pa D (fun j => t.nSamp (t.leafNode j)) i))
  tree := 0

end SmoothRF
