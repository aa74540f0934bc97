import Verif.Model.Py
import Mathlib.Data.Rat.Defs
import Mathlib.Algebra.Order.Ring.Rat

/-!
# Rounded arithmetic

Most of the model computes exactly. A few lines of smooth_rf compare computed floating-point numbers for equality:
`np.sum(lamb_init)!=1` (smooth_base.py 1490) and `np.sum(item) == 1` (smooth_clean.py 286, 428). For
these lines exact arithmetic is not a faithful picture, so they are modelled here with the arithmetic of IEEE
double precision: every operation is the exact one followed by `fl`, rounding to 53 binary digits, to nearest,
ties to even.

Simplification: no smallest and no largest exponent (no underflow, overflow, NaN). The numbers met here are
zero or between `2^-53` and the number of trees or columns.
-/

namespace SmoothRF

/-- The integer nearest to `a / b`, ties to even. -/
def rdiv (a b : ℕ) : ℕ :=
  if b < 2 * (a % b) ∨ (2 * (a % b) = b ∧ (a / b) % 2 = 1) then a / b + 1 else a / b

/-- The exponent `e` for which `2^52 ≤ (p/q) / 2^e < 2^53`. -/
def ulpExp (p q : ℕ) : ℤ :=
  let e : ℤ := (p.log2 : ℤ) - q.log2 - 52
  if p * 2 ^ (-e).toNat < 2 ^ 52 * 2 ^ e.toNat * q then e - 1 else e

/-- Rounding a rational number to double precision. -/
def fl (x : ℚ) : ℚ :=
  if x = 0 then 0
  else
    let e := ulpExp x.num.natAbs x.den
    let m := rdiv (x.num.natAbs * 2 ^ (-e).toNat) (x.den * 2 ^ e.toNat)
    (x.num.sign : ℚ) * (((m * 2 ^ e.toNat : ℕ) : ℚ) / ((2 ^ (-e).toNat : ℕ) : ℚ))

/-- `res = 0.; for x in a: res += x`. -/
def flSum (l : List ℚ) : ℚ := l.foldl (fun r x => fl (r + x)) 0

/-- The eight running sums of numpy's unrolled loop: one more block of eight values is added. -/
def laneAdd (r a : List ℚ) : List ℚ := List.zipWith (fun x y => fl (x + y)) r a

/-- `for (i = 8; i < n - n % 8; i += 8) r[j] += a[i + j]`, over `b` blocks. -/
def lanes : ℕ → List ℚ → List ℚ → List ℚ × List ℚ
  | 0, r, a => (r, a)
  | b + 1, r, a => lanes b (laneAdd r (a.take 8)) (a.drop 8)

/-- `((r[0]+r[1])+(r[2]+r[3]))+((r[4]+r[5])+(r[6]+r[7]))`. -/
def laneTotal (r : List ℚ) : ℚ :=
  fl (fl (fl (r.getD 0 0 + r.getD 1 0) + fl (r.getD 2 0 + r.getD 3 0)) +
    fl (fl (r.getD 4 0 + r.getD 5 0) + fl (r.getD 6 0 + r.getD 7 0)))

/-- numpy's `pairwise_sum` of a contiguous array: a plain loop below 8 values, eight interleaved sums up to 128
values, otherwise both halves (the first of a length divisible by 8). The first argument bounds the depth of
the recursion. -/
def pairwiseSum : ℕ → List ℚ → ℚ
  | 0, a => flSum a
  | fuel + 1, a =>
    if a.length < 8 then flSum a
    else if a.length ≤ 128 then
      let p := lanes (a.length / 8 - 1) (a.take 8) (a.drop 8)
      p.2.foldl (fun r x => fl (r + x)) (laneTotal p.1)
    else
      let n2 := a.length / 2 - (a.length / 2) % 8
      fl (pairwiseSum fuel (a.take n2) + pairwiseSum fuel (a.drop n2))

/-- `np.sum` of a one-dimensional array of doubles. -/
def npSum (a : List ℚ) : ℚ := pairwiseSum a.length a

/-- The test of the starting vector in `stocastic_grad_descent`, smooth_base.py 1490-1493. -/
def flStartCheck (constrained : Bool) (lamb : List ℚ) : Except PyErr Unit :=
  if constrained = true ∧ (npSum lamb ≠ 1 ∨ ∃ x ∈ lamb, x < 0) then .error .typeError else .ok ()

/-- `lamb / lamb.sum()`. -/
def flNormalise (l : List ℚ) : List ℚ := l.map fun x => fl (x / npSum l)

/-- The starting vector of `smooth`, smooth_base.py 1290-1296: the first unit vector, or the normalised random
draws `u` for a given `initial_lamb_seed`. -/
def flBaseLamb (k : ℕ) (u : Option (List ℚ)) : List ℚ :=
  match u with
  | none => 1 :: List.replicate (k - 1) 0
  | some u => flNormalise u

/-- The additional step for classifiers, smooth_base.py 1298-1301: `lamb + np.ones(k) * class_eps / k`, divided by
its sum twice. -/
def flClassLamb (eps : ℚ) (lamb : List ℚ) : List ℚ :=
  flNormalise (flNormalise (lamb.map fun x => fl (x + fl (fl (1 * eps) / (lamb.length : ℚ)))))

/-- The test of the starting vector in `grad_descent` of smooth_clean.py, lines 758-762: `np.allclose(s, 1)` is
`|s - 1| <= 1e-08 + 1e-05 * |1|`. -/
def flCloseCheck (noConstraint : Bool) (lamb : List ℚ) : Except PyErr Unit :=
  if noConstraint = false ∧ (¬ |npSum lamb - 1| ≤ 1 / 10 ^ 8 + 1 / 10 ^ 5 ∨ ∃ x ∈ lamb, x < 0) then
    .error .typeError
  else .ok ()

/-- `num_trees_oob` of one observation, smooth_clean.py 88-89: the sum of the indicators, 0 replaced by 1. -/
def flOobDivisor (oob : List Bool) : ℚ :=
  let count := npSum (oob.map fun b => if b then (1 : ℚ) else 0)
  if count = 0 then 1 else count

/-- One observation's part of `oob_weights`, smooth_clean.py 87-90: indicators divided by their sum. -/
def flOobRow (oob : List Bool) : List ℚ :=
  oob.map fun b => fl ((if b then (1 : ℚ) else 0) / flOobDivisor oob)

/-- `ever_oob` of one observation, smooth_clean.py 286 and 428: `np.sum(item) == 1`. -/
def flEverOob (oob : List Bool) : Bool := decide (npSum (flOobRow oob) = 1)

/-- The value written into a leaf with `n` observations and value `y` when `lamb` is the first unit vector
(`sanity_check`): `Gamma[i,0] = n * y`, `eta[i,0] = n` and the quotient of the two, smooth_base.py 513-520 and
1370-1373. The other columns contribute exact zeros. -/
def flSanity (n y : ℚ) : ℚ := fl (fl (n * y) / n)

end SmoothRF
