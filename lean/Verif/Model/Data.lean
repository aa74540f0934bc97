import Verif.Model.Py
import Mathlib.Algebra.Order.Field.Basic
import Mathlib.Data.List.FinRange

/-!
# generate_data.py

* Random draws are parameters: standard normals, uniforms on [0, 1), t draws, 0/1 draws.
* Exact arithmetic: `np.int(n * .4)` is the floor of `2n/5`, and so on.
* cosine, sine, square root and pi are parameters.
-/

namespace SmoothRF

variable {K : Type} [Field K] [LinearOrder K]

/-- `np.random.normal(loc, scale)` from a standard normal pair. -/
def drawNormal (loc scale z : K × K) : K × K := (loc.1 + scale.1 * z.1, loc.2 + scale.2 * z.2)

/-- `np.random.uniform(low, high)` from a draw in [0, 1). -/
def drawUniform (low high u : K) : K := low + (high - low) * u

/-- Both coordinates uniform. -/
def drawRect (low high u : K × K) : K × K := (drawUniform low.1 high.1 u.1, drawUniform low.2 high.2 u.2)

/-- `p @ [[c, -s], [s, c]]`. -/
def rotate (c s : K) (p : K × K) : K × K := (p.1 * c + p.2 * s, p.1 * (-s) + p.2 * c)

/-- Boolean masking `a[mask]`. -/
def maskKeep {α : Type} (mask : List Bool) (a : List α) : List α :=
  ((mask.zip a).filter fun e => e.1).map Prod.snd

/-- `rm_logic`, generate_data.py 99-100. -/
def rmLogic (delta : K) (p : K × K) : Bool :=
  decide (p.1 > 1 + delta) || decide (p.1 < 0 - delta) || decide (p.2 > 1 + delta) ||
    decide (p.2 < 0 - delta)

/-- `generate_data`, generate_data.py 13-105. `z b i`, `u b i`: draw `i` of array `b` (numbered in order
of creation). `cosA`, `sinA`: cosine and sine of -10 degrees. Negative sizes raise ValueError. -/
def generateData (cosA sinA : K) (largeN : ℤ) (z u : ℕ → ℕ → K × K) :
    Except PyErr (List (K × K) × List ℕ) :=
  let n := (3 * largeN).tdiv 13
  if n < 0 then .error .valueError
  else
    let n := n.toNat
    let d1n := (List.range (n * 2 / 5)).map fun i => drawNormal (1/2, 9/10) (33/100, 1/20) (z 0 i)
    let d1u := (List.range (n * 3 / 5)).map fun i => drawRect (0, 8/10) (1, 1) (u 1 i)
    let d2n := (List.range (n * 2 / 5)).map fun i => drawNormal (9/10, 1/2) (1/20, 33/100) (z 2 i)
    let d2u := (List.range (n * 3 / 5)).map fun i => drawRect (8/10, 0) (1, 1) (u 3 i)
    let d3u := (List.range n).map fun i =>
      let r := rotate cosA sinA (drawRect (0, 0) (1/2, 1/2) (u 4 i))
      (r.1 + 175/1000, r.2 + 75/1000)
    let d41n := (List.range (n * 2 * 2 / (3 * 5))).map fun i =>
      drawNormal (1/2, 1/10) (33/100, 1/20) (z 5 i)
    let d41u := (List.range (n * 2 * 3 / (3 * 5))).map fun i => drawRect (0, 0) (1, 2/10) (u 6 i)
    let d42n := (List.range (n * 2 / 5)).map fun i => drawNormal (1/10, 1/2) (1/20, 33/100) (z 7 i)
    let d42u := (List.range (n * 2 * 3 / (3 * 5))).map fun i => drawRect (0, 0) (2/10, 1) (u 8 i)
    let data := d1n ++ d1u ++ d2n ++ d2u ++ d3u ++ d41n ++ d41u ++ d42n ++ d42u
    let nSquare := ([d41n, d41u, d42n, d42u].map List.length).sum
    let y := List.replicate (d1n.length + d1u.length) 2 ++ List.replicate (d2n.length + d2u.length) 3 ++
      List.replicate d3u.length 0 ++ List.replicate nSquare 1
    let keep := data.map fun p => !rmLogic (1/20) p
    .ok (maskKeep keep data, maskKeep keep y)

/-! ### generate_data_knn -/

/-- `y[mask] = vals`: the values are written in order at the marked places. -/
def maskWrite : List Bool → List ℕ → (ℕ → ℕ) → List ℕ
  | true :: mask, _ :: y, vals => vals 0 :: maskWrite mask y fun k => vals (k + 1)
  | false :: mask, a :: y, vals => a :: maskWrite mask y vals
  | _, y, _ => y

/-- `p[i]` used as a probability: IndexError if missing, ValueError outside [0, 1]. -/
def knnProb (p : List K) (i : ℕ) : Except PyErr Unit :=
  match p[i]? with
  | none => .error .indexError
  | some q => if q < 0 ∨ 1 < q then .error .valueError else .ok ()

/-- The label loop, generate_data.py 256-267; `b v k`: draw `k` of the binomial call for `v`. -/
def knnLabels (value : List ℕ) (p : List K) (b : ℕ → ℕ → ℕ) : Except PyErr (List ℕ) := do
  let y := List.replicate value.length 0
  let _ ← knnProb p 0
  let y := maskWrite (value.map fun v => v == 1) y (b 1)
  let _ ← knnProb p 1
  let y := maskWrite (value.map fun v => v == 2) y (b 2)
  pure (maskWrite (value.map fun v => v == 3) y fun _ => 1)

/-- Smallest / largest entry of a nonempty list of constants. -/
def listMin (l : List K) : K := l.foldl min (l.headD 0)

@[inherit_doc listMin] def listMax (l : List K) : K := l.foldl max (l.headD 0)

/-- `generate_data_knn`, generate_data.py 107-275. `lower`, `mid`, `upper` are the three lists of
constants; `inL`, `inC`, `inU` are `contains_points` for the three polygons. -/
def generateKnn (lower mid upper : List (K × K)) (inL inC inU : K × K → Bool) (n : ℤ) (p : List K)
    (u : ℕ → K × K) (b : ℕ → ℕ → ℕ) : Except PyErr (List (K × K) × List ℕ × List ℕ) :=
  if n < 0 then .error .valueError
  else do
    let leftAdd := listMin [listMin (lower.map Prod.fst), listMin (upper.map Prod.fst),
      listMin (mid.map Prod.fst)]
    let rightAdd := listMax [listMax (lower.map Prod.fst), listMax (upper.map Prod.fst),
      listMax (mid.map Prod.fst)]
    let above := listMax (upper.map Prod.snd) + 1/10
    let below := listMin (lower.map Prod.snd) - 1/10
    let new := (List.range n.toNat).map fun i =>
      (drawUniform leftAdd rightAdd (u i).1, drawUniform below above (u i).2)
    let value := new.map fun q => (inL q).toNat * 1 + (inC q).toNat * 1 + (inU q).toNat * 1
    let y ← knnLabels value p b
    pure (new, y, value)

/-! ### spirals -/

/-- A row of the data frame. -/
structure SpiralRow (K : Type) where
  t : K
  x : K
  y : K
  cls : ℕ

/-- One row, generate_data.py 309-324; the square root of a negative number is NaN. -/
def spiralRow (cos sin sqrt : K → K) (noiseSd tShift shift : K) (c : ℕ) (u nx ny : K) :
    Except PyErr (SpiralRow K) :=
  let tt := u + shift + tShift
  if tt - shift < 0 then .error .nonFinite
  else .ok ⟨tt, sqrt (tt - shift) * cos tt + noiseSd * nx, sqrt (tt - shift) * sin tt + noiseSd * ny, c⟩

/-- `spirals`, generate_data.py 280-327. `np.linspace` refuses a negative number of classes, the division
by 0 classes raises ZeroDivisionError, a negative size raises ValueError if a class is drawn. -/
def spirals (cos sin sqrt : K → K) (twoPi : K) (nTotal nClasses : ℤ) (noiseSd tShift : K)
    (u nx ny : ℕ → ℕ → K) : Except PyErr (List (SpiralRow K)) :=
  if nClasses < 0 then .error .valueError
  else if nClasses = 0 then .error .zeroDivisionError
  else
    let nEach := nTotal.tdiv nClasses
    let shifts := (List.range nClasses.toNat).map fun c : ℕ => (c : K) * (twoPi / (nClasses : K)) + 0
    if nEach < 0 then .error .valueError
    else shifts.zipIdx.foldlM
      (fun acc sc => do
        let inner ← (List.range nEach.toNat).mapM fun i =>
          spiralRow cos sin sqrt noiseSd tShift sc.1 sc.2 (drawUniform 0 twoPi (u sc.2 i)) (nx sc.2 i)
            (ny sc.2 i)
        pure (acc ++ inner))
      []

end SmoothRF
