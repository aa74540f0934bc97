import Verif.Model.Tree
import Verif.Model.Py
import Mathlib.Algebra.Order.Field.Basic
import Mathlib.Data.List.Sort
import Mathlib.Algebra.BigOperators.Ring.Finset

/-!
# smooth_level.py 33-271: level matrices, kernels and depth distances

* A dictionary with integer keys is an association list in insertion order.
* `tree.decision_path(data)` is a parameter: an arbitrary matrix with one row per observation and one
  column per node. Theorems assume it is sklearn's path indicator where they need it.
* A matrix block `V[:, mask]` is the list of its columns; a 3-d array `[tree, x, y]` is the list of its
  matrices.
* Progress bars are omitted. Sparse storage is dense here.
-/

namespace SmoothRF

/-- Dictionary lookup. -/
def dGet {α : Type} (d : List (ℕ × α)) (k : ℕ) : Except PyErr α :=
  match d.lookup k with
  | some v => .ok v
  | none => .error .keyError

/-- `_make_Vt_mat_tree`, smooth_level.py 56-71 (`depth_vec` given, or `depth_per_node`): one block of
columns per distinct depth, in increasing order of depth. -/
def vtTree (t : Topo) {n : ℕ} (path : Fin n → t.Node → ℕ) (depthVec : Option (t.Node → ℕ)) :
    List (ℕ × List (Fin n → ℕ)) :=
  let dv := depthVec.getD t.depthPerNode
  let unique := (((List.finRange (t.m + 1)).map dv).dedup).insertionSort (· ≤ ·)
  unique.map fun d =>
    (d, ((List.finRange (t.m + 1)).filter fun i => dv i = d).map fun i x => path x i)

/-- A tree with the decision paths of `n` observations. -/
structure Paths (n : ℕ) where
  t : Topo
  path : Fin n → t.Node → ℕ

/-- `make_Vt_mat` without `depth_dict`, smooth_level.py 33-54; entry `i` is the dictionary of tree `i`. -/
def makeVt {n : ℕ} (forest : List (Paths n)) : List (List (ℕ × List (Fin n → ℕ))) :=
  forest.map fun f => vtTree f.t f.path none

/-- `A.dot(B.T)` for two blocks of columns; different numbers of columns raise ValueError. -/
def dotT {a b : ℕ} (A : List (Fin a → ℕ)) (B : List (Fin b → ℕ)) : Except PyErr (Fin a → Fin b → ℕ) :=
  if A.length = B.length then .ok fun x y => ((A.zip B).map fun c => c.1 x * c.2 y).sum
  else .error .valueError

/-- One level of `make_Ut_prime_mat_no_sym`, smooth_level.py 113-139. -/
def utLevel {a b : ℕ} (vNew : List (List (ℕ × List (Fin a → ℕ)))) (v : List (List (ℕ × List (Fin b → ℕ))))
    (lambdaIdx : ℕ) : Except PyErr (List (Fin a → Fin b → ℕ)) :=
  (vNew.zip v).mapM fun p =>
    if (p.2.lookup lambdaIdx).isSome then do
      let A ← dGet p.1 lambdaIdx
      let B ← dGet p.2 lambdaIdx
      dotT A B
    else .ok fun _ _ => 0

/-- Default `max_depth`, smooth_level.py 89-96: the keys of the outer dictionaries are tree numbers. -/
def utMaxDepth (nNew n : ℕ) (maxDepth : Option ℕ) : ℕ :=
  maxDepth.getD ((List.range n).foldl (fun acc _ => max acc (max (nNew - 1) (n - 1))) 0)

/-- `make_Ut_prime_mat_no_sym`, smooth_level.py 73-141. The observation counts are read from
`Vt_dict[first key][0]`, so an empty forest raises IndexError and a missing level 0 KeyError. -/
def makeUt {a b : ℕ} (vNew : List (List (ℕ × List (Fin a → ℕ)))) (v : List (List (ℕ × List (Fin b → ℕ))))
    (maxDepth : Option ℕ) : Except PyErr (List (ℕ × List (Fin a → Fin b → ℕ))) :=
  if vNew.length ≠ v.length then .error .assertionError
  else
    match v, vNew with
    | d :: _, dNew :: _ => do
      let _ ← dGet d 0
      let _ ← dGet dNew 0
      (List.range (utMaxDepth vNew.length v.length maxDepth)).mapM fun l => do
        let u ← utLevel vNew v l
        pure (l, u)
    | _, _ => .error .indexError

/-- `remove_0_from_Ut_prime`, smooth_level.py 144-162. -/
def remove0 {α : Type} (d : List (ℕ × α)) : Except PyErr (List (ℕ × α)) :=
  if d.any fun e => e.1 == 0 then
    .ok ((d.filter fun e => e.1 != 0).map fun e => (e.1 - 1, e.2))
  else .error .assertionError

variable {K : Type} [Field K] [LinearOrder K]

/-- `Ut_prime_dict[t_idx].sum(axis=0) / shape[0]`, smooth_level.py 179-181. -/
def treeMean {a b : ℕ} (u : List (Fin a → Fin b → ℕ)) (x : Fin a) (y : Fin b) : K :=
  ((u.map fun m => (m x y : K)).sum) / (u.length : K)

/-- The accumulation loop of `make_kernel`, smooth_level.py 183-191: key 0 overwrites. -/
def kernelStep {a b : ℕ} (lamb : List K) (acc : Fin a → Fin b → K)
    (e : ℕ × List (Fin a → Fin b → ℕ)) : Except PyErr (Fin a → Fin b → K) :=
  match lamb[e.1]? with
  | none => .error .indexError
  | some l =>
    if e.1 = 0 then .ok fun x y => l * treeMean e.2 x y
    else .ok fun x y => acc x y + l * treeMean e.2 x y

/-- `make_kernel`, smooth_level.py 167-193. For an empty dictionary Python returns the number 0; the
zero matrix here. -/
def makeKernel {a b : ℕ} (d : List (ℕ × List (Fin a → Fin b → ℕ))) (lambVec : Option (List K)) :
    Except PyErr (Fin a → Fin b → K) :=
  let lamb := lambVec.getD (List.replicate d.length 1)
  if d.length ≠ lamb.length then .error .assertionError
  else d.foldlM (kernelStep lamb) fun _ _ => 0

/-! ### depth distances -/

/-- `np.repeat(own_depth, repeats=n, axis=0)`. -/
def npRepeat {n : ℕ} (v : Fin n → K) : List K := (List.finRange n).flatMap fun i => List.replicate n (v i)

/-- `.reshape((n, n))`. -/
def reshapeSq (n : ℕ) (l : List K) (i j : Fin n) : K := l.getD (i.val * n + j.val) 0

/-- `depth_dist` of a square sparse kernel, smooth_level.py 197-216. -/
def depthDist {n : ℕ} (k : Fin n → Fin n → K) : Except PyErr (Fin n → Fin n → K) :=
  if ∀ i, k i i = 0 then .error .assertionError
  else .ok fun i j => reshapeSq n (npRepeat fun i => k i i) i j - k i j

/-- `max_depth_dist`, smooth_level.py 235-252. -/
def maxDepthDist {n : ℕ} (k : Option (Fin n → Fin n → K)) (dd : Option (Fin n → Fin n → K)) :
    Except PyErr (Fin n → Fin n → K) :=
  match dd, k with
  | some d, _ => .ok fun i j => max (d i j) (d j i)
  | none, some k => do
    let d ← depthDist k
    pure fun i j => max (d i j) (d j i)
  | none, none => .error .assertionError

/-- `min_depth_dist`, smooth_level.py 254-269. -/
def minDepthDist {n : ℕ} (k : Option (Fin n → Fin n → K)) (dd : Option (Fin n → Fin n → K)) :
    Except PyErr (Fin n → Fin n → K) :=
  match dd, k with
  | some d, _ => .ok fun i j => min (d i j) (d j i)
  | none, some k => do
    let d ← depthDist k
    pure fun i j => min (d i j) (d j i)
  | none, none => .error .assertionError

/-- All entries of a matrix, row by row (`ravel`). -/
def ravel {n m : ℕ} (D : Fin n → Fin m → ℤ) : List ℤ :=
  (List.finRange n).flatMap fun i => (List.finRange m).map fun j => D i j

/-- `categorical_depth_expand`, smooth_level.py 218-233: number of levels and the array, entry
`[k, i, j]` = number of stored coordinates equal to `(k, i, j)`. An empty matrix makes `np.min` raise. -/
def categoricalDepthExpand {n m : ℕ} (D : Fin n → Fin m → ℤ) :
    Except PyErr (ℕ × (ℕ → Fin n → Fin m → ℕ)) :=
  match ravel D with
  | [] => .error .valueError
  | d :: ds =>
    if ds.foldl min d < 0 then .error .assertionError
    else
      let coords := (List.finRange n).flatMap fun i => (List.finRange m).map fun j => (D i j, i, j)
      .ok ((ds.foldl max d + 1).toNat, fun k i j => coords.count ((k : ℤ), i, j))

/-! ### update_til_psd -/

/-- Loop of `update_til_psd`, smooth_level.py 408-431, with fuel (`none`: still looping). `pd` is
`is_pos_def`, `unit` is `np.finfo(float).eps * 1000`, and `twoPower` the value before the test plus one. -/
def psdLoop {n : ℕ} (pd : (Fin n → Fin n → K) → Bool) (unit : K) :
    ℕ → ℕ → (Fin n → Fin n → K) → Option (Fin n → Fin n → K)
  | 0, _, _ => none
  | fuel + 1, twoPower, g =>
    if pd g then some g
    else
      let add : K := if twoPower = 0 then unit else unit * (2 ^ twoPower - 2 ^ (twoPower - 1))
      psdLoop pd unit fuel (twoPower + 1) fun i j => g i j + if i = j then add else 0

/-- `update_til_psd`, smooth_level.py 385-431; `np.allclose(G, G.T)` is equality. -/
def updateTilPsd {n : ℕ} (pd : (Fin n → Fin n → K) → Bool) (unit : K) (fuel : ℕ)
    (g : Fin n → Fin n → K) : Except PyErr (Option (Fin n → Fin n → K)) :=
  if ∀ i j, g i j = g j i then .ok (psdLoop pd unit fuel 0 g)
  else .error .valueError

end SmoothRF
