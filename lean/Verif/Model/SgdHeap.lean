import Verif.Model.Sgd

/-!
# stocastic_grad_descent with array references

The same loop as `sgdRun`, but `lamb`, `lamb_best`, `lamb_init` and `iv["lamb"]` are references to
arrays in a heap, and the in-place writes (`y[y < 0] = 0` in `prox_project`) are performed. The
moment arrays are only ever rebound to fresh arrays, so they are kept as values.
-/

namespace SmoothRF

variable {K : Type} [Field K] [LinearOrder K] {k : ℕ}

/-- Arrays by address. -/
abbrev Heap (K : Type) (k : ℕ) := List (Fin k → K)

namespace Heap

/-- Content of an array. -/
def read (h : Heap K k) (r : ℕ) : Fin k → K := h.getD r fun _ => 0

/-- In-place write. -/
def write (h : Heap K k) (r : ℕ) (v : Fin k → K) : Heap K k := h.set r v

/-- Fresh array; its address is the old heap size. -/
def alloc (h : Heap K k) (v : Fin k → K) : Heap K k := h ++ [v]

end Heap

/-- `internal_values` with `"lamb"` a reference. -/
structure HIv (K : Type) (k : ℕ) where
  t : ℕ
  lambRef : ℕ
  m1 : Fin k → K
  m2 : Fin k → K

/-- Loop variables with references. -/
structure HState (K : Type) (k : ℕ) where
  heap : Heap K k
  lambRef : ℕ
  iv : Option (HIv K k)
  bestRef : ℕ
  costBest : K
  costAll : List K

/-- Preparation of the dictionary, adam_sgd.py 45-55. -/
def hivInit (iv : Option (HIv K k)) (lambRef : ℕ) : HIv K k :=
  match iv with
  | none => ⟨0, lambRef, fun _ => 0, fun _ => 0⟩
  | some iv => { iv with lambRef := lambRef }

/-- Gradient step, smooth_base.py 1519-1540: `lamb - t_fix * grad` is a fresh array; in `adam_step`
line 54 `iv["lamb"] = lamb_init` makes an alias and line 67 rebinds it to a fresh array, which is also
returned. -/
def heapPre (sqrt : K → K) (grad : List (Row K k) → (Fin k → K) → Except PyErr (Fin k → K))
    (o : SgdOpts K) (rows : List (Row K k)) (treeIdx : ℕ) (h : Heap K k) (lambRef : ℕ)
    (iv : Option (HIv K k)) : Except PyErr (Heap K k × ℕ × Option (HIv K k)) :=
  let inner := rows.filter fun r => r.tree == treeIdx
  match o.adam with
  | none => do
    let g ← grad inner (h.read lambRef)
    pure (h.alloc (fun j => h.read lambRef j - o.tFix * g j), h.length, iv)
  | some a => do
    let iv0 := hivInit iv lambRef
    let (l, iv') ← adamBody sqrt (grad inner) a ⟨iv0.t, h.read iv0.lambRef, iv0.m1, iv0.m2⟩
    pure (h.alloc l, h.length, some ⟨iv'.t, h.length, iv'.m1, iv'.m2⟩)

/-- `prox_project(lamb)` on a reference: the argument is clipped in place, the result is fresh. -/
def heapProx (h : Heap K k) (r : ℕ) : Except PyErr (Heap K k × ℕ) := do
  let y := h.read r
  let h1 := h.write r (proxProjectArg y)
  let x ← proxProject y
  pure (h1.alloc x, h1.length)

/-- `if constrained: lamb = prox_project(lamb)`, smooth_base.py 1542-1543. -/
def heapMaybeProx (o : SgdOpts K) (h : Heap K k) (r : ℕ) : Except PyErr (Heap K k × ℕ) :=
  if o.constrained then heapProx h r else pure (h, r)

/-- One loop iteration, smooth_base.py 1515-1551. -/
def heapStep (sqrt : K → K) (o : SgdOpts K) (rows : List (Row K k)) (s : HState K k) (treeIdx : ℕ) :
    Except PyErr (HState K k) := do
  let (h1, r1, iv1) ← heapPre sqrt takeGradient o rows treeIdx s.heap s.lambRef s.iv
  let (h2, r2) ← heapMaybeProx o h1 r1
  let c ← calcCost rows (h2.read r2)
  if c < s.costBest then pure ⟨h2, r2, iv1, r2, c, s.costAll ++ [c]⟩
  else pure ⟨h2, r2, iv1, s.bestRef, s.costBest, s.costAll ++ [c]⟩

/-- The loop of `stocastic_grad_descent` started from the caller's array at `initRef`. -/
def heapSgd (sqrt : K → K) (o : SgdOpts K) (rows : List (Row K k)) (h : Heap K k) (initRef : ℕ)
    (choices : List ℕ) : Except PyErr (HState K k) := do
  let c0 ← calcCost rows (h.read initRef)
  if rows.isEmpty then .error .valueError
  else choices.foldlM (heapStep sqrt o rows) ⟨h, initRef, none, initRef, c0, [c0]⟩

end SmoothRF
