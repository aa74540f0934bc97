import Verif.Model.Torch
import Verif.Spec.Smooth

/-! Vocabulary for `smooth_pytorch`. -/

namespace SmoothRF
open SkTree

variable {K : Type} [Field K] [LinearOrder K] {C p : ℕ}

/-- Shapes accepted by the data set. -/
def DictOk (nObs L : ℕ) (one : List (String × List K)) (two : List (String × List (List K))) : Prop :=
  (∀ e ∈ one, e.2.length = nObs) ∧ ∀ e ∈ two, e.2.length = nObs ∧ ∀ r ∈ e.2, r.length = L

/-- Value of variable number `v` for row `i` at level `k`: first the 1-d variables, the same at every
level, then the 2-d ones. -/
def varLevel (one : List (String × List K)) (two : List (String × List (List K))) (v i k : ℕ) : K :=
  if v < one.length then ((one[v]?).elim [] Prod.snd).getD i 0
  else (((two[v - one.length]?).elim [] Prod.snd).getD i []).getD k 0

/-- `x` is variable number `v` (leaf sample size, leaf depth, leaf impurity, depth of the ancestor `k`
levels up, impurity of that ancestor) of leaf `r` at level `k`; beyond the root the ancestor is the
root, up to the depth of the tree. -/
def FeatIs (t : SkTree K C) (r : Fin t.nLeaves) (k : ℕ) : ℕ → K → Prop
  | 0, x => x = t.nSamp (t.leafNode r)
  | 1, x => ∃ d : ℕ, t.DepthIs (t.leafNode r) d ∧ x = (d : K)
  | 2, x => x = t.impurity (t.leafNode r)
  | 3, x => (∀ (a : t.Node) (d : ℕ), t.UpBy k (t.leafNode r) a → t.DepthIs a d → x = (d : K)) ∧
      ∀ d : ℕ, t.DepthIs (t.leafNode r) d → d ≤ k → x = 0
  | 4, x => (∀ a, t.UpBy k (t.leafNode r) a → x = t.impurity a) ∧
      ∀ d : ℕ, t.DepthIs (t.leafNode r) d → d ≤ k → (∃ j e, t.DepthIs j e ∧ k ≤ e) → x = t.impurity 0
  | _, _ => False

/-- Linear predictor of a leaf at level `k` from its variables. -/
def linSpec (q : Params K) (V : ℕ) (x : ℕ → ℕ → K) (k : ℕ) : K :=
  ∑ v ∈ Finset.range V, q.weight k v * x v k + q.bias k

/-- Softmax weights from linear predictors. -/
def softSpec (exp : K → K) {n : ℕ} (z : ℕ → K) (k : Fin n) : K := exp (z k) / ∑ j : Fin n, exp (z j)

/-- The parameters after each optimiser step. -/
def optSeq {S : Type} {n : ℕ} (opt : S → Item K n → Params K → S × Params K) :
    S → Params K → List (Item K n) → List (Params K)
  | _, _, [] => []
  | s, q, x :: xs => (opt s x q).2 :: optSeq opt (opt s x q).1 (opt s x q).2 xs

/-- Optimiser state and parameters after all steps. -/
def optFin {S : Type} {n : ℕ} (opt : S → Item K n → Params K → S × Params K) (s : S) (q : Params K)
    (xs : List (Item K n)) : S × Params K := xs.foldl (fun st x => opt st.1 x st.2) (s, q)

/-- Weighted squared error, leaf against leaf. -/
def wL2 (y pr w : List K) : K :=
  ((List.zipWith (fun a b => (a, b)) (List.zipWith (fun a b => (a, b)) y pr) w).map
    fun e => e.2 * (e.1.1 - e.1.2) ^ 2).sum / w.sum

/-- Weighted mean. -/
def wMean (y w : List K) : K := (List.zipWith (fun a b => b * a) y w).sum / w.sum

end SmoothRF
