import Verif.Spec.Smooth
import Verif.Model.Clean

/-! Specification of out-of-bag predictions. -/

namespace SmoothRF
open SkTree

variable {K : Type} [Field K] [LinearOrder K] {k : ℕ}

/-- `f` at leaf `r` of tree number `t` of the forest (`d` if there is none). -/
def leafAt {α : Type} (forest : List (SkTree K 1)) (d : α) (f : (t : SkTree K 1) → Fin t.nLeaves → α)
    (t r : ℕ) : α :=
  match forest[t]? with
  | some tr => if h : r < tr.nLeaves then f tr ⟨r, h⟩ else d
  | none => d

/-- The trees (of the first `T`) for which observation `i` is out of bag. -/
def oobTrees (T : ℕ) (unsampled : ℕ → List ℕ) (i : ℕ) : Finset ℕ :=
  (Finset.range T).filter fun t => i ∈ unsampled t

/-- Out-of-bag average of a per-tree prediction. -/
def oobMean (T : ℕ) (unsampled : ℕ → List ℕ) (p : ℕ → K) (i : ℕ) : K :=
  if oobTrees T unsampled i = ∅ then 0
  else (∑ t ∈ oobTrees T unsampled i, p t) / ((oobTrees T unsampled i).card : K)

/-- What the arrays of smooth_clean.py hold, by observation and tree: observation `ob`'s leaf of tree `t`
has Gamma row `g ob t`, eta row `h ob t`, and the pair has weight `w ob t`. -/
structure CleanView (d : CleanData K k) (n : ℕ) (g h : ℕ → ℕ → Fin k → K) (w : ℕ → ℕ → K) : Prop where
  len : d.idxMat.length = n
  rows : ∀ ob < n, ∃ row, d.idxMat[ob]? = some row ∧ row.length = d.nTrees ∧
    ∀ t < d.nTrees, ∃ q, row[t]? = some q ∧ d.gam[q]? = some (g ob t) ∧ d.eta[q]? = some (h ob t)
  wts : ∀ ob < n, ∀ t < d.nTrees, d.oobW[d.nTrees * ob + t]? = some (w ob t)

end SmoothRF
