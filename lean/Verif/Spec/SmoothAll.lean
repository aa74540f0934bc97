import Verif.Model.SmoothAll
import Verif.Spec.Gamma
import Verif.Spec.Level

/-! Vocabulary for `smooth_all`. -/

namespace SmoothRF
open SkTree

variable {K : Type} [Field K] [LinearOrder K]

/-- Mean response of the leaves at level `k` around leaf `r` (0 if they carry no samples). -/
def levelRatio (t : SkTree K 1) (pa : Bool) (r : Fin t.nLeaves) (k : ℕ) : K :=
  if levelSum pa (t.distDepth .standard) (fun j => t.nSamp (t.leafNode j)) r k = 0 then 0
  else levelSum pa (t.distDepth .standard) (fun j => t.nSamp (t.leafNode j) * t.value (t.leafNode j) 0) r k /
    levelSum pa (t.distDepth .standard) (fun j => t.nSamp (t.leafNode j)) r k

/-- Prediction of leaf number `i` under weights `lamb`. -/
def leafPred (t : SkTree K 1) (pa : Bool) {n : ℕ} (lamb : Fin n → K) (i : ℕ) : K :=
  if h : i < t.nLeaves then ∑ k, lamb k * levelRatio t pa ⟨i, h⟩ k else 0

/-- Half the sum over trees of the tree's mean squared error on its tuning rows. -/
def tuneLoss (forest : List (SkTree K 1)) (pa : Bool) (tune : ℕ → List (TuneRow K 1)) {n : ℕ}
    (lamb : Fin n → K) : K :=
  1 / 2 * (forest.zipIdx.map fun tt =>
    ((tune tt.2).map fun q => (leafPred tt.1 pa lamb q.leaf - q.y 0) ^ 2).sum /
      ((tune tt.2).length : K)).sum

/-- A probability vector. -/
def InSimplex {n : ℕ} (l : Fin n → K) : Prop := (∀ i, 0 ≤ l i) ∧ ∑ i, l i = 1

/-- `½ xᵀ G x - aᵀ x`. -/
def qpObj {n : ℕ} (g : SqMat K n) (a x : Fin n → K) : K :=
  1 / 2 * ∑ i, ∑ j, x i * g i j * x j - ∑ i, a i * x i

/-- Feasible points of quadprog: `Cᵀ x ≥ b`, the first `meq` with equality. -/
def qpFeasible {n m : ℕ} (c : Fin n → Fin m → K) (b : Fin m → K) (meq : ℕ) (x : Fin n → K) : Prop :=
  ∀ j, b j ≤ ∑ i, c i j * x i ∧ (j.val < meq → ∑ i, c i j * x i = b j)

/-- The quadratic-programming routine returns exact solutions (when it returns). -/
def QpExact (o : AllOracles K) : Prop :=
  ∀ {n m : ℕ} (g : SqMat K n) (a : Fin n → K) (c : Fin n → Fin m → K) (b : Fin m → K) (meq : ℕ)
    (x : Fin n → K), o.qp g a c b meq = some x →
    qpFeasible c b meq x ∧ ∀ z, qpFeasible c b meq z → qpObj g a x ≤ qpObj g a z

/-- The linear solver returns exact solutions (when it returns). -/
def InvExact (o : AllOracles K) : Prop :=
  ∀ {n : ℕ} (g : SqMat K n) (a x : Fin n → K), o.invMul g a = some x → ∀ i, ∑ j, g i j * x j = a i

/-- The positive-definiteness test accepts only positive definite matrices. -/
def PdSound (o : AllOracles K) : Prop :=
  ∀ {n : ℕ} (g : SqMat K n), o.pd g = true → PosDefForm g

end SmoothRF
