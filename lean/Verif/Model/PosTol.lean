import Verif.Model.Linalg

/-!
# smooth_level.py 309-332, 385-431: `is_pos_def` and `update_til_psd` with numpy's tolerance

`np.allclose(A, A.T)` with its default tolerances `rtol = 1e-5`, `atol = 1e-8`. `np.linalg.cholesky` reads
the lower triangle only, as `cholOk` does. Exact arithmetic, finite entries.
-/

namespace SmoothRF
variable {K : Type} [Field K] [LinearOrder K]

/-- `np.allclose(A, B)` for square matrices: `|a - b| <= atol + rtol * |b|` in every entry. -/
def npAllclose {n : ℕ} (A B : Fin n → Fin n → K) : Prop :=
  ∀ i j, |A i j - B i j| ≤ 1 / 10 ^ 8 + 1 / 10 ^ 5 * |B i j|

instance {n : ℕ} (A B : Fin n → Fin n → K) : Decidable (npAllclose A B) := by
  unfold npAllclose; infer_instance

/-- `is_pos_def`, smooth_level.py 309-332. -/
def isPosDefTol {n : ℕ} (A : Fin n → Fin n → K) : Bool :=
  if npAllclose A (fun i j => A j i) then cholOk n A else false

/-- `update_til_psd`, smooth_level.py 385-431; `unit` is `np.finfo(float).eps * 1000`. -/
def updateTilPsdTol {n : ℕ} (unit : K) (fuel : ℕ) (g : Fin n → Fin n → K) :
    Except PyErr (Option (Fin n → Fin n → K)) :=
  if npAllclose g (fun i j => g j i) then .ok (psdLoop isPosDefTol unit fuel 0 g)
  else .error .valueError

end SmoothRF
