import Verif.Model.FloatSmooth

/-!
# smooth_level.py 623-628, 718: the new leaf values of `smooth_all` in double precision

`sum` is the summation of the matrix products; no overflow and no underflow.
-/

namespace SmoothRF

/-- One row of `Gamma_all = ga/et` after `et[et == 0] = eps`, smooth_level.py 627-628. -/
def flAllRow (eps : ℚ) {n : ℕ} (r : Row ℚ n) : Fin n → ℚ := fun k =>
  fl (r.gam k / if r.eta k = 0 then eps else r.eta k)

/-- `assert np.all(ga[et == 0] == 0)`, smooth_level.py 623-624, for one row. -/
def flAllAssert {n : ℕ} (r : Row ℚ n) : Bool :=
  decide (∀ k, r.eta k = 0 → r.gam k = 0)

/-- One entry of `y_leaf_new_all = Gamma_all_store @ lamb`, smooth_level.py 718. -/
def flAllValue (sum : List ℚ → ℚ) (eps : ℚ) {n : ℕ} (r : Row ℚ n) (lamb : Fin n → ℚ) : ℚ :=
  flDot sum (flAllRow eps r) lamb

end SmoothRF
