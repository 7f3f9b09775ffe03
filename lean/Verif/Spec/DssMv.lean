import Verif.Spec.Dss
import Mathlib.LinearAlgebra.Matrix.NonsingularInverse

/-!
# Specification of the multivariate Dawid-Sebastiani score

Nothing here refers to the model.
-/

noncomputable section

open Matrix

namespace Verif.Spec

variable {D : ℕ}

/-- The mean vector of an ensemble. -/
def vmean (xs : List (Fin D → ℝ)) : Fin D → ℝ := fun j => avg (xs.map fun x => x j)

/-- The covariance matrix of an ensemble: divided by the number of members (`bias`) or one less. -/
def vcov (bias : Bool) (xs : List (Fin D → ℝ)) : Matrix (Fin D) (Fin D) ℝ := fun i j =>
  (xs.map fun x => (x i - vmean xs i) * (x j - vmean xs j)).sum
    / (if bias then (xs.length : ℝ) else (xs.length : ℝ) - 1)

/-- The Dawid-Sebastiani score of a forecast of mean `μ` and covariance `S` at the outcome `y`. -/
def dsMv (μ : Fin D → ℝ) (S : Matrix (Fin D) (Fin D) ℝ) (y : Fin D → ℝ) : ℝ :=
  (y - μ) ⬝ᵥ S⁻¹ *ᵥ (y - μ) + Real.log S.det

end Verif.Spec
