import Mathlib.Analysis.SpecialFunctions.Log.Basic
import Mathlib.MeasureTheory.Integral.Bochner.Basic

/-!
# Specification of the Dawid-Sebastiani score and of the error-spread score

Nothing here refers to the model.
-/

noncomputable section

namespace Verif.Spec

/-- The mean of a list. -/
def avg (xs : List ℝ) : ℝ := xs.sum / xs.length

/-- The `p`-th central sum of a list. -/
def csum (p : ℕ) (xs : List ℝ) : ℝ := (xs.map fun x => (x - avg xs) ^ p).sum

/-- The variance of a list: divided by the number of entries (`bias`) or one less. -/
def svar (bias : Bool) (xs : List ℝ) : ℝ :=
  csum 2 xs / (if bias then (xs.length : ℝ) else (xs.length : ℝ) - 1)

/-- The Dawid-Sebastiani score of a forecast of mean `μ` and variance `v` at the outcome `y`. -/
def ds (μ v y : ℝ) : ℝ := (y - μ) ^ 2 / v + Real.log v

/-- The error-spread score of a forecast of mean `μ`, standard deviation `s` and skewness `g` at the
outcome `y` (Christensen et al., 2014): the squared difference of the predicted and realised squared
error, corrected for skewness. -/
def es3 (μ s g y : ℝ) : ℝ := (s ^ 2 - (μ - y) ^ 2 - (μ - y) * s * g) ^ 2

end Verif.Spec
