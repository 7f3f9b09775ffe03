import Mathlib.MeasureTheory.Integral.Bochner.Basic
import Mathlib.MeasureTheory.Measure.Lebesgue.Basic

/-!
# Specification: distance of two forecast distributions

Independent of the model.
-/

noncomputable section

namespace Verif.Spec

/-- Area between two distribution functions: the mean distance that probability has to be moved to turn one distribution
into the other (Wasserstein distance). -/
def area (F G : ℝ → ℝ) : ℝ := ∫ z, |F z - G z|

/-- The distribution function `F` is everywhere at least as close as `G` to the step at the observation `y`. -/
def CloserLaw (y : ℝ) (F G : ℝ → ℝ) : Prop :=
  ∀ z, |F z - if y ≤ z then 1 else 0| ≤ |G z - if y ≤ z then 1 else 0|

end Verif.Spec
