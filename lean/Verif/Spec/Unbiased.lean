import Verif.Spec.VsProper
import Mathlib.MeasureTheory.Constructions.Pi
import Mathlib.Analysis.Normed.Lp.MeasurableSpace

/-!
# Ensembles drawn from a law

Nothing here refers to the model.
-/

noncomputable section

open scoped Classical
open MeasureTheory

namespace Verif.Spec

variable {D : ℕ}

/-- Law of `M` members drawn independently from `Q`. -/
def iid {E : Type} [MeasurableSpace E] (M : ℕ) (Q : Measure E) : Measure (Fin M → E) := Measure.pi fun _ => Q

/-- Kernel score of the forecast law `Q`: `E k(X,X')/2 + k(y,y)/2 - E k(X,y)`. -/
def ksLaw {E : Type} [MeasurableSpace E] (K : E → E → ℝ) (y : E) (Q : Measure E) : ℝ :=
  1 / 2 * pairMean K Q Q + 1 / 2 * K y y - ∫ x, K x y ∂Q

/-- Energy score of the forecast law `Q`: `E|X-y| - E|X-X'|/2`. -/
def esLaw (y : Eu D) (Q : Measure (Eu D)) : ℝ := ∫ x, dist x y ∂Q - 1 / 2 * pairMean dist Q Q

/-- Variogram score of the forecast law `Q`. -/
def vsLaw (p : ℝ) (W : Fin D → Fin D → ℝ) (y : Eu D) (Q : Measure (Eu D)) : ℝ :=
  ∑ i, ∑ j, W i j * (vdiff p y i j - featMean (vdiff p) Q i j) ^ 2

end Verif.Spec
