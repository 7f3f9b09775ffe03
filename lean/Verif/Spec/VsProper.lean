import Verif.Spec.Mmd
import Verif.Spec.Variogram

/-!
# Expected variogram scores

Nothing here refers to the model.
-/

noncomputable section

open scoped Classical
open MeasureTheory

namespace Verif.Spec

variable {D : ℕ}

/-- Expectation of the features `g y i j` under the law `P`. -/
def featMean {E : Type} [MeasurableSpace E] (g : E → Fin D → Fin D → ℝ) (P : Measure E) (i j : Fin D) : ℝ :=
  ∫ y, g y i j ∂P

/-- Weighted squared distance of the expected features of two laws. -/
def featDist {E : Type} [MeasurableSpace E] (g : E → Fin D → Fin D → ℝ) (W : Fin D → Fin D → ℝ) (P Q : Measure E) :
    ℝ := ∑ i, ∑ j, W i j * (featMean g P i j - featMean g Q i j) ^ 2

/-- Weighted sum of the variances of the features. -/
def featVar {E : Type} [MeasurableSpace E] (g : E → Fin D → Fin D → ℝ) (W : Fin D → Fin D → ℝ) (P : Measure E) : ℝ :=
  ∑ i, ∑ j, W i j * ∫ y, (g y i j - featMean g P i j) ^ 2 ∂P

/-- Expected features are equal wherever there is weight. -/
def SameFeat {E : Type} [MeasurableSpace E] (g : E → Fin D → Fin D → ℝ) (W : Fin D → Fin D → ℝ) (P Q : Measure E) :
    Prop := ∀ i j, W i j ≠ 0 → featMean g P i j = featMean g Q i j

/-- The score `S` of the forecast law `Q` compares expected features: for every law `P` of the observation under
which the features have a finite second moment, the mean score is the weighted sum of their variances plus the
weighted squared distance of the expected features.  With weights that are not negative, the distance is zero only
if the expected features agree wherever there is weight. -/
def FeatProper {E : Type} [MeasurableSpace E] (g : E → Fin D → Fin D → ℝ) (W : Fin D → Fin D → ℝ) (S : E → XF)
    (Q : Measure E) : Prop :=
  ∀ P : Measure E, IsProbabilityMeasure P → (∀ i j, Integrable (fun y => g y i j ^ 2) P) →
    HasMean P S (featVar g W P + featDist g W P Q) ∧
    ((∀ i j, 0 ≤ W i j) → 0 ≤ featDist g W P Q ∧ (featDist g W P Q = 0 ↔ SameFeat g W P Q))

/-- The same for the laws re-weighted with the outcome weight `w` and normalised, times the mean outcome weight. -/
def OwFeatProper {E : Type} [MeasurableSpace E] (g : E → Fin D → Fin D → ℝ) (W : Fin D → Fin D → ℝ) (w : E → ℝ)
    (S : E → XF) (Q : Measure E) : Prop :=
  ∀ P : Measure E, IsProbabilityMeasure P → Integrable w P → 0 < ∫ y, w y ∂P →
    (∀ i j, Integrable (fun y => w y * g y i j ^ 2) P) →
    HasMean P S ((∫ y, w y ∂P) * (featVar g W (condLaw w P) + featDist g W (condLaw w P) (condLaw w Q))) ∧
    ((∀ i j, 0 ≤ W i j) → 0 ≤ featDist g W (condLaw w P) (condLaw w Q) ∧
      (featDist g W (condLaw w P) (condLaw w Q) = 0 ↔ SameFeat g W (condLaw w P) (condLaw w Q)))

end Verif.Spec
