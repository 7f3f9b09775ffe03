import Verif.Spec.Proper
import Verif.Spec.Kernel
import Mathlib.MeasureTheory.Integral.Prod
import Mathlib.MeasureTheory.Measure.WithDensity
import Mathlib.MeasureTheory.Measure.Dirac
import Mathlib.Analysis.Normed.Group.Basic

/-!
# Kernel distances of laws

Nothing here refers to the model.
-/

noncomputable section

open scoped Classical
open MeasureTheory

namespace Verif.Spec

variable {E : Type} [MeasurableSpace E]

/-- Mean of a kernel over two independent draws. -/
def pairMean (K : E → E → ℝ) (P Q : Measure E) : ℝ := ∫ z, K z.1 z.2 ∂(P.prod Q)

/-- Squared distance of two laws measured with a kernel (maximum mean discrepancy). -/
def mmd2 (K : E → E → ℝ) (P Q : Measure E) : ℝ :=
  pairMean K P P - 2 * pairMean K P Q + pairMean K Q Q

/-- Law of a weighted ensemble (pairs member, weight). -/
def ensLaw (l : List (E × ℝ)) : Measure E :=
  (l.map fun p => ENNReal.ofReal p.2 • Measure.dirac p.1).sum

/-- The score `S` of the forecast law `Q` is a strictly proper kernel score on the class `A` of laws: for every
law `P` of the observation in `A` the mean score exists and is the entropy of `P` plus half the squared distance
of `P` and `Q`, which is never negative and zero only for `P = Q`. -/
def KernelProper (A : Set (Measure E)) (K : E → E → ℝ) (S : E → XF) (Q : Measure E) : Prop :=
  ∀ P ∈ A, IsProbabilityMeasure P →
    HasMean P S (1 / 2 * (∫ y, K y y ∂P - pairMean K P P) + 1 / 2 * mmd2 K P Q) ∧
    0 ≤ mmd2 K P Q ∧ (mmd2 K P Q = 0 ↔ P = Q)

/-- The measure `P` re-weighted with the outcome weight `w`. -/
def wLaw (w : E → ℝ) (P : Measure E) : Measure E := P.withDensity fun x => ENNReal.ofReal (w x)

/-- The re-weighted measure, normalised. -/
def condLaw (w : E → ℝ) (P : Measure E) : Measure E := ((wLaw w P) Set.univ)⁻¹ • wLaw w P

/-- The outcome-weighted score `S` of the forecast law `Q` depends on the re-weighted and normalised laws only:
its mean is the mean outcome weight times entropy plus half the squared distance of these laws. -/
def OwProper (A : Set (Measure E)) (K : E → E → ℝ) (w : E → ℝ) (S : E → XF) (Q : Measure E) : Prop :=
  ∀ P : Measure E, IsProbabilityMeasure P → Integrable w P → 0 < ∫ y, w y ∂P → condLaw w P ∈ A →
    HasMean P S ((∫ y, w y ∂P) * (1 / 2 * (∫ y, K y y ∂(condLaw w P)
      - pairMean K (condLaw w P) (condLaw w P)) + 1 / 2 * mmd2 K (condLaw w P) (condLaw w Q))) ∧
    0 ≤ mmd2 K (condLaw w P) (condLaw w Q) ∧
    (mmd2 K (condLaw w P) (condLaw w Q) = 0 ↔ condLaw w P = condLaw w Q)

/-- The vertically re-scaled score `S` of the forecast law `Q` depends on the re-weighted measures only: its mean
is entropy plus half the squared distance of these measures. -/
def VrProper (A : Set (Measure E)) (K : E → E → ℝ) (w : E → ℝ) (S : E → XF) (Q : Measure E) : Prop :=
  ∀ P ∈ A, IsProbabilityMeasure P →
    HasMean P S (1 / 2 * (∫ y, w y * w y * K y y ∂P - pairMean K (wLaw w P) (wLaw w P))
      + 1 / 2 * mmd2 K (wLaw w P) (wLaw w Q)) ∧
    0 ≤ mmd2 K (wLaw w P) (wLaw w Q) ∧
    (mmd2 K (wLaw w P) (wLaw w Q) = 0 ↔ wLaw w P = wLaw w Q)

/-! ### Distances -/

/-- The kernel of the energy score. -/
def negDist {E : Type} [NormedAddCommGroup E] (x y : E) : ℝ := -dist x y

/-- The same, centred at zero: the distances to zero are added. -/
def cdist {E : Type} [NormedAddCommGroup E] (x y : E) : ℝ := ‖x‖ + ‖y‖ - dist x y

/-- Laws with a finite first moment. -/
def FinMean (E : Type) [NormedAddCommGroup E] [MeasurableSpace E] : Set (Measure E) :=
  {P | Integrable (fun x => ‖x‖) P}

/-- The vertically re-scaled energy score `S` of the forecast law `Q`: its mean is entropy plus half the squared
distance of the re-weighted measures for the centred kernel. The distance is zero only if the re-weighted
measures agree off zero; the mass at zero has no influence. -/
def VrEnergyProper {E : Type} [NormedAddCommGroup E] [MeasurableSpace E] (w : E → ℝ) (S : E → XF)
    (Q : Measure E) : Prop :=
  ∀ P : Measure E, IsProbabilityMeasure P → Integrable w P → Integrable (fun y => w y * ‖y‖) P →
    Integrable (fun y => w y ^ 2 * ‖y‖) P →
    HasMean P S (1 / 2 * (∫ y, w y * w y * cdist y y ∂P - pairMean cdist (wLaw w P) (wLaw w P))
      + 1 / 2 * mmd2 cdist (wLaw w P) (wLaw w Q)) ∧
    0 ≤ mmd2 cdist (wLaw w P) (wLaw w Q) ∧
    (mmd2 cdist (wLaw w P) (wLaw w Q) = 0 ↔ (wLaw w P).restrict {0}ᶜ = (wLaw w Q).restrict {0}ᶜ)

end Verif.Spec
