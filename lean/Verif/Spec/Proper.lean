import Verif.Spec.Dist
import Verif.Spec.Dens
import Verif.Spec.Pmf
import Mathlib.MeasureTheory.Measure.WithDensity
import Mathlib.MeasureTheory.Measure.Typeclasses.Probability

/-!
# Expected scores

Nothing here refers to the model.
-/

noncomputable section

open scoped Classical
open MeasureTheory

namespace Verif.Spec

/-- Distribution function of the law `P` of the observation. -/
def distr (P : Measure ℝ) (z : ℝ) : ℝ := P.real (Set.Iic z)

/-- Under the law `P` of the observation the score `S` is almost surely a finite number, it is integrable,
and its mean is `e`. -/
def HasMean {α : Type*} [MeasurableSpace α] (P : Measure α) (S : α → XF) (e : ℝ) : Prop :=
  ∃ s : α → ℝ, (∀ᵐ y ∂P, S y = XF.fin (s y)) ∧ Integrable s P ∧ ∫ y, s y ∂P = e

/-- Squared distance of two distribution functions (Cramér distance). -/
def cramer (F G : ℝ → ℝ) : ℝ := ∫ z, (F z - G z) ^ 2

/-- Expected CRPS of the best forecast when observations have distribution function `F`: half the mean
distance of two independent observations. -/
def crpsEntropy (F : ℝ → ℝ) : ℝ := ∫ z, F z * (1 - F z)

/-- The score `S` of a forecast distribution `G` is strictly proper: for every law `P` of the observation that
has a finite mean and lives on `A`, the expected score exists and is the entropy of `P` plus a distance
(which is never negative); the distance is zero only if `G` is the distribution function of `P`. -/
def CrpsProper (A : Set ℝ) (S : ℝ → XF) (G : ℝ → ℝ) : Prop :=
  ∀ P : Measure ℝ, IsProbabilityMeasure P → Integrable (fun y => y) P → (∀ᵐ y ∂P, y ∈ A) →
    HasMean P S (crpsEntropy (distr P) + cramer G (distr P)) ∧
    (cramer G (distr P) = 0 ↔ distr P = G)

/-- The law with a given density. -/
def lawOf (f : ℝ → ℝ) : Measure ℝ := volume.withDensity fun x => ENNReal.ofReal (f x)

/-- The score `S` of a forecast with distribution function `G` is strictly proper: for every law with a
density `p`, the expected score is at least that of the negative logarithm of `p` itself, with equality only
if `G` is the distribution function of the law.  Both expectations have to exist. -/
def LogProper (S : ℝ → XF) (G : ℝ → ℝ) : Prop :=
  ∀ p F : ℝ → ℝ, IsDensity p F → ∀ e₀ e : ℝ, HasMean (lawOf p) (fun y => negLog (p y)) e₀ →
    HasMean (lawOf p) S e → e₀ ≤ e ∧ (e₀ = e ↔ F = G)

/-- Mean of a score under the mass function `f`; the score has to be finite where `f` is positive. -/
def HasMeanN (f : ℕ → ℝ) (S : ℕ → XF) (e : ℝ) : Prop :=
  ∃ s : ℕ → ℝ, (∀ k, f k ≠ 0 → S k = XF.fin (s k)) ∧ HasSum (fun k => f k * s k) e

/-- The same for mass functions on the non-negative integers. -/
def LogProperN (S : ℕ → XF) (g : ℕ → ℝ) : Prop :=
  ∀ f : ℕ → ℝ, IsPmf f → ∀ e₀ e : ℝ, HasMeanN f (fun k => negLog (f k)) e₀ → HasMeanN f S e →
    e₀ ≤ e ∧ (e₀ = e ↔ f = g)

end Verif.Spec
