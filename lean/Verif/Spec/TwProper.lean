import Verif.Spec.Mmd
import Verif.Spec.Weighted

/-!
# Expected threshold-weighted scores

Nothing here refers to the model.
-/

noncomputable section

open scoped Classical
open MeasureTheory

namespace Verif.Spec

open XF

/-- The threshold-weighted score `S` of a forecast distribution `G` measures the forecast on the region from `a` to
`b` and nothing else: for every law `P` of the observation, with a finite mean unless both thresholds are finite, the
expected score exists and is an entropy of `P` on the region plus the squared distance of the two distribution
functions on the region; this distance is zero only if they agree there. -/
def TwProper (a b : XF) (S : ℝ → XF) (G : ℝ → ℝ) : Prop :=
  ∀ P : Measure ℝ, IsProbabilityMeasure P →
    (Integrable (fun y => y) P ∨ ∃ s t : ℝ, a = fin s ∧ b = fin t) →
    HasMean P S ((∫ z in between a b, distr P z * (1 - distr P z)) + ∫ z in between a b, (G z - distr P z) ^ 2) ∧
    ((∫ z in between a b, (G z - distr P z) ^ 2) = 0 ↔ ∀ z, a ≤ fin z → fin z < b → distr P z = G z)

/-- The score `S` of the forecast law `Q`, built from the kernel `K` and the chaining function `v`: for every law `P`
of the observation whose image under `v` is in `A`, the mean score is the entropy of the image of `P` plus half the
squared distance of the images of `P` and `Q`, zero only if the images agree. -/
def TwKernelProper {E : Type} [MeasurableSpace E] (A : Set (Measure E)) (K : E → E → ℝ) (v : E → E) (S : E → XF)
    (Q : Measure E) : Prop :=
  ∀ P : Measure E, IsProbabilityMeasure P → P.map v ∈ A →
    HasMean P S (1 / 2 * (∫ y, K (v y) (v y) ∂P - pairMean K (P.map v) (P.map v))
      + 1 / 2 * mmd2 K (P.map v) (Q.map v)) ∧
    0 ≤ mmd2 K (P.map v) (Q.map v) ∧ (mmd2 K (P.map v) (Q.map v) = 0 ↔ P.map v = Q.map v)

end Verif.Spec
