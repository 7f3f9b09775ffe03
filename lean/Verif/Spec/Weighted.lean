import Verif.Spec.Crps
import Verif.XF

/-!
# Specification of the weighted versions of the CRPS
-/

noncomputable section

namespace Verif.Spec

open XF

/-- The real interval between two (possibly infinite) thresholds. -/
def between (a b : XF) : Set ℝ := {z | a ≤ fin z ∧ fin z ≤ b}

/-- Threshold-weighted CRPS of a distribution function: the CRPS integral restricted to a region. -/
def twCrps (S : Set ℝ) (F : ℝ → ℝ) (y : ℝ) : ℝ :=
  ∫ z in S, (F z - if y ≤ z then 1 else 0) ^ 2

/-- Ensemble of equally weighted members, reweighted by `w`. -/
def reweight (w : ℝ → ℝ) (xs : List ℝ) : List (ℝ × ℝ) := xs.map fun x => (x, w x)

/-- Weighted ensemble `l` (pairs value, weight), reweighted by `w`. -/
def reweightW (w : ℝ → ℝ) (l : List (ℝ × ℝ)) : List (ℝ × ℝ) := l.map fun p => (p.1, p.2 * w p.1)

/-- Vertically re-scaled CRPS of a weighted ensemble (pairs value, weight), as documented in
`vrcrps_ensemble`; the weights are normalised. -/
def vrCrps (w : ℝ → ℝ) (l : List (ℝ × ℝ)) (y : ℝ) : ℝ :=
  let E := fun f : ℝ → ℝ => (l.map fun p => p.2 * f p.1).sum / (l.map Prod.snd).sum
  E (fun x => |x - y| * w x * w y) - 1 / 2 * E (fun x => E fun x' => |x - x'| * w x * w x')
    + (E (fun x => |x| * w x) - |y| * w y) * (E w - w y)

end Verif.Spec
