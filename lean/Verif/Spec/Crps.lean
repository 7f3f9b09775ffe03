import Mathlib.MeasureTheory.Integral.Bochner.Basic
import Mathlib.MeasureTheory.Measure.Lebesgue.Basic

/-!
# Specification of the CRPS of a finite ensemble

Independent of the model: plain real numbers and lists.
-/

noncomputable section

namespace Verif.Spec

/-- Empirical distribution function of the ensemble `xs`. -/
def ecdf (xs : List ℝ) (z : ℝ) : ℝ := (xs.countP (fun x => decide (x ≤ z)) : ℝ) / xs.length

/-- Distribution function of the weighted ensemble `l` (pairs value, weight). -/
def wcdf (l : List (ℝ × ℝ)) (z : ℝ) : ℝ :=
  ((l.filter fun p => decide (p.1 ≤ z)).map Prod.snd).sum / (l.map Prod.snd).sum

/-- Continuous ranked probability score of a distribution function `F` at `y`. -/
def crps (F : ℝ → ℝ) (y : ℝ) : ℝ := ∫ z, (F z - if y ≤ z then 1 else 0) ^ 2

/-- Mean absolute difference to the observation. -/
def meanAbs (y : ℝ) (xs : List ℝ) : ℝ := (xs.map fun x => |x - y|).sum / xs.length

/-- Sum over all ordered pairs of members of the absolute difference. -/
def sumAbsDiff (xs : List ℝ) : ℝ := (xs.map fun a => (xs.map fun b => |a - b|).sum).sum

/-- Fair CRPS: the mean difference is averaged over the `M (M-1)` pairs of distinct members. -/
def fairCrps (y : ℝ) (xs : List ℝ) : ℝ :=
  meanAbs y xs - sumAbsDiff xs / (2 * (xs.length * (xs.length - 1)))

/-- The estimators documented for `crps_ensemble`. -/
def estimators : List String := ["nrg", "fair", "pwm", "qd", "int", "akr", "akr_circperm"]

end Verif.Spec
