import Verif.Spec.Gtc
import Mathlib.Analysis.SpecialFunctions.Gamma.Basic

/-!
# Gamma, beta and t distributions

As documented in `/repo/scoringrules/_crps.py`; nothing here refers to the model.
-/

noncomputable section

open scoped Classical
open MeasureTheory

namespace Verif.Spec

/-- The distribution function of a density. -/
def cdfOf (f : ℝ → ℝ) (y : ℝ) : ℝ := ∫ x in Set.Iic y, f x

/-- Gamma density with shape `α` and rate `β`. -/
def densGamma (α β x : ℝ) : ℝ :=
  if x ≤ 0 then 0 else β ^ α * x ^ (α - 1) * Real.exp (-(β * x)) / Real.Gamma α

/-- Gamma distribution function. -/
def cdfGamma (α β : ℝ) : ℝ → ℝ := cdfOf (densGamma α β)

/-- Gamma distribution shifted to the left by `δ` and censored at zero. -/
def cdfCsg0 (α β δ y : ℝ) : ℝ := if y < 0 then 0 else cdfGamma α β (y + δ)

/-- Beta density with shape parameters `a`, `b` on the interval from `l` to `u`. -/
def densBeta (a b l u x : ℝ) : ℝ :=
  if l < x ∧ x < u then
    ((x - l) / (u - l)) ^ (a - 1) * (1 - (x - l) / (u - l)) ^ (b - 1)
      / (Real.Gamma a * Real.Gamma b / Real.Gamma (a + b)) / (u - l)
  else 0

/-- Beta distribution function. -/
def cdfBeta (a b l u : ℝ) : ℝ → ℝ := cdfOf (densBeta a b l u)

/-- Density of Student's t distribution with `ν` degrees of freedom, location `μ` and scale `σ`. -/
def densT (ν μ σ x : ℝ) : ℝ :=
  Real.Gamma ((ν + 1) / 2) / (Real.sqrt (ν * Real.pi) * Real.Gamma (ν / 2))
    * (1 + ((x - μ) / σ) ^ 2 / ν) ^ (-((ν + 1) / 2)) / σ

/-- Student's t distribution function. -/
def cdfT (ν μ σ : ℝ) : ℝ → ℝ := cdfOf (densT ν μ σ)

end Verif.Spec
