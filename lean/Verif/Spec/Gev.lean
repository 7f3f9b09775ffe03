import Mathlib.Analysis.SpecialFunctions.Pow.Real

/-!
# The generalised extreme value distribution

As documented in `/repo/scoringrules/_crps.py`; nothing here refers to the model.
-/

noncomputable section

open scoped Classical

namespace Verif.Spec

/-- Standard generalised extreme value distribution: Gumbel for `ξ = 0`, Fréchet for `ξ > 0`, reversed
Weibull for `ξ < 0`. -/
def cdfGev0 (ξ x : ℝ) : ℝ :=
  if ξ = 0 then Real.exp (-Real.exp (-x))
  else if 0 < 1 + ξ * x then Real.exp (-(1 + ξ * x) ^ (-1 / ξ))
  else if 0 < ξ then 0 else 1

/-- Generalised extreme value distribution with location `μ` and scale `σ`. -/
def cdfGev (ξ μ σ z : ℝ) : ℝ := cdfGev0 ξ ((z - μ) / σ)

/-- Its standard density. -/
def densGev0 (ξ x : ℝ) : ℝ :=
  if ξ = 0 then Real.exp (-x) * Real.exp (-Real.exp (-x))
  else if 0 < 1 + ξ * x then (1 + ξ * x) ^ (-1 / ξ - 1) * Real.exp (-(1 + ξ * x) ^ (-1 / ξ))
  else 0

/-- Its density. -/
def densGev (ξ μ σ z : ℝ) : ℝ := densGev0 ξ ((z - μ) / σ) / σ

end Verif.Spec
