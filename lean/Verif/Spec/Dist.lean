import Verif.Spec.Crps
import Mathlib.Analysis.SpecialFunctions.Pow.Real
import Mathlib.MeasureTheory.Integral.Bochner.Set

/-!
# Distribution functions of the parametric families

As documented in `/repo/scoringrules/_crps.py`; nothing here refers to the model.
-/

noncomputable section

open scoped Classical
open MeasureTheory

namespace Verif.Spec

/-- The CRPS integral of `F` at `y` converges. -/
def HasCrps (F : ℝ → ℝ) (y : ℝ) : Prop := Integrable fun z => (F z - if y ≤ z then 1 else 0) ^ 2

/-- Uniform distribution on `[l, u]` with point masses `L` at `l` and `U` at `u`. -/
def cdfUniform (l u L U z : ℝ) : ℝ :=
  if z < l then 0 else if z < u then L + (1 - L - U) * ((z - l) / (u - l)) else 1

/-- Exponential distribution with the given rate. -/
def cdfExp (rate z : ℝ) : ℝ := if z < 0 then 0 else 1 - Real.exp (-(rate * z))

/-- Exponential distribution with location `μ`, scale `σ` and point mass `M` at `μ`. -/
def cdfExpM (M μ σ z : ℝ) : ℝ :=
  if z < μ then 0 else M + (1 - M) * (1 - Real.exp (-((z - μ) / σ)))

/-- Laplace distribution. -/
def cdfLaplace (μ σ z : ℝ) : ℝ :=
  if z < μ then Real.exp ((z - μ) / σ) / 2 else 1 - Real.exp (-((z - μ) / σ)) / 2

/-- Two-piece exponential distribution: scale `σ1` below and `σ2` above `μ`. -/
def cdf2pexp (σ1 σ2 μ z : ℝ) : ℝ :=
  if z < μ then σ1 / (σ1 + σ2) * Real.exp ((z - μ) / σ1)
  else 1 - σ2 / (σ1 + σ2) * Real.exp (-((z - μ) / σ2))

/-- Logistic distribution. -/
def cdfLogistic (μ σ z : ℝ) : ℝ := 1 / (1 + Real.exp (-((z - μ) / σ)))

/-- Standard generalised Pareto distribution with point mass `M` at zero. -/
def cdfGpd0 (M ξ x : ℝ) : ℝ :=
  if x < 0 then 0
  else if ξ = 0 then M + (1 - M) * (1 - Real.exp (-x))
  else if ξ < 0 ∧ -1 / ξ < x then 1
  else M + (1 - M) * (1 - (1 + ξ * x) ^ (-1 / ξ))

/-- Generalised Pareto distribution with location `μ`, scale `σ`, point mass `M` at `μ`. -/
def cdfGpd (M ξ μ σ z : ℝ) : ℝ := cdfGpd0 M ξ ((z - μ) / σ)

/-- Standard normal density. -/
def φ (x : ℝ) : ℝ := Real.exp (-x ^ 2 / 2) / Real.sqrt (2 * Real.pi)

/-- Standard normal distribution function. -/
def Φ (x : ℝ) : ℝ := ∫ t in Set.Iic x, φ t

/-- Normal distribution. -/
def cdfNormal (μ σ z : ℝ) : ℝ := Φ ((z - μ) / σ)

end Verif.Spec
