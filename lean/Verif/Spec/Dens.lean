import Verif.Spec.Dist
import Verif.XF

/-!
# Densities and logarithmic scores of the parametric families

Nothing here refers to the model.
-/

noncomputable section

open scoped Classical
open MeasureTheory

namespace Verif.Spec

/-- `f` is a probability density of the distribution function `F`. -/
structure IsDensity (f F : ℝ → ℝ) : Prop where
  nonneg : ∀ x, 0 ≤ f x
  integrable : Integrable f
  total : ∫ x, f x = 1
  cdf : ∀ y, ∫ x in Set.Iic y, f x = F y

/-- Negative logarithm of a non-negative number, `+inf` at zero. -/
def negLog (p : ℝ) : XF := if p = 0 then XF.pinf else XF.fin (-Real.log p)

/-- Exponential density with the given rate. -/
def densExp (rate x : ℝ) : ℝ := if x < 0 then 0 else rate * Real.exp (-(rate * x))

/-- Exponential density with location and scale. -/
def densExp2 (μ σ x : ℝ) : ℝ := if x < μ then 0 else Real.exp (-((x - μ) / σ)) / σ

/-- Two-piece exponential density. -/
def dens2pexp (σ1 σ2 μ x : ℝ) : ℝ :=
  if x < μ then Real.exp ((x - μ) / σ1) / (σ1 + σ2) else Real.exp (-((x - μ) / σ2)) / (σ1 + σ2)

/-- Laplace density. -/
def densLaplace (μ σ x : ℝ) : ℝ := Real.exp (-|(x - μ) / σ|) / (2 * σ)

/-- Logistic density. -/
def densLogistic (μ σ x : ℝ) : ℝ :=
  Real.exp (-((x - μ) / σ)) / (σ * (1 + Real.exp (-((x - μ) / σ))) ^ 2)

/-- Uniform density. -/
def densUniform (l u x : ℝ) : ℝ := if l ≤ x ∧ x ≤ u then 1 / (u - l) else 0

/-- Normal density. -/
def densNormal (μ σ x : ℝ) : ℝ := φ ((x - μ) / σ) / σ

/-- Two-piece normal density. -/
def dens2pnormal (σ1 σ2 μ x : ℝ) : ℝ :=
  if x < μ then 2 / (σ1 + σ2) * φ ((x - μ) / σ1) else 2 / (σ1 + σ2) * φ ((x - μ) / σ2)

/-- Two-piece normal distribution function. -/
def cdf2pnormal (σ1 σ2 μ x : ℝ) : ℝ :=
  if x < μ then 2 * σ1 / (σ1 + σ2) * Φ ((x - μ) / σ1)
  else (σ1 - σ2) / (σ1 + σ2) + 2 * σ2 / (σ1 + σ2) * Φ ((x - μ) / σ2)

/-- Generalised Pareto density. -/
def densGpd (ξ μ σ x : ℝ) : ℝ :=
  let z := (x - μ) / σ
  if z < 0 then 0
  else if ξ = 0 then Real.exp (-z) / σ
  else if ξ < 0 ∧ -1 / ξ < z then 0
  else (1 + ξ * z) ^ (-(ξ + 1) / ξ) / σ

/-- Density of `exp X` where `X` has density `f`. -/
def densLog (f : ℝ → ℝ) (x : ℝ) : ℝ := if x ≤ 0 then 0 else f (Real.log x) / x

/-- Distribution function of `exp X` where `X` has distribution function `F`. -/
def cdfLog (F : ℝ → ℝ) (x : ℝ) : ℝ := if x ≤ 0 then 0 else F (Real.log x)

/-- Density `f` with distribution function `F`, truncated to `[l, u]`. -/
def densTrunc (f F : ℝ → ℝ) (l u x : ℝ) : ℝ := if l ≤ x ∧ x ≤ u then f x / (F u - F l) else 0

/-- Distribution function `F` truncated to `[l, u]`. -/
def cdfTrunc (F : ℝ → ℝ) (l u x : ℝ) : ℝ :=
  if x < l then 0 else if x < u then (F x - F l) / (F u - F l) else 1

/-- Density `f` with distribution function `F`, truncated to `[l, ∞)`. -/
def densTruncLo (f F : ℝ → ℝ) (l x : ℝ) : ℝ := if l ≤ x then f x / (1 - F l) else 0

/-- Distribution function `F` truncated to `[l, ∞)`. -/
def cdfTruncLo (F : ℝ → ℝ) (l x : ℝ) : ℝ := if x < l then 0 else (F x - F l) / (1 - F l)

/-- Density `f` with distribution function `F`, truncated to `(-∞, u]`. -/
def densTruncUp (f F : ℝ → ℝ) (u x : ℝ) : ℝ := if x ≤ u then f x / F u else 0

/-- Distribution function `F` truncated to `(-∞, u]`. -/
def cdfTruncUp (F : ℝ → ℝ) (u x : ℝ) : ℝ := if x < u then F x / F u else 1

/-- Mixture of normal densities; entries are mean, standard deviation and weight. -/
def densMix (l : List (ℝ × ℝ × ℝ)) (x : ℝ) : ℝ :=
  (l.map fun p => p.2.2 * densNormal p.1 p.2.1 x).sum

/-- Mixture of normal distribution functions. -/
def cdfMix (l : List (ℝ × ℝ × ℝ)) (x : ℝ) : ℝ :=
  (l.map fun p => p.2.2 * cdfNormal p.1 p.2.1 x).sum

end Verif.Spec
