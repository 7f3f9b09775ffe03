import Mathlib.Algebra.Order.AbsoluteValue.Basic
import Mathlib.Data.Real.Basic
import Verif.XF

/-!
# Dependence of a score on location and scale

Nothing here refers to the model.  `S y μ σ` is the score of the observation `y` for the forecast with location `μ` and
scale `σ`.
-/

noncomputable section

namespace Verif.Spec

/-- The scores are numbers, and they move by at most the change of the observation, the change of the location and `K`
times the change of the scale. -/
def ParamLipschitz (S : ℝ → ℝ → ℝ → XF) (K : ℝ) : Prop :=
  ∀ y y' μ μ' σ σ' : ℝ, 0 < σ → 0 < σ' → ∃ s s' : ℝ, S y μ σ = XF.fin s ∧ S y' μ' σ' = XF.fin s' ∧
    |s - s'| ≤ |y - y'| + |μ - μ'| + K * |σ - σ'|

/-- The score is within `K` times the scale of the absolute error of the location. -/
def NearAbsError (S : ℝ → ℝ → ℝ → XF) (K : ℝ) : Prop :=
  ∀ y μ σ : ℝ, 0 < σ → ∃ s : ℝ, S y μ σ = XF.fin s ∧ |s - (|y - μ|)| ≤ K * σ

end Verif.Spec
