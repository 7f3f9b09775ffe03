import Verif.XF

/-!
# Specification: scores that are convex in the forecast

Independent of the model.  A score is convex in its parameters if a mixture `a p + b p'` of two sets of parameters scores at
most the same mixture of their scores.
-/

noncomputable section

namespace Verif.Spec

/-- The score is a number and is convex in the observation, the location and the (positive) scale together. -/
def JointlyConvex (S : ℝ → ℝ → ℝ → XF) : Prop :=
  ∀ y y' μ μ' σ σ' a b : ℝ, 0 < σ → 0 < σ' → 0 ≤ a → 0 ≤ b → a + b = 1 →
    ∃ s s' m : ℝ, S y μ σ = XF.fin s ∧ S y' μ' σ' = XF.fin s' ∧
      S (a * y + b * y') (a * μ + b * μ') (a * σ + b * σ') = XF.fin m ∧ m ≤ a * s + b * s'

/-- The score is a number and is convex in the observation and the (positive) scale together. -/
def ScaleConvex (S : ℝ → ℝ → XF) : Prop := JointlyConvex fun y μ σ => S (y - μ) σ

/-- `(μ, σ)` has the smallest total score of the sample `ys` among the parameters near it. -/
def LocalBest (f : ℝ → ℝ → ℝ → ℝ) (ys : List ℝ) (μ σ : ℝ) : Prop :=
  ∃ ε > 0, ∀ μ' σ' : ℝ, |μ' - μ| < ε → |σ' - σ| < ε → 0 < σ' →
    (ys.map fun y => f y μ σ).sum ≤ (ys.map fun y => f y μ' σ').sum

end Verif.Spec
