import Verif.XF
import Mathlib.Analysis.Calculus.Deriv.Basic

/-!
# What a gradient should be
-/

noncomputable section

open scoped Classical Topology

namespace Verif.Spec

open XF

/-- `g` is the derivative at `θ` of the score as a function of one of its arguments: near `θ` the score is a
finite number, it is differentiable at `θ`, and `g` is the derivative. -/
def IsGradient (score : XF → XF) (θ : ℝ) (g : XF) : Prop :=
  ∃ (f : ℝ → ℝ) (d : ℝ), (∀ᶠ t in 𝓝 θ, score (fin t) = fin (f t)) ∧ HasDerivAt f d θ ∧ g = fin d

/-- The score, as a function of one of its arguments, has a derivative at `θ`. -/
def HasGradient (score : XF → XF) (θ : ℝ) : Prop := ∃ g, IsGradient score θ g

end Verif.Spec
