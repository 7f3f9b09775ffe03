import Verif.Spec.Dist
import Verif.XF

/-!
# How a CRPS depends on the observation

Nothing here refers to the model.
-/

noncomputable section

namespace Verif.Spec

/-- On `A` the score `S` of a forecast with distribution function `F` is finite, and between two observations it rises
at a rate between `2 F - 1` at the smaller and `2 F - 1` at the larger of them, a rate between minus one and one. -/
def CrpsShape (A : Set ℝ) (S : ℝ → XF) (F : ℝ → ℝ) : Prop :=
  ∃ s : ℝ → ℝ, (∀ y ∈ A, S y = XF.fin (s y)) ∧ ∀ y ∈ A, ∀ y' ∈ A, y ≤ y' →
    (2 * F y - 1) * (y' - y) ≤ s y' - s y ∧ s y' - s y ≤ (2 * F y' - 1) * (y' - y) ∧ |s y' - s y| ≤ y' - y

/-- `m` is a median of the distribution function `F`. -/
def IsMedian (F : ℝ → ℝ) (m : ℝ) : Prop := (∀ z < m, F z ≤ 1 / 2) ∧ 1 / 2 ≤ F m

end Verif.Spec
