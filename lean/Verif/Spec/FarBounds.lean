import Verif.XF

/-!
# Specification: bounds that are far away do not matter

Independent of the model.
-/

noncomputable section

namespace Verif.Spec

/-- As the lower bound goes to minus infinity and the upper bound to plus infinity, in any way, the score `S l u` approaches
the number `v`. -/
def FarBounds (S : ℝ → ℝ → XF) (v : XF) : Prop :=
  ∃ c : ℝ, v = XF.fin c ∧
    ∀ ε > 0, ∃ R : ℝ, ∀ l u : ℝ, l ≤ -R → R ≤ u → ∃ s : ℝ, S l u = XF.fin s ∧ |s - c| < ε

end Verif.Spec
