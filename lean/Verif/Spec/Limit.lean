import Verif.XF
import Mathlib.MeasureTheory.Integral.Bochner.Basic

/-!
# Specification: convergence in mean
-/

noncomputable section

open scoped Classical
open MeasureTheory

namespace Verif.Spec

open XF

/-- The random scores `S M` come arbitrarily close to the number `m` in mean absolute distance, as `M` grows. -/
def ConvergesInMean {Ω : ℕ → Type} [∀ M, MeasurableSpace (Ω M)] (P : ∀ M, Measure (Ω M)) (S : ∀ M, Ω M → XF) (m : ℝ) :
    Prop :=
  ∀ ε : ℝ, 0 < ε → ∃ N : ℕ, ∀ M, N ≤ M → ∃ s : Ω M → ℝ, (∀ᵐ x ∂(P M), S M x = fin (s x)) ∧
    Integrable (fun x => |s x - m|) (P M) ∧ ∫ x, |s x - m| ∂(P M) ≤ ε

end Verif.Spec
