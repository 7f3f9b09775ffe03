import Verif.Spec.Proper

/-!
# Reports with the smallest expected score

Nothing here refers to the model.
-/

noncomputable section

open scoped Classical
open MeasureTheory

namespace Verif.Spec

/-- The report `r` is a best report under the law `P` of the observation: every report has a finite expected
score, and none a smaller one than `r`. -/
def Best {ρ α : Type*} [MeasurableSpace α] (P : Measure α) (S : ρ → α → XF) (r : ρ) : Prop :=
  ∃ E : ρ → ℝ, (∀ r', HasMean P (S r') (E r')) ∧ ∀ r', E r ≤ E r'

/-- `q` is a quantile at level `α` of the law `P`: at most `α` of the mass is below `q`, at least `α` is not
above it. -/
def LawQuantile (P : Measure ℝ) (α q : ℝ) : Prop := P.real (Set.Iio q) ≤ α ∧ α ≤ P.real (Set.Iic q)

end Verif.Spec
