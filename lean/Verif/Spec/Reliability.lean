import Verif.Spec.Dss

/-!
# Specification: isotonic least squares

Nothing here refers to the model.
-/

noncomputable section

namespace Verif.Spec

/-- Mean squared difference of two lists of equal length. -/
def mse (y c : List ℝ) : ℝ := avg (List.zipWith (fun a b => (a - b) ^ 2) y c)

/-- `c` is the isotonic regression of `y`: an ascending list of the same length that is nearest to `y`
in mean square among all such lists. -/
structure IsoFit (y c : List ℝ) : Prop where
  length : c.length = y.length
  mono : c.Pairwise (· ≤ ·)
  best : ∀ d : List ℝ, d.length = y.length → d.Pairwise (· ≤ ·) → mse y c ≤ mse y d

end Verif.Spec
