import Mathlib.Data.Real.Basic

/-!
# Specification: pinball loss, interval score, sample quantiles
-/

noncomputable section

namespace Verif.Spec

/-- Pinball loss of the level-`α` quantile report `q` when `y` is observed. -/
def pinball (α q y : ℝ) : ℝ := max (α * (y - q)) ((1 - α) * (q - y))

/-- Interval score of the central `(1 - α)` prediction interval `[l, u]`: width plus penalty. -/
def intervalScore (α l u y : ℝ) : ℝ :=
  (u - l) + 2 / α * max (l - y) 0 + 2 / α * max (y - u) 0

/-- Weighted interval score (median `m` with weight `w0`, intervals `(l, u, α, w)`). -/
def wis (w0 m y : ℝ) (ivs : List (ℝ × ℝ × ℝ × ℝ)) : ℝ :=
  (w0 * |y - m| + (ivs.map fun p => p.2.2.2 * intervalScore p.2.2.1 p.1 p.2.1 y).sum)
    / (ivs.length + 1 / 2)

/-- `q` is a level-`α` quantile of the sample `xs`. -/
def IsQuantile (α q : ℝ) (xs : List ℝ) : Prop :=
  (xs.countP (fun x => decide (x < q)) : ℝ) ≤ α * xs.length ∧
    α * xs.length ≤ xs.countP (fun x => decide (x ≤ q))

end Verif.Spec
