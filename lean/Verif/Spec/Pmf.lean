import Mathlib.Analysis.SpecialFunctions.Pow.Real
import Mathlib.Topology.Algebra.InfiniteSum.Defs

/-!
# Probability mass functions of the discrete families

Nothing here refers to the model.
-/

noncomputable section

namespace Verif.Spec

/-- `f` is a probability mass function on the non-negative integers. -/
structure IsPmf (f : ℕ → ℝ) : Prop where
  nonneg : ∀ k, 0 ≤ f k
  total : HasSum f 1

/-- Binomial distribution with `n` trials. -/
def pmfBinom (n : ℕ) (p : ℝ) (k : ℕ) : ℝ := n.choose k * p ^ k * (1 - p) ^ (n - k)

/-- Poisson distribution. -/
def pmfPois (μ : ℝ) (k : ℕ) : ℝ := μ ^ k * Real.exp (-μ) / k.factorial

/-- Negative binomial distribution with real size `r`; the coefficient is `r (r+1) … (r+k-1) / k!`. -/
def pmfNegbinom (r p : ℝ) (k : ℕ) : ℝ :=
  (∏ i ∈ Finset.range k, (r + i)) / k.factorial * p ^ r * (1 - p) ^ k

/-- Hypergeometric distribution: number of successes in `K` draws without replacement from `m` successes
and `n` failures. -/
def pmfHypergeo (m n K k : ℕ) : ℝ :=
  if k ≤ K then (m.choose k : ℝ) * n.choose (K - k) / (m + n).choose K else 0

/-- Distribution function of a mass function on the non-negative integers. -/
def cdfPmf (f : ℕ → ℝ) (z : ℝ) : ℝ := ∑' k : ℕ, if (k : ℝ) ≤ z then f k else 0

end Verif.Spec
