import Mathlib.Analysis.SpecialFunctions.Log.Basic

/-!
# Specification: probability forecasts of binary and ordered categorical events
-/

noncomputable section

namespace Verif.Spec

/-- Brier score of probability `p` for the outcome `o`. -/
def brier (p : ℝ) (o : Bool) : ℝ := if o then (1 - p) ^ 2 else p ^ 2

/-- Probability given by the forecast `p` to the outcome `o`. -/
def probOf (p : ℝ) (o : Bool) : ℝ := if o then p else 1 - p

/-- cumulative probability of the first `j + 1` categories -/
def cum (f : List ℝ) (j : ℕ) : ℝ := (f.take (j + 1)).sum

/-- Ranked probability score: sum over thresholds of Brier scores of the event "category at most
`j + 1`", where the observed category is `c` (counted from 1). -/
def rps (f : List ℝ) (c : ℕ) : ℝ :=
  ((List.range f.length).map fun j => brier (cum f j) (decide (c ≤ j + 1))).sum

/-- Ranked logarithmic score. -/
def rls (f : List ℝ) (c : ℕ) : ℝ :=
  ((List.range f.length).map fun j => - Real.log (probOf (cum f j) (decide (c ≤ j + 1)))).sum

/-- `f` is a probability vector -/
def IsProb (f : List ℝ) : Prop := (∀ p ∈ f, 0 ≤ p) ∧ f.sum = 1

end Verif.Spec
