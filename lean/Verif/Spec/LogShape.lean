import Verif.XF
import Mathlib.Analysis.SpecialFunctions.Pow.Real

/-!
# Scores that rise on both sides of a point
-/

noncomputable section

open scoped Classical

namespace Verif.Spec

/-- `b` is a worse score than `a`, or both are infinite. -/
def Worse (a b : XF) : Prop := a < b ∨ (a = XF.pinf ∧ b = XF.pinf)

/-- The score `s`, as a function of the observation, is smallest at `c`, and of two observations on the same side of `c` the
one further away scores worse (both may score `+inf`). -/
def RisesFrom (s : ℝ → XF) (c : ℝ) : Prop :=
  (∀ y' y, c ≤ y' → y' < y → Worse (s y') (s y)) ∧ ∀ y' y, y < y' → y' ≤ c → Worse (s y') (s y)

/-- The score `s` is `+inf` up to `l`, and on the right of `l` it rises. -/
def RisesRightOf (s : ℝ → XF) (l : ℝ) : Prop :=
  (∀ y, y ≤ l → s y = XF.pinf) ∧ ∀ y' y, l < y' → y' < y → s y' < s y

/-- For counts: up to `c` the larger count scores at least as well, from `c - 1` on the smaller one. -/
def CountsRiseFrom (s : ℕ → XF) (c : ℝ) : Prop :=
  (∀ j k : ℕ, j ≤ k → (k:ℝ) ≤ c → s k ≤ s j) ∧ ∀ j k : ℕ, c ≤ (j:ℝ) + 1 → j ≤ k → s j ≤ s k

/-- Mode of the standard generalised extreme value distribution. -/
def gevMode (ξ : ℝ) : ℝ := if ξ = 0 then 0 else ((1 + ξ) ^ (-ξ) - 1) / ξ

end Verif.Spec
