import Mathlib.Data.Real.Basic

/-!
# Pooling two forecasts

Nothing here refers to the model.
-/

noncomputable section

namespace Verif.Spec

/-- The score `u` of two forecasts pooled with weights in the ratio `a : b` is the weighted mean of their scores `s`
and `t` less a gain, a multiple of their distance `d` that depends on the weights only. -/
def PoolGain (a b s t u d : ℝ) : Prop := u = a / (a + b) * s + b / (a + b) * t - a * b / (a + b) ^ 2 * d

end Verif.Spec
