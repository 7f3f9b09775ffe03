import Mathlib.Topology.MetricSpace.Pseudo.Defs
import Mathlib.Topology.MetricSpace.Pseudo.Real
import Verif.Spec.Brier

/-!
# Members that move towards the observation
-/

namespace Verif

/-- `x'` lies on the way from `x` to `y`: going to `x'` first makes the way from `x` to `y` no longer. -/
def OnTheWay {E : Type} [PseudoMetricSpace E] (y x' x : E) : Prop := dist x x' + dist x' y = dist x y

/-- The probability vector `f'` is closer to the observed category `c` (counted from 1) than `f`: for every `j` the probability
of the event "category at most `j + 1`" has moved towards what happened. -/
def TowardsCategory (c : ℕ) (f' f : List ℝ) : Prop :=
  f'.length = f.length ∧ ∀ j < f.length, OnTheWay (if c ≤ j + 1 then (1:ℝ) else 0) (Spec.cum f' j) (Spec.cum f j)

end Verif
