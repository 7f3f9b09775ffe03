import Verif.Model.RoundTail
import Verif.Model.Closed

/-!
# Closed-form CRPS computed with rounding

As in `Model/Rounding.lean`, every operation is followed by the rounding function.
-/

noncomputable section

open scoped Classical

namespace Verif

open XF

namespace Rnd

variable (r : ℝ → XF)

/-- `laplace`, `core/crps/_closed.py:545-555`, rounded. -/
def crpsLaplace (obs location scale : XF) : XF :=
  let obs := std r obs location scale
  rd r (scale * rd r (rd r (XF.abs obs + rd r (XF.exp (-XF.abs obs))) - rd r (3 / 4)))

/-- `normal`, `core/crps/_closed.py:687-701`, rounded. -/
def crpsNormal (obs mu sigma : XF) : XF :=
  let ω := std r obs mu sigma
  rd r (sigma * rd r (rd r (rd r (ω * rd r (rd r (2 * normCdf r ω) - 1)) + rd r (2 * normPdf r ω))
    - rd r (1 / rd r (XF.sqrt (rd r XF.pi)))))

/-- `_exp_cdf`, `core/stats.py:45-48`, rounded. -/
def expCdf (x rate : XF) : XF := XF.max (rd r (1 - rd r (XF.exp (rd r (-rate * x))))) 0

/-- `exponential`, `core/crps/_closed.py:124-131`, rounded. -/
def crpsExponential (obs rate : XF) : XF :=
  rd r (rd r (XF.abs obs - rd r (rd r (2 * expCdf r obs rate) / rate)) + rd r (1 / rd r (2 * rate)))

end Rnd
end Verif
