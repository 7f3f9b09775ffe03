import Verif.Model.RoundCrps

/-!
# The CRPS from quantiles computed with rounding

`quantile_pinball` of the array path (`/repo/scoringrules/core/crps/_approx.py`) with the sums taken by `S`, and of the
numba path (`/repo/scoringrules/core/crps/_gufuncs.py`) with the loop of the code; `r` is applied after every arithmetic
operation.
-/

noncomputable section

open scoped Classical

namespace Verif

open XF Py

/-- `quantile_pinball`, `core/crps/_approx.py:126-133`, rounded.  A boolean times a number is a multiplication by 0 or 1. -/
def Rnd.quantilePinball (r : ℝ → XF) (S : List XF → XF) (obs : XF) (fct alpha : List XF) : XF :=
  let below := zip2 (fun x a => rd r (rd r (ind (x ≤ obs) * a) * rd r (obs - x))) fct alpha
  let above := zip2 (fun x a => rd r (rd r (ind (obs < x) * rd r (1 - a)) * rd r (x - obs))) fct alpha
  let terms := zip2 (fun b a => rd r (b + a)) below above
  rd r (2 * rd r (S terms / (terms.length : XF)))

/-- `quantile_pinball_gufunc`, `core/crps/_gufuncs.py:9-20`, rounded. -/
def RndLoop.quantilePinball (r : ℝ → XF) (obs : XF) (fct alpha : List XF) : XF :=
  let Q := fct.length
  let pb := (fct.zip alpha).foldl (fun pb p =>
    Rnd.rd r (pb + Rnd.rd r (Rnd.rd r (Rnd.rd r (ind (p.1 < obs) * p.2) * Rnd.rd r (obs - p.1))
      + Rnd.rd r (Rnd.rd r (ind (obs ≤ p.1) * Rnd.rd r (1 - p.2)) * Rnd.rd r (p.1 - obs))))) 0
  Rnd.rd r (2 * Rnd.rd r (pb / (Q : XF)))

end Verif
