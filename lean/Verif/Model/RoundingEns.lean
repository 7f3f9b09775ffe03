import Verif.Model.Rounding
import Verif.Model.Crps
import Verif.Model.Quantile
import Verif.Model.Brier

/-!
# Elementary scores and the ensemble CRPS computed with rounding

The functions below are those of `Verif.Model.Brier`, `Verif.Model.Quantile` and `Verif.Model.Crps`, with the
rounding function `r` applied after every arithmetic operation.
-/

noncomputable section

open scoped Classical

namespace Verif

open XF Py

namespace Rnd

variable (r : ℝ → XF)

/-- `brier_score`, `core/brier.py:11-15`, rounded. -/
def brier (obs fct : XF) : XF := rd r (rd r (fct - obs) ^ 2)

/-- the elementwise formula of `quantile_score`, `_quantile.py:58`, rounded. -/
def quantile (obs fct alpha : XF) : XF := rd r (rd r (ind (obs < fct) - alpha) * rd r (fct - obs))

/-- the elementwise formula of `interval_score`, `core/interval/_score.py:16-21`, rounded. -/
def interval (obs lower upper alpha : XF) : XF :=
  let width := rd r (upper - lower)
  let above := ind (upper < obs)
  let below := ind (obs < lower)
  let W := rd r (width + rd r (rd r (below * rd r (2 / alpha)) * rd r (lower - obs)))
  rd r (W + rd r (rd r (above * rd r (2 / alpha)) * rd r (obs - upper)))

/-- the two sums of the loops of `_crps_ensemble_nrg_gufunc` and `_crps_ensemble_fair_gufunc`,
`core/crps/_gufuncs.py:108-113`, rounded. -/
def nrgLoop (obs : XF) (fct : List XF) : XF × XF :=
  forRange 0 fct.length ((0, 0) : XF × XF) fun i e =>
    (rd r (e.1 + XF.abs (rd r (idx fct i - obs))),
     forRange (i + 1) fct.length e.2 fun j e2 =>
       rd r (e2 + rd r (2 * XF.abs (rd r (idx fct j - idx fct i)))))

/-- `_crps_ensemble_nrg_gufunc`, `core/crps/_gufuncs.py:91-115`, rounded. -/
def nrg (obs : XF) (fct : List XF) : XF :=
  let M := fct.length
  if obs.isnan then nan else
  let e := nrgLoop r obs fct
  rd r (rd r (e.1 / (M : XF)) - rd r (rd r (half * e.2) / ((M ^ 2 : ℕ) : XF)))

/-- `_crps_ensemble_fair_gufunc`, `core/crps/_gufuncs.py:118-142`, rounded. -/
def fair (obs : XF) (fct : List XF) : XF :=
  let M := fct.length
  if obs.isnan then nan else
  let e := nrgLoop r obs fct
  rd r (rd r (e.1 / (M : XF)) - rd r (rd r (half * e.2) / ((M * (M - 1) : ℕ) : XF)))

end Rnd
end Verif
