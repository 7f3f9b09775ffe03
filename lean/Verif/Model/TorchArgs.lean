import Verif.Model.TorchConst
import Verif.Model.Quantile
import Verif.Model.WeightedUv

/-!
# Python numbers as arguments on torch

`TorchBackend.asarray` (`backend/torch.py:28-36`) makes a single precision tensor of a Python number or a list of
numbers.  Together with double precision tensors the operations are done in double precision, but on the rounded number.
Here the data are double precision tensors, the operations on them are exact, and one argument is a Python number.
-/

noncomputable section

open scoped Classical

namespace Verif

open XF Py

namespace Tc

variable (r : ℝ → XF)

open Rnd (rd)

/-- `torch.as_tensor` of a Python number, `backend/torch.py:35-36`. -/
def number (x : XF) : XF := rd r x

/-- `quantile_score`, `_quantile.py:54-58`, on torch: the level is a Python number, so the first factor is computed in
single precision (`dtype=alpha.dtype`).  Simplification: one observation, the other operations are exact. -/
def quantileScore (obs fct alpha : XF) : Except Err XF :=
  let alpha := number r alpha
  if alpha < 0 ∨ 1 < alpha then .error .valueError
  else .ok (rd r (ind (obs < fct) - alpha) * (fct - obs))

/-- `crps_quantile`, `_crps.py:564-578`, on torch: the levels are a list of Python numbers, `1 - alpha` of
`quantile_pinball` (`core/crps/_approx.py:126-133`) is computed in single precision.  Simplification: one observation,
the other operations are exact. -/
def crpsQuantile (obs : XF) (fct alpha : List XF) : Except Err XF :=
  let alpha := alpha.map (number r)
  if (∃ a ∈ alpha, a ≤ 0) ∨ ∃ a ∈ alpha, 1 ≤ a then .error .valueError
  else if fct.length ≠ alpha.length then .error .valueError
  else
    let below := zip2 (fun x a => ind (x ≤ obs) * a * (obs - x)) fct alpha
    let above := zip2 (fun x a => ind (obs < x) * rd r (1 - a) * (x - obs)) fct alpha
    .ok (2 * mean (zip2 (· + ·) below above))

/-- `interval_score`, `_interval.py:88-107` and `core/interval/_score.py:9-21`, on torch: the level is a Python number,
so `2 / alpha` is computed in single precision.  Simplification: one observation, the other operations are exact. -/
def intervalScore (obs lower upper alpha : XF) : XF :=
  let f := rd r (2 / number r alpha)
  let width := upper - lower
  let above := ind (upper < obs)
  let below := ind (obs < lower)
  let W := width + below * f * (lower - obs)
  W + above * f * (obs - upper)

/-- `twcrps_ensemble`, `_crps.py:158-266`, with the default chaining function (`core/utils.py:155-167`) on torch: the
thresholds are Python numbers. -/
def twcrps (est : String) (obs : XF) (fct : List XF) (a b : XF) : Except Err XF :=
  let v := Api.defaultV (number r a) (number r b)
  Api.crps1 .array est false "propagate" (v obs) (fct.map v) none

/-- `crps_ensemble`, `_crps.py:14-155`, on torch: the observation is a Python number (`univariate_array_check`,
`core/utils.py:63-71`). -/
def crpsNumber (est : String) (obs : XF) (fct : List XF) : Except Err XF :=
  Api.crps1 .array est false "propagate" (number r obs) fct none

end Tc
end Verif
