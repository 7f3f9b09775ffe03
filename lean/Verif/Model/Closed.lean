import Verif.Model.Stats

/-!
# Model of closed-form CRPS, `/repo/scoringrules/core/crps/_closed.py` (elementary families)

Elementwise functions, given on scalars.  `_is_scalar_value(x, v)` (`_closed.py:771-774`) is `x == v` for
a scalar.  The public functions of `/repo/scoringrules/_crps.py` pass their arguments on unchanged,
with the defaults repeated below.
-/

noncomputable section

open scoped Classical

namespace Verif

open XF Stats

namespace Closed

/-- `exponential`, `_closed.py:124-131`; `crps_exponential`, `_crps.py:693-738`. -/
def exponential (obs rate : XF) : XF :=
  XF.abs obs - (2 * expCdf obs rate / rate) + 1 / (2 * rate)

/-- `exponentialM`, `_closed.py:134-156`; `crps_exponentialM`, `_crps.py:741-800` (default `mass = 0`,
`location = 0`, `scale = 1`).  The in-place subtraction of the location is `Verif.Model.Dtype`. -/
def exponentialM (obs mass location scale : XF) : XF :=
  let obs := if ¬ XF.feq location 0 then obs - location else obs
  let a : XF := if XF.feq mass 0 then 1 else 1 - mass
  let s := XF.abs obs
  if XF.feq scale 1 then s - a * (2 * expCdf obs 1 - fin (1 / 2) * a)
  else s - scale * a * (2 * expCdf obs (1 / scale) - fin (1 / 2) * a)

/-- `twopexponential`, `_closed.py:159-177`; `crps_2pexponential`, `_crps.py:803-855`. -/
def twopexponential (obs scale1 scale2 location : XF) : XF :=
  let obs := obs - location
  let z := XF.abs obs
  let c1 := 2 * (scale1 ^ 2) / (scale1 + scale2)
  let c2 := 2 * (scale2 ^ 2) / (scale1 + scale2)
  let c3 := (scale1 ^ 3 + scale2 ^ 3) / (2 * (scale1 + scale2) ^ 2)
  let s1 := z + c1 * XF.exp (-z / scale1) - c1 + c3
  let s2 := z + c2 * XF.exp (-z / scale2) - c2 + c3
  if obs < 0 then s1 else s2

/-- `gpd`, `_closed.py:279-301`; `crps_gpd`, `_crps.py:1098-1157` (default `location = 0`, `scale = 1`,
`mass = 0`). -/
def gpd (obs shape location scale mass : XF) : XF :=
  let shape := if shape < 1 then shape else nan
  let mass := if 0 ≤ mass ∧ mass ≤ 1 then mass else nan
  let ω := (obs - location) / scale
  let Fxi := gpdCdf ω shape
  let s := XF.abs ω - 2 * (1 - mass) * (1 - XF.pow (1 - Fxi) (1 - shape)) / (1 - shape)
    + ((1 - mass) ^ 2) / (2 - shape)
  scale * s

/-- `laplace`, `_closed.py:545-555`; `crps_laplace`, `_crps.py:1734-1781` (default `location = 0`,
`scale = 1`). -/
def laplace (obs location scale : XF) : XF :=
  let obs := (obs - location) / scale
  scale * (XF.abs obs + XF.exp (-XF.abs obs) - 3 / 4)

/-- `logistic`, `_closed.py:558-568`; `crps_logistic`, `_crps.py:1784-1828`. -/
def logistic (obs mu sigma : XF) : XF :=
  let ω := (obs - mu) / sigma
  sigma * (ω - 2 * XF.log (logisCdf ω) - 1)

/-- `normal`, `_closed.py:687-701`; `crps_normal`, `_crps.py:2133-2176`. -/
def normal (obs mu sigma : XF) : XF :=
  let ω := (obs - mu) / sigma
  sigma * (ω * (2 * normCdf ω - 1) + 2 * normPdf ω - 1 / XF.sqrt XF.pi)

/-- `uniform`, `_closed.py:748-768`; `crps_uniform`, `_crps.py:2350-2404` (default `lmass = umass = 0`). -/
def uniform (obs min max lmass umass : XF) : XF :=
  let ω := (obs - min) / (max - min)
  let Fω := XF.min (XF.max ω 0) 1
  let s := XF.abs (ω - Fω) + (Fω ^ 2) * (1 - lmass - umass) - Fω * (1 - 2 * lmass)
    + ((1 - lmass - umass) ^ 2) / 3 + (1 - lmass) * umass
  (max - min) * s

end Closed
end Verif
