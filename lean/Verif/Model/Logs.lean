import Verif.Model.Special
import Verif.Model.Special2

/-!
# Model of `/repo/scoringrules/core/logarithmic.py`

Elementwise functions, given on scalars.  The public functions of `/repo/scoringrules/_logs.py` pass
their arguments on unchanged, with the defaults repeated below.
-/

noncomputable section

open scoped Classical

namespace Verif

open XF Stats

namespace Logs

/-- `beta`, `logarithmic.py:64-82`; `logs_beta`, `_logs.py:150-188` (default `lower = 0`, `upper = 1`). -/
def beta (obs a b lower upper : XF) : XF :=
  let con := XF.beta a b
  let scale := upper - lower
  let obs := (obs - lower) / scale
  let indOut := obs < 0 ∨ 1 < obs
  let obs := if indOut then nan else obs
  let prob := XF.pow obs (a - 1) * XF.pow (1 - obs) (b - 1) / con
  if indOut then pinf else -XF.log (prob / scale)

/-- `binomial`, `logarithmic.py:85-98`; `logs_binomial`, `_logs.py:191-223`. -/
def binomial (obs n prob : XF) : XF :=
  let zind := obs < 0
  let obs := if zind then nan else obs
  let prob := binomPdf obs n prob
  if zind then pinf else -XF.log prob

/-- `exponential`, `logarithmic.py:101-111`; `logs_exponential`, `_logs.py:226-255`. -/
def exponential (obs rate : XF) : XF :=
  let zind := obs < 0
  let obs := if zind then nan else obs
  let prob := expPdf obs rate
  if zind then pinf else -XF.log prob

/-- `exponential2`, `logarithmic.py:114-130`; `logs_exponential2`, `_logs.py:258-290` (default
`location = 0`, `scale = 1`).  The in-place subtraction of the location is `Verif.Model.Dtype`. -/
def exponential2 (obs location scale : XF) : XF :=
  let obs := obs - location
  let rate := 1 / scale
  let zind := obs < 0
  let obs := if zind then nan else obs
  let prob := expPdf obs rate
  if zind then pinf else -XF.log prob

/-- `twopexponential`, `logarithmic.py:133-148`; `logs_2pexponential`, `_logs.py:293-328`. -/
def twopexponential (obs scale1 scale2 location : XF) : XF :=
  let obs := obs - location
  let scale := if obs < 0 then scale1 else scale2
  let rate := 1 / scale
  let con := scale / (scale1 + scale2)
  let prob := expPdf (XF.abs obs) rate * con
  Neg.neg (XF.log prob)

/-- `gamma`, `logarithmic.py:151-161`; see `Api.logsGamma` for the public function. -/
def gamma (obs shape rate : XF) : XF := Neg.neg (XF.log (gammaPdf obs shape rate))

/-- `gev`, `logarithmic.py:164-179`; `logs_gev`, `_logs.py:380-415` (default `location = 0`, `scale = 1`). -/
def gev (obs shape location scale : XF) : XF :=
  let ω := (obs - location) / scale
  let prob := gevPdf ω shape
  let prob0 := XF.feq prob 0
  let prob := if prob0 then nan else prob / scale
  if prob0 then pinf else -XF.log prob

/-- `gpd`, `logarithmic.py:182-197`; `logs_gpd`, `_logs.py:418-454` (default `location = 0`, `scale = 1`). -/
def gpd (obs shape location scale : XF) : XF :=
  let ω := (obs - location) / scale
  let prob := gpdPdf ω shape
  let prob0 := XF.feq prob 0
  let prob := if prob0 then nan else prob / scale
  if prob0 then pinf else -XF.log prob

/-- `hypergeometric`, `logarithmic.py:200-213`; `logs_hypergeometric`, `_logs.py:457-492`. -/
def hypergeometric (obs m n k : XF) : XF :=
  let M := m + n
  let N := k
  Neg.neg (XF.log (hypergeoPdf obs M m N))

/-- `laplace`, `logarithmic.py:216-227`; `logs_laplace`, `_logs.py:495-527` (default `location = 0`,
`scale = 1`). -/
def laplace (obs location scale : XF) : XF :=
  let ω := (obs - location) / scale
  let prob := laplacePdf ω / scale
  Neg.neg (XF.log prob)

/-- `loglaplace`, `logarithmic.py:230-244`; `logs_loglaplace`, `_logs.py:530-560`. -/
def loglaplace (obs mulog sigmalog : XF) : XF :=
  let zind := obs ≤ 0
  let obs := if zind then nan else obs
  let ω := (XF.log obs - mulog) / sigmalog
  let prob := laplacePdf ω / sigmalog
  if zind then pinf else -XF.log (prob / obs)

/-- `logistic`, `logarithmic.py:247-258`; `logs_logistic`, `_logs.py:563-593`. -/
def logistic (obs mu sigma : XF) : XF :=
  let ω := (obs - mu) / sigma
  let prob := logisPdf ω / sigma
  Neg.neg (XF.log prob)

/-- `loglogistic`, `logarithmic.py:261-275`; `logs_loglogistic`, `_logs.py:596-627`. -/
def loglogistic (obs mulog sigmalog : XF) : XF :=
  let zind := obs ≤ 0
  let obs := if zind then nan else obs
  let ω := (XF.log obs - mulog) / sigmalog
  let prob := logisPdf ω / sigmalog
  if zind then pinf else -XF.log (prob / obs)

/-- `lognormal`, `logarithmic.py:278-292`; `logs_lognormal`, `_logs.py:630-659`. -/
def lognormal (obs mulog sigmalog : XF) : XF :=
  let zind := obs ≤ 0
  let obs := if zind then nan else obs
  let ω := (XF.log obs - mulog) / sigmalog
  let prob := normPdf ω / sigmalog
  if zind then pinf else -XF.log (prob / obs)

/-- `mixnorm`, `logarithmic.py:295-309`, on one observation with its lists of component means, standard
deviations and weights (the last axis of `m`, `s` and `w`). -/
def mixnorm (obs : XF) (m s w : List XF) : XF :=
  let z := Py.zip2 (fun mi si => (obs - mi) / si) m s
  let prob := Py.zip2 (fun zi si => normPdf zi / si) z s
  let prob := (Py.zip2 (· * ·) w prob).sum
  Neg.neg (XF.log prob)

/-- `negbinom`, `logarithmic.py:312-325`; see `Api.logsNegbinom` for the public function. -/
def negbinom (obs n prob : XF) : XF :=
  let zind := obs < 0 ∨ ¬ XF.feq (XF.floor obs) obs
  let obs := if zind then nan else obs
  let prob := negbinomPdf obs n prob
  if zind then pinf else -XF.log prob

/-- `normal`, `logarithmic.py:328-342`; `logs_normal`, `_logs.py:766-799` (default `negative = True`). -/
def normal (obs mu sigma : XF) (negative : Bool) : XF :=
  let constant : XF := if negative then -1 else 1
  let ω := (obs - mu) / sigma
  let prob := normPdf ω / sigma
  constant * XF.log prob

/-- `twopnormal`, `logarithmic.py:345-360`; `logs_2pnormal`, `_logs.py:802-837`. -/
def twopnormal (obs scale1 scale2 location : XF) : XF :=
  let obs := obs - location
  let scale := if obs < 0 then scale1 else scale2
  let obs := obs / scale
  let con := 2 * scale / (scale1 + scale2)
  let prob := normPdf obs * con / scale
  Neg.neg (XF.log prob)

/-- `poisson`, `logarithmic.py:363-372`; `logs_poisson`, `_logs.py:840-869`. -/
def poisson (obs mean : XF) : XF := Neg.neg (XF.log (poisPdf obs mean))

/-- `t`, `logarithmic.py:375-387`; `logs_t`, `_logs.py:872-905` (default `location = 0`, `scale = 1`). -/
def t (obs df location scale : XF) : XF :=
  let ω := (obs - location) / scale
  let prob := tPdf ω df / scale
  Neg.neg (XF.log prob)

/-- `tlogistic`, `logarithmic.py:390-411`; `logs_tlogistic`, `_logs.py:908-944` (default `lower = -inf`,
`upper = inf`). -/
def tlogistic (obs location scale lower upper : XF) : XF :=
  let ω := (obs - location) / scale
  let u := (upper - location) / scale
  let l := (lower - location) / scale
  let denom := logisCdf u - logisCdf l
  let indOut := ω < l ∨ u < ω
  let prob := logisPdf ω / scale
  if indOut then pinf else -XF.log (prob / denom)

/-- `tnormal`, `logarithmic.py:414-435`; `logs_tnormal`, `_logs.py:947-983` (default `lower = -inf`,
`upper = inf`). -/
def tnormal (obs location scale lower upper : XF) : XF :=
  let ω := (obs - location) / scale
  let u := (upper - location) / scale
  let l := (lower - location) / scale
  let denom := normCdf u - normCdf l
  let indOut := ω < l ∨ u < ω
  let prob := normPdf ω / scale
  if indOut then pinf else -XF.log (prob / denom)

/-- `tt`, `logarithmic.py:438-462`; `logs_tt`, `_logs.py:986-1025` (default `location = 0`, `scale = 1`,
`lower = -inf`, `upper = inf`). -/
def tt (obs df location scale lower upper : XF) : XF :=
  let ω := (obs - location) / scale
  let u := (upper - location) / scale
  let l := (lower - location) / scale
  let denom := tCdf u df - tCdf l df
  let indOut := ω < l ∨ u < ω
  let prob := tPdf ω df / scale
  if indOut then pinf else -XF.log (prob / denom)

/-- `uniform`, `logarithmic.py:465-476`; `logs_uniform`, `_logs.py:1028-1058`. -/
def uniform (obs min max : XF) : XF :=
  let indOut := max < obs ∨ obs < min
  let prob := if indOut then 0 else 1 / (max - min)
  Neg.neg (XF.log prob)

end Logs

namespace Api

/-- `logs_gamma`, `_logs.py:330-377`; `none` is an argument left out. -/
def logsGamma (obs shape : XF) (rate scale : Option XF) : Except Err XF :=
  match rate, scale with
  | none, none => .error .valueError
  | some _, some _ => .error .valueError
  | some rate, none => .ok (Logs.gamma obs shape rate)
  | none, some scale => .ok (Logs.gamma obs shape (1 / scale))

/-- `logs_negbinom`, `_logs.py:717-763`. -/
def logsNegbinom (obs n : XF) (prob mu : Option XF) : Except Err XF :=
  match prob, mu with
  | none, none => .error .valueError
  | some _, some _ => .error .valueError
  | some prob, none => .ok (Logs.negbinom obs n prob)
  | none, some mu => .ok (Logs.negbinom obs n (n / (n + mu)))

end Api
end Verif
