import Verif.Model.Grad
import Verif.Model.Logs

/-!
# Gradients of the logarithmic scores and of the truncated logistic CRPS by backpropagation

The functions of `/repo/scoringrules/core/logarithmic.py` and of `core/crps/_closed.py:304-351` as compositions of
the operations of `Verif.Model.Grad`.
-/

noncomputable section

open scoped Classical

namespace Verif.Grad

open XF Node

/-- `_laplace_pdf`, `core/stats.py:21-24`. -/
def laplacePdf (x : Node) : Node := exp (-abs x) / const 2

/-- `_logis_pdf`, `core/stats.py:27-30`. -/
def logisPdf (x : Node) : Node := exp (-x) / pow (const 1 + exp (-x)) 2

/-- `normal`, `core/logarithmic.py:328-342`. -/
def logsNormal (obs mu sigma : Node) (negative : Bool) : Node :=
  let constant : XF := if negative then -1 else 1
  let ω := (obs - mu) / sigma
  let prob := normPdf ω / sigma
  const constant * log prob

/-- `logistic`, `core/logarithmic.py:247-258`. -/
def logsLogistic (obs mu sigma : Node) : Node :=
  let ω := (obs - mu) / sigma
  let prob := logisPdf ω / sigma
  Neg.neg (log prob)

/-- `laplace`, `core/logarithmic.py:216-227`. -/
def logsLaplace (obs location scale : Node) : Node :=
  let ω := (obs - location) / scale
  let prob := laplacePdf ω / scale
  Neg.neg (log prob)

/-- `lognormal`, `core/logarithmic.py:278-292`. -/
def logsLognormal (obs mulog sigmalog : Node) : Node :=
  let zind := obs.val ≤ 0
  let obs := sel zind (const nan) obs
  let ω := (log obs - mulog) / sigmalog
  let prob := normPdf ω / sigmalog
  sel zind (const pinf) (-log (prob / obs))

/-- `tnormal`, `core/logarithmic.py:414-435`. -/
def logsTnormal (obs mu sigma lower upper : Node) : Node :=
  let ω := (obs - mu) / sigma
  let u := (upper - mu) / sigma
  let l := (lower - mu) / sigma
  let denom := normCdf u - normCdf l
  let indOut := ω.val < l.val ∨ u.val < ω.val
  let prob := normPdf ω / sigma
  sel indOut (const pinf) (-log (prob / denom))

/-- `tlogistic`, `core/logarithmic.py:390-411`. -/
def logsTlogistic (obs mu sigma lower upper : Node) : Node :=
  let ω := (obs - mu) / sigma
  let u := (upper - mu) / sigma
  let l := (lower - mu) / sigma
  let denom := logisCdf u - logisCdf l
  let indOut := ω.val < l.val ∨ u.val < ω.val
  let prob := logisPdf ω / sigma
  sel indOut (const pinf) (-log (prob / denom))

/-- `gtclogistic`, `core/crps/_closed.py:304-351`. -/
def gtclogistic (obs mu sigma lower upper lmass umass : Node) : Node :=
  let ω := (obs - mu) / sigma
  let u := (upper - mu) / sigma
  let l := (lower - mu) / sigma
  let z := min (max ω l) u
  let Fu := logisCdf u
  let Fl := logisCdf l
  let Fmu := logisCdf (-u)
  let Fml := logisCdf (-l)
  let Fmz := logisCdf (-z)
  let uInf := XF.feq u.val pinf
  let lInf := XF.feq l.val ninf
  let Fmu := sel (uInf ∨ lInf) (const nan) Fmu
  let Fml := sel (uInf ∨ lInf) (const nan) Fml
  let u := sel uInf (const nan) u
  let l := sel lInf (const nan) l
  let Gu := sel uInf (const 0) (u * Fu + log Fmu)
  let Gl := sel lInf (const 0) (l * Fl + log Fml)
  let Hu := sel uInf (const 1) (Fu - u * pow Fu 2 + (const 1 - const 2 * Fu) * log Fmu)
  let Hl := sel lInf (const 0) (Fl - l * pow Fl 2 + (const 1 - const 2 * Fl) * log Fml)
  let c := (const 1 - lmass - umass) / (Fu - Fl)
  let s1u := sel (uInf ∧ XF.feq umass.val 0) (const 0) (u * pow umass 2)
  let s1l := sel (lInf ∧ XF.feq lmass.val 0) (const 0) (l * pow lmass 2)
  let s1 := abs (ω - z) + s1u - s1l
  let s2 := c * z * ((const 1 - const 2 * lmass) * Fu + (const 1 - const 2 * umass) * Fl)
    / (const 1 - lmass - umass)
  let s3 := c * (const 2 * log Fmz - const 2 * Gu * umass - const 2 * Gl * lmass)
  let s4 := pow c 2 * (Hu - Hl)
  sigma * (s1 - s2 - s3 - s4)

/-- `crps_tlogistic`, `_crps.py:1240-1280` (default `lower = -inf`, `upper = inf`). -/
def tlogistic (obs location scale lower upper : Node) : Node :=
  gtclogistic obs location scale lower upper (const 0) (const 0)

/-- `crps_clogistic`, `_crps.py:1283-1332` (default `lower = -inf`, `upper = inf`). -/
def clogistic (obs location scale lower upper : Node) : Node :=
  let lmass := logisCdf ((lower - location) / scale)
  let umass := const 1 - logisCdf ((upper - location) / scale)
  gtclogistic obs location scale lower upper lmass umass

end Verif.Grad
