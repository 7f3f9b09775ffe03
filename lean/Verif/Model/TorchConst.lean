import Verif.Model.Rounding32
import Verif.Model.Crps

/-!
# Constants and default weights on torch

`torch.asarray` makes a single precision tensor of a Python float, and `torch.zeros`, `torch.ones` make single precision
tensors.  Functions that mix such tensors with double precision data are modelled here: what is computed from the
constants alone is rounded to binary32, the operations on the data are exact.
-/

noncomputable section

open scoped Classical

namespace Verif

open XF Py

namespace Tc

variable (r : ℝ → XF)

open Rnd (rd)

/-- `TorchBackend.pi`, `backend/torch.py:25`. -/
def pi : XF := rd r XF.pi

/-- `1.0 / B.sqrt(2.0 * B.pi)` in `_norm_pdf`, `core/stats.py:12`, on torch (`sqrt`: `backend/torch.py:180-181`). -/
def normConst : XF := rd r (1 / rd r (XF.sqrt (rd r (2 * pi r))))

/-- `_norm_pdf`, `core/stats.py:9-12`, on torch with double precision data.  Simplification: the operations on the
data are exact. -/
def normPdf (x : XF) : XF := normConst r * XF.exp (-(x ^ 2) / 2)

/-- `_norm_cdf`, `core/stats.py:15-18`, on torch with double precision data: `B.sqrt(2.0)` is single precision.
Simplification: the operations on the data are exact. -/
def normCdf (x : XF) : XF := (1 + XF.erf (x / rd r (XF.sqrt 2))) / 2

/-- `normal`, `core/logarithmic.py:328-342`, on torch with double precision data.  Simplification: the operations on
the data are exact. -/
def logsNormal (obs mu sigma : XF) : XF :=
  let ω := (obs - mu) / sigma
  let constant : XF := -1
  let prob := normPdf r ω / sigma
  constant * XF.log prob

/-- `normal`, `core/crps/_closed.py:687-701`, on torch with double precision data.  Simplification: the operations on
the data are exact. -/
def crpsNormal (obs mu sigma : XF) : XF :=
  let ω := (obs - mu) / sigma
  sigma * (ω * (2 * normCdf r ω - 1) + 2 * normPdf r ω - rd r (1 / rd r (XF.sqrt (pi r))))

/-- The default weights of `logs_mixnorm`, `_logs.py:703-705`, and the weights of `logs_ensemble`, `_logs.py:67`, on
torch: `B.ones(...) / M` (`backend/torch.py:160-166`).  The default weights of `crps_mixnorm`, `_crps.py:2056-2058`, are
`B.zeros(...) + 1 / M`; simplification: the rounding of Python's own quotient is left out. -/
def weight (M : ℕ) : XF := rd r (1 / (M : XF))

/-- `logs_mixnorm`, `_logs.py:701-714`, and `mixnorm`, `core/logarithmic.py:295-309`, with default weights on torch
with double precision data, on one observation with the lists of means and standard deviations.  Simplification: the
operations on the data are exact. -/
def logsMixnorm (obs : XF) (m s : List XF) : XF :=
  let w := m.map fun _ => weight r m.length
  let z := zip2 (fun mi si => (obs - mi) / si) m s
  let prob := zip2 (fun zi si => normPdf r zi / si) z s
  let prob := (zip2 (· * ·) w prob).sum
  Neg.neg (XF.log prob)

/-- `_crps_ensemble_int`, `core/crps/_approx.py:108-123`, on torch with double precision data: `y_pos` and `fct_cdf` are
single precision.  Simplification: the operations on the data are exact. -/
def crpsInt (obs : XF) (fct : List XF) : XF :=
  let M := fct.length
  let ypos := rd r (mean (fct.map fun x => ind (x ≤ obs) * 1))
  let fctCdf := (List.range M).map fun i => 0 + rd r (((i + 1 : ℕ) : XF) / (M : XF))
  let fctCdf := sort (fctCdf ++ [ypos])
  let fctExp := sort (fct ++ [obs])
  let fctDif := zip2 (· - ·) (fctExp.drop 1) (fctExp.take M)
  let obsCdf := fctExp.map fun x => ind (obs ≤ x) * 1
  let dif := zip2 (fun c o => (c - o) ^ 2) (fctCdf.take M) (obsCdf.take M)
  (zip2 (· * ·) fctDif dif).sum

end Tc
end Verif
