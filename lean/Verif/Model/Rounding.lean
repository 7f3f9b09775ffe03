import Verif.Model.Closed2
import Verif.Model.Logs

/-!
# Scores computed with rounding

Everywhere else the model computes exactly.  Here some functions of `/repo/scoringrules` are modelled again with a
rounding function applied after every arithmetic operation and every library call, as numpy does in binary64.
Only the properties of rounding collected in `Binary64` are used.
-/

noncomputable section

open scoped Classical

namespace Verif

open XF

/-- What the theorems use of rounding to the nearest binary64 number (element type of every array in
/repo/scoringrules, numpy float64): it is monotone, odd and exact on integers up to `2 ^ 53`; away from overflow
the relative error is at most `2 ^ -53`, or the absolute error is at most `2 ^ -1075`; results up to `2 ^ -1075`
become zero, results from `2 ^ 1024` on become infinite, and results within `2 ^ -54` of one become one. -/
structure Binary64 (r : ℝ → XF) : Prop where
  noNan : ∀ a, r a ≠ nan
  mono : ∀ {a b : ℝ}, a ≤ b → r a ≤ r b
  neg : ∀ a, r (-a) = -r a
  nat : ∀ n : ℕ, n ≤ 2 ^ 53 → r n = fin n
  acc : ∀ {a : ℝ}, |a| < 2 ^ 1023 →
    ∃ δ η : ℝ, |δ| ≤ 1 / 2 ^ 53 ∧ |η| ≤ 1 / 2 ^ 1075 ∧ r a = fin (a * (1 + δ) + η)
  under : ∀ {a : ℝ}, |a| ≤ 1 / 2 ^ 1075 → r a = fin 0
  over : ∀ {a : ℝ}, 2 ^ 1024 ≤ a → r a = pinf
  one : ∀ {a : ℝ}, |a - 1| ≤ 1 / 2 ^ 54 → r a = fin 1

namespace Rnd

/-- The result of an operation, rounded (element type of every array in /repo/scoringrules, numpy float64);
NaN and the infinities stay as they are. -/
def rd (r : ℝ → XF) : XF → XF
  | fin a => r a
  | x => x

variable (r : ℝ → XF)

/-- `_norm_pdf`, `core/stats.py:9-12`, rounded. -/
def normPdf (x : XF) : XF :=
  rd r (rd r (1 / rd r (XF.sqrt (rd r (2 * rd r XF.pi)))) * rd r (XF.exp (rd r (-(rd r (x ^ 2)) / 2))))

/-- `_norm_cdf`, `core/stats.py:15-18`, rounded. -/
def normCdf (x : XF) : XF := rd r (rd r (1 + rd r (XF.erf (rd r (x / rd r (XF.sqrt 2))))) / 2)

/-- `_laplace_pdf`, `core/stats.py:21-24`, rounded. -/
def laplacePdf (x : XF) : XF := rd r (rd r (XF.exp (-XF.abs x)) / 2)

/-- `_logis_pdf`, `core/stats.py:27-30`, rounded. -/
def logisPdf (x : XF) : XF :=
  rd r (rd r (XF.exp (-x)) / rd r (rd r (1 + rd r (XF.exp (-x))) ^ 2))

/-- `_logis_cdf`, `core/stats.py:33-36`, rounded. -/
def logisCdf (x : XF) : XF := rd r (1 / rd r (1 + rd r (XF.exp (-x))))

/-- `_exp_pdf`, `core/stats.py:39-42`, rounded. -/
def expPdf (x rate : XF) : XF := if x < 0 then 0 else rd r (rate * rd r (XF.exp (rd r (-rate * x))))

/-- `(obs - location) / scale`, e.g. `core/logarithmic.py:340`, rounded. -/
def std (obs location scale : XF) : XF := rd r (rd r (obs - location) / scale)

/-- `normal`, `core/logarithmic.py:328-342`, with `negative = True`, rounded. -/
def logsNormal (obs mu sigma : XF) : XF :=
  -1 * rd r (XF.log (rd r (normPdf r (std r obs mu sigma) / sigma)))

/-- `laplace`, `core/logarithmic.py:216-227`, rounded. -/
def logsLaplace (obs location scale : XF) : XF :=
  -rd r (XF.log (rd r (laplacePdf r (std r obs location scale) / scale)))

/-- `logistic`, `core/logarithmic.py:247-258`, rounded. -/
def logsLogistic (obs mu sigma : XF) : XF :=
  -rd r (XF.log (rd r (logisPdf r (std r obs mu sigma) / sigma)))

/-- `exponential`, `core/logarithmic.py:101-111`, rounded. -/
def logsExponential (obs rate : XF) : XF :=
  let zind := obs < 0
  let obs := if zind then nan else obs
  let prob := expPdf r obs rate
  if zind then pinf else -rd r (XF.log prob)

/-- `tnormal`, `core/logarithmic.py:414-435`, rounded. -/
def logsTnormal (obs location scale lower upper : XF) : XF :=
  let ω := std r obs location scale
  let u := std r upper location scale
  let l := std r lower location scale
  let denom := rd r (normCdf r u - normCdf r l)
  let indOut := ω < l ∨ u < ω
  let prob := rd r (normPdf r ω / scale)
  if indOut then pinf else -rd r (XF.log (rd r (prob / denom)))

/-- `logistic`, `core/crps/_closed.py:558-568`, rounded. -/
def crpsLogistic (obs mu sigma : XF) : XF :=
  let ω := std r obs mu sigma
  rd r (sigma * rd r (rd r (ω - rd r (2 * rd r (XF.log (logisCdf r ω)))) - 1))

/-- `gev`, `core/crps/_closed.py:227-276`, for the shape zero (the other branches are discarded by `B.where`),
with `_gev_cdf`, `core/stats.py:132-147`, rounded. -/
def crpsGumbel (obs location scale : XF) : XF :=
  let s := std r obs location scale
  let Fxi := rd r (XF.exp (-rd r (XF.exp (-s))))
  let out := rd r (rd r (rd r (-s - rd r (2 * rd r (XF.expi (rd r (XF.log Fxi))))) + rd r Closed.eulerMascheroni)
    - rd r (XF.log 2))
  rd r (out * scale)

/-- `_pois_pdf`, `core/stats.py:75-84`, rounded. -/
def poisPdf (x mean : XF) : XF :=
  let xPlus := XF.abs x
  let d := if XF.floor xPlus < xPlus then 0
    else rd r (rd r (rd r (XF.pow mean xPlus) * rd r (XF.exp (-mean))) / rd r (XF.factorial xPlus))
  if mean < 0 then nan else if x < 0 then 0 else d

/-- `B.gammauinc`, `backend/numpy.py:260-261`, rounded: `gammaincc(x, y) * gamma(x)`. -/
def gammauinc (a x : XF) : XF := rd r (rd r (1 - XF.gammainc a x) * rd r (XF.gamma a))

/-- `_pois_cdf`, `core/stats.py:87-92`, rounded. -/
def poisCdf (x mean : XF) : XF :=
  let k := XF.floor (rd r (XF.abs x + 1))
  let p := rd r (gammauinc r k mean / rd r (XF.gamma k))
  if x < 0 then 0 else p

/-- `poisson`, `core/crps/_closed.py:704-721`, rounded. -/
def crpsPoisson (obs mean : XF) : XF :=
  let Fm := poisCdf r obs mean
  let fm := poisPdf r (XF.floor obs) mean
  let m2 := rd r (2 * mean)
  let a := rd r (rd r (obs - mean) * rd r (rd r (2 * Fm) - 1))
  let b := rd r (m2 * fm)
  let c := rd r (rd r (mean * rd r (XF.exp (-m2))) * rd r (rd r (XF.bessel0 m2) + rd r (XF.bessel1 m2)))
  rd r (rd r (a + b) - c)

/-- `poisson`, `core/logarithmic.py:363-372`, rounded. -/
def logsPoisson (obs mean : XF) : XF := -rd r (XF.log (poisPdf r obs mean))

/-- `mixnorm`, `core/logarithmic.py:295-309`, on one observation with its lists of component means, standard
deviations and weights, rounded; the components are added one after the other. -/
def logsMixnorm (obs : XF) (m s w : List XF) : XF :=
  let z := Py.zip2 (fun mi si => std r obs mi si) m s
  let prob := Py.zip2 (fun zi si => rd r (normPdf r zi / si)) z s
  let prob := (Py.zip2 (fun wi pi => rd r (wi * pi)) w prob).foldl (fun a b => rd r (a + b)) 0
  Neg.neg (rd r (XF.log prob))

end Rnd
end Verif
