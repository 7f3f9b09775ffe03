import Verif.Model.Dss
import Verif.Model.RoundEnergy

/-!
# The univariate Dawid-Sebastiani score and the error-spread score computed with rounding

The functions of `Verif.Model.Dss` (`/repo/scoringrules/core/dss`, `/repo/scoringrules/core/error_spread`), with the
rounding function `r` applied after every operation.  `S` adds up an array in some order.  A power, a square root and a
logarithm count as one operation, correctly rounded.
-/

noncomputable section

open scoped Classical

namespace Verif

open XF Py

namespace Rnd

variable (r : ℝ → XF) (S : List XF → XF)

/-- `np.mean` of an array, as in `core/dss/_gufuncs.py:10` and `backend/numpy.py:40-48`, rounded. -/
def avg (fct : List XF) : XF := rd r (S fct / (fct.length : XF))

/-- `_dss_uv_gufunc`, `core/dss/_gufuncs.py:9-18`, rounded. -/
def dssGufunc (bias : Bool) (obs : XF) (fct : List XF) : XF :=
  let ensMean := avg r S fct
  let fact : XF := rd r ((fct.length : XF) - 1)
  let fact := if bias then rd r (fact + 1) else fact
  let var := rd r (S (fct.map fun x => rd r (rd r (x - ensMean) ^ 2)) / fact)
  let sig := rd r (XF.sqrt var)
  let logSig := rd r (2 * rd r (XF.log sig))
  let biasPrecision := rd r (rd r (rd r (obs - ensMean) / sig) ^ 2)
  rd r (biasPrecision + logSig)

/-- `NumpyBackend.std`, `backend/numpy.py:50-60`, rounded. -/
def ensStd (bias : Bool) (fct : List XF) : XF :=
  let ddof := if bias then 0 else 1
  let m := avg r S fct
  rd r (XF.sqrt (rd r (S (fct.map fun x => rd r (rd r (x - m) * rd r (x - m))) / ((fct.length - ddof : ℕ) : XF))))

/-- `ds_score_uv`, `core/dss/_score.py:9-21`, rounded. -/
def dssScore (bias : Bool) (obs : XF) (fct : List XF) : XF :=
  let ensMean := avg r S fct
  let sig := ensStd r S bias fct
  let biasPrecision := rd r (rd r (rd r (obs - ensMean) / sig) ^ 2)
  let logSig := rd r (2 * rd r (XF.log sig))
  rd r (biasPrecision + logSig)

/-- the last line of the error-spread score, `core/error_spread/_gufunc.py:34` and `core/error_spread/_score.py:19`,
rounded. -/
def essLast (s g e : XF) : XF :=
  rd r (rd r (rd r (rd r (s ^ 2) - rd r (e ^ 2)) - rd r (rd r (e * s) * g)) ^ 2)

/-- `_error_spread_score_gufunc`, `core/error_spread/_gufunc.py:9-34`, rounded. -/
def essGufunc (obs : XF) (fct : List XF) : XF :=
  let M := fct.length
  let m := forRange 0 M (0 : XF) fun i m => rd r (m + idx fct i)
  let m := rd r (m / (M : XF))
  let s := forRange 0 M (0 : XF) fun i s => rd r (s + rd r (rd r (idx fct i - m) ^ 2))
  let s := rd r (s / ((M - 1 : ℕ) : XF))
  let s := rd r (XF.sqrt s)
  let g := forRange 0 M (0 : XF) fun i g => rd r (g + rd r (rd r (rd r (idx fct i - m) / s) ^ 3))
  let g := rd r (g / (((M - 1) * (M - 2) : ℕ) : XF))
  let e := forRange 0 M (0 : XF) fun i e => rd r (e + rd r (idx fct i - obs))
  let e := rd r (e / (M : XF))
  essLast r s g e

/-- `error_spread_score`, `core/error_spread/_score.py:9-19`, rounded. -/
def essScore (obs : XF) (fct : List XF) : XF :=
  let M := fct.length
  let m := avg r S fct
  let s := rd r (XF.sqrt (rd r (S (fct.map fun x => rd r (rd r (x - m) ^ 2)) / ((M - 1 : ℕ) : XF))))
  let g := rd r (S (fct.map fun x => rd r (rd r (rd r (x - m) / s) ^ 3)) / (((M - 1) * (M - 2) : ℕ) : XF))
  let e := rd r (m - obs)
  essLast r s g e

end Rnd
end Verif
