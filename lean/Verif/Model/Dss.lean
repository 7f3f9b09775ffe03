import Verif.Model.WeightedUv
import Verif.Model.Quantile
import Verif.Model.Multivariate

/-!
# Model of the Dawid-Sebastiani score (univariate) and of the error-spread score
-/

noncomputable section

open scoped Classical

namespace Verif

open XF Py

/-! ## `/repo/scoringrules/core/dss` (univariate) -/

namespace Dss

/-- `_dss_uv_gufunc`, `core/dss/_gufuncs.py:9-18`. -/
def gufunc (bias : Bool) (obs : XF) (fct : List XF) : XF :=
  let ensMean := mean fct
  let fact : XF := (fct.length : XF) - 1
  let fact := if bias then fact + 1 else fact
  let var := (fct.map fun x => (x - ensMean) ^ 2).sum / fact
  let sig := XF.sqrt var
  let logSig := 2 * XF.log sig
  let biasPrecision := ((obs - ensMean) / sig) ^ 2
  biasPrecision + logSig

/-- `NumpyBackend.std`, `backend/numpy.py:50-60`: `np.std` with `ddof = 0` if `bias` else `1`, which is
the square root of the sum of squared deviations divided by `M - ddof`. -/
def std (bias : Bool) (fct : List XF) : XF :=
  let ddof := if bias then 0 else 1
  let m := mean fct
  XF.sqrt ((fct.map fun x => (x - m) * (x - m)).sum / ((fct.length - ddof : ℕ) : XF))

/-- `ds_score_uv`, `core/dss/_score.py:9-21`. -/
def score (bias : Bool) (obs : XF) (fct : List XF) : XF :=
  let ensMean := mean fct
  let sig := std bias fct
  let biasPrecision := ((obs - ensMean) / sig) ^ 2
  let logSig := 2 * XF.log sig
  biasPrecision + logSig

end Dss

/-! ## `/repo/scoringrules/core/error_spread` -/

namespace Ess

/-- `_error_spread_score_gufunc`, `core/error_spread/_gufunc.py:9-34`.  `(M - 1) * (M - 2)` is integer
arithmetic; natural number subtraction agrees with it from one member on. -/
def gufunc (obs : XF) (fct : List XF) : XF :=
  let M := fct.length
  let m := forRange 0 M (0 : XF) fun i m => m + idx fct i
  let m := m / (M : XF)
  let s := forRange 0 M (0 : XF) fun i s => s + (idx fct i - m) ^ 2
  let s := s / ((M - 1 : ℕ) : XF)
  let s := XF.sqrt s
  let g := forRange 0 M (0 : XF) fun i g => g + ((idx fct i - m) / s) ^ 3
  let g := g / (((M - 1) * (M - 2) : ℕ) : XF)
  let e := forRange 0 M (0 : XF) fun i e => e + (idx fct i - obs)
  let e := e / (M : XF)
  (s ^ 2 - e ^ 2 - e * s * g) ^ 2

/-- `error_spread_score`, `core/error_spread/_score.py:9-19`. -/
def score (obs : XF) (fct : List XF) : XF :=
  let M := fct.length
  let m := mean fct
  let s := XF.sqrt ((fct.map fun x => (x - m) ^ 2).sum / ((M - 1 : ℕ) : XF))
  let g := (fct.map fun x => ((x - m) / s) ^ 3).sum / (((M - 1) * (M - 2) : ℕ) : XF)
  let e := m - obs
  (s ^ 2 - e ^ 2 - e * s * g) ^ 2

end Ess

namespace Api

/-- `dssuv_ensemble`, `_dss.py:10-51`. -/
def dssuvEnsemble (path : Path) (obs fct : Arr XF) (mAxis : ℤ) (bias : Bool) :
    Except Err (Arr XF) := do
  let fct ← univariateArrayCheck obs fct mAxis
  match path with
  | .numba => .ok (perSlice (Dss.gufunc bias) obs fct)
  | .array => .ok (perSlice (Dss.score bias) obs fct)

/-- `error_spread_score`, `_error_spread.py:10-40`.  The array path ends with `B.squeeze`
(`backend/numpy.py:126-129`, `core/error_spread/_score.py:19`). -/
def errorSpreadScore (path : Path) (obs fct : Arr XF) (mAxis : ℤ) : Except Err (Arr XF) := do
  let fct ← univariateArrayCheck obs fct mAxis
  match path with
  | .numba => .ok (perSlice Ess.gufunc obs fct)
  | .array => .ok (perSlice Ess.score obs fct).squeeze

/-- The call `dssuv_ensemble(y, xs, bias=bias)` on one-dimensional data. (`_dss.py:10-51`) -/
def dss1 (path : Path) (bias : Bool) (y : XF) (xs : List XF) : Except Err XF :=
  item (dssuvEnsemble path (Arr.scalar y) (Arr.ofList xs) (-1) bias)

/-- The call `error_spread_score(y, xs)` on one-dimensional data. (`_error_spread.py:10-40`) -/
def ess1 (path : Path) (y : XF) (xs : List XF) : Except Err XF :=
  item (errorSpreadScore path (Arr.scalar y) (Arr.ofList xs) (-1))

end Api
end Verif
