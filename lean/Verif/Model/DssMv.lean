import Verif.Model.Dss
import Mathlib.LinearAlgebra.Matrix.NonsingularInverse
import Mathlib.Data.Real.Basic

/-!
# Model of the multivariate Dawid-Sebastiani score

Linear algebra is exact: `np.linalg.inv` raises `LinAlgError` (a `ValueError`) exactly for singular
matrices, and both `inv` and `det` give NaN for matrices with an entry that is not a number.
-/

noncomputable section

open scoped Classical

namespace Verif

open XF Py Mv

namespace DssMv

/-- the values of variable `j` (column `j` of `fct`, `core/dss/_score.py:57`). -/
def col (fct : List (List XF)) (j : ℕ) : List XF := fct.map fun r => idx r j

/-- `B.cov(fct, rowvar=False, bias=bias)`, `backend/numpy.py:295-296`, and `np.cov` in
`core/dss/_gufuncs.py:27`: products of the deviations, summed over the members and multiplied by
`1 / (M - ddof)` with `ddof = 0` if `bias` else `1`.  This is the matrix before the final `squeeze` of
`np.cov`.  For a single member numba raises instead of returning the NaN matrix of numpy; this is not
modelled. -/
def cov (bias : Bool) (D : ℕ) (fct : List (List XF)) : Matrix (Fin D) (Fin D) XF := fun i j =>
  let a := col fct i
  let b := col fct j
  let fact : XF := ((fct.length - (if bias then 0 else 1) : ℕ) : XF)
  (zip2 (fun x y => (x - mean a) * (y - mean b)) a b).sum * (1 / fact)

/-- `B.det`, `backend/numpy.py:298-299`, and `np.linalg.det` in `core/dss/_gufuncs.py:29`; exact
arithmetic. -/
def det {D : ℕ} (c : Matrix (Fin D) (Fin D) XF) : XF :=
  if h : ∃ A : Matrix (Fin D) (Fin D) ℝ, c = A.map fin then fin h.choose.det else nan

/-- `B.inv`, `backend/numpy.py:292-293`, and `np.linalg.inv` in `core/dss/_gufuncs.py:28`; exact
arithmetic. -/
def inv {D : ℕ} (c : Matrix (Fin D) (Fin D) XF) : Except Err (Matrix (Fin D) (Fin D) XF) :=
  if h : ∃ A : Matrix (Fin D) (Fin D) ℝ, c = A.map fin then
    if h.choose.det = 0 then .error .valueError else .ok (h.choose⁻¹.map fin)
  else .ok fun _ _ => nan

/-- `o @ P @ o` (`core/dss/_gufuncs.py:30`, `core/dss/_score.py:61-63`). -/
def quad {D : ℕ} (o : List XF) (P : Matrix (Fin D) (Fin D) XF) : XF :=
  ((List.finRange D).map fun j : Fin D =>
    ((List.finRange D).map fun i : Fin D => idx o i * P i j).sum * idx o j).sum

/-- `_dss_mv_gufunc`, `core/dss/_gufuncs.py:23-31`. -/
def gufunc (bias : Bool) (obs : List XF) (fct : List (List XF)) : Except Err XF := do
  let D := obs.length
  let M := fct.length
  let ensMean := (List.range D).map fun j => (col fct j).sum / (M : XF)
  let obsCent := vsub obs ensMean
  let c := cov bias D fct
  let prec ← inv c
  let logDet := XF.log (det c)
  let biasPrecision := quad obsCent prec
  .ok (biasPrecision + logDet)

/-- `ds_score_mv_mat`, `core/dss/_score.py:49-64`.  With one variable `np.cov` squeezes its result to a
0-dimensional array, for which `np.linalg.inv` raises `LinAlgError`. -/
def scoreMat (bias : Bool) (obs : List XF) (fct : List (List XF)) : Except Err XF := do
  let D := obs.length
  if D = 1 then .error .valueError
  else
    let c := cov bias D fct
    let precision ← inv c
    let logDet := XF.log (det c)
    let obsCent := vsub obs ((List.range D).map fun j => mean (col fct j))
    let biasPrecision := quad obsCent precision
    .ok (biasPrecision + logDet)

end DssMv

namespace Api

/-- A kernel that may raise applied to every (vector, ensemble) pair of two arrays: the call raises if
one of the kernels raises. (`guvectorize("(d),(m,d),()->()")`, `core/dss/_gufuncs.py:22`) -/
def perMatE (k : List XF → List (List XF) → Except Err XF) (obs fct : Arr XF) : Except Err (Arr XF) :=
  if ∃ i, Arr.Valid obs.shape.dropLast i ∧ ∃ e, k (obs.row i) (fct.mat i) = .error e then .error .valueError
  else .ok ⟨obs.shape.dropLast, fun i => ((k (obs.row i) (fct.mat i)).toOption).getD nan⟩

/-- `ds_score_mv`, `core/dss/_score.py:24-46`.  The batch axes of both arrays agree after
`multivariate_array_check`, so that flattening, pairing and reshaping visits every index once;
`B.stack([])` raises for an empty batch. -/
def dsScoreMv (bias : Bool) (obs fct : Arr XF) : Except Err (Arr XF) :=
  if ∃ i, Arr.Valid obs.shape.dropLast i then perMatE (DssMv.scoreMat bias) obs fct else .error .valueError

/-- `dssmv_ensemble`, `_dss.py:54-99`. -/
def dssmvEnsemble (path : Path) (obs fct : Arr XF) (mAxis vAxis : ℤ) (bias : Bool) :
    Except Err (Arr XF) := do
  let (obs, fct) ← multivariateArrayCheck obs fct mAxis vAxis
  match path with
  | .numba => perMatE (DssMv.gufunc bias) obs fct
  | .array => dsScoreMv bias obs fct

/-- The call `dssmv_ensemble(y, xs, bias=bias)` for one observation of `D` variables. (`_dss.py:54-99`) -/
def dssmv1 (path : Path) (bias : Bool) (D : ℕ) (y : List XF) (xs : List (List XF)) : Except Err XF :=
  item (dssmvEnsemble path (Arr.ofList y) (Arr.ofRows D xs) (-2) (-1) bias)

end Api
end Verif
