import Verif.Model.Api

/-!
# Multivariate ensembles: vectors, axes and weight checks

One observation is a vector (`List XF`), one ensemble a list of such vectors.
-/

noncomputable section

open scoped Classical

namespace Verif

open XF Py

namespace Mv

/-- difference of two vectors of equal length (numpy broadcasting is not needed: the shape check of
`core/utils.py:17-24` makes the lengths equal) -/
def vsub (a b : List XF) : List XF := zip2 (· - ·) a b

/-- `np.linalg.norm` of a vector (numba) and `B.norm(x, -1)` (`backend/numpy.py:219-222`): root of the
sum of squares. -/
def vnorm (a : List XF) : XF := XF.sqrt ((a.map fun x => x * x).sum)

/-- `fct[i]`, the `i`-th member (e.g. `energy/_gufuncs.py:24-27`). -/
def vat (fct : List (List XF)) (i : ℕ) : List XF := fct.getD i []

/-- `np.roll(fct, shift, axis=-2)`: member `j` of the result is member `(j - shift) % M`.
(`backend/numpy.py:289-290`) -/
def vroll (fct : List (List XF)) (shift : ℕ) : List (List XF) :=
  (List.range fct.length).map fun j =>
    vat fct ((j + (fct.length - shift % fct.length)) % fct.length)

end Mv

namespace Arr

/-- two-dimensional array given by its rows, each of length `D`
(result of `B.asarray`, `backend/numpy.py:34-35`). -/
def ofRows (D : ℕ) (rows : List (List XF)) : Arr XF :=
  ⟨[rows.length, D], fun i => (rows.getD (i.headD 0) []).getD (i.getD 1 0) XF.nan⟩

/-- the matrix (list of rows) found at leading index `idx` in the last two axes
(`guvectorize("(d),(m,d)->()")`, e.g. `energy/_gufuncs.py:57`). -/
def mat (a : Arr XF) (idx : List ℕ) : List (List XF) :=
  (List.range (a.shape.getD (a.ndim - 2) 0)).map fun i =>
    (List.range (a.shape.getD (a.ndim - 1) 0)).map fun j => a.get (idx ++ [i, j])

/-- index list with entry `x` at position `m` and entry `y` at position `v`, the remaining entries
being those of `rest` in order (part of `np.moveaxis`, `core/utils.py:74-79`). -/
def insert2 (m v : ℕ) (rest : List ℕ) (x y : ℕ) : List ℕ :=
  if m < v then (rest.insertIdx m x).insertIdx v y else (rest.insertIdx v y).insertIdx m x

/-- list without the entries at positions `m` and `v` (part of `np.moveaxis`, `core/utils.py:74-79`). -/
def erase2 (m v : ℕ) (l : List ℕ) : List ℕ :=
  if m < v then (l.eraseIdx v).eraseIdx m else (l.eraseIdx m).eraseIdx v

/-- `np.moveaxis(a, (m, v), (-2, -1))` for distinct non-negative in-range axes. (`backend/numpy.py:81-88`) -/
def moveLast2 (a : Arr XF) (m v : ℕ) : Arr XF where
  shape := erase2 m v a.shape ++ [a.shape.getD m 0, a.shape.getD v 0]
  get := fun i => a.get (insert2 m v (i.take (i.length - 2)) (i.getD (i.length - 2) 0)
    (i.getD (i.length - 1) 0))

/-- `np.moveaxis(a, (m, v), (-2, -1))`: out-of-range axes raise `AxisError`, repeated ones
`ValueError`. (`backend/numpy.py:81-88`) -/
def moveaxisLast2 (a : Arr XF) (m v : ℤ) : Except Err (Arr XF) :=
  let m' := if 0 ≤ m then m else a.ndim + m
  let v' := if 0 ≤ v then v else a.ndim + v
  if ¬ (0 ≤ m' ∧ m' < a.ndim ∧ 0 ≤ v' ∧ v' < a.ndim) then .error .axisError
  else if m' = v' then .error .valueError
  else .ok (a.moveLast2 m'.toNat v'.toNat)

end Arr

namespace Api

/-- `multivariate_array_check`, `core/utils.py:82-89`, with `_multivariate_shape_permute`,
`core/utils.py:74-79`. -/
def multivariateArrayCheck (obs fct : Arr XF) (mAxis vAxis : ℤ) :
    Except Err (Arr XF × Arr XF) := do
  let m := if 0 ≤ mAxis then mAxis else fct.ndim + mAxis
  let v := if 0 ≤ vAxis then vAxis else fct.ndim + vAxis
  shapeCheck obs fct m
  let vObs := if m < v then v - 1 else v
  let fct' ← fct.moveaxisLast2 m v
  let obs' ← obs.moveaxisLast vObs
  .ok (obs', fct')

/-- `multivariate_weight_check` with a non-`None` weight array, `core/utils.py:110-126`; `fct` is the
already permuted forecast array. -/
def multivariateWeightCheck (ensW fct : Arr XF) (mAxis : ℤ) : Except Err (Arr XF) := do
  let m := if 0 ≤ mAxis then mAxis else fct.ndim + mAxis
  let w ← ensW.moveaxisLast m
  if w.shape ≠ fct.shape.dropLast then .error .valueError
  else if w.Any (fun v => v < 0) then .error .valueError
  else .ok (w.mapRows fun r => r.map fun v => v / r.sum)

/-- A kernel on one (vector, ensemble) pair applied to whole arrays.
(`guvectorize("(d),(m,d)->()")`, e.g. `energy/_gufuncs.py:57`) -/
def perMat (k : List XF → List (List XF) → XF) (obs fct : Arr XF) : Arr XF :=
  ⟨obs.shape.dropLast, fun i => k (obs.row i) (fct.mat i)⟩

/-- A weighted kernel on one (vector, ensemble, weights) triple applied to whole arrays.
(`guvectorize("(d),(m,d),(m)->()")`, e.g. `energy/_gufuncs_w.py:7`) -/
def perMatW (k : List XF → List (List XF) → List XF → XF) (obs fct w : Arr XF) : Arr XF :=
  ⟨obs.shape.dropLast, fun i => k (obs.row i) (fct.mat i) (w.row i)⟩

/-- `B.apply_along_axis(w_func, x, -1)`, `core/utils.py:174-175`. -/
def alongLast (f : List XF → XF) (a : Arr XF) : Arr XF := ⟨a.shape.dropLast, fun i => f (a.row i)⟩

/-- `mv_weighted_score_weights`, `core/utils.py:170-181` (numpy and numba). -/
def mvWeights (obs fct : Arr XF) (wFunc : List XF → XF) : Except Err (Arr XF × Arr XF) :=
  let obsW := alongLast wFunc obs
  let fctW := alongLast wFunc fct
  if obsW.Any (fun v => v < 0) ∨ fctW.Any (fun v => v < 0) then .error .valueError
  else .ok (obsW, fctW)

/-- the entry of a 0-dimensional result (`out.item()`, `core/utils.py:322-323`). -/
def item (r : Except Err (Arr XF)) : Except Err XF := r.map fun a => a.get []

end Api
end Verif
