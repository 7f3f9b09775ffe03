import Verif.Arr
import Verif.Model.Crps

/-!
# Univariate ensemble API

Models of the univariate helpers in `/repo/scoringrules/core/utils.py` and of the public functions
`crps_ensemble`, `twcrps_ensemble`, `owcrps_ensemble`, `vrcrps_ensemble` of
`/repo/scoringrules/_crps.py`.

Simplifications: every array has a real floating dtype (dtype effects are modelled separately in
`Verif.Model.Dtype`); the vectorised kernels, which act independently on the slices along the last
axis, are applied slice by slice.
-/

noncomputable section

open scoped Classical

namespace Verif

open XF Py

/-- Which implementation the dispatch `backend == "numba"` (`_crps.py:146`) selects; the registry
lookup of the `backend` argument itself is modelled in `Verif.Model.Registry`. -/
inductive Path where
  | numba
  | array
deriving DecidableEq, Repr

namespace Api

/-- `_shape_compatibility_check`, `core/utils.py:17-24`. -/
def shapeCheck (obs fct : Arr XF) (m : ℤ) : Except Err Unit :=
  match Arr.pyGet fct.shape m with
  | none => .error .indexError
  | some n =>
    if Arr.pyTo obs.shape m ++ [n] ++ Arr.pyFrom obs.shape m ≠ fct.shape then .error .valueError
    else .ok ()

/-- `univariate_array_check`, `core/utils.py:63-71`; returns the forecasts with the ensemble axis
last (`B.asarray` is the identity on arrays). -/
def univariateArrayCheck (obs fct : Arr XF) (mAxis : ℤ) : Except Err (Arr XF) := do
  let m := if 0 ≤ mAxis then mAxis else fct.ndim + mAxis
  shapeCheck obs fct m
  if m ≠ -1 then fct.moveaxisLast m else .ok fct

/-- `univariate_weight_check` with a non-`None` weight array, `core/utils.py:92-107`. -/
def univariateWeightCheck (ensW fct : Arr XF) (mAxis : ℤ) : Except Err (Arr XF) := do
  let m := if 0 ≤ mAxis then mAxis else fct.ndim + mAxis
  let w ← ensW.moveaxisLast m
  if w.shape ≠ fct.shape then .error .valueError
  else if w.Any (fun v => v < 0) then .error .valueError
  else .ok (w.mapRows fun r => r.map fun v => v / r.sum)

/-- `nan_mask` of `apply_nan_policy_ens_uv`, `core/utils.py:250-252`. -/
def nanMask (fct : Arr XF) (ensW : Option (Arr XF)) : Except Err (Arr Prop) :=
  match ensW with
  | none => .ok (fct.map fun x => x.isnan)
  | some w => Arr.map2 (fun x v => x.isnan ∨ v.isnan) fct w

/-- `np.where(mask, 0.0, w)`, used at `core/utils.py:273`. -/
def whereZero (mask : Arr Prop) (w : Arr XF) : Except Err (Arr XF) :=
  match Arr.bshape mask.shape w.shape with
  | none => .error .valueError
  | some s => .ok ⟨s, fun i => if mask.bget i then 0 else w.bget i⟩

/-- `apply_nan_policy_ens_uv`, `core/utils.py:213-278`.  The observations are returned unchanged and
therefore not part of the result. -/
def applyNanPolicy (obs fct : Arr XF) (nanPolicy : String) (ensW : Option (Arr XF))
    (estimator : Option String) (mAxis : ℤ) : Except Err (Arr XF × Option (Arr XF)) := do
  let ensW ← match ensW with
    | none => (.ok none : Except Err (Option (Arr XF)))
    | some w => (w.moveaxisLast mAxis).map some
  if nanPolicy = "propagate" then .ok (fct, ensW)
  else
    let mask ← nanMask fct ensW
    if nanPolicy = "raise" then
      if mask.Any (fun p => p) ∨ obs.Any (fun x => x.isnan) then .error .valueError
      else .ok (fct, ensW)
    else if nanPolicy = "omit" then
      if estimator = some "int" ∨ estimator = some "akr" ∨ estimator = some "akr_circperm" then
        .error .notImplemented
      else
        let fct' := fct.map fun x => if x.isnan then 0 else x
        match ensW with
        | none => .ok (fct', some (mask.map fun p => if p then 0 else 1))
        | some w => (whereZero mask w).map fun w' => (fct', some w')
    else .error .valueError

/-- `np.argsort` along a slice: a permutation of the positions putting the values in ascending
order, NaN last.  numpy's default sort is not stable; the model uses a stable one, and
`C18_any_sorting_permutation` shows that the choice has no effect on the score. (`backend/numpy.py:196-205`) -/
def argsort (r : List XF) : List ℕ :=
  (List.range r.length).mergeSort fun i j => decide (sortLe (idx r i) (idx r j))

/-- `np.take_along_axis` on one slice. (`backend/numpy.py:286-287`) -/
def gather (r : List XF) (ind : List ℕ) : List XF := ind.map (idx r)

/-- `estimator in ["qd", "pwm", "int"]`, `core/utils.py:195`. -/
def sortingEstimator (est : String) : Bool := est = "qd" ∨ est = "pwm" ∨ est = "int"

/-- `univariate_sort_ens`, `core/utils.py:190-203`. -/
def univariateSortEns (fct : Arr XF) (ensW : Option (Arr XF)) (mAxis : ℤ) (est : String)
    (sorted : Bool) : Except Err (Arr XF × Option (Arr XF)) := do
  let sortIt := !sorted && sortingEstimator est
  let fct' := if sortIt then fct.mapRows (fun r => gather r (argsort r)) else fct
  match ensW with
  | none => .ok (fct', none)
  | some w =>
    let w ← univariateWeightCheck w fct' mAxis
    .ok (fct', some (if sortIt then
      Arr.mapRows2 (fun rw rf => gather rw (argsort rf)) w fct else w))

/-- A slice-wise kernel applied to whole arrays.
(`guvectorize("(),(n)->()")`, e.g. `core/crps/_gufuncs.py:23`, and the lists of slices in `core/crps/_approx.py:15-34`) -/
def perSlice (k : XF → List XF → XF) (obs fct : Arr XF) : Arr XF :=
  ⟨obs.shape, fun i => k (obs.get i) (fct.row i)⟩

/-- A slice-wise weighted kernel applied to whole arrays.
(`guvectorize("(),(n),(n)->()")`, e.g. `core/crps/_gufuncs_w.py:10`) -/
def perSliceW (k : XF → List XF → List XF → XF) (obs fct w : Arr XF) : Arr XF :=
  ⟨obs.shape, fun i => k (obs.get i) (fct.row i) (w.row i)⟩

/-- `estimator_gufuncs`, `crps/_gufuncs.py:253-269`.  The table also holds the four-argument
`ownrg`/`vrnrg` gufuncs, which fail with a `TypeError` when called with two arguments. -/
def estimatorGufuncs (est : String) : Except Err (XF → List XF → XF) :=
  if est = "akr_circperm" then .ok Gufunc.akrCircperm
  else if est = "akr" then .ok Gufunc.akr
  else if est = "fair" then .ok Gufunc.fair
  else if est = "int" then .ok Gufunc.int
  else if est = "nrg" then .ok Gufunc.nrg
  else if est = "pwm" then .ok Gufunc.pwm
  else if est = "qd" then .ok Gufunc.qd
  else if est = "ownrg" ∨ est = "vrnrg" then .error .typeError
  else .error .valueError

/-- `estimator_gufuncs_w`, `crps/_gufuncs_w.py:241-257`. -/
def estimatorGufuncsW (est : String) : Except Err (XF → List XF → List XF → XF) :=
  if est = "akr_circperm" then .ok GufuncW.akrCircperm
  else if est = "akr" then .ok GufuncW.akr
  else if est = "fair" then .ok GufuncW.fair
  else if est = "int" then .ok GufuncW.int
  else if est = "nrg" then .ok GufuncW.nrg
  else if est = "pwm" then .ok GufuncW.pwm
  else if est = "qd" then .ok GufuncW.qd
  else if est = "ownrg" ∨ est = "vrnrg" then .error .typeError
  else .error .valueError

/-- `ensemble`, `crps/_approx.py:9-34`. -/
def ensembleKernel (est : String) : Except Err (XF → List XF → XF) :=
  if est = "nrg" then .ok Approx.nrg
  else if est = "pwm" then .ok Approx.pwm
  else if est = "fair" then .ok Approx.fair
  else if est = "qd" then .ok Approx.qd
  else if est = "akr" then .ok Approx.akr
  else if est = "akr_circperm" then .ok Approx.akrCircperm
  else if est = "int" then .ok Approx.int
  else .error .valueError

/-- `ensemble_w`, `crps/_approx_w.py:9-36`. -/
def ensembleKernelW (est : String) : Except Err (XF → List XF → List XF → XF) :=
  if est = "nrg" then .ok ApproxW.nrg
  else if est = "pwm" then .ok ApproxW.pwm
  else if est = "fair" then .ok ApproxW.fair
  else if est = "qd" then .ok ApproxW.qd
  else if est = "akr" then .ok ApproxW.akr
  else if est = "akr_circperm" then .ok ApproxW.akrCircperm
  else if est = "int" then .ok ApproxW.int
  else .error .valueError

/-- Unweighted kernel chosen by the dispatch of `crps_ensemble`, `_crps.py:145-153`. -/
def kernel (path : Path) (est : String) : Except Err (XF → List XF → XF) :=
  match path with
  | .numba => estimatorGufuncs est
  | .array => ensembleKernel est

/-- Weighted kernel chosen by the dispatch of `crps_ensemble`, `_crps.py:145-155`. -/
def kernelW (path : Path) (est : String) : Except Err (XF → List XF → List XF → XF) :=
  match path with
  | .numba => estimatorGufuncsW est
  | .array => ensembleKernelW est

/-- `crps_ensemble`, `_crps.py:18-155`. -/
def crpsEnsemble (path : Path) (obs fct : Arr XF) (mAxis : ℤ) (ensW : Option (Arr XF))
    (est : String) (sorted : Bool) (nanPolicy : String) : Except Err (Arr XF) := do
  let fct ← univariateArrayCheck obs fct mAxis
  let (fct, ensW) ← applyNanPolicy obs fct nanPolicy ensW (some est) mAxis
  let (fct, ensW) ← univariateSortEns fct ensW (-1) est sorted
  match ensW with
  | none => (kernel path est).map fun k => perSlice k obs fct
  | some w =>
    let w ← univariateWeightCheck w fct (-1)
    (kernelW path est).map fun k => perSliceW k obs fct w

/-- The call `crps_ensemble(y, xs, ens_w=ws, ...)` on one-dimensional data. (`_crps.py:101-155`) -/
def crps1 (path : Path) (est : String) (sorted : Bool) (nanPolicy : String) (y : XF) (xs : List XF)
    (ws : Option (List XF)) : Except Err XF :=
  (crpsEnsemble path (Arr.scalar y) (Arr.ofList xs) (-1) (ws.map Arr.ofList) est sorted
    nanPolicy).map fun a => a.get []

end Api
end Verif
