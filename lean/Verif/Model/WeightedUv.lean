import Verif.Model.Api

/-!
# Weighted versions of the ensemble CRPS

Models of `twcrps_ensemble`, `owcrps_ensemble`, `vrcrps_ensemble` and `crps_quantile` of
`/repo/scoringrules/_crps.py`, with the helpers of `/repo/scoringrules/core/utils.py`.

Simplification: the user functions `w_func` and `v_func`, which receive whole arrays, act elementwise
(the default ones do); `B.asarray` is the identity.
-/

noncomputable section

open scoped Classical

namespace Verif

open XF Py

namespace Api

/-- default weight function of `uv_weighted_score_weights`, `core/utils.py:143-146`:
`((a <= x) & (x <= b)) * 1.0`. -/
def defaultW (a b x : XF) : XF := ind (a ≤ x ∧ x ≤ b) * 1

/-- `uv_weighted_score_weights`, `core/utils.py:137-152`. -/
def uvWeights (obs fct : Arr XF) (wFunc : XF → XF) : Except Err (Arr XF × Arr XF) :=
  let obsW := obs.map wFunc
  let fctW := fct.map wFunc
  if obsW.Any (fun v => v < 0) ∨ fctW.Any (fun v => v < 0) then .error .valueError
  else .ok (obsW, fctW)

/-- default chaining function of `uv_weighted_score_chain`, `core/utils.py:160-164`. -/
def defaultV (a b x : XF) : XF := XF.min (XF.max x a) b

/-- `twcrps_ensemble`, `_crps.py:158-266`: `uv_weighted_score_chain` (`core/utils.py:155-167`)
followed by `crps_ensemble`. -/
def twcrpsEnsemble (path : Path) (obs fct : Arr XF) (vFunc : XF → XF) (mAxis : ℤ)
    (ensW : Option (Arr XF)) (est : String) (sorted : Bool) (nanPolicy : String) :
    Except Err (Arr XF) :=
  crpsEnsemble path (obs.map vFunc) (fct.map vFunc) mAxis ensW est sorted nanPolicy

/-- A slice-wise kernel with outcome weights applied to whole arrays.
(`guvectorize("(),(n),(),(n)->()")`, `core/crps/_gufuncs.py:195`) -/
def perSliceO (k : XF → List XF → XF → List XF → XF) (obs fct obsW fctW : Arr XF) : Arr XF :=
  ⟨obs.shape, fun i => k (obs.get i) (fct.row i) (obsW.get i) (fctW.row i)⟩

/-- A slice-wise weighted kernel with outcome weights applied to whole arrays.
(`guvectorize("(),(n),(),(n),(n)->()")`, `core/crps/_gufuncs_w.py:181`) -/
def perSliceOW (k : XF → List XF → XF → List XF → List XF → XF)
    (obs fct obsW fctW w : Arr XF) : Arr XF :=
  ⟨obs.shape, fun i => k (obs.get i) (fct.row i) (obsW.get i) (fctW.row i) (w.row i)⟩

/-- The part shared by `owcrps_ensemble` (`_crps.py:358-375`) and `vrcrps_ensemble`
(`_crps.py:478-495`): input checks, outcome weights, missing-value policy (called without
`m_axis` and without an estimator), weight check.  Returns `fct, obs_w, fct_w, ens_w`. -/
def owPrep (obs fct : Arr XF) (wFunc : XF → XF) (mAxis : ℤ) (ensW : Option (Arr XF))
    (nanPolicy : String) : Except Err (Arr XF × Arr XF × Arr XF × Option (Arr XF)) := do
  let fct ← univariateArrayCheck obs fct mAxis
  let (obsW, fctW) ← uvWeights obs fct wFunc
  let (fct, ensW) ← applyNanPolicy obs fct nanPolicy ensW none (-1)
  let (fctW, ensW) ← applyNanPolicy obsW fctW nanPolicy ensW none (-1)
  match ensW with
  | none => .ok (fct, obsW, fctW, none)
  | some w =>
    let w ← univariateWeightCheck w fct mAxis
    .ok (fct, obsW, fctW, some w)

/-- `owcrps_ensemble`, `_crps.py:269-388`. -/
def owcrpsEnsemble (path : Path) (obs fct : Arr XF) (wFunc : XF → XF) (mAxis : ℤ)
    (ensW : Option (Arr XF)) (nanPolicy : String) : Except Err (Arr XF) := do
  let (fct, obsW, fctW, ensW) ← owPrep obs fct wFunc mAxis ensW nanPolicy
  match path, ensW with
  | .numba, none => .ok (perSliceO Gufunc.ow obs fct obsW fctW)
  | .numba, some w => .ok (perSliceOW GufuncW.ow obs fct obsW fctW w)
  | .array, none => .ok (perSliceO Approx.ow obs fct obsW fctW)
  | .array, some w => .ok (perSliceOW ApproxW.ow obs fct obsW fctW w)

/-- `np.mean(a, axis=1)`; an array with fewer than two axes raises `AxisError`.
(`B.mean(fw, axis=1)`, `core/crps/_approx.py:173`) -/
def meanAxis1 (a : Arr XF) : Except Err (Arr XF) :=
  if a.ndim < 2 then .error .axisError
  else .ok ⟨a.shape.eraseIdx 1, fun i =>
    mean ((List.range (a.shape.getD 1 0)).map fun j => a.get (i.insertIdx 1 j))⟩

/-- `vr_ensemble`, `crps/_approx.py:156-174`.  `e_1`, `e_2` and the first factor of `e_3` are
slice-wise (`Approx.vrWith`); line 173, `e_3 *= B.mean(fw, axis=1) - ow`, is an in-place product, so
the right-hand side must broadcast to exactly the shape of `e_3`, that of `obs`. -/
def vrEnsembleArr (obs fct obsW fctW : Arr XF) : Except Err (Arr XF) := do
  let m ← meanAxis1 fctW
  match Arr.bshape m.shape obsW.shape with
  | none => .error .valueError
  | some s =>
    if s ≠ obs.shape then .error .valueError
    else .ok ⟨obs.shape, fun i =>
      Approx.vrWith (m.bget i) (obs.get i) (fct.row i) (obsW.get i) (fctW.row i)⟩

/-- `vrcrps_ensemble`, `_crps.py:391-508`. -/
def vrcrpsEnsemble (path : Path) (obs fct : Arr XF) (wFunc : XF → XF) (mAxis : ℤ)
    (ensW : Option (Arr XF)) (nanPolicy : String) : Except Err (Arr XF) := do
  let (fct, obsW, fctW, ensW) ← owPrep obs fct wFunc mAxis ensW nanPolicy
  match path, ensW with
  | .numba, none => .ok (perSliceO Gufunc.vr obs fct obsW fctW)
  | .numba, some w => .ok (perSliceOW GufuncW.vr obs fct obsW fctW w)
  | .array, none => vrEnsembleArr obs fct obsW fctW
  | .array, some w => .ok (perSliceOW ApproxW.vr obs fct obsW fctW w)

/-- `crps_quantile`, `_crps.py:511-577`; `alpha` is one-dimensional.  The gufunc is chosen by
`B.name == "numba"`. -/
def crpsQuantile (path : Path) (obs fct : Arr XF) (alpha : List XF) (mAxis : ℤ) :
    Except Err (Arr XF) := do
  let fct ← univariateArrayCheck obs fct mAxis
  if (∃ v ∈ alpha, v ≤ 0) ∨ (∃ v ∈ alpha, 1 ≤ v) then .error .valueError
  else if fct.shape.getLastD 0 ≠ alpha.length then .error .valueError
  else
    let k := match path with
      | .numba => Gufunc.quantilePinball
      | .array => Approx.quantilePinball
    .ok ⟨obs.shape, fun i => k (obs.get i) (fct.row i) alpha⟩

end Api
end Verif
