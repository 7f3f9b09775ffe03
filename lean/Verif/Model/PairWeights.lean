import Verif.Model.ApiNp

/-!
# The variogram scores with an array of pair weights

`w` is an array whose last two axes hold the weight of every pair of variables; axes in front of them, if
there are any, run over the observations.  `Verif.Model.Variogram` has one matrix for all observations.
-/

noncomputable section

open scoped Classical

namespace Verif

open XF Py

namespace Api

/-- Row and column of the pair weights at loop index `i` of a gufunc: missing loop axes are broadcast.
(`guvectorize("(d),(m,d),(d,d),()->()")`, `variogram/_gufuncs.py:7`) -/
def loopMat (w : Arr XF) (i : List ℕ) : List (List XF) :=
  (List.range (w.shape.getD (w.ndim - 2) 0)).map fun a =>
    (List.range (w.shape.getD (w.ndim - 1) 0)).map fun b => w.bget (i ++ [a, b])

/-- numpy's test of the pair weights of a gufunc call through `lazy_gufunc_wrapper_mv`
(`core/utils.py:329-346`): the core dimensions `d` must agree, and the loop axes must broadcast to those of
the output, `obs.shape[:-1]`.  Simplification: the observations and the forecasts have the same loop axes,
as `multivariate_array_check` makes sure for two different axes. -/
def pairLoopOk (obs w : Arr XF) : Prop :=
  2 ≤ w.ndim ∧ w.shape.getD (w.ndim - 2) 0 = obs.shape.getLastD 0 ∧
    w.shape.getD (w.ndim - 1) 0 = obs.shape.getLastD 0 ∧
    Arr.bshape obs.shape.dropLast (w.shape.take (w.ndim - 2)) = some obs.shape.dropLast

/-- A gufunc call with pair weights; `k` receives the matrix of the weights and the loop index.
(`core/utils.py:329-346`) -/
def guPair (k : List (List XF) → List ℕ → XF) (obs w : Arr XF) : Except Err (Arr XF) :=
  if pairLoopOk obs w then .ok ⟨obs.shape.dropLast, fun i => k (loopMat w i) i⟩ else .error .valueError

/-- `variogram.estimator_gufuncs`, `_gufuncs.py:115-120`, looked up with the name of an estimator; `ownrg`
and `vrnrg` are called with too few arguments. -/
def vsGufuncs (est : String) :
    Except Err (List (List XF) → ℝ → List XF → List (List XF) → XF) :=
  if est = "fair" then .ok VsGufunc.fair
  else if est = "nrg" then .ok VsGufunc.nrg
  else if est = "ownrg" ∨ est = "vrnrg" then .error .typeError
  else .error .valueError

/-- `variogram.estimator_gufuncs_w`, `_gufuncs_w.py:113-118`. -/
def vsGufuncsW (est : String) :
    Except Err (List (List XF) → ℝ → List XF → List (List XF) → List XF → XF) :=
  if est = "fair" then .ok VsGufuncW.fair
  else if est = "nrg" then .ok VsGufuncW.nrg
  else if est = "ownrg" ∨ est = "vrnrg" then .error .typeError
  else .error .valueError

/-- `vs_ensemble`, `_variogram.py:17-108`, with an array of pair weights. -/
def vsEnsembleP (path : Path) (obs fct : Arr XF) (w : Option (Arr XF)) (mAxis vAxis : ℤ)
    (ensW : Option (Arr XF)) (p : ℝ) (est : String) : Except Err (Arr XF) :=
  match path with
  | .array => ApiNp.vsEnsemble obs fct w mAxis vAxis ensW p est
  | .numba => do
    let (obs, fct) ← multivariateArrayCheck obs fct mAxis vAxis
    let w := ApiNp.pairWeights obs fct w
    match ensW with
    | none => do
      let k ← vsGufuncs est
      guPair (fun W i => k W p (obs.row i) (fct.mat i)) obs w
    | some ew => do
      let ew ← multivariateWeightCheck ew fct mAxis
      let k ← vsGufuncsW est
      guPair (fun W i => k W p (obs.row i) (fct.mat i) (ew.row i)) obs w

/-- `owvs_ensemble`, `_variogram.py:197-286`, with an array of pair weights. -/
def owvsEnsembleP (path : Path) (obs fct : Arr XF) (wFunc : List XF → XF) (w : Option (Arr XF))
    (mAxis vAxis : ℤ) (ensW : Option (Arr XF)) (p : ℝ) : Except Err (Arr XF) :=
  match path with
  | .array => ApiNp.owvsEnsemble obs fct wFunc w mAxis vAxis ensW p
  | .numba => do
    let (obs, fct) ← multivariateArrayCheck obs fct mAxis vAxis
    let (obsW, fctW) ← mvWeights obs fct wFunc
    let w := ApiNp.pairWeights obs fct w
    match ensW with
    | none =>
      guPair (fun W i => VsGufunc.ow W p (obs.row i) (fct.mat i) (obsW.get i) (fctW.row i)) obs w
    | some ew => do
      let ew ← multivariateWeightCheck ew fct mAxis
      guPair (fun W i => VsGufuncW.ow W p (obs.row i) (fct.mat i) (obsW.get i) (fctW.row i) (ew.row i))
        obs w

/-- `vrvs_ensemble`, `_variogram.py:289-380`, with an array of pair weights. -/
def vrvsEnsembleP (path : Path) (obs fct : Arr XF) (wFunc : List XF → XF) (w : Option (Arr XF))
    (mAxis vAxis : ℤ) (ensW : Option (Arr XF)) (p : ℝ) : Except Err (Arr XF) :=
  match path with
  | .array => ApiNp.vrvsEnsemble obs fct wFunc w mAxis vAxis ensW p
  | .numba => do
    let (obs, fct) ← multivariateArrayCheck obs fct mAxis vAxis
    let (obsW, fctW) ← mvWeights obs fct wFunc
    let w := ApiNp.pairWeights obs fct w
    match ensW with
    | none =>
      guPair (fun W i => VsGufunc.vr W p (obs.row i) (fct.mat i) (obsW.get i) (fctW.row i)) obs w
    | some ew => do
      let ew ← multivariateWeightCheck ew fct mAxis
      guPair (fun W i => VsGufuncW.vr W p (obs.row i) (fct.mat i) (obsW.get i) (fctW.row i) (ew.row i))
        obs w

end Api
end Verif
