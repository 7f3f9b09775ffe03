import Verif.Model.Registry
import Verif.Model.Api
import Verif.Model.WeightedUv
import Verif.Model.Quantile
import Verif.Model.Energy
import Verif.Model.Kernel
import Verif.Model.Dss
import Verif.Model.DssMv

/-!
# Model of how the public functions choose between the compiled functions and the array code

Simplification: the array code is the one for numpy arrays whatever the backend (`Model/Backends.lean` has what differs),
and the state of the registry after the call is not modelled.
-/

noncomputable section

open scoped Classical

namespace Verif

open Py Registry

namespace Dispatch

variable {α : Type}

/-- `B = backends.active if backend is None else backends[backend]`, `core/utils.py:65` and `84`, `_crps.py:564`,
`_interval.py:172`. -/
def resolve (env : Env) (s : State) : Option String → Except Err Backend
  | none => (getActive env s).1
  | some n => (getItem env n s).1

/-- Functions that compare the argument, `if backend == "numba":`, `_crps.py:146`, `379` and `499`, `_dss.py:48` and
`96`, `_energy.py:75-82`, `_error_spread.py:37`, `_kernels.py:74-81` and `393-400`, `_variogram.py:95-102`.  The backend
is looked up before, in the check of the arrays (`core/utils.py:65`, `84`). -/
def byArgument (env : Env) (s : State) (backend : Option String) (f : Path → Except Err α) : Except Err α := do
  let _ ← resolve env s backend
  f (if backend = some "numba" then .numba else .array)

/-- Functions that compare the name of the backend object, `if B.name == "numba":`, `_crps.py:574`, `_interval.py:178`.
The attribute `name` of each class is its key in the registry (`backend/jax.py:25`, `backend/numpy.py:32` and `308`,
`backend/torch.py:19`). -/
def byName (env : Env) (s : State) (backend : Option String) (f : Path → Except Err α) : Except Err α := do
  let B ← resolve env s backend
  f (if B.cls = "numba" then .numba else .array)

/-- `crps_ensemble` with its argument `backend`, `_crps.py:146-155`. -/
def crpsEnsemble (env : Env) (s : State) (backend : Option String) (obs fct : Arr XF) (mAxis : ℤ)
    (ensW : Option (Arr XF)) (est : String) (sorted : Bool) (nanPolicy : String) : Except Err (Arr XF) :=
  byArgument env s backend fun path => Api.crpsEnsemble path obs fct mAxis ensW est sorted nanPolicy

/-- `vrcrps_ensemble` with its argument `backend`, `_crps.py:499-508`. -/
def vrcrpsEnsemble (env : Env) (s : State) (backend : Option String) (obs fct : Arr XF) (wFunc : XF → XF) (mAxis : ℤ)
    (ensW : Option (Arr XF)) (nanPolicy : String) : Except Err (Arr XF) :=
  byArgument env s backend fun path => Api.vrcrpsEnsemble path obs fct wFunc mAxis ensW nanPolicy

/-- `es_ensemble` with its argument `backend`, `_energy.py:73-86`. -/
def esEnsemble (env : Env) (s : State) (backend : Option String) (obs fct : Arr XF) (mAxis vAxis : ℤ)
    (ensW : Option (Arr XF)) (est : String) : Except Err (Arr XF) :=
  byArgument env s backend fun path => Api.esEnsemble path obs fct mAxis vAxis ensW est

/-- `gksuv_ensemble` with its argument `backend`, `_kernels.py:72-87`. -/
def gksuvEnsemble (env : Env) (s : State) (backend : Option String) (obs fct : Arr XF) (mAxis : ℤ)
    (ensW : Option (Arr XF)) (est : String) : Except Err (Arr XF) :=
  byArgument env s backend fun path => Api.gksuvEnsemble path obs fct mAxis ensW est

/-- `dssuv_ensemble` with its argument `backend`, `_dss.py:46-51`. -/
def dssuvEnsemble (env : Env) (s : State) (backend : Option String) (obs fct : Arr XF) (mAxis : ℤ) (bias : Bool) :
    Except Err (Arr XF) :=
  byArgument env s backend fun path => Api.dssuvEnsemble path obs fct mAxis bias

/-- `error_spread_score` with its argument `backend`, `_error_spread.py:36-40`. -/
def errorSpreadScore (env : Env) (s : State) (backend : Option String) (obs fct : Arr XF) (mAxis : ℤ) :
    Except Err (Arr XF) :=
  byArgument env s backend fun path => Api.errorSpreadScore path obs fct mAxis

/-- `crps_quantile` with its argument `backend`, `_crps.py:564-577`. -/
def crpsQuantile (env : Env) (s : State) (backend : Option String) (obs fct : Arr XF) (alpha : List XF) (mAxis : ℤ) :
    Except Err (Arr XF) :=
  byName env s backend fun path => Api.crpsQuantile path obs fct alpha mAxis

/-- `weighted_interval_score` with its argument `backend`, `_interval.py:172-181`. -/
def wis (env : Env) (s : State) (backend : Option String) (obs median lower upper : Arr XF) (alpha : List XF)
    (wMedian : Option XF) (wAlpha : Option (List XF)) : Except Err (Arr XF) :=
  byName env s backend fun path =>
    .ok (Interval.wis (match path with | .numba => true | .array => false) obs median lower upper alpha wMedian wAlpha)

end Dispatch
end Verif
