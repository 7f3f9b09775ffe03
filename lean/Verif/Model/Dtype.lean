import Verif.Model.Closed
import Verif.Model.Logs
import Verif.Model.Energy

/-!
# Array element types and writes to the caller's memory

The other model files compute with numbers only.  Here the element type of the observation array
(`float64` or `int64`) and the caller's array object are made explicit, for the places where the code
writes into an array whose type or identity comes from the caller.
-/

noncomputable section

open scoped Classical

namespace Verif

open XF Py

namespace Dtype

/-- Element type of an array: `float64` or `int64`. (`dtype` of the array made at `core/utils.py:320`) -/
inductive Ty
  | float
  | int
deriving DecidableEq

/-- A one-dimensional array owned by the caller. (the argument `obs` of `_crps.py:741-800`) -/
structure Buf where
  ty : Ty
  data : List XF

/-- A scalar parameter after `B.asarray` (a zero-dimensional array). (`_closed.py:144-146`) -/
structure Num where
  ty : Ty
  val : XF

/-- `obs -= location` on a numpy array: the difference has type `float64` unless both are integers, and
numpy refuses to cast it back to an integer array (`UFuncTypeError`).
(`_closed.py:146`, `logarithmic.py:123`) -/
def subInPlace (obs : Buf) (location : Num) : Except Err Buf :=
  if obs.ty = .int ∧ location.ty = .float then .error .castError
  else .ok ⟨obs.ty, obs.data.map fun x => x - location.val⟩

/-- `crps_exponentialM` on a numpy array, `_crps.py:741-800` and `_closed.py:134-156`, with
scalar parameters: the caller's array after the call, and the result.  `np.asarray` of an array is the
array itself (`backend/numpy.py:34-35`), so line 146 writes into it.  `s = B.abs(obs)` keeps an integer
type, and `s -= ...` of lines 152 and 154 then fails. -/
def exponentialM (obs : Buf) (mass location scale : Num) : Buf × Except Err (List XF) :=
  let finish (o : Buf) : Except Err (List XF) :=
    if o.ty = .int then .error .castError
    else .ok (o.data.map fun x => Closed.exponentialM x mass.val 0 scale.val)
  if XF.feq location.val 0 then (obs, finish obs)
  else match subInPlace obs location with
    | .error e => (obs, .error e)
    | .ok o => (o, finish o)

/-- `logs_exponential2` on a numpy array, `_logs.py:258-290` and `logarithmic.py:114-130`, with scalar
parameters: the caller's array after the call, and the result. -/
def exponential2 (obs : Buf) (location scale : Num) : Buf × Except Err (List XF) :=
  match subInPlace obs location with
  | .error e => (obs, .error e)
  | .ok o => (o, .ok (o.data.map fun x => Logs.exponential2 x 0 scale.val))

/-- Storing a float in an `int64` array inside compiled numba code: truncation towards zero.  (NaN and
the infinities become the smallest integer on x86.)
(`out[0] = ...` in gufuncs wrapped by `core/utils.py:310-326`). -/
def truncInt : XF → XF
  | fin x => fin (if 0 ≤ x then (⌊x⌋ : ℝ) else (⌈x⌉ : ℝ))
  | _ => fin (-2 ^ 63)

/-- How a gufunc returns its result. (`core/utils.py:310-346`) -/
inductive Kind
  /-- called directly: numpy allocates a `float64` result -/
  | direct
  /-- through `lazy_gufunc_wrapper_uv`/`_mv`, compiled for the given types -/
  | wrapped
  /-- through a wrapper, but compiled for `float32`/`float64` only: numpy refuses to cast the
  result into an integer output array -/
  | wrappedTyped
deriving DecidableEq

/-- The output array of `lazy_gufunc_wrapper_uv`, `core/utils.py:310-326`, and `lazy_gufunc_wrapper_mv`,
`core/utils.py:329-346`, has the element type of the observations (`np.empty_like(args[0])`). -/
def store (k : Kind) (ty : Ty) (r : Arr XF) : Except Err (Arr XF) :=
  match ty, k with
  | .float, _ => .ok r
  | .int, .direct => .ok r
  | .int, .wrapped => .ok (r.map truncInt)
  | .int, .wrappedTyped => .error .castError

/-- The tables `crps/_gufuncs.py:253-263` (no weights) and `crps/_gufuncs_w.py:241-251` (weights). -/
def crpsKind (est : String) (weighted : Bool) : Kind :=
  if ¬ weighted ∧ (est = "qd" ∨ est = "nrg" ∨ est = "fair") then .direct else .wrapped

/-- `crps_ensemble` with the element type of the observation array.  With `nan_policy = "omit"` the
code always uses weights (`core/utils.py:266-273`). -/
def crpsEnsemble (ty : Ty) (path : Path) (obs fct : Arr XF) (mAxis : ℤ) (ensW : Option (Arr XF))
    (est : String) (sorted : Bool) (nanPolicy : String) : Except Err (Arr XF) := do
  let r ← Api.crpsEnsemble path obs fct mAxis ensW est sorted nanPolicy
  match path with
  | .array => .ok r
  | .numba => store (crpsKind est (ensW.isSome || nanPolicy = "omit")) ty r

/-- The tables `energy/_gufuncs.py:134-141` and `energy/_gufuncs_w.py:145-152`; `nrg` and `fair` without
weights carry explicit float signatures (`_gufuncs.py:7-14`, `32-39`). -/
def esKind (est : String) (weighted : Bool) : Kind :=
  if ¬ weighted ∧ (est = "nrg" ∨ est = "fair") then .wrappedTyped else .wrapped

/-- `es_ensemble` with the element type of the observation array. (`_energy.py:16-86`) -/
def esEnsemble (ty : Ty) (path : Path) (obs fct : Arr XF) (mAxis vAxis : ℤ) (ensW : Option (Arr XF))
    (est : String) : Except Err (Arr XF) := do
  let r ← Api.esEnsemble path obs fct mAxis vAxis ensW est
  match path with
  | .array => .ok r
  | .numba => store (esKind est ensW.isSome) ty r

end Dtype
end Verif
