import Verif.Model.Py

/-!
# Element types through the ensemble scores

numpy, jax and torch accept different element types in the same operation.  Here the functions of the array path are
transcribed with the element types of their arrays only: the result is the element type of the score, or the error that
an operation raises.  Simplification: the numbers and the precision of the floats are left out.
-/

namespace Verif

namespace TypeFlow

/-- Element types. (`backend/torch.py:28-36` makes a tensor of whatever it is given) -/
inductive Ty
  | bool
  | int
  | float
deriving DecidableEq

/-- The array backends. (`backend/registry.py:12-17, `numba` uses the functions of numpy`) -/
inductive Bk
  | numpy
  | jax
  | torch
deriving DecidableEq

/-- Element type, or the exception. (`core/crps/_approx.py:136-153`) -/
abbrev T := Except Err Ty

/-- The type of `a * b`, and of `a + b` for numbers. (`core/crps/_approx.py:146`) -/
def mul : Ty → Ty → Ty
  | .float, _ => .float
  | _, .float => .float
  | .int, _ => .int
  | _, .int => .int
  | .bool, .bool => .bool

/-- `a - b`: two arrays of booleans are refused, torch refuses one already. (`core/crps/_approx.py:172`) -/
def sub : Bk → Ty → Ty → T
  | .torch, .bool, _ => .error .typeError
  | .torch, _, .bool => .error .typeError
  | _, .bool, .bool => .error .typeError
  | _, a, b => .ok (mul a b)

/-- `B.mean(a)`: torch accepts floats only. (`backend/torch.py:41-49`) -/
def mean : Bk → Ty → T
  | .torch, .float => .ok .float
  | .torch, _ => .error .typeError
  | _, _ => .ok .float

/-- `B.std(a)`: torch accepts floats only. (`backend/torch.py:51-61`) -/
def std : Bk → Ty → T := mean

/-- `B.sum(a)` counts booleans. (`backend/torch.py:91-99`) -/
def sum : Ty → Ty
  | .bool => .int
  | t => t

/-- `B.norm(a, -1)`: torch accepts floats only. (`backend/torch.py:228-229`) -/
def norm : Bk → Ty → T := mean

/-- `a *= b`: numpy and torch do not store floats in an array of integers; jax makes a new array, and so does numpy for
a scalar (`batch = false`: a single observation). (`core/crps/_approx.py:152`) -/
def imul : Bk → (batch : Bool) → Ty → Ty → T
  | .jax, _, a, b => .ok (mul a b)
  | .numpy, false, a, b => .ok (mul a b)
  | _, _, .float, _ => .ok .float
  | _, _, _, .float => .error .castError
  | _, _, .int, _ => .ok .int
  | _, _, .bool, .int => .error .castError
  | _, _, .bool, .bool => .ok .bool

/-! ### CRPS -/

/-- `_crps_ensemble_nrg`, `_crps_ensemble_fair`, `core/crps/_approx.py:37-59`. -/
def crpsNrg (b : Bk) (obs fct : Ty) : T := do
  let _d ← sub b obs fct
  let _d ← sub b fct fct
  sub b .float .float

/-- `_crps_ensemble_pwm`, `core/crps/_approx.py:62-71`. -/
def crpsPwm (b : Bk) (obs fct : Ty) : T := do
  let _d ← sub b obs fct
  let _β ← pure (mul fct .int)
  sub b .float .float

/-- `_crps_ensemble_qd`, `core/crps/_approx.py:97-105`. -/
def crpsQd (b : Bk) (obs fct : Ty) : T := do
  let alpha ← sub b .int .float
  let d ← sub b obs fct
  let below := mul (mul .bool alpha) d
  let d ← sub b fct obs
  let above := mul (mul .bool alpha) d
  pure (mul below above)

/-- `_crps_ensemble_int`, `core/crps/_approx.py:108-123`. -/
def crpsInt (b : Bk) (obs fct : Ty) : T := do
  let _y ← mean b (mul .bool .float)
  let fctExp := mul fct obs
  let fctDif ← sub b fctExp fctExp
  let d ← sub b .float .float
  pure (sum (mul fctDif d))

/-- `ow_ensemble`, `core/crps/_approx.py:136-153`. -/
def owcrps (b : Bk) (batch : Bool) (obs fct ow fw : Ty) : T := do
  let _wbar ← mean b fw
  let _d ← sub b obs fct
  let d ← sub b fct fct
  let e2 := sum (mul (mul d fw) fw)
  let _ := ow
  let e2 ← imul b batch e2 .float
  sub b .float e2

/-- `vr_ensemble`, `core/crps/_approx.py:156-174`. -/
def vrcrps (b : Bk) (batch : Bool) (obs fct ow fw : Ty) : T := do
  let _d ← sub b obs fct
  let _d ← sub b fct fct
  let m ← mean b (mul fct fw)
  let e3 ← sub b m (mul obs ow)
  let m ← mean b fw
  let q ← sub b m ow
  let e3 ← imul b batch e3 q
  pure (mul .float e3)

/-- `ow_ensemble_w`, `core/crps/_approx_w.py:133-154` (the ensemble weights have been divided by their sum). -/
def owcrpsW (b : Bk) (batch : Bool) (obs fct ow fw : Ty) : T := do
  let _d ← sub b obs fct
  let d ← sub b fct fct
  let e2 := sum (mul (mul (mul .float d) fw) fw)
  let _ := ow
  let e2 ← imul b batch e2 .float
  sub b .float e2

/-- `vr_ensemble_w`, `core/crps/_approx_w.py:157-178`. -/
def vrcrpsW (b : Bk) (batch : Bool) (obs fct ow fw : Ty) : T := do
  let _d ← sub b obs fct
  let _d ← sub b fct fct
  let e3 ← sub b (sum (mul (mul .float fct) fw)) (mul obs ow)
  let q ← sub b (sum (mul .float fw)) ow
  let e3 ← imul b batch e3 q
  pure (mul .float e3)

/-! ### Energy score -/

/-- `_es_ensemble_nrg` and the other estimators without weights, `core/energy/_score.py:33-89`. -/
def es (b : Bk) (obs fct : Ty) : T := do
  let d ← sub b fct obs
  let _n ← norm b d
  let d ← sub b fct fct
  let _n ← norm b d
  sub b .float .float

/-- `mv_weighted_score_weights`, `core/utils.py:170-181`: the weights become floats if `backend == "torch"`, not if torch
is the active backend and no backend is named. -/
def mvWeights (b : Bk) (named : Bool) (w : Ty) : Ty := if b = .torch ∧ named then mul w .float else w

/-- `owes_ensemble`, `_energy.py:149-210` and `core/energy/_score.py:92-113`. -/
def owes (b : Bk) (named : Bool) (obs fct w : Ty) : T := do
  let ow := mvWeights b named w
  let fw := mvWeights b named w
  let _wbar ← mean b fw
  let d ← sub b fct obs
  let n ← norm b d
  let _e1 ← mean b (mul (mul n fw) ow)
  let d ← sub b fct fct
  let n ← norm b d
  let n ← imul b true n (mul (mul fw fw) ow)
  let _e2 ← mean b n
  sub b .float .float

/-- `vres_ensemble`, `_energy.py:213-282` and `core/energy/_score.py:116-139`. -/
def vres (b : Bk) (named : Bool) (obs fct w : Ty) : T := do
  let ow := mvWeights b named w
  let fw := mvWeights b named w
  let wbar ← mean b fw
  let d ← sub b fct obs
  let n ← norm b d
  let n ← imul b true n (mul fw ow)
  let _e1 ← mean b n
  let d ← sub b fct fct
  let n ← norm b d
  let _e2 ← mean b (mul n (mul fw fw))
  let n ← norm b fct
  let rhobar ← mean b (mul n fw)
  let n ← norm b obs
  let l ← sub b rhobar (mul n ow)
  let r ← sub b wbar ow
  pure (mul l r)

/-! ### Scores built on means -/

/-- `ds_score_uv`, `core/dss/_score.py:9-22`. -/
def dss (b : Bk) (obs fct : Ty) : T := do
  let m ← mean b fct
  let _s ← std b fct
  let d ← sub b obs m
  pure (mul d .float)

/-- `error_spread_score`, `core/error_spread/_score.py:9-19`. -/
def ess (b : Bk) (obs fct : Ty) : T := do
  let m ← mean b fct
  let _d ← sub b fct m
  let e ← sub b m obs
  sub b .float (mul e .float)

/-- `logs_ensemble` without bandwidth, `_logs.py:56-69` (`quantile` of torch needs floats, `backend/torch.py:63-72`). -/
def logsEnsemble (b : Bk) (obs fct : Ty) : T := do
  let _s ← std b fct
  let _q ← std b fct
  let d ← sub b obs fct
  pure (mul d .float)

end TypeFlow
end Verif
