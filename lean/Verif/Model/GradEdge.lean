import Verif.Model.GradTail

/-!
# Gradients of the closed forms with bounded support, with point masses and with two pieces

The score functions of `/repo/scoringrules/core/crps/_closed.py` that clamp a distribution function with
`B.maximum`/`B.minimum`, that choose a branch with `B.where`, or that choose a branch in python with
`_is_scalar_value`.  The same conventions as in `Verif.Model.Grad`.
-/

noncomputable section

open scoped Classical

namespace Verif

open XF

namespace Grad

open Node

/-- `_is_scalar_value`, `core/crps/_closed.py:771-774`, for an argument holding one number.  jax: `x.size` is 1 and
`x.item()` is the number (also while `jax.grad` differentiates; under `jax.jit` it raises, which is not modelled).
torch: `x.size` is a bound method, which is never equal to 1, so the answer is always no. -/
def isScalarValue (l : Lib) (x v : XF) : Prop :=
  match l with
  | .torch => False
  | .jax => XF.feq x v

/-- `_exp_cdf`, `core/stats.py:45-48`. -/
def expCdf (x rate : Node) : Node := Node.max (const 1 - Node.exp (-rate * x)) (const 0)

/-- `exponential`, `core/crps/_closed.py:124-131`. -/
def exponential (obs rate : Node) : Node :=
  Node.abs obs - (const 2 * expCdf obs rate / rate) + const 1 / (const 2 * rate)

/-- `exponentialM`, `core/crps/_closed.py:134-156`.  The subtraction `obs -= location` is in place on torch, where
it raises if the observation is itself a leaf of the gradient; that is not modelled. -/
def exponentialM (l : Lib) (obs mass location scale : Node) : Node :=
  let obs := if ¬ isScalarValue l location.val 0 then obs - location else obs
  let a := if isScalarValue l mass.val 0 then const 1 else const 1 - mass
  let s := Node.abs obs
  if isScalarValue l scale.val 1 then s - a * (const 2 * expCdf obs (const 1) - const (fin (1 / 2)) * a)
  else s - scale * a * (const 2 * expCdf obs (const 1 / scale) - const (fin (1 / 2)) * a)

/-- `twopexponential`, `core/crps/_closed.py:159-177`. -/
def twopexponential (obs scale1 scale2 location : Node) : Node :=
  let obs := obs - location
  let z := Node.abs obs
  let c1 := const 2 * (scale1.pow 2) / (scale1 + scale2)
  let c2 := const 2 * (scale2.pow 2) / (scale1 + scale2)
  let c3 := (scale1.pow 3 + scale2.pow 3) / (const 2 * (scale1 + scale2).pow 2)
  let s1 := z + c1 * Node.exp (-z / scale1) - c1 + c3
  let s2 := z + c2 * Node.exp (-z / scale2) - c2 + c3
  Node.sel (obs.val < 0) s1 s2

/-- `uniform`, `core/crps/_closed.py:748-768`. -/
def uniform (obs min max lmass umass : Node) : Node :=
  let ω := (obs - min) / (max - min)
  let Fω := Node.min (Node.max ω (const 0)) (const 1)
  let s := Node.abs (ω - Fω) + (Fω.pow 2) * (const 1 - lmass - umass) - Fω * (const 1 - const 2 * lmass)
    + ((const 1 - lmass - umass).pow 2) / const 3 + (const 1 - lmass) * umass
  (max - min) * s

/-- `beta`, `core/crps/_closed.py:27-59`, with respect to the observation and the limits; the shapes `a`, `b` are
numbers.  jax only: `backend/torch.py:257-260` raises for `betainc`. -/
def beta (obs : Node) (a b : XF) (lower upper : Node) : Except Err Node :=
  let special := ¬ (isScalarValue .jax lower.val 0 ∧ isScalarValue .jax upper.val 1)
  if special ∧ upper.val ≤ lower.val then .error .valueError else
  let obs := if special then (obs - lower) / (upper - lower) else obs
  let Fab := Node.min (Node.max (Node.betainc a b obs) (const 0)) (const 1)
  let Fa1b := Node.min (Node.max (Node.betainc (a + 1) b obs) (const 0)) (const 1)
  let betRat := const (2 * XF.beta (2 * a) (2 * b) / (a * XF.beta a b ^ 2))
  let s := obs * (const 2 * Fab - const 1) + const (a / (a + b)) * (const 1 - const 2 * Fa1b - betRat)
  .ok (if special then s * (upper - lower) else s)

end Grad
end Verif
