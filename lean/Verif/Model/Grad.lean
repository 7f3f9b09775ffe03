import Verif.Model.Closed2
import Verif.Model.Dss
import Verif.Model.Kernel
import Verif.Model.Variogram

/-!
# Gradients of the scores by backpropagation

With the torch and the jax backend a score is a composition of tensor operations, and the libraries
differentiate it by running backwards through that composition.  That gradients are meant to work is said in
`/repo/scoringrules/backend/torch.py:35` ("torch.asarray(obj) would cancel gradients!").

A `Node` is a number computed along the way: its value, and its backward function, which takes the derivative of
the score with respect to this number (the cotangent) and returns the contribution to the derivative with respect
to one chosen input (the leaf).  The rules below are the derivative rules of the two libraries for the operations
that `/repo/scoringrules/backend/torch.py` and `backend/jax.py` call; they are trusted, as is the behaviour of
`torch.asarray`.  All arithmetic is that of `XF`, so `0 * inf` is NaN in a gradient as well.

Simplifications: a number used twice hands each of its two cotangents down separately (the libraries add them
first; for finite numbers that is the same), and a library that skips zero cotangents is not modelled (neither
does).  Scores are taken on one (observation, forecast) pair.
-/

noncomputable section

open scoped Classical

namespace Verif

open XF Py Mv

/-- The two backends that differentiate (`backend/torch.py:20-26`, `backend/jax.py:21-32`). -/
inductive Lib where
  | torch
  | jax

/-- A number in the computation, with the function from its cotangent to the gradient of the leaf
(tensors of `backend/torch.py`, traced arrays of `backend/jax.py`). -/
structure Node where
  val : XF
  back : XF → XF

namespace Node

/-- The gradient of a score with respect to the leaf: the backward pass starts with cotangent 1
(`backend/torch.py:35`). -/
def grad (n : Node) : XF := n.back 1

/-- A number that does not depend on the leaf (any other argument of the score, e.g. `core/crps/_closed.py:694`). -/
def const (x : XF) : Node := ⟨x, fun _ => 0⟩

/-- The leaf: the argument with respect to which the score is differentiated
(e.g. `core/crps/_closed.py:694`; `torch.as_tensor` of `backend/torch.py:36` keeps the gradient). -/
def leaf (x : XF) : Node := ⟨x, fun g => g⟩

/-- `a + b`, e.g. `core/stats.py:18`. -/
instance : Add Node := ⟨fun a b => ⟨a.val + b.val, fun g => a.back g + b.back g⟩⟩
/-- `-a`, e.g. `core/stats.py:24`. -/
instance : Neg Node := ⟨fun a => ⟨-a.val, fun g => a.back (-g)⟩⟩
/-- `a - b`, e.g. `core/crps/_closed.py:696`. -/
instance : Sub Node := ⟨fun a b => ⟨a.val - b.val, fun g => a.back g + b.back (-g)⟩⟩
/-- `a * b`, e.g. `core/crps/_closed.py:697-701`. -/
instance : Mul Node := ⟨fun a b => ⟨a.val * b.val, fun g => a.back (g * b.val) + b.back (g * a.val)⟩⟩
/-- `a / b`, e.g. `core/crps/_closed.py:696`. -/
instance : Div Node := ⟨fun a b =>
  ⟨a.val / b.val, fun g => a.back (g / b.val) + b.back (-g * (a.val / b.val / b.val))⟩⟩

/-- `a ** n` for a written-out integer, e.g. `core/stats.py:12`. -/
def pow (a : Node) (n : ℕ) : Node := ⟨a.val ^ n, fun g => a.back (g * ((n : XF) * a.val ^ (n - 1)))⟩

/-- `a ** p` for a number `p` and a base that is not negative, `core/variogram/_score.py:17-19`. -/
def rpow (a : Node) (p : ℝ) : Node :=
  ⟨XF.rpow a.val p, fun g => a.back (if p = 0 then 0 else g * (fin p * XF.rpow a.val (p - 1)))⟩

/-- The sign of a number, `0` at `0`: the derivative that both libraries use for `abs`
(`backend/torch.py:168-169`, `backend/jax.py:157-158`). -/
def sgn : XF → XF
  | nan => nan
  | ninf => fin (-1)
  | pinf => fin 1
  | fin a => fin (if a < 0 then -1 else if a = 0 then 0 else 1)

/-- `B.abs`, `backend/torch.py:168-169`, `backend/jax.py:157-158`. -/
def abs (a : Node) : Node := ⟨XF.abs a.val, fun g => a.back (g * sgn a.val)⟩

/-- `B.exp`, `backend/torch.py:171-172`, `backend/jax.py:160-161`. -/
def exp (a : Node) : Node := ⟨XF.exp a.val, fun g => a.back (g * XF.exp a.val)⟩

/-- `B.log`, `backend/torch.py:177-178`, `backend/jax.py:166-167`. -/
def log (a : Node) : Node := ⟨XF.log a.val, fun g => a.back (g / a.val)⟩

/-- `B.erf`, `backend/torch.py:231-232`, `backend/jax.py:217-218`. -/
def erf (a : Node) : Node :=
  ⟨XF.erf a.val, fun g => a.back (g * (2 / XF.sqrt XF.pi * XF.exp (-(a.val ^ 2))))⟩

/-- The square root with its derivative, `backend/jax.py:169-170`. -/
def sqrt (a : Node) : Node := ⟨XF.sqrt a.val, fun g => a.back (g / (2 * XF.sqrt a.val))⟩

/-- `B.sqrt`.  jax: `jnp.sqrt` (`backend/jax.py:169-170`).  torch: `torch.sqrt(torch.asarray(x))`
(`backend/torch.py:180-181`); `torch.asarray` of a tensor returns it detached from the gradient, which is what the
comment in `backend/torch.py:35` says. -/
def bsqrt (l : Lib) (a : Node) : Node :=
  match l with
  | .torch => const (XF.sqrt a.val)
  | .jax => sqrt a

/-- `B.maximum`: the cotangent goes to the larger argument, half to each of two equal ones
(`backend/torch.py:251-252`, `backend/jax.py:235-236`). -/
def max (a b : Node) : Node :=
  ⟨XF.max a.val b.val, fun g =>
    a.back (if a.val < b.val then 0 else if XF.feq a.val b.val then g / 2 else g)
      + b.back (if b.val < a.val then 0 else if XF.feq a.val b.val then g / 2 else g)⟩

/-- `B.minimum`, as `B.maximum` (`backend/torch.py:248-249`, `backend/jax.py:232-233`). -/
def min (a b : Node) : Node :=
  ⟨XF.min a.val b.val, fun g =>
    a.back (if b.val < a.val then 0 else if XF.feq a.val b.val then g / 2 else g)
      + b.back (if a.val < b.val then 0 else if XF.feq a.val b.val then g / 2 else g)⟩

/-- `B.where`: the argument that is not selected receives the cotangent 0
(`backend/torch.py:296-297`, `backend/jax.py:280-281`). -/
def sel (c : Prop) (a b : Node) : Node :=
  ⟨if c then a.val else b.val, fun g => a.back (if c then g else 0) + b.back (if c then 0 else g)⟩

/-- `B.sum` over an axis, `backend/torch.py:91-99`, `backend/jax.py:90-98`. -/
def sum (l : List Node) : Node := ⟨(l.map val).sum, fun g => (l.map fun n => n.back g).sum⟩

/-- `B.norm(x, -1)`.  torch: `torch.norm` (`backend/torch.py:228-229`), whose derivative is `x / norm`, set to 0
where the norm is 0.  jax: `jnp.linalg.norm` (`backend/jax.py:214-215`), which is `sqrt(sum(x * x))` and is
differentiated as such. -/
def norm (l : Lib) (v : List Node) : Node :=
  match l with
  | .torch =>
    let n := vnorm (v.map val)
    ⟨n, fun g => (v.map fun x => x.back (if XF.feq n 0 then 0 else x.val * (g / n))).sum⟩
  | .jax => sqrt (sum (v.map fun x => x * x))

end Node

namespace Grad

open Node

/-- A list of numbers of which none is the leaf (e.g. `fct` in `core/crps/_approx.py:51-59`). -/
def consts (xs : List XF) : List Node := xs.map const

/-- A list of numbers of which the one at position `k` is the leaf (e.g. `fct` in `core/crps/_approx.py:51-59`). -/
def leafAt (k : ℕ) (xs : List XF) : List Node := xs.mapIdx fun i x => if i = k then leaf x else const x

/-- An ensemble of vectors in which coordinate `d` of member `k` is the leaf
(`fct` in `core/energy/_score.py:33-44`). -/
def leafAt2 (k d : ℕ) (xs : List (List XF)) : List (List Node) :=
  xs.mapIdx fun i v => if i = k then leafAt d v else consts v

/-- `_norm_pdf`, `core/stats.py:9-12`. -/
def normPdf (x : Node) : Node :=
  const (1 / XF.sqrt (2 * XF.pi)) * exp (-(pow x 2) / const 2)

/-- `_norm_cdf`, `core/stats.py:15-18`. -/
def normCdf (x : Node) : Node := (const 1 + erf (x / const (XF.sqrt 2))) / const 2

/-- `_logis_cdf`, `core/stats.py:33-36`. -/
def logisCdf (x : Node) : Node := const 1 / (const 1 + exp (-x))

/-- `normal`, `core/crps/_closed.py:687-701`. -/
def normal (obs mu sigma : Node) : Node :=
  let ω := (obs - mu) / sigma
  sigma * (ω * (const 2 * normCdf ω - const 1) + const 2 * normPdf ω - const (1 / XF.sqrt XF.pi))

/-- `logistic`, `core/crps/_closed.py:558-568`. -/
def logistic (obs mu sigma : Node) : Node :=
  let ω := (obs - mu) / sigma
  sigma * (ω - const 2 * log (logisCdf ω) - const 1)

/-- `laplace`, `core/crps/_closed.py:545-555`. -/
def laplace (obs location scale : Node) : Node :=
  let obs := (obs - location) / scale
  scale * (abs obs + exp (-abs obs) - const (3 / 4))

/-- `lognormal`, `core/crps/_closed.py:622-637`. -/
def lognormal (obs mulog sigmalog : Node) : Node :=
  let ω := (log obs - mulog) / sigmalog
  let ex := const 2 * exp (mulog + pow sigmalog 2 / const 2)
  obs * (const 2 * normCdf ω - const 1)
    - ex * (normCdf (ω - sigmalog) + normCdf (sigmalog / const (XF.sqrt 2)) - const 1)

/-- `gtcnormal`, `core/crps/_closed.py:354-403`. -/
def gtcnormal (obs mu sigma lower upper lmass umass : Node) : Node :=
  let ω := (obs - mu) / sigma
  let u := (upper - mu) / sigma
  let l := (lower - mu) / sigma
  let z := min (max ω l) u
  let Fu := normCdf u
  let Fl := normCdf l
  let Fz := normCdf z
  let Fu2 := normCdf (u * const (XF.sqrt 2))
  let Fl2 := normCdf (l * const (XF.sqrt 2))
  let fu := normPdf u
  let fl := normPdf l
  let fz := normPdf z
  let uInf := XF.feq u.val pinf
  let lInf := XF.feq l.val ninf
  let u := sel uInf (const nan) u
  let l := sel lInf (const nan) l
  let s1u := sel (uInf ∧ XF.feq umass.val 0) (const 0) (u * pow umass 2)
  let s1l := sel (lInf ∧ XF.feq lmass.val 0) (const 0) (l * pow lmass 2)
  let c := (const 1 - lmass - umass) / (Fu - Fl)
  let s1 := abs (ω - z) + s1u - s1l
  let s2 := c * z * (const 2 * Fz
    - ((const 1 - const 2 * lmass) * Fu + (const 1 - const 2 * umass) * Fl) / (const 1 - lmass - umass))
  let s3 := c * (const 2 * fz - const 2 * fu * umass - const 2 * fl * lmass)
  let s4 := pow c 2 * (Fu2 - Fl2) / const (XF.sqrt XF.pi)
  sigma * (s1 + s2 + s3 - s4)

/-- `crps_tnormal`, `_crps.py:1390-1428` (default `lower = -inf`, `upper = inf`). -/
def tnormal (obs location scale lower upper : Node) : Node :=
  gtcnormal obs location scale lower upper (const 0) (const 0)

/-- `crps_cnormal`, `_crps.py:1431-1480` (default `lower = -inf`, `upper = inf`). -/
def cnormal (obs location scale lower upper : Node) : Node :=
  let lmass := normCdf ((lower - location) / scale)
  let umass := const 1 - normCdf ((upper - location) / scale)
  gtcnormal obs location scale lower upper lmass umass

/-- `l[i]` for a position in range. (`core/crps/_closed.py:651-654`) -/
def nget (l : List Node) (i : ℕ) : Node := l.getD i (const nan)

/-- `mixnorm`, `core/crps/_closed.py:640-666`, on one observation. -/
def mixnorm (lib : Lib) (obs : Node) (m s w : List Node) : Node :=
  let A (d t : Node) : Node := d * (const 2 * normCdf (d / t) - const 1) + const 2 * t * normPdf (d / t)
  let n := m.length
  let sc1 := sum ((List.range n).map fun i => nget w i * A (obs - nget m i) (nget s i))
  let sc2 := sum ((List.range n).map fun i => sum ((List.range n).map fun j =>
    nget w i * nget w j * A (nget m i - nget m j) (bsqrt lib (pow (nget s i) 2 + pow (nget s j) 2))))
  sc1 - const (fin (1 / 2)) * sc2

/-- `_crps_ensemble_nrg`, `core/crps/_approx.py:51-59`. -/
def crpsNrg (obs : Node) (fct : List Node) : Node :=
  let M := fct.length
  let e1 := sum (fct.map fun x => abs (obs - x)) / const (M : XF)
  let e2 := sum (fct.map fun a => sum (fct.map fun b => abs (a - b))) / const ((M ^ 2 : ℕ) : XF)
  e1 - const half * e2

/-- `error_spread_score`, `core/error_spread/_score.py:9-19`. -/
def ess (lib : Lib) (obs : Node) (fct : List Node) : Node :=
  let M := fct.length
  let m := sum fct / const (M : XF)
  let s := bsqrt lib (sum (fct.map fun x => pow (x - m) 2) / const ((M - 1 : ℕ) : XF))
  let g := sum (fct.map fun x => pow ((x - m) / s) 3) / const (((M - 1) * (M - 2) : ℕ) : XF)
  let e := m - obs
  pow (pow s 2 - pow e 2 - e * s * g) 2

/-- difference of two vectors (`core/energy/_score.py:38-41`). -/
def nsub (a b : List Node) : List Node := List.zipWith (· - ·) a b

/-- `_es_ensemble_nrg`, `core/energy/_score.py:33-44`. -/
def esNrg (lib : Lib) (obs : List Node) (fct : List (List Node)) : Node :=
  let M := fct.length
  let e1 := sum (fct.map fun x => norm lib (nsub x obs)) / const (M : XF)
  let e2 := sum (fct.map fun a => sum (fct.map fun b => norm lib (nsub a b))) / const ((M ^ 2 : ℕ) : XF)
  e1 - const half * e2

/-- `gauss_kern_mv`, `core/kernels/_approx.py:17-22`. -/
def kernMv (lib : Lib) (a b : List Node) : Node :=
  exp (const (-half) * pow (norm lib (nsub a b)) 2)

/-- `_ks_ensemble_nrg_mv`, `core/kernels/_approx.py:146-161`. -/
def ksNrgMv (lib : Lib) (obs : List Node) (fct : List (List Node)) : Node :=
  let M := fct.length
  let e1 := sum (fct.map fun x => kernMv lib obs x)
  let e2 := sum (fct.map fun a => sum (fct.map fun b => kernMv lib a b))
  let e3 := kernMv lib obs obs
  Neg.neg (e1 / const (M : XF) - const half * e2 / const ((M ^ 2 : ℕ) : XF) - const half * e3)

/-- entry `[i, j]` of `B.abs(B.expand_dims(x, -2) - B.expand_dims(x, -1)) ** p`
(`core/variogram/_score.py:17-19`). -/
def rhoT (p : ℝ) (x : List Node) (i j : ℕ) : Node := rpow (abs (nget x j - nget x i)) p

/-- `vs_ensemble` with `estimator="nrg"`, `core/variogram/_score.py:9-28`, with constant pair weights. -/
def vsNrg (w : List (List XF)) (p : ℝ) (obs : List Node) (fct : List (List Node)) : Node :=
  sum ((List.range obs.length).map fun i => sum ((List.range obs.length).map fun j =>
    const (mget w i j) * pow (rhoT p obs i j
      - sum (fct.map fun x => rhoT p x i j) / const (fct.length : XF)) 2))

end Grad
end Verif
