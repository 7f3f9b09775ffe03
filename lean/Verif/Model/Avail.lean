import Verif.Model.Backends

/-!
# Which closed forms a backend can compute

Three special functions are missing from some backends: `betainc` and `expi` raise on torch, `hypergeometric`
raises on jax.  On torch the gamma function also refuses Python numbers.  Here the closed forms that use them,
with the backend as an argument, one observation at a time.  A value returned by the numpy and the jax backend is
computed with the same exact special functions; values computed by torch before it raises are not modelled.
`b` is the backend asked for, `act` the active one, which some helpers use because the argument is not passed on.
-/

noncomputable section

open scoped Classical

namespace Verif

open XF Stats

namespace Bk

/-- `B.betainc`: `backend/numpy.py:242-243`, `backend/jax.py:241-242`, `backend/torch.py:257-260`. -/
def betainc : Bk → XF → XF → XF → Except Err XF
  | .torch, _, _, _ => .error .notImplemented
  | _, x, y, z => .ok (XF.betainc x y z)

/-- `B.expi`: `backend/numpy.py:274-275`, `backend/jax.py:274-278`, `backend/torch.py:291-294`. -/
def expi : Bk → XF → Except Err XF
  | .torch, _ => .error .notImplemented
  | _, x => .ok (XF.expi x)

/-- `B.hypergeometric`: `backend/numpy.py:266-269`, `backend/jax.py:265-267`, `backend/torch.py:283-286`.  Torch
returns the exception class in place of a number; the arithmetic that follows is a `TypeError`, raised here. -/
def hypergeom : Bk → XF → XF → XF → XF → Except Err XF
  | .numpy, a, b, c, z => .ok (XF.hyp2f1 a b c z)
  | .jax, _, _, _, _ => .error .notImplemented
  | .torch, _, _, _, _ => .error .typeError

/-- `B.beta(x, y)` with a Python number `x`: `backend/numpy.py:239-240`, `backend/jax.py:238-239`;
`torch.lgamma` of a Python number is a `TypeError` (`backend/torch.py:254-255`). -/
def betaPy : Bk → XF → XF → Except Err XF
  | .torch, _, _ => .error .typeError
  | _, x, y => .ok (XF.beta x y)

/-- `_t_cdf`, `core/stats.py:104-110`. -/
def tCdf (b : Bk) (x df : XF) : Except Err XF := do
  let t := df / (x ^ 2 + df)
  let ibeta ← b.betainc (df / 2) (fin (1 / 2)) t
  return if 0 ≤ x then 1 - fin (1 / 2) * ibeta else fin (1 / 2) * ibeta

/-- `_t_pdf`, `core/stats.py:95-101`. -/
def tPdf (b : Bk) (x df : XF) : Except Err XF := do
  let xInf := XF.feq (XF.abs x) pinf
  let x := if xInf then nan else x
  let be ← b.betaPy (1 / 2) (df / 2)
  let s := XF.pow (1 + x ^ 2 / df) (-(df + 1) / 2) / (XF.sqrt df * be)
  return if xInf then 0 else s

/-- `_negbinom_cdf`, `core/stats.py:259-264`: both branches of `where` are evaluated. -/
def negbinomCdf (b : Bk) (x n prob : XF) : Except Err XF := do
  let c ← b.betainc n (XF.floor (x + 1)) prob
  return if x < 0 then 0 else c

/-- `_is_scalar_value`, `core/crps/_closed.py:771-774`, of an array of one entry: on torch `x.size` is a method,
different from one. -/
def isScalarValue : Bk → XF → XF → Prop
  | .torch, _, _ => False
  | _, x, v => XF.feq x v

/-- `beta`, `core/crps/_closed.py:27-60`; `crps_beta`, `_crps.py:580-640`. -/
def crpsBeta (b : Bk) (obs a bb lower upper : XF) : Except Err XF :=
  let special := ¬ (b.isScalarValue lower 0 ∧ b.isScalarValue upper 1)
  if special ∧ upper ≤ lower then .error .valueError else do
    let obs := if special then (obs - lower) / (upper - lower) else obs
    let Iab ← b.betainc a bb obs
    let Ia1b ← b.betainc (a + 1) bb obs
    let Fab := XF.min (XF.max Iab 0) 1
    let Fa1b := XF.min (XF.max Ia1b 0) 1
    let betRat := 2 * XF.beta (2 * a) (2 * bb) / (a * XF.beta a bb ^ 2)
    let s := obs * (2 * Fab - 1) + (a / (a + bb)) * (1 - 2 * Fa1b - betRat)
    return if special then s * (upper - lower) else s

/-- `gev`, `core/crps/_closed.py:227-276`: both branches of the outer `where` are evaluated. -/
def crpsGev (b : Bk) (obs shape location scale : XF) : Except Err XF := do
  let obs := (obs - location) / scale
  let Fxi := gevCdf obs shape
  let zeroShape := XF.feq shape 0
  let shape := if zeroShape then nan else shape
  let Gxi := Closed.gevAdjust obs shape Fxi
  let ei ← b.expi (XF.log Fxi)
  let out := if zeroShape then -obs - 2 * ei + Closed.eulerMascheroni - XF.log 2
    else obs * (2 * Fxi - 1) - 2 * Gxi - (1 - (2 - XF.pow 2 shape) * XF.gamma (1 - shape)) / shape
  return out * scale

/-- `gtct`, `core/crps/_closed.py:406-471`; `crps_gtct`, `_crps.py:1483-1567`. -/
def crpsGtct (b : Bk) (obs df mu sigma lower upper lmass umass : XF) : Except Err XF := do
  let ω := (obs - mu) / sigma
  let u := (upper - mu) / sigma
  let l := (lower - mu) / sigma
  let z := XF.min (XF.max ω l) u
  let Fu ← b.tCdf u df
  let Fl ← b.tCdf l df
  let Fz ← b.tCdf z df
  let fu ← b.tPdf u df
  let fl ← b.tPdf l df
  let fz ← b.tPdf z df
  let uInf := XF.feq u pinf
  let lInf := XF.feq l ninf
  let u := if uInf then nan else u
  let l := if lInf then nan else l
  let s1u := if uInf ∧ XF.feq umass 0 then 0 else u * umass ^ 2
  let s1l := if lInf ∧ XF.feq lmass 0 then 0 else l * lmass ^ 2
  let Gu := if uInf then 0 else -fu * (df + u ^ 2) / (df - 1)
  let Gl := if lInf then 0 else -fl * (df + l ^ 2) / (df - 1)
  let Gz := -fz * (df + z ^ 2) / (df - 1)
  let bu ← b.betainc (fin (1 / 2)) (df - fin (1 / 2)) (u ^ 2 / (df + u ^ 2))
  let Iu := if uInf then 1 else bu
  let bl ← b.betainc (fin (1 / 2)) (df - fin (1 / 2)) (l ^ 2 / (df + l ^ 2))
  let Il := if lInf then 1 else bl
  let sgnu : XF := if uInf then 1 else u / XF.abs u
  let sgnl : XF := if lInf then -1 else l / XF.abs l
  let Hu := (sgnu * Iu + 1) / 2
  let Hl := (sgnl * Il + 1) / 2
  let b1 ← b.betaPy (fin (1 / 2)) (df - fin (1 / 2))
  let b2 ← b.betaPy (fin (1 / 2)) (df / 2)
  let Bbar := (2 * XF.sqrt df / (df - 1)) * b1 / (b2 ^ 2)
  let c := (1 - lmass - umass) / (Fu - Fl)
  let s1 := XF.abs (ω - z) + s1u - s1l
  let s2 := c * z * (2 * Fz - ((1 - 2 * lmass) * Fu + (1 - 2 * umass) * Fl) / (1 - lmass - umass))
  let s3 := 2 * c * (Gz - Gu * umass - Gl * lmass)
  let s4 := c ^ 2 * Bbar * (Hu - Hl)
  return sigma * (s1 + s2 - s3 - s4)

/-- `crps_tt`, `_crps.py:1570-1621`. -/
def crpsTt (b : Bk) (obs df location scale lower upper : XF) : Except Err XF :=
  b.crpsGtct obs df location scale lower upper 0 0

/-- `crps_ct`, `_crps.py:1624-1677`: the two masses (lines 1665-1666) are computed by the active backend. -/
def crpsCt (b act : Bk) (obs df location scale lower upper : XF) : Except Err XF := do
  let lmass ← act.tCdf ((lower - location) / scale) df
  let cu ← act.tCdf ((upper - location) / scale) df
  b.crpsGtct obs df location scale lower upper lmass (1 - cu)

/-- `t`, `core/crps/_closed.py:724-745`; `crps_t`, `_crps.py:2295-2347`. -/
def crpsT (b : Bk) (obs df mu sigma : XF) : Except Err XF := do
  let z := (obs - mu) / sigma
  let Fz ← b.tCdf z df
  let fz ← b.tPdf z df
  let Gz := (df + z ^ 2) / (df - 1)
  let s1 := z * (2 * Fz - 1)
  let s2 := 2 * fz * Gz
  let b1 ← b.betaPy (fin (1 / 2)) (df - fin (1 / 2))
  let b2 ← b.betaPy (fin (1 / 2)) (df / 2)
  let s3 := (2 * XF.sqrt df / (df - 1)) * b1 / (b2 ^ 2)
  return sigma * (s1 + s2 - s3)

/-- `loglogistic`, `core/crps/_closed.py:606-619`. -/
def crpsLoglogistic (b : Bk) (obs mulog sigmalog : XF) : Except Err XF := do
  let Fms := 1 / (1 + XF.exp (-(XF.log obs - mulog) / sigmalog))
  let be := XF.beta (1 + sigmalog) (1 - sigmalog)
  let IB ← b.betainc (1 + sigmalog) (1 - sigmalog) Fms
  return obs * (2 * Fms - 1) - XF.exp mulog * be * (2 * IB + sigmalog - 1)

/-- `negbinom`, `core/crps/_closed.py:669-685`. -/
def crpsNegbinom (b : Bk) (obs n prob : XF) : Except Err XF := do
  let Fnp ← b.negbinomCdf obs n prob
  let Fn1p ← b.negbinomCdf (obs - 1) (n + 1) prob
  let F2 ← b.hypergeom (n + 1) (fin (1 / 2)) 2 (-4 * (1 - prob) / prob ^ 2)
  return obs * (2 * Fnp - 1) - n * (1 - prob) * (prob * (2 * Fn1p - 1) + F2) / prob ^ 2

/-- `t`, `core/logarithmic.py:375-387`. -/
def logsT (b : Bk) (obs df location scale : XF) : Except Err XF := do
  let ω := (obs - location) / scale
  let p ← b.tPdf ω df
  let prob := p / scale
  return Neg.neg (XF.log prob)

/-- `tt`, `core/logarithmic.py:438-462`: the density (line 460) is computed by the active backend.  Where that is
not the backend asked for, its functions are taken to accept the other's arrays, save that torch raises on the
Python number in `beta`. -/
def logsTt (b act : Bk) (obs df location scale lower upper : XF) : Except Err XF := do
  let ω := (obs - location) / scale
  let u := (upper - location) / scale
  let l := (lower - location) / scale
  let Fu ← b.tCdf u df
  let Fl ← b.tCdf l df
  let denom := Fu - Fl
  let indOut := ω < l ∨ u < ω
  let p ← act.tPdf ω df
  let prob := p / scale
  return if indOut then pinf else -XF.log (prob / denom)

end Bk
end Verif
