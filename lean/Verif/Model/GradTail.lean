import Verif.Model.GradLogs

/-!
# Gradients of the generalised Pareto and extreme value scores and Student's t by backpropagation

The functions of `/repo/scoringrules/core/crps/_closed.py`, `core/logarithmic.py` and `core/stats.py` as compositions
of the operations of `Verif.Model.Grad`.  These functions choose between formulas with `B.where` after all of them
have been computed.
-/

noncomputable section

open scoped Classical

namespace Verif

open XF

namespace Node

/-- `a ** b` for two tensors, e.g. `core/stats.py:187`.  The rules are those of `torch.pow` and of jax's power: no
cotangent for the base if the exponent is 0, none for the exponent if the base is 0 and the exponent is not negative. -/
def tpow (a b : Node) : Node :=
  ⟨XF.pow a.val b.val, fun g =>
    a.back (if XF.feq b.val 0 then 0 else g * (b.val * XF.pow a.val (b.val - 1)))
      + b.back (if XF.feq a.val 0 ∧ 0 ≤ b.val then 0 else g * (XF.pow a.val b.val * XF.log a.val))⟩

/-- `B.expi`, `backend/jax.py:273-277`: the derivative is `exp(x) / x`. -/
def expi (a : Node) : Node := ⟨XF.expi a.val, fun g => a.back (g * (XF.exp a.val / a.val))⟩

/-- `B.gammauinc(a, x)`, `backend/jax.py:259-260`, as a function of `x`, with derivative `-x ** (a - 1) * exp(-x)`.
Simplified: no cotangent goes to `a`, which is a constant below. -/
def gammauinc (a : XF) (x : Node) : Node :=
  ⟨XF.gammauinc a x.val, fun g => x.back (g * (-(XF.pow x.val (a - 1) * XF.exp (-x.val))))⟩

/-- `B.betainc(a, b, x)`, `backend/jax.py:240-241`, as a function of `x`, with derivative
`x ** (a - 1) * (1 - x) ** (b - 1) / beta(a, b)`.  Simplified: no cotangent goes to `a` and `b`, which are constants
below. -/
def betainc (a b : XF) (x : Node) : Node :=
  ⟨XF.betainc a b x.val, fun g =>
    x.back (g * (XF.pow x.val (a - 1) * XF.pow (1 - x.val) (b - 1) / XF.beta a b))⟩

end Node

namespace Grad

open Node

/-- `_gpd_cdf`, `core/stats.py:169-191`. -/
def gpdCdf (x shape : Node) : Node :=
  let shape0 := XF.feq shape.val 0
  let shape := sel shape0 (const nan) shape
  let shapeP := 0 < shape.val
  let shapeN := ¬ (shape0 ∨ shapeP)
  let xPos := 0 ≤ x.val
  let xGtInvxi := (const (-1) / shape).val < x.val
  let x := sel xPos x (const nan)
  let shape := sel (shapeN ∧ xGtInvxi) (const nan) shape
  let cdf := const 0
  let cdf := sel (shape0 ∧ xPos) (const 1 - exp (-x)) cdf
  let cdf := sel ((shapeN ∧ xPos) ∨ (shapeP ∧ xPos)) (const 1 - tpow (const 1 + shape * x) (const (-1) / shape)) cdf
  sel (shapeN ∧ xGtInvxi) (const 1) cdf

/-- `gpd`, `core/crps/_closed.py:279-301`. -/
def gpd (obs shape location scale mass : Node) : Node :=
  let shape := sel (shape.val < 1) shape (const nan)
  let mass := sel (0 ≤ mass.val ∧ mass.val ≤ 1) mass (const nan)
  let ω := (obs - location) / scale
  let Fxi := gpdCdf ω shape
  let s := abs ω - const 2 * (const 1 - mass) * (const 1 - tpow (const 1 - Fxi) (const 1 - shape)) / (const 1 - shape)
    + pow (const 1 - mass) 2 / (const 2 - shape)
  scale * s

/-- `_gpd_pdf`, `core/stats.py:150-166`. -/
def gpdPdf (x shape : Node) : Node :=
  let posSupp := 0 ≤ shape.val ∧ 0 ≤ x.val
  let shape0 := XF.feq shape.val 0
  let shape := sel shape0 (const nan) shape
  let negSupp := shape.val < 0 ∧ 0 ≤ x.val ∧ x.val ≤ (const (-1) / shape).val
  let supp := posSupp ∨ negSupp
  let x := sel supp x (const nan)
  let power := -(shape + const 1) / shape
  let pdf := exp (-x)
  let pdf := sel shape0 pdf (tpow (const 1 + shape * x) power)
  sel supp pdf (const 0)

/-- `gpd`, `core/logarithmic.py:182-197`. -/
def logsGpd (obs shape location scale : Node) : Node :=
  let ω := (obs - location) / scale
  let prob := gpdPdf ω shape
  let prob0 := XF.feq prob.val 0
  let prob := sel prob0 (const nan) (prob / scale)
  sel prob0 (const pinf) (-log prob)

/-- `_gev_pdf`, `core/stats.py:113-129`. -/
def gevPdf (s xi : Node) : Node :=
  let xi0 := XF.feq xi.val 0
  let supp := (¬ XF.feq xi.val 0 ∧ -1 < (s * xi).val) ∨ xi0
  let xi := sel xi0 (const nan) xi
  let s := sel supp s (const nan)
  let power := -(xi + const 1) / xi
  let pdf0 := exp (-s) * exp (-exp (-s))
  let pdf := tpow (const 1 + s * xi) power * exp (-tpow (const 1 + s * xi) (const (-1) / xi))
  let pdf := sel xi0 pdf0 pdf
  sel supp pdf (const 0)

/-- `gev`, `core/logarithmic.py:164-179`. -/
def logsGev (obs shape location scale : Node) : Node :=
  let ω := (obs - location) / scale
  let prob := gevPdf ω shape
  let prob0 := XF.feq prob.val 0
  let prob := sel prob0 (const nan) (prob / scale)
  sel prob0 (const pinf) (-log prob)

/-- `_gev_cdf`, `core/stats.py:132-147`, for a shape that is not the leaf. -/
def gevCdf (s : Node) (xi : XF) : Node :=
  let zeroShape := XF.feq xi 0
  let xi := if zeroShape then nan else xi
  let general := ¬ zeroShape ∧ -1 < xi * s.val
  let cdf := const nan * s
  let cdf := sel zeroShape (exp (-exp (-s))) cdf
  let cdf := sel general
    (exp (-tpow (const 1 + const xi * sel general s (const nan)) (const (-1 / xi)))) cdf
  let cdf := sel (0 < xi ∧ s.val ≤ -1 / xi) (const 0) cdf
  sel (xi < 0 ∧ 1 / XF.abs xi ≤ s.val) (const 1) cdf

/-- `_gev_adjust_fn`, `core/crps/_closed.py:245-259`, for a shape that is not the leaf. -/
def gevAdjust (s : Node) (xi : XF) (fxi : Node) : Node :=
  let res := const nan * s
  let nInv := -1 / xi
  let gen := const nInv * fxi + gammauinc (1 - xi) (-log fxi) / const xi
  let res := sel (0 < xi ∧ s.val ≤ nInv) (const 0) res
  let res := sel (0 < xi ∧ nInv < s.val) gen res
  let res := sel (xi < 0 ∧ s.val < nInv) gen res
  sel (xi < 0 ∧ nInv ≤ s.val) (const (nInv + XF.gamma (1 - xi) / xi)) res

/-- `gev`, `core/crps/_closed.py:227-276`, for a shape that is not the leaf and one of at least two observations (a
single one is turned into a python float in line 276, which jax does not differentiate).  torch cannot compute this
score (`expi`, `backend/torch.py:291-294`). -/
def gev (obs : Node) (shape : XF) (location scale : Node) : Node :=
  let obs := (obs - location) / scale
  let Fxi := gevCdf obs shape
  let zeroShape := XF.feq shape 0
  let shape := if zeroShape then nan else shape
  let Gxi := gevAdjust obs shape Fxi
  let out := sel zeroShape (-obs - const 2 * expi (log Fxi) + const Closed.eulerMascheroni - const (XF.log 2))
    (obs * (const 2 * Fxi - const 1) - const 2 * Gxi
      - const ((1 - (2 - XF.pow 2 shape) * XF.gamma (1 - shape)) / shape))
  out * scale

/-- `_t_cdf`, `core/stats.py:104-110`, for degrees of freedom that are not the leaf. -/
def tCdf (x : Node) (df : XF) : Node :=
  let t := const df / (pow x 2 + const df)
  let ibeta := betainc (df / 2) (fin (1 / 2)) t
  sel (0 ≤ x.val) (const 1 - const (fin (1 / 2)) * ibeta) (const (fin (1 / 2)) * ibeta)

/-- `_t_pdf`, `core/stats.py:95-101`, for degrees of freedom that are not the leaf. -/
def tPdf (x : Node) (df : XF) : Node :=
  let xInf := XF.feq (abs x).val pinf
  let x := sel xInf (const nan) x
  let s := tpow (const 1 + pow x 2 / const df) (const (-(df + 1) / 2))
    / const (XF.sqrt df * XF.beta (1 / 2) (df / 2))
  sel xInf (const 0) s

/-- `t`, `core/crps/_closed.py:724-745`, for degrees of freedom that are not the leaf.  torch cannot compute this score
(`betainc`, `backend/torch.py:257-260`). -/
def t (obs : Node) (df : XF) (location scale : Node) : Node :=
  let z := (obs - location) / scale
  let Fz := tCdf z df
  let fz := tPdf z df
  let Gz := (const df + pow z 2) / const (df - 1)
  let s1 := z * (const 2 * Fz - const 1)
  let s2 := const 2 * fz * Gz
  let s3 := const ((2 * XF.sqrt df / (df - 1)) * XF.beta (fin (1 / 2)) (df - fin (1 / 2))
    / (XF.beta (fin (1 / 2)) (df / 2) ^ 2))
  scale * (s1 + s2 - s3)

end Grad
end Verif
