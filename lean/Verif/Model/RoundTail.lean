import Verif.Model.Rounding32

/-!
# Generalised Pareto and extreme value scores computed with rounding

As in `Model/Rounding.lean`, every operation is followed by the rounding function.
-/

noncomputable section

open scoped Classical

namespace Verif

open XF

namespace Rnd

variable (r : ℝ → XF)

/-- `_gpd_cdf`, `core/stats.py:169-191`, rounded. -/
def gpdCdf (x shape : XF) : XF :=
  let shape0 := XF.feq shape 0
  let shape := if shape0 then nan else shape
  let shapeP := 0 < shape
  let shapeN := ¬ (shape0 ∨ shapeP)
  let xPos := 0 ≤ x
  let xGtInvxi := rd r (-1 / shape) < x
  let x := if xPos then x else nan
  let shape := if shapeN ∧ xGtInvxi then nan else shape
  let cdf : XF := 0
  let cdf := if shape0 ∧ xPos then rd r (1 - rd r (XF.exp (-x))) else cdf
  let cdf := if (shapeN ∧ xPos) ∨ (shapeP ∧ xPos) then
    rd r (1 - rd r (XF.pow (rd r (1 + rd r (shape * x))) (rd r (-1 / shape)))) else cdf
  if shapeN ∧ xGtInvxi then 1 else cdf

/-- `gpd`, `core/crps/_closed.py:279-303`, rounded. -/
def crpsGpd (obs shape location scale mass : XF) : XF :=
  let shape := if shape < 1 then shape else nan
  let mass := if 0 ≤ mass ∧ mass ≤ 1 then mass else nan
  let ω := std r obs location scale
  let Fxi := gpdCdf r ω shape
  let t := rd r (rd r (rd r (2 * rd r (1 - mass)) * rd r (1 - rd r (XF.pow (rd r (1 - Fxi)) (rd r (1 - shape)))))
    / rd r (1 - shape))
  let s := rd r (rd r (XF.abs ω - t) + rd r (rd r (rd r (1 - mass) ^ 2) / rd r (2 - shape)))
  rd r (scale * s)

/-- `_gpd_pdf`, `core/stats.py:150-166`, rounded. -/
def gpdPdf (x shape : XF) : XF :=
  let posSupp := 0 ≤ shape ∧ 0 ≤ x
  let shape0 := XF.feq shape 0
  let shape := if shape0 then nan else shape
  let negSupp := shape < 0 ∧ 0 ≤ x ∧ x ≤ rd r (-1 / shape)
  let supp := posSupp ∨ negSupp
  let x := if supp then x else nan
  let power := rd r (-rd r (shape + 1) / shape)
  let pdf := rd r (XF.exp (-x))
  let pdf := if shape0 then pdf else rd r (XF.pow (rd r (1 + rd r (shape * x))) power)
  if supp then pdf else 0

/-- `gpd`, `core/logarithmic.py:182-197`, rounded. -/
def logsGpd (obs shape location scale : XF) : XF :=
  let ω := std r obs location scale
  let prob := gpdPdf r ω shape
  let prob0 := XF.feq prob 0
  let prob := if prob0 then nan else rd r (prob / scale)
  if prob0 then pinf else -rd r (XF.log prob)

/-- `_gev_pdf`, `core/stats.py:113-129`, rounded. -/
def gevPdf (s xi : XF) : XF :=
  let xi0 := XF.feq xi 0
  let supp := (¬ XF.feq xi 0 ∧ -1 < rd r (s * xi)) ∨ xi0
  let xi := if xi0 then nan else xi
  let s := if supp then s else nan
  let power := rd r (-rd r (xi + 1) / xi)
  let pdf0 := rd r (rd r (XF.exp (-s)) * rd r (XF.exp (-rd r (XF.exp (-s)))))
  let base := rd r (1 + rd r (s * xi))
  let pdf := rd r (rd r (XF.pow base power) * rd r (XF.exp (-rd r (XF.pow base (rd r (-1 / xi))))))
  let pdf := if xi0 then pdf0 else pdf
  if supp then pdf else 0

/-- `gev`, `core/logarithmic.py:164-179`, rounded. -/
def logsGev (obs shape location scale : XF) : XF :=
  let ω := std r obs location scale
  let prob := gevPdf r ω shape
  let prob0 := XF.feq prob 0
  let prob := if prob0 then nan else rd r (prob / scale)
  if prob0 then pinf else -rd r (XF.log prob)

end Rnd
end Verif
