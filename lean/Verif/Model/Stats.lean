import Verif.Model.Py
import Mathlib.Analysis.SpecialFunctions.Pow.Real
import Mathlib.Analysis.SpecialFunctions.Integrals.Basic

/-!
# Model of `/repo/scoringrules/core/stats.py` (elementary distributions)

The functions are elementwise (numpy broadcasting); the model gives them on scalars.  `B.where(c, a, b)`
is `if c then a else b`: both branches are computed by the code, and the unused one is discarded.
-/

noncomputable section

open scoped Classical

namespace Verif

open XF

/-- `x ** y` on floats (IEEE 754 / C99 `pow`, which `np.power` follows). (e.g. `core/stats.py:99`) -/
def XF.pow (x y : XF) : XF :=
  if y = 0 then 1 else if x = 1 then 1 else
  match x, y with
  | nan, _ => nan
  | _, nan => nan
  | fin a, fin b =>
    if 0 < a then fin (a ^ b)
    else if a = 0 then (if 0 < b then fin 0 else pinf)
    else if ∃ n : ℤ, (n : ℝ) = b then fin (a ^ b) else nan
  | fin a, pinf => if 1 < |a| then pinf else if |a| = 1 then 1 else fin 0
  | fin a, ninf => if 1 < |a| then fin 0 else if |a| = 1 then 1 else pinf
  | pinf, fin b => if 0 < b then pinf else fin 0
  | ninf, fin b => if 0 < b then (if ∃ n : ℤ, 2 * (n : ℝ) + 1 = b then ninf else pinf) else fin 0
  | pinf, pinf => pinf
  | pinf, ninf => fin 0
  | ninf, pinf => pinf
  | ninf, ninf => fin 0

/-- `B.erf`, `backend/numpy.py:224-225`, which is `scipy.special.erf`: the integral
`2 / sqrt pi * ∫_0^x exp (- t ^ 2)`. -/
def XF.erf : XF → XF
  | nan => nan
  | ninf => fin (-1)
  | pinf => fin 1
  | fin x => fin (2 / Real.sqrt Real.pi * ∫ t in (0:ℝ)..x, Real.exp (-t ^ 2))

/-- `B.pi`, `backend/base.py:19`: the float nearest to pi, modelled as pi itself. -/
def XF.pi : XF := fin Real.pi

namespace Stats

/-- `_norm_pdf`, `core/stats.py:9-12`. -/
def normPdf (x : XF) : XF := (1 / XF.sqrt (2 * XF.pi)) * XF.exp (-(x ^ 2) / 2)

/-- `_norm_cdf`, `core/stats.py:15-18`. -/
def normCdf (x : XF) : XF := (1 + XF.erf (x / XF.sqrt 2)) / 2

/-- `_laplace_pdf`, `core/stats.py:21-24`. -/
def laplacePdf (x : XF) : XF := XF.exp (-XF.abs x) / 2

/-- `_logis_pdf`, `core/stats.py:27-30`. -/
def logisPdf (x : XF) : XF := XF.exp (-x) / (1 + XF.exp (-x)) ^ 2

/-- `_logis_cdf`, `core/stats.py:33-36`. -/
def logisCdf (x : XF) : XF := 1 / (1 + XF.exp (-x))

/-- `_exp_pdf`, `core/stats.py:39-42`. -/
def expPdf (x rate : XF) : XF := if x < 0 then 0 else rate * XF.exp (-rate * x)

/-- `_exp_cdf`, `core/stats.py:45-48`. -/
def expCdf (x rate : XF) : XF := XF.max (1 - XF.exp (-rate * x)) 0

/-- `_gpd_pdf`, `core/stats.py:150-166`. -/
def gpdPdf (x shape : XF) : XF :=
  let posSupp := 0 ≤ shape ∧ 0 ≤ x
  let shape0 := XF.feq shape 0
  let shape := if shape0 then nan else shape
  let negSupp := shape < 0 ∧ 0 ≤ x ∧ x ≤ -1 / shape
  let supp := posSupp ∨ negSupp
  let x := if supp then x else nan
  let power := -(shape + 1) / shape
  let pdf := XF.exp (-x)
  let pdf := if shape0 then pdf else XF.pow (1 + shape * x) power
  if supp then pdf else 0

/-- `_gpd_cdf`, `core/stats.py:169-191`. -/
def gpdCdf (x shape : XF) : XF :=
  let shape0 := XF.feq shape 0
  let shape := if shape0 then nan else shape
  let shapeP := 0 < shape
  let shapeN := ¬ (shape0 ∨ shapeP)
  let xPos := 0 ≤ x
  let xGtInvxi := -1 / shape < x
  let x := if xPos then x else nan
  let shape := if shapeN ∧ xGtInvxi then nan else shape
  let cdf : XF := 0
  let cdf := if shape0 ∧ xPos then 1 - XF.exp (-x) else cdf
  let cdf := if (shapeN ∧ xPos) ∨ (shapeP ∧ xPos) then 1 - XF.pow (1 + shape * x) (-1 / shape) else cdf
  if shapeN ∧ xGtInvxi then 1 else cdf

end Stats
end Verif
