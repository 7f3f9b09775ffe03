import Verif.Model.Stats
import Mathlib.Analysis.SpecialFunctions.Gamma.Basic

/-!
# Special functions used by the closed forms

`/repo/scoringrules/backend/numpy.py:239-275` passes these names on to `scipy.special`; the model gives
their mathematical values.  Outside the range of arguments described in a comment the value is NaN.
-/

noncomputable section

open scoped Classical

namespace Verif

open XF

/-- `B.gamma`, `backend/numpy.py:251-252`, which is `scipy.special.gamma`; NaN at negative integers. -/
def XF.gamma : XF → XF
  | nan => nan
  | ninf => nan
  | pinf => pinf
  | fin x => if x = 0 then pinf else if ∃ n : ℕ, x = -(n : ℝ) then nan else fin (Real.Gamma x)

/-- `B.beta`, `backend/numpy.py:239-240`, which is `scipy.special.beta`, for positive arguments. -/
def XF.beta : XF → XF → XF
  | fin a, fin b =>
    if 0 < a ∧ 0 < b then fin (Real.Gamma a * Real.Gamma b / Real.Gamma (a + b)) else nan
  | _, _ => nan

/-- `B.factorial`, `backend/numpy.py:263-264`, which is `scipy.special.factorial(n, exact=False)`:
`gamma (n + 1)`, and zero at negative arguments. -/
def XF.factorial : XF → XF
  | nan => nan
  | ninf => fin 0
  | pinf => pinf
  | fin x => if x < 0 then fin 0 else fin (Real.Gamma (x + 1))

/-- `B.comb`, `backend/numpy.py:271-272`, which is `scipy.special.comb(n, k, exact=False)`: the binomial
coefficient, by the gamma function at non-integers, and zero wherever the test
`(k <= n) & (n >= 0) & (k >= 0)` fails, which includes NaN arguments.  An infinite `n` is not modelled (NaN). -/
def XF.comb : XF → XF → XF
  | fin n, fin k =>
    if 0 ≤ k ∧ k ≤ n then fin (Real.Gamma (n + 1) / (Real.Gamma (k + 1) * Real.Gamma (n - k + 1)))
    else fin 0
  | pinf, fin k => if 0 ≤ k then nan else fin 0
  | pinf, pinf => nan
  | _, _ => fin 0

/-- `B.floor`, `backend/numpy.py:230-231`. -/
def XF.floor : XF → XF
  | fin x => fin (⌊x⌋ : ℝ)
  | a => a

namespace Stats

/-- `_gamma_pdf`, `core/stats.py:51-60`. -/
def gammaPdf (x shape rate : XF) : XF :=
  let prob := XF.pow rate shape * XF.pow x (shape - 1) * XF.exp (-rate * x) / XF.gamma shape
  if x ≤ 0 then 0 else prob

/-- `_pois_pdf`, `core/stats.py:75-84`. -/
def poisPdf (x mean : XF) : XF :=
  let xPlus := XF.abs x
  let d := if XF.floor xPlus < xPlus then 0
    else XF.pow mean xPlus * XF.exp (-mean) / XF.factorial xPlus
  if mean < 0 then nan else if x < 0 then 0 else d

/-- `_t_pdf`, `core/stats.py:95-101`. -/
def tPdf (x df : XF) : XF :=
  let xInf := XF.feq (XF.abs x) pinf
  let x := if xInf then nan else x
  let s := XF.pow (1 + x ^ 2 / df) (-(df + 1) / 2) / (XF.sqrt df * XF.beta (1 / 2) (df / 2))
  if xInf then 0 else s

/-- `_gev_pdf`, `core/stats.py:113-129`. -/
def gevPdf (s xi : XF) : XF :=
  let xi0 := XF.feq xi 0
  let supp := (¬ XF.feq xi 0 ∧ -1 < s * xi) ∨ xi0
  let xi := if xi0 then nan else xi
  let s := if supp then s else nan
  let power := -(xi + 1) / xi
  let pdf0 := XF.exp (-s) * XF.exp (-XF.exp (-s))
  let pdf := XF.pow (1 + s * xi) power * XF.exp (-XF.pow (1 + s * xi) (-1 / xi))
  let pdf := if xi0 then pdf0 else pdf
  if supp then pdf else 0

/-- `_binom_pdf`, `core/stats.py:194-199`. -/
def binomPdf (k n prob : XF) : XF := XF.comb n k * XF.pow prob k * XF.pow (1 - prob) (n - k)

/-- `_hypergeo_pdf`, `core/stats.py:210-223`. -/
def hypergeoPdf (k M n N : XF) : XF :=
  let ind' := XF.ind (XF.max 0 (N - M + n) ≤ k ∧ k ≤ XF.min n N)
  ind' * XF.comb n k * XF.comb (M - n) (N - k) / XF.comb M N

/-- `_negbinom_pdf`, `core/stats.py:245-256`. -/
def negbinomPdf (x n prob : XF) : XF :=
  let xPlus := XF.abs x
  let d := if XF.floor xPlus < xPlus then 0
    else XF.comb (n + x - 1) x * XF.pow prob n * XF.pow (1 - prob) x
  if x < 0 then 0 else d

end Stats
end Verif
