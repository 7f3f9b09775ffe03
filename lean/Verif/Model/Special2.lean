import Verif.Model.Special
import Mathlib.MeasureTheory.Integral.IntervalIntegral.Basic
import Mathlib.Analysis.SpecialFunctions.Gamma.Beta
import Mathlib.Topology.Algebra.InfiniteSum.Basic

/-!
# Further special functions used by the closed forms

`/repo/scoringrules/backend/numpy.py:239-275` passes these names on to `scipy.special`; the model gives
their mathematical values for the arguments named in a comment, and NaN for all others.
-/

noncomputable section

open scoped Classical
open MeasureTheory

namespace Verif

open XF

/-- `B.betainc`, `backend/numpy.py:242-243`, which is `scipy.special.betainc`: the regularised incomplete
beta function, for positive `a`, `b` and `x` in `[0, 1]`. -/
def XF.betainc : XF → XF → XF → XF
  | fin a, fin b, fin x =>
    if 0 < a ∧ 0 < b ∧ 0 ≤ x ∧ x ≤ 1 then
      fin ((∫ t in (0:ℝ)..x, t ^ (a - 1) * (1 - t) ^ (b - 1))
        / (Real.Gamma a * Real.Gamma b / Real.Gamma (a + b)))
    else nan
  | _, _, _ => nan

/-- `B.gammainc`, `backend/numpy.py:254-255`, which is `scipy.special.gammainc`: the regularised lower
incomplete gamma function, for positive `a` and non-negative `x`. -/
def XF.gammainc : XF → XF → XF
  | fin a, fin x =>
    if 0 < a ∧ 0 ≤ x then fin ((∫ t in (0:ℝ)..x, t ^ (a - 1) * Real.exp (-t)) / Real.Gamma a) else nan
  | fin a, pinf => if 0 < a then fin 1 else nan
  | _, _ => nan

/-- `B.gammauinc`, `backend/numpy.py:260-261`: `gammaincc(x, y) * gamma(x)`, where `gammaincc` is one minus
`gammainc`. -/
def XF.gammauinc (a x : XF) : XF := (1 - XF.gammainc a x) * XF.gamma a

/-- `B.mbessel0`, `backend/numpy.py:245-246`, which is `scipy.special.i0`. -/
def XF.bessel0 : XF → XF
  | fin x => fin (∑' k : ℕ, (x / 2) ^ (2 * k) / (k.factorial : ℝ) ^ 2)
  | nan => nan
  | _ => pinf

/-- `B.mbessel1`, `backend/numpy.py:248-249`, which is `scipy.special.i1`. -/
def XF.bessel1 : XF → XF
  | fin x => fin (∑' k : ℕ, (x / 2) ^ (2 * k + 1) / ((k.factorial : ℝ) * ((k + 1).factorial : ℝ)))
  | nan => nan
  | pinf => pinf
  | ninf => ninf

/-- `B.hypergeometric`, `backend/numpy.py:266-269`, which is `scipy.special.hyp2f1`, by Euler's integral,
for `0 < b < c` and `z < 1`. -/
def XF.hyp2f1 : XF → XF → XF → XF → XF
  | fin a, fin b, fin c, fin z =>
    if 0 < b ∧ b < c ∧ z < 1 then
      fin (Real.Gamma c / (Real.Gamma b * Real.Gamma (c - b))
        * ∫ t in (0:ℝ)..1, t ^ (b - 1) * (1 - t) ^ (c - b - 1) * (1 - z * t) ^ (-a))
    else nan
  | _, _, _, _ => nan

/-- `B.expi`, `backend/numpy.py:274-275`, which is `scipy.special.expi`, for negative arguments; `-inf` at
zero. -/
def XF.expi : XF → XF
  | fin x => if x < 0 then fin (-∫ t in Set.Ioi (-x), Real.exp (-t) / t) else if x = 0 then ninf else nan
  | ninf => fin 0
  | _ => nan

namespace Stats

/-- `_gamma_cdf`, `core/stats.py:63-72`. -/
def gammaCdf (x shape rate : XF) : XF := XF.max (XF.gammainc shape (rate * XF.max x 0)) 0

/-- `_pois_cdf`, `core/stats.py:87-92`. -/
def poisCdf (x mean : XF) : XF :=
  let xPlus := XF.abs x
  let p := XF.gammauinc (XF.floor (xPlus + 1)) mean / XF.gamma (XF.floor (xPlus + 1))
  if x < 0 then 0 else p

/-- `_t_cdf`, `core/stats.py:104-110`. -/
def tCdf (x df : XF) : XF :=
  let t := df / (x ^ 2 + df)
  let ibeta := XF.betainc (df / 2) (fin (1 / 2)) t
  if 0 ≤ x then 1 - fin (1 / 2) * ibeta else fin (1 / 2) * ibeta

/-- `_gev_cdf`, `core/stats.py:132-147`. -/
def gevCdf (s xi : XF) : XF :=
  let zeroShape := XF.feq xi 0
  let xi := if zeroShape then nan else xi
  let general := ¬ zeroShape ∧ -1 < xi * s
  let cdf := nan * s
  let cdf := if zeroShape then XF.exp (-XF.exp (-s)) else cdf
  let cdf := if general then XF.exp (-XF.pow (1 + xi * (if general then s else nan)) (-1 / xi)) else cdf
  let cdf := if 0 < xi ∧ s ≤ -1 / xi then 0 else cdf
  if xi < 0 ∧ 1 / XF.abs xi ≤ s then 1 else cdf

/-- `_binom_cdf`, `core/stats.py:202-207`.  The summand `1e-36` is lost in the rounding of a float unless
`n - minimum(k, n)` is zero; the model adds it only then. -/
def binomCdf (k n prob : XF) : XF :=
  let d := n - XF.min k n
  let d := if XF.feq d 0 then fin (1 / 10 ^ 36) else d
  if k < 0 then 0 else XF.betainc d (k + 1) (1 - prob)

/-- `_hypergeo_cdf`, `core/stats.py:226-242`, for one element: the sum of the mass function over
`arange(0, k + 1)`, here for an integer `k`. -/
def hypergeoCdf (k : ℕ) (M n N : XF) : XF :=
  ((List.range (k + 1)).map fun m : ℕ => hypergeoPdf (fin (m : ℝ)) M n N).sum

/-- `_negbinom_cdf`, `core/stats.py:259-264`. -/
def negbinomCdf (x n prob : XF) : XF :=
  if x < 0 then 0 else XF.betainc n (XF.floor (x + 1)) prob

end Stats
end Verif
