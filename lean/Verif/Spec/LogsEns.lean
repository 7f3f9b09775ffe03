import Verif.Spec.Dens
import Verif.Spec.Dss
import Mathlib.Data.List.Sort

/-!
# Specification of kernel density estimates, Silverman's rule and the weighted likelihood scores

Nothing here refers to the model.
-/

noncomputable section

open scoped Classical

namespace Verif.Spec

/-- Gaussian kernel density estimate with bandwidth `h`. -/
def kdeDens (xs : List ℝ) (h y : ℝ) : ℝ := avg (xs.map fun x => densNormal x h y)

/-- Distribution function of the Gaussian kernel density estimate. -/
def kdeCdf (xs : List ℝ) (h y : ℝ) : ℝ := avg (xs.map fun x => cdfNormal x h y)

/-- A distribution function at a possibly infinite threshold. -/
def cdfAt (F : ℝ → ℝ) : XF → ℝ
  | .fin a => F a
  | .pinf => 1
  | _ => 0

/-- Linear-interpolation sample quantile (type 7): the value at position `(M - 1) p` of the sorted
sample, counted from zero. -/
def quantile7 (p : ℝ) (xs : List ℝ) : ℝ :=
  let s := xs.mergeSort fun a b => decide (a ≤ b)
  let h := ((xs.length : ℝ) - 1) * p
  s.getD ⌊h⌋₊ 0 + (h - ⌊h⌋₊) * (s.getD (⌊h⌋₊ + 1) 0 - s.getD ⌊h⌋₊ 0)

/-- Silverman's rule of thumb. -/
def silverman (xs : List ℝ) : ℝ :=
  1.06 * min (Real.sqrt (svar false xs)) ((quantile7 0.75 xs - quantile7 0.25 xs) / 1.34)
    * (xs.length : ℝ) ^ (-(1 / 5) : ℝ)

/-- The conditional likelihood score of a forecast with density `f` and distribution function `F`, for
the region `(a, b)` (Diks et al., 2011): the log score of the conditional density inside, zero outside. -/
def condLik (f F : ℝ → ℝ) (a b : XF) (y : ℝ) : XF :=
  if a < XF.fin y ∧ XF.fin y < b then negLog (f y / (cdfAt F b - cdfAt F a)) else XF.fin 0

/-- The censored likelihood score: the log score of the density inside `(a, b)`, of the probability of
the complement outside. -/
def censLik (f F : ℝ → ℝ) (a b : XF) (y : ℝ) : XF :=
  if a < XF.fin y ∧ XF.fin y < b then negLog (f y) else negLog (1 - (cdfAt F b - cdfAt F a))

end Verif.Spec
