import Verif.Spec.Dens

/-!
# Generalised truncated and censored distributions

A distribution function `F` restricted to an interval, with point masses at its ends, as documented in
`/repo/scoringrules/_crps.py:1160-1237`.  Nothing here refers to the model.
-/

noncomputable section

open scoped Classical

namespace Verif.Spec

/-- `F` restricted to `[l, u]` with point mass `L` at `l` and `U` at `u`. -/
def cdfGtc (F : ℝ → ℝ) (l u L U x : ℝ) : ℝ :=
  if x < l then 0 else if x < u then L + (1 - L - U) * ((F x - F l) / (F u - F l)) else 1

/-- `F` restricted to `[l, ∞)` with point mass `L` at `l`. -/
def cdfGtcLo (F : ℝ → ℝ) (l L x : ℝ) : ℝ :=
  if x < l then 0 else L + (1 - L) * ((F x - F l) / (1 - F l))

/-- `F` restricted to `(-∞, u]` with point mass `U` at `u`. -/
def cdfGtcUp (F : ℝ → ℝ) (u U x : ℝ) : ℝ := if x < u then (1 - U) * (F x / F u) else 1

/-- `F` censored at `l` and `u`: values outside the interval are moved to its ends. -/
def cdfCens (F : ℝ → ℝ) (l u x : ℝ) : ℝ := if x < l then 0 else if x < u then F x else 1

/-- `F` censored from below at `l`. -/
def cdfCensLo (F : ℝ → ℝ) (l x : ℝ) : ℝ := if x < l then 0 else F x

/-- `F` censored from above at `u`. -/
def cdfCensUp (F : ℝ → ℝ) (u x : ℝ) : ℝ := if x < u then F x else 1

end Verif.Spec
