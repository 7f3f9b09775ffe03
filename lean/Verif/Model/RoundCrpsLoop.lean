import Verif.Model.RoundCrps

/-!
# The ensemble CRPS of the numba path computed with rounding

The functions of `namespace Gufunc` in `Verif.Model.Crps` (`/repo/scoringrules/core/crps/_gufuncs.py`), with the rounding
function `r` applied after every arithmetic operation.  The loops add in the order of the code.  Compiled code without
`fastmath` keeps this order.
-/

noncomputable section

open scoped Classical

namespace Verif

open XF Py

namespace RndLoop

variable (r : ℝ → XF)

open Rnd

/-- `_crps_ensemble_qd_gufunc`, `core/crps/_gufuncs.py:59-88`, rounded.  `M ** 2` is an integer. -/
def qd (obs : XF) (fct : List XF) : XF :=
  let M := fct.length
  if obs.isnan then nan else
  match forEnumM fct ((0, 0) : XF × XF) (fun i forecast s =>
      if forecast.isnan then none
      else
        let obsCdf := if obs < forecast then 1 else s.1
        some (obsCdf, rd r (s.2 + rd r (rd r (forecast - obs)
          * rd r (rd r (rd r ((M : XF) * obsCdf) - ((i + 1 : ℕ) : XF)) + half))))) with
  | none => nan
  | some s => rd r (rd r (2 / ((M ^ 2 : ℕ) : XF)) * s.2)

/-- The loops of `_crps_ensemble_nrg_gufunc` and `_crps_ensemble_fair_gufunc`, `core/crps/_gufuncs.py:107-113`,
`134-140`, rounded. -/
def pairLoop (obs : XF) (fct : List XF) : XF × XF :=
  forRange 0 fct.length ((0, 0) : XF × XF) fun i e =>
    (rd r (e.1 + adiff r (idx fct i) obs),
     forRange (i + 1) fct.length e.2 fun j e2 => rd r (e2 + rd r (2 * adiff r (idx fct j) (idx fct i))))

/-- `_crps_ensemble_nrg_gufunc`, `core/crps/_gufuncs.py:91-115`, rounded. -/
def nrg (obs : XF) (fct : List XF) : XF :=
  let M := fct.length
  if obs.isnan then nan else
  let e := pairLoop r obs fct
  rd r (rd r (e.1 / (M : XF)) - rd r (rd r (half * e.2) / ((M ^ 2 : ℕ) : XF)))

/-- `_crps_ensemble_fair_gufunc`, `core/crps/_gufuncs.py:118-142`, rounded. -/
def fair (obs : XF) (fct : List XF) : XF :=
  let M := fct.length
  if obs.isnan then nan else
  let e := pairLoop r obs fct
  rd r (rd r (e.1 / (M : XF)) - rd r (rd r (half * e.2) / ((M * (M - 1) : ℕ) : XF)))

/-- `_crps_ensemble_pwm_gufunc`, `core/crps/_gufuncs.py:145-163`, rounded.  `M * (M - 1)` is an integer. -/
def pwm (obs : XF) (fct : List XF) : XF :=
  let M := fct.length
  if obs.isnan then nan else
  let s := forEnum fct ((0, 0, 0) : XF × XF × XF) fun i forecast s =>
    (rd r (s.1 + adiff r forecast obs), rd r (s.2.1 + forecast), rd r (s.2.2 + rd r (forecast * (i : XF))))
  rd r (rd r (rd r (s.1 / (M : XF)) + rd r (s.2.1 / (M : XF))) - rd r (rd r (2 * s.2.2) / ((M * (M - 1) : ℕ) : XF)))

/-- `_crps_ensemble_akr_gufunc`, `core/crps/_gufuncs.py:166-177`, rounded. -/
def akr (obs : XF) (fct : List XF) : XF :=
  let M := fct.length
  let e := forEnum fct ((0, 0) : XF × XF) fun i forecast e =>
    let i' := if i = 0 then M else i
    (rd r (e.1 + adiff r forecast obs), rd r (e.2 + adiff r forecast (idx fct (i' - 1))))
  rd r (rd r (e.1 / (M : XF)) - rd r (rd r (rd r (half * 1) / (M : XF)) * e.2))

/-- `_crps_ensemble_akr_circperm_gufunc`, `core/crps/_gufuncs.py:180-192`, rounded.  The index is a float computation with
multiples of one half below `2 ^ 52`, which is exact in binary64. -/
def akrCircperm (obs : XF) (fct : List XF) : XF :=
  let M := fct.length
  let e := forEnum fct ((0, 0) : XF × XF) fun i forecast e =>
    (rd r (e.1 + adiff r forecast obs), rd r (e.2 + adiff r forecast (idx fct (Gufunc.sigma M i))))
  rd r (rd r (e.1 / (M : XF)) - rd r (rd r (rd r (half * 1) / (M : XF)) * e.2))

/-- The body of the loop of `_crps_ensemble_int_gufunc`, `core/crps/_gufuncs.py:37-52`, rounded; `w` is the rounded
`1 / M`. -/
def intStep (w obs forecast : XF) (s : Gufunc.IntSt) : Option Gufunc.IntSt :=
  if forecast.isnan then none
  else
    let s' : Gufunc.IntSt :=
      if s.obsCdf = false ∧ obs < forecast then
        { s with
          integral := rd r (rd r (s.integral + rd r (rd r (obs - s.prev) * rd r (s.fcCdf ^ 2)))
            + rd r (rd r (forecast - obs) * rd r (rd r (s.fcCdf - 1) ^ 2)))
          obsCdf := true }
      else
        { s with
          integral := rd r (s.integral + rd r (rd r (rd r (s.fcCdf - s.obsCdfX) ^ 2) * rd r (forecast - s.prev))) }
    some { s' with
      fcCdf := rd r (s'.fcCdf + w)
      prev := forecast
      forecast := forecast }

/-- `_crps_ensemble_int_gufunc`, `core/crps/_gufuncs.py:23-56`, rounded.  `x ** 2` is one multiplication.  For an empty
ensemble the Python code would fail on the unbound loop variable; here `forecast` starts as NaN. -/
def int (obs : XF) (fct : List XF) : XF :=
  if obs.isnan then nan else
  match forEnumM fct (⟨false, 0, 0, 0, nan⟩ : Gufunc.IntSt) (fun _ forecast s =>
      intStep r (rd r (1 / (fct.length : XF))) obs forecast s) with
  | none => nan
  | some s => if s.obsCdf = false then rd r (s.integral + rd r (obs - s.forecast)) else s.integral

end RndLoop
end Verif
