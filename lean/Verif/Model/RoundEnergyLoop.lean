import Verif.Model.RoundEnergy

/-!
# The energy score of the numba path computed with rounding

The functions of `namespace EsGufunc` in `Verif.Model.Energy` (`/repo/scoringrules/core/energy/_gufuncs.py`), with the
rounding function `r` applied after every arithmetic operation and the order of summation of the code.  Inside compiled
code `np.linalg.norm` of a vector is a library routine (`nrm2`) whose source is not part of the repository: the functions
below take it as an argument `N`, and the theorems assume a bound on its error.
-/

noncomputable section

open scoped Classical

namespace Verif

open XF Py Mv

namespace RndLoop

open Rnd

variable (r : ℝ → XF) (N : List XF → XF)

/-- the double loop of `core/energy/_gufuncs.py:21-27`, `46-52`, rounded. -/
def esLoop (obs : List XF) (fct : List (List XF)) : XF × XF :=
  forRange 0 fct.length ((0, 0) : XF × XF) fun i e =>
    (rd r (e.1 + N (Rnd.vsub r (vat fct i) obs)),
     forRange (i + 1) fct.length e.2 fun j e2 => rd r (e2 + rd r (2 * N (Rnd.vsub r (vat fct i) (vat fct j)))))

/-- `_energy_score_nrg_gufunc`, `core/energy/_gufuncs.py:15-29`, rounded.  `M**2` is an integer. -/
def esNrg (obs : List XF) (fct : List (List XF)) : XF :=
  let M := fct.length
  let e := esLoop r N obs fct
  rd r (rd r (e.1 / (M : XF)) - rd r (rd r (half / ((M ^ 2 : ℕ) : XF)) * e.2))

/-- `_energy_score_fair_gufunc`, `core/energy/_gufuncs.py:40-54`, rounded.  `M * (M - 1)` is an integer. -/
def esFair (obs : List XF) (fct : List (List XF)) : XF :=
  let M := fct.length
  let e := esLoop r N obs fct
  rd r (rd r (e.1 / (M : XF)) - rd r (rd r (half / ((M * (M - 1) : ℕ) : XF)) * e.2))

/-- the loop of `core/energy/_gufuncs.py:61-65`, `76-81`, rounded; `σ i` is the index of the partner of member `i`. -/
def esCirc (σ : ℕ → ℕ) (obs : List XF) (fct : List (List XF)) : XF × XF :=
  forRange 0 fct.length ((0, 0) : XF × XF) fun i e =>
    (rd r (e.1 + N (Rnd.vsub r (vat fct i) obs)), rd r (e.2 + N (Rnd.vsub r (vat fct i) (vat fct (σ i)))))

/-- `_energy_score_akr_gufunc`, `core/energy/_gufuncs.py:58-67`, rounded; `fct[i - 1]` with `i = 0` is the last member. -/
def esAkr (obs : List XF) (fct : List (List XF)) : XF :=
  let M := fct.length
  let e := esCirc r N (fun i => (if i = 0 then M else i) - 1) obs fct
  rd r (rd r (e.1 / (M : XF)) - rd r (rd r (rd r (half * 1) / (M : XF)) * e.2))

/-- `_energy_score_akr_circperm_gufunc`, `core/energy/_gufuncs.py:71-83`, rounded. -/
def esAkrCircperm (obs : List XF) (fct : List (List XF)) : XF :=
  let M := fct.length
  let e := esCirc r N (fun i => (i + M / 2) % M) obs fct
  rd r (rd r (e.1 / (M : XF)) - rd r (rd r (rd r (half * 1) / (M : XF)) * e.2))

end RndLoop

end Verif
