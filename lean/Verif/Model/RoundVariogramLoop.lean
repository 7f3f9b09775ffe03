import Verif.Model.RoundVariogram

/-!
# The variogram score of the numba path computed with rounding

The functions `nrg` and `fair` of `namespace VsGufunc` in `Verif.Model.Variogram`
(`/repo/scoringrules/core/variogram/_gufuncs.py`), with the rounding function `r` applied after every arithmetic operation
and the order of summation of the code.  The power `** p` is correctly rounded here; the routine the compiled code calls
for it is not part of the repository.
-/

noncomputable section

open scoped Classical

namespace Verif

open XF Py Mv

namespace RndLoop

open Rnd

variable (r : ℝ → XF)

/-- `abs(x[i] - x[j]) ** p`, `core/variogram/_gufuncs.py:22`, `24`, `44-45`, `50-51`, rounded. -/
def vrho (p : ℝ) (x : List XF) (i j : ℕ) : XF := rd r (XF.rpow (XF.abs (rd r (idx x i - idx x j))) p)

/-- `_variogram_score_nrg_gufunc`, `core/variogram/_gufuncs.py:8-25`, rounded. -/
def vsNrg (w : List (List XF)) (p : ℝ) (obs : List XF) (fct : List (List XF)) : XF :=
  let M := fct.length
  let D := obs.length
  forRange 0 D (0 : XF) fun i out =>
    forRange 0 D out fun j out =>
      let vfct := forRange 0 M (0 : XF) fun m v => rd r (v + vrho r p (vat fct m) i j)
      let vfct := rd r (vfct / (M : XF))
      let vobs := vrho r p obs i j
      rd r (out + rd r (mget w i j * rd r (rd r (vobs - vfct) ^ 2)))

/-- `_variogram_score_fair_gufunc`, `core/variogram/_gufuncs.py:29-54`, rounded.  `M * (M - 1)` is an integer. -/
def vsFair (w : List (List XF)) (p : ℝ) (obs : List XF) (fct : List (List XF)) : XF :=
  let M := fct.length
  let D := obs.length
  let e := forRange 0 M ((0, 0) : XF × XF) fun k e =>
    (forRange 0 D e.1 fun i e1 => forRange 0 D e1 fun j e1 =>
      rd r (e1 + rd r (mget w i j * rd r (rd r (vrho r p (vat fct k) i j - vrho r p obs i j) ^ 2))),
     forRange (k + 1) M e.2 fun m e2 => forRange 0 D e2 fun i e2 => forRange 0 D e2 fun j e2 =>
      rd r (e2 + rd r (rd r (mget w i j * 2) * rd r (rd r (vrho r p (vat fct k) i j - vrho r p (vat fct m) i j) ^ 2))))
  rd r (rd r (e.1 / (M : XF)) - rd r (rd r (half * e.2) / ((M * (M - 1) : ℕ) : XF)))

end RndLoop
end Verif
