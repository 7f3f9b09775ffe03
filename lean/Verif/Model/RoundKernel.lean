import Verif.Model.RoundEnergy
import Verif.Model.Kernel

/-!
# The Gaussian kernel score computed with rounding

The functions `nrg` and `fair` of `namespace KsApprox` in `Verif.Model.Kernel`
(`/repo/scoringrules/core/kernels/_approx.py`), with the rounding function `r` applied after every arithmetic operation
and the order of summation left open (`RSum` in `Verif.Model.RoundEnergy`).  A product with `-0.5` is rounded like any other.
-/

noncomputable section

open scoped Classical

namespace Verif

open XF Py Mv

namespace Rnd

variable (r : ℝ → XF) (S : List XF → XF)

/-- `B.exp(-0.5 * x ** 2)`, `core/kernels/_approx.py:14`, `22`, rounded. -/
def gaussOf (x : XF) : XF := rd r (XF.exp (rd r (-half * rd r (x ^ 2))))

/-- `gauss_kern_uv`, `core/kernels/_approx.py:9-14`, rounded. -/
def kernUv (x1 x2 : XF) : XF := gaussOf r (rd r (x1 - x2))

/-- `gauss_kern_mv`, `core/kernels/_approx.py:17-22`, rounded. -/
def kernMv (x1 x2 : List XF) : XF := gaussOf r (vnorm r S (vsub r x1 x2))

variable {α : Type}

/-- `_ks_ensemble_nrg_uv`, `core/kernels/_approx.py:48-63`, and `_ks_ensemble_nrg_mv`, `core/kernels/_approx.py:146-161`, rounded,
for the rounded kernel `k`. -/
def ksNrg (k : α → α → XF) (obs : α) (fct : List α) : XF :=
  let M := fct.length
  let e1 := S (fct.map fun x => k obs x)
  let e2 := S (fct.flatMap fun a => fct.map fun b => k a b)
  let e3 := k obs obs
  Neg.neg (rd r (rd r (rd r (e1 / (M : XF)) - rd r (rd r (half * e2) / ((M ^ 2 : ℕ) : XF))) - rd r (half * e3)))

/-- `_ks_ensemble_fair_uv`, `core/kernels/_approx.py:66-82`, and `_ks_ensemble_fair_mv`, `core/kernels/_approx.py:164-180`, rounded,
for the rounded kernel `k`. -/
def ksFair (k : α → α → XF) (obs : α) (fct : List α) : XF :=
  let M := fct.length
  let e1 := S (fct.map fun x => k obs x)
  let e2 := rd r (S (fct.flatMap fun a => fct.map fun b => k a b) - S (fct.map fun x => k x x))
  let e3 := k obs obs
  Neg.neg (rd r (rd r (rd r (e1 / (M : XF)) - rd r (rd r (half * e2) / ((M * (M - 1) : ℕ) : XF))) - rd r (half * e3)))

end Rnd
end Verif
