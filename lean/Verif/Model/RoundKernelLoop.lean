import Verif.Model.RoundKernel

/-!
# The Gaussian kernel score of the numba path computed with rounding

The functions `nrg`, `fair`, `akr` and `akrCircperm` of `namespace KsGufunc` in `Verif.Model.Kernel`
(`/repo/scoringrules/core/kernels/_gufuncs.py`), with the rounding function `r` applied after every arithmetic operation
and the order of summation of the code.  The rounded kernel `k` is an argument: `Rnd.kernUv` on the line and `kernMv`
below for vectors.  `M**2` and `M * (M - 1)` are integers.  The test for a NaN observation is `Api.nanGuard`.
-/

noncomputable section

open scoped Classical

namespace Verif

open XF Py Mv

namespace RndLoop

open Rnd

variable (r : ℝ → XF)

/-- `_gauss_kern_mv`, `core/kernels/_gufuncs.py:16-20`, rounded.  `np.linalg.norm` is a library routine in compiled code and
an argument `N` here, as in `Verif.Model.RoundEnergyLoop`. -/
def kernMv (N : List XF → XF) (x1 x2 : List XF) : XF := gaussOf r (N (Rnd.vsub r x1 x2))

variable {α : Type} (k : α → α → XF) (d : α)

/-- `_ks_ensemble_uv_nrg_gufunc`, `core/kernels/_gufuncs.py:32-41`, and `_ks_ensemble_mv_nrg_gufunc`,
`core/kernels/_gufuncs.py:165-175`, rounded. -/
def ksNrg (obs : α) (fct : List α) : XF :=
  let M := fct.length
  let e := forRange 0 M ((0, 0) : XF × XF) fun i e =>
    (rd r (e.1 + k (fct.getD i d) obs),
     forRange 0 M e.2 fun j e2 => rd r (e2 + k (fct.getD i d) (fct.getD j d)))
  let e3 := k obs obs
  Neg.neg (rd r (rd r (rd r (e.1 / (M : XF)) - rd r (half * rd r (e.2 / ((M ^ 2 : ℕ) : XF)))) - rd r (half * e3)))

/-- the body of the fair form with `kk` the kernel of two members, `core/kernels/_gufuncs.py:53-62`, `181-191`, rounded. -/
def ksFairOf (kk : α → α → XF) (obs : α) (fct : List α) : XF :=
  let M := fct.length
  let e := forRange 0 M ((0, 0) : XF × XF) fun i e =>
    (rd r (e.1 + k (fct.getD i d) obs),
     forRange (i + 1) M e.2 fun j e2 => rd r (e2 + kk (fct.getD i d) (fct.getD j d)))
  let e3 := k obs obs
  Neg.neg (rd r (rd r (rd r (e.1 / (M : XF)) - rd r (e.2 / ((M * (M - 1) : ℕ) : XF))) - rd r (half * e3)))

/-- `_ks_ensemble_uv_fair_gufunc`, `core/kernels/_gufuncs.py:44-62`, rounded; the two members go to the kernel as
`(fct[j], fct[i])`. -/
def ksFairUv : XF → List XF → XF := ksFairOf r (kernUv r) nan fun a b => kernUv r b a

/-- `_ks_ensemble_mv_fair_gufunc`, `core/kernels/_gufuncs.py:178-191`, rounded; the two members go to the kernel as
`(fct[i], fct[j])`. -/
def ksFairMv (N : List XF → XF) : List XF → List (List XF) → XF := ksFairOf r (kernMv r N) [] (kernMv r N)

/-- the loop and the last line of the `akr` forms; `σ M i` is the index of the partner of member `i`,
`core/kernels/_gufuncs.py:74-81`, `95-103`, `197-206`, `214-224`, rounded. -/
def ksCirc (σ : ℕ → ℕ → ℕ) (obs : α) (fct : List α) : XF :=
  let M := fct.length
  let e := forRange 0 M ((0, 0) : XF × XF) fun i e =>
    (rd r (e.1 + k (fct.getD i d) obs), rd r (e.2 + k (fct.getD i d) (fct.getD (σ M i) d)))
  let e3 := k obs obs
  Neg.neg (rd r (rd r (rd r (e.1 / (M : XF)) - rd r (rd r (half * e.2) / (M : XF))) - rd r (half * e3)))

/-- `_ks_ensemble_uv_akr_gufunc`, `core/kernels/_gufuncs.py:65-81`, and `_ks_ensemble_mv_akr_gufunc`,
`core/kernels/_gufuncs.py:194-206`, rounded; `fct[i - 1]` with `i = 0` is the last member. -/
def ksAkr (obs : α) (fct : List α) : XF := ksCirc r k d (fun M i => (if i = 0 then M else i) - 1) obs fct

/-- `_ks_ensemble_uv_akr_circperm_gufunc`, `core/kernels/_gufuncs.py:84-103`, and `_ks_ensemble_mv_akr_circperm_gufunc`,
`core/kernels/_gufuncs.py:209-224`, rounded. -/
def ksAkrCircperm (obs : α) (fct : List α) : XF := ksCirc r k d Gufunc.sigma obs fct

end RndLoop
end Verif
