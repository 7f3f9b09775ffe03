import Verif.Model.EnergyNp
import Verif.Model.Kernel

/-!
# The vectorised Gaussian kernel scores on whole arrays

Literal transcription of `/repo/scoringrules/core/kernels/_approx.py` and `_approx_w.py` with the array
operations of `Verif.Model.Np`: every new axis, every axis argument and every broadcast is executed.  The
formulas for a single observation and its ensemble are in `Verif.Model.Kernel`.  The weighted functions call
the kernel of `(obs, obs)` without handing the backend on in places (`_approx_w.py:65`, `87`, `174`, `198`);
here there is one backend.
-/

noncomputable section

open scoped Classical

namespace Verif

open XF Py Np

namespace KernelNp

open CrpsNp (lastLen)
open EnergyNp (nMembers)

/-- `gauss_kern_uv`, `core/kernels/_approx.py:9-14`. -/
def kernUv (x1 x2 : Arr XF) : Except Err (Arr XF) := do
  .ok ((← Arr.map2 (· - ·) x1 x2).map fun d => XF.exp (-half * d ^ 2))

/-- `gauss_kern_mv`, `core/kernels/_approx.py:17-22`. -/
def kernMv (x1 x2 : Arr XF) : Except Err (Arr XF) := do
  .ok ((← normLast (← Arr.map2 (· - ·) x1 x2)).map fun d => XF.exp (-half * d ^ 2))

/-- `-(e_1 - 0.5 * e_2 - 0.5 * e_3)`, e.g. `core/kernels/_approx.py:61-63`. -/
def combine (e1 e2 e3 : Arr XF) : Except Err (Arr XF) := do
  let out ← Arr.map2 (· - ·) (← Arr.map2 (· - ·) e1 (e2.map fun x => half * x)) (e3.map fun x => half * x)
  .ok (out.map Neg.neg)

/-- `gauss_kern_uv(obs[..., None], fct)`, e.g. `core/kernels/_approx.py:54`. -/
def errUv (obs fct : Arr XF) : Except Err (Arr XF) := do kernUv (← expandDims obs [-1]) fct

/-- `gauss_kern_uv(fct[..., None], fct[..., None, :])`, e.g. `core/kernels/_approx.py:56`. -/
def pairUv (fct : Arr XF) : Except Err (Arr XF) := do
  kernUv (← expandDims fct [-1]) (← expandDims fct [-2])

/-- `gauss_kern_mv(B.expand_dims(obs, -2), fct)`, e.g. `core/kernels/_approx.py:152`. -/
def errMv (obs fct : Arr XF) : Except Err (Arr XF) := do kernMv (← expandDims obs [-2]) fct

/-- `gauss_kern_mv(B.expand_dims(fct, -3), B.expand_dims(fct, -2))`, e.g. `core/kernels/_approx.py:154`. -/
def pairMv (fct : Arr XF) : Except Err (Arr XF) := do
  kernMv (← expandDims fct [-3]) (← expandDims fct [-2])

/-- `_ks_ensemble_nrg_uv`, `core/kernels/_approx.py:48-63`. -/
def nrgUv (obs fct : Arr XF) : Except Err (Arr XF) := do
  let M := lastLen fct
  let e1 ← sumAxis (← errUv obs fct) (-1)
  let e2 ← sumLast2 (← pairUv fct)
  let e3 ← kernUv obs obs
  let a ← Arr.map2 (· - ·) (e1.map fun x => x / (M : XF))
    (e2.map fun x => half * x / ((M ^ 2 : ℕ) : XF))
  let out ← Arr.map2 (· - ·) a (e3.map fun x => half * x)
  .ok (out.map Neg.neg)

/-- `_ks_ensemble_fair_uv`, `core/kernels/_approx.py:66-82`. -/
def fairUv (obs fct : Arr XF) : Except Err (Arr XF) := do
  let M := lastLen fct
  let e1 ← sumAxis (← errUv obs fct) (-1)
  let e2 ← sumLast2 (← pairUv fct)
  let e2 ← inplace (· - ·) e2 (← sumAxis (← kernUv fct fct) (-1))
  let e3 ← kernUv obs obs
  let a ← Arr.map2 (· - ·) (e1.map fun x => x / (M : XF))
    (e2.map fun x => half * x / ((M * (M - 1) : ℕ) : XF))
  let out ← Arr.map2 (· - ·) a (e3.map fun x => half * x)
  .ok (out.map Neg.neg)

/-- `_ks_ensemble_akr_uv`, `core/kernels/_approx.py:85-99`. -/
def akrUv (obs fct : Arr XF) : Except Err (Arr XF) := do
  let M := lastLen fct
  let e1 ← sumAxis (← errUv obs fct) (-1)
  let e2 ← sumAxis (← kernUv fct (← roll fct 1 (-1))) (-1)
  let e3 ← kernUv obs obs
  let a ← Arr.map2 (· - ·) (e1.map fun x => x / (M : XF)) (e2.map fun x => half * x / (M : XF))
  let out ← Arr.map2 (· - ·) a (e3.map fun x => half * x)
  .ok (out.map Neg.neg)

/-- `_ks_ensemble_akr_circperm_uv`, `core/kernels/_approx.py:102-117`. -/
def akrCircpermUv (obs fct : Arr XF) : Except Err (Arr XF) := do
  let M := lastLen fct
  let e1 ← sumAxis (← errUv obs fct) (-1)
  let e2 ← sumAxis (← kernUv fct (← roll fct (M / 2) (-1))) (-1)
  let e3 ← kernUv obs obs
  let a ← Arr.map2 (· - ·) (e1.map fun x => x / (M : XF)) (e2.map fun x => half * x / (M : XF))
  let out ← Arr.map2 (· - ·) a (e3.map fun x => half * x)
  .ok (out.map Neg.neg)

/-- `_ks_ensemble_nrg_mv`, `core/kernels/_approx.py:146-161`. -/
def nrgMv (obs fct : Arr XF) : Except Err (Arr XF) := do
  let M := nMembers fct
  let e1 ← sumAxis (← errMv obs fct) (-1)
  let e2 ← sumLast2 (← pairMv fct)
  let e3 ← kernMv obs obs
  let a ← Arr.map2 (· - ·) (e1.map fun x => x / (M : XF))
    (e2.map fun x => half * x / ((M ^ 2 : ℕ) : XF))
  let out ← Arr.map2 (· - ·) a (e3.map fun x => half * x)
  .ok (out.map Neg.neg)

/-- `_ks_ensemble_fair_mv`, `core/kernels/_approx.py:164-180`. -/
def fairMv (obs fct : Arr XF) : Except Err (Arr XF) := do
  let M := nMembers fct
  let e1 ← sumAxis (← errMv obs fct) (-1)
  let e2 ← sumLast2 (← pairMv fct)
  let e2 ← inplace (· - ·) e2 (← sumAxis (← kernMv fct fct) (-1))
  let e3 ← kernMv obs obs
  let a ← Arr.map2 (· - ·) (e1.map fun x => x / (M : XF))
    (e2.map fun x => half * x / ((M * (M - 1) : ℕ) : XF))
  let out ← Arr.map2 (· - ·) a (e3.map fun x => half * x)
  .ok (out.map Neg.neg)

/-- `_ks_ensemble_akr_mv`, `core/kernels/_approx.py:183-197`. -/
def akrMv (obs fct : Arr XF) : Except Err (Arr XF) := do
  let M := nMembers fct
  let e1 ← sumAxis (← errMv obs fct) (-1)
  let e2 ← sumAxis (← kernMv fct (← roll fct 1 (-2))) (-1)
  let e3 ← kernMv obs obs
  let a ← Arr.map2 (· - ·) (e1.map fun x => x / (M : XF)) (e2.map fun x => half * x / (M : XF))
  let out ← Arr.map2 (· - ·) a (e3.map fun x => half * x)
  .ok (out.map Neg.neg)

/-- `_ks_ensemble_akr_circperm_mv`, `core/kernels/_approx.py:200-215`. -/
def akrCircpermMv (obs fct : Arr XF) : Except Err (Arr XF) := do
  let M := nMembers fct
  let e1 ← sumAxis (← errMv obs fct) (-1)
  let e2 ← sumAxis (← kernMv fct (← roll fct (M / 2) (-2))) (-1)
  let e3 ← kernMv obs obs
  let a ← Arr.map2 (· - ·) (e1.map fun x => x / (M : XF)) (e2.map fun x => half * x / (M : XF))
  let out ← Arr.map2 (· - ·) a (e3.map fun x => half * x)
  .ok (out.map Neg.neg)

/-- `ow_ensemble_uv`, `core/kernels/_approx.py:218-244`. -/
def owUv (obs fct ow fw : Arr XF) : Except Err (Arr XF) := do
  let M := lastLen fct
  let wbar ← meanAxis fw (-1)
  let e1 ← sumAxis (← Arr.map2 (· * ·) (← errUv obs fct) fw) (-1)
  let e1 ← Arr.map2 (· / ·) (← Arr.map2 (· * ·) e1 ow) (wbar.map fun x => (M : XF) * x)
  let e2 ← sumLast2 (← Arr.map2 (· * ·)
    (← Arr.map2 (· * ·) (← pairUv fct) (← expandDims fw [-1])) (← expandDims fw [-2]))
  let e2 ← inplace (· * ·) e2 (← Arr.map2 (· / ·) ow (wbar.map fun x => ((M ^ 2 : ℕ) : XF) * x ^ 2))
  let e3 ← Arr.map2 (· * ·) (← kernUv obs obs) ow
  combine e1 e2 e3

/-- `ow_ensemble_mv`, `core/kernels/_approx.py:247-276`. -/
def owMv (obs fct ow fw : Arr XF) : Except Err (Arr XF) := do
  let M := nMembers fct
  let wbar := (← sumAxis fw (-1)).map fun x => x / (M : XF)
  let err ← errMv obs fct
  let e1 ← sumAxis (← Arr.map2 (· * ·) (← Arr.map2 (· * ·) err fw) (← expandDims ow [-1])) (-1)
  let e1 ← Arr.map2 (· / ·) e1 (wbar.map fun x => (M : XF) * x)
  let spread ← pairMv fct
  let fwProd ← Arr.map2 (· * ·) (← expandDims fw [-1]) (← expandDims fw [-2])
  let spread ← inplace (· * ·) spread (← Arr.map2 (· * ·) fwProd (← expandDims ow [-2, -1]))
  let e2 ← Arr.map2 (· / ·) (← sumLast2 spread) (wbar.map fun x => ((M ^ 2 : ℕ) : XF) * x ^ 2)
  let e3 ← Arr.map2 (· * ·) (← kernMv obs obs) ow
  combine e1 e2 e3

/-- `vr_ensemble_uv`, `core/kernels/_approx.py:279-308`. -/
def vrUv (obs fct ow fw : Arr XF) : Except Err (Arr XF) := do
  let M := lastLen fct
  let e1 ← sumAxis (← Arr.map2 (· * ·) (← errUv obs fct) fw) (-1)
  let e1 := (← Arr.map2 (· * ·) e1 ow).map fun x => x / (M : XF)
  let pair ← pairUv fct
  let fwProd ← Arr.map2 (· * ·) (← expandDims fw [-1]) (← expandDims fw [-2])
  let e2 := (← sumLast2 (← Arr.map2 (· * ·) pair fwProd)).map fun x => x / ((M ^ 2 : ℕ) : XF)
  let e3 ← Arr.map2 (· * ·) (← Arr.map2 (· * ·) (← kernUv obs obs) ow) ow
  combine e1 e2 e3

/-- `vr_ensemble_mv`, `core/kernels/_approx.py:311-339`. -/
def vrMv (obs fct ow fw : Arr XF) : Except Err (Arr XF) := do
  let M := nMembers fct
  let err ← errMv obs fct
  let e1 := (← sumAxis (← Arr.map2 (· * ·) (← Arr.map2 (· * ·) err fw) (← expandDims ow [-1])) (-1)).map
    fun x => x / (M : XF)
  let spread ← pairMv fct
  let fwProd ← Arr.map2 (· * ·) (← expandDims fw [-1]) (← expandDims fw [-2])
  let spread ← inplace (· * ·) spread fwProd
  let e2 := (← sumLast2 spread).map fun x => x / ((M ^ 2 : ℕ) : XF)
  let e3 ← Arr.map2 (· * ·) (← Arr.map2 (· * ·) (← kernMv obs obs) ow) ow
  combine e1 e2 e3

end KernelNp

namespace KernelNpW

open CrpsNp (lastLen)
open EnergyNp (nMembers)
open KernelNp (kernUv kernMv errUv pairUv errMv pairMv combine)

/-- `B.sum(a * B.expand_dims(ens_w, -1) * B.expand_dims(ens_w, -2), axis=(-2, -1))`, e.g.
`core/kernels/_approx_w.py:59-64`. -/
def pairSum (a w : Arr XF) : Except Err (Arr XF) := do
  sumLast2 (← Arr.map2 (· * ·) (← Arr.map2 (· * ·) a (← expandDims w [-1])) (← expandDims w [-2]))

/-- `_ks_ensemble_nrg_uv_w`, `core/kernels/_approx_w.py:49-68`. -/
def nrgUv (obs fct w : Arr XF) : Except Err (Arr XF) := do
  let e1 ← sumAxis (← Arr.map2 (· * ·) (← errUv obs fct) w) (-1)
  let e2 ← pairSum (← pairUv fct) w
  combine e1 e2 (← kernUv obs obs)

/-- `_ks_ensemble_fair_uv_w`, `core/kernels/_approx_w.py:71-92`. -/
def fairUv (obs fct w : Arr XF) : Except Err (Arr XF) := do
  let e1 ← sumAxis (← Arr.map2 (· * ·) (← errUv obs fct) w) (-1)
  let e2 ← pairSum (← pairUv fct) w
  let e3 ← kernUv obs obs
  let fairC := (← sumAxis (← Arr.map2 (· * ·) w w) (-1)).map fun x => 1 - x
  let a ← Arr.map2 (· - ·) e1 (← Arr.map2 (· / ·) (e2.map fun x => half * x) fairC)
  let out ← Arr.map2 (· - ·) a (e3.map fun x => half * x)
  .ok (out.map Neg.neg)

/-- `_ks_ensemble_nrg_mv_w`, `core/kernels/_approx_w.py:156-177`. -/
def nrgMv (obs fct w : Arr XF) : Except Err (Arr XF) := do
  let e1 ← sumAxis (← Arr.map2 (· * ·) w (← errMv obs fct)) (-1)
  let e2 ← pairSum (← pairMv fct) w
  combine e1 e2 (← kernMv obs obs)

/-- `_ks_ensemble_fair_mv_w`, `core/kernels/_approx_w.py:180-203`. -/
def fairMv (obs fct w : Arr XF) : Except Err (Arr XF) := do
  let e1 ← sumAxis (← Arr.map2 (· * ·) w (← errMv obs fct)) (-1)
  let e2 ← pairSum (← pairMv fct) w
  let e3 ← kernMv obs obs
  let fairC := (← sumAxis (← Arr.map2 (· * ·) w w) (-1)).map fun x => 1 - x
  let a ← Arr.map2 (· - ·) e1 (← Arr.map2 (· / ·) (e2.map fun x => half * x) fairC)
  let out ← Arr.map2 (· - ·) a (e3.map fun x => half * x)
  .ok (out.map Neg.neg)

/-- `_ks_ensemble_akr_uv_w`, `core/kernels/_approx_w.py:95-110`. -/
def akrUv (obs fct w : Arr XF) : Except Err (Arr XF) := do
  let e1 ← sumAxis (← Arr.map2 (· * ·) (← errUv obs fct) w) (-1)
  let e2 ← sumAxis (← Arr.map2 (· * ·) (← kernUv fct (← roll fct 1 (-1))) w) (-1)
  combine e1 e2 (← kernUv obs obs)

/-- `_ks_ensemble_akr_circperm_uv_w`, `core/kernels/_approx_w.py:113-129`. -/
def akrCircpermUv (obs fct w : Arr XF) : Except Err (Arr XF) := do
  let M := lastLen fct
  let e1 ← sumAxis (← Arr.map2 (· * ·) (← errUv obs fct) w) (-1)
  let e2 ← sumAxis (← Arr.map2 (· * ·) (← kernUv fct (← roll fct (M / 2) (-1))) w) (-1)
  combine e1 e2 (← kernUv obs obs)

/-- `_ks_ensemble_akr_mv_w`, `core/kernels/_approx_w.py:206-222`. -/
def akrMv (obs fct w : Arr XF) : Except Err (Arr XF) := do
  let e1 ← sumAxis (← Arr.map2 (· * ·) (← errMv obs fct) w) (-1)
  let e2 ← sumAxis (← Arr.map2 (· * ·) (← kernMv fct (← roll fct 1 (-2))) w) (-1)
  combine e1 e2 (← kernMv obs obs)

/-- `_ks_ensemble_akr_circperm_mv_w`, `core/kernels/_approx_w.py:225-243`. -/
def akrCircpermMv (obs fct w : Arr XF) : Except Err (Arr XF) := do
  let M := nMembers fct
  let e1 ← sumAxis (← Arr.map2 (· * ·) (← errMv obs fct) w) (-1)
  let e2 ← sumAxis (← Arr.map2 (· * ·) (← kernMv fct (← roll fct (M / 2) (-2))) w) (-1)
  combine e1 e2 (← kernMv obs obs)

/-- `B.sum(ens_w[..., None] * ens_w[..., None, :] * gauss_kern_uv(...) * fw[..., None] * fw[..., None, :],
axis=(-1, -2))`, `core/kernels/_approx_w.py:262-269`, `326-333`. -/
def owPairUv (fct fw w : Arr XF) : Except Err (Arr XF) := do
  let ww ← Arr.map2 (· * ·) (← expandDims w [-1]) (← expandDims w [-2])
  let a ← Arr.map2 (· * ·) ww (← pairUv fct)
  sumLast2 (← Arr.map2 (· * ·) (← Arr.map2 (· * ·) a (← expandDims fw [-1])) (← expandDims fw [-2]))

/-- `ow_ensemble_uv_w`, `core/kernels/_approx_w.py:246-274`. -/
def owUv (obs fct ow fw w : Arr XF) : Except Err (Arr XF) := do
  let wbar ← sumAxis (← Arr.map2 (· * ·) w fw) (-1)
  let e1 ← sumAxis (← Arr.map2 (· * ·) (← Arr.map2 (· * ·) w (← errUv obs fct)) fw) (-1)
  let e1 ← Arr.map2 (· / ·) (← Arr.map2 (· * ·) e1 ow) wbar
  let e2 ← owPairUv fct fw w
  let e2 ← inplace (· * ·) e2 (← Arr.map2 (· / ·) ow (wbar.map fun x => x ^ 2))
  let e3 ← Arr.map2 (· * ·) (← kernUv obs obs) ow
  combine e1 e2 e3

/-- `ow_ensemble_mv_w`, `core/kernels/_approx_w.py:277-308`. -/
def owMv (obs fct ow fw w : Arr XF) : Except Err (Arr XF) := do
  let wbar ← sumAxis (← Arr.map2 (· * ·) fw w) (-1)
  let err ← errMv obs fct
  let e1 ← sumAxis (← Arr.map2 (· * ·)
    (← Arr.map2 (· * ·) (← Arr.map2 (· * ·) err fw) (← expandDims ow [-1])) w) (-1)
  let e1 ← Arr.map2 (· / ·) e1 wbar
  let spread ← pairMv fct
  let fwProd ← Arr.map2 (· * ·) (← expandDims fw [-1]) (← expandDims fw [-2])
  let spread ← inplace (· * ·) spread (← Arr.map2 (· * ·) fwProd (← expandDims ow [-2, -1]))
  let e2 ← Arr.map2 (· / ·) (← pairSum spread w) (wbar.map fun x => x ^ 2)
  let e3 ← Arr.map2 (· * ·) (← kernMv obs obs) ow
  combine e1 e2 e3

/-- `vr_ensemble_uv_w`, `core/kernels/_approx_w.py:311-338`. -/
def vrUv (obs fct ow fw w : Arr XF) : Except Err (Arr XF) := do
  let e1 ← sumAxis (← Arr.map2 (· * ·) (← Arr.map2 (· * ·) w (← errUv obs fct)) fw) (-1)
  let e1 ← Arr.map2 (· * ·) e1 ow
  let e2 ← owPairUv fct fw w
  let e3 ← Arr.map2 (· * ·) (← Arr.map2 (· * ·) (← kernUv obs obs) ow) ow
  combine e1 e2 e3

/-- `vr_ensemble_mv_w`, `core/kernels/_approx_w.py:341-371`. -/
def vrMv (obs fct ow fw w : Arr XF) : Except Err (Arr XF) := do
  let err ← errMv obs fct
  let e1 ← sumAxis (← Arr.map2 (· * ·)
    (← Arr.map2 (· * ·) (← Arr.map2 (· * ·) err fw) (← expandDims ow [-1])) w) (-1)
  let spread ← pairMv fct
  let fwProd ← Arr.map2 (· * ·) (← expandDims fw [-1]) (← expandDims fw [-2])
  let spread ← inplace (· * ·) spread fwProd
  let e2 ← pairSum spread w
  let e3 ← Arr.map2 (· * ·) (← Arr.map2 (· * ·) (← kernMv obs obs) ow) ow
  combine e1 e2 e3

end KernelNpW
end Verif
