import Verif.Model.Grad
import Verif.Model.Api

/-!
# Gradients of the estimators of the ensemble CRPS by backpropagation

The array functions of `/repo/scoringrules/core/crps/_approx.py` as compositions of the operations of
`Verif.Model.Grad`.  Comparisons give numbers that do not depend on the leaf.
-/

noncomputable section

open scoped Classical

namespace Verif.Grad

open XF Py Node

/-- The members in ascending order: `B.argsort` and `B.gather` in `univariate_sort_ens`, `core/utils.py:195-198`
(`backend/torch.py:206-217, 311-312`, `backend/jax.py:192-201, 289-290`).  The order is found from the values, the
members keep their backward functions. -/
def sortN (fct : List Node) : List Node := (Api.argsort (fct.map val)).map (nget fct)

/-- `B.roll`, `backend/torch.py:314-315`, `backend/jax.py:292-293`. -/
def rollN (fct : List Node) (shift : ℕ) : List Node :=
  (List.range fct.length).map fun j => nget fct ((j + (fct.length - shift % fct.length)) % fct.length)

/-- shared first term, `core/crps/_approx.py:43`. -/
def crpsE1 (obs : Node) (fct : List Node) : Node :=
  sum (fct.map fun x => abs (obs - x)) / const (fct.length : XF)

/-- `_crps_ensemble_fair`, `core/crps/_approx.py:37-48`. -/
def crpsFair (obs : Node) (fct : List Node) : Node :=
  let M := fct.length
  let e2 := sum (fct.map fun a => sum (fct.map fun b => abs (a - b))) / const ((M * (M - 1) : ℕ) : XF)
  crpsE1 obs fct - const half * e2

/-- `_crps_ensemble_pwm`, `core/crps/_approx.py:62-71`. -/
def crpsPwm (obs : Node) (fct : List Node) : Node :=
  let M := fct.length
  let β0 := sum fct / const (M : XF)
  let β1 := sum (List.zipWith (· * ·) fct ((List.range M).map fun i : ℕ => const (i : XF)))
    / const ((M : XF) * ((M : XF) - 1))
  crpsE1 obs fct + β0 - const 2 * β1

/-- `_crps_ensemble_akr`, `core/crps/_approx.py:74-82`. -/
def crpsAkr (obs : Node) (fct : List Node) : Node :=
  let e2 := sum (List.zipWith (fun a b => abs (a - b)) fct (rollN fct 1)) / const (fct.length : XF)
  crpsE1 obs fct - const half * e2

/-- `_crps_ensemble_akr_circperm`, `core/crps/_approx.py:85-94`. -/
def crpsAkrCircperm (obs : Node) (fct : List Node) : Node :=
  let e2 := sum (List.zipWith (fun a b => abs (a - b)) fct (rollN fct (fct.length / 2))) / const (fct.length : XF)
  crpsE1 obs fct - const half * e2

/-- `_crps_ensemble_qd`, `core/crps/_approx.py:97-105`. -/
def crpsQd (obs : Node) (fct : List Node) : Node :=
  let M := fct.length
  let alpha := (List.range M).map fun i => const (((i + 1 : ℕ) : XF) - half)
  let below := List.zipWith (fun x a => const (ind (x.val ≤ obs.val)) * a * (obs - x)) fct alpha
  let above := List.zipWith (fun x a => const (ind (obs.val < x.val)) * (const (M : XF) - a) * (x - obs)) fct alpha
  let out := sum (List.zipWith (· + ·) below above) / const ((M ^ 2 : ℕ) : XF)
  const 2 * out

end Verif.Grad
