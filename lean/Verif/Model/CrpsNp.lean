import Verif.Model.Np
import Verif.Model.Crps

/-!
# The vectorised CRPS formulas on whole arrays

Literal transcription of `/repo/scoringrules/core/crps/_approx.py` and `_approx_w.py` with the array
operations of `Verif.Model.Np`: every `[..., None]`, every axis argument and every broadcast is executed.
The formulas for a single slice are in `Verif.Model.Crps`.
-/

noncomputable section

open scoped Classical

namespace Verif

open XF Py Np

namespace CrpsNp

/-- `fct.shape[-1]` (e.g. `core/crps/_approx.py:42`); the forecast array has at least one axis. -/
def lastLen (a : Arr XF) : ℕ := a.shape.getLastD 0

/-- `B.abs(obs[..., None] - fct)`, e.g. `core/crps/_approx.py:43`. -/
def absErr (obs fct : Arr XF) : Except Err (Arr XF) := do
  let d ← Arr.map2 (· - ·) (← expandDims obs [-1]) fct
  .ok (d.map XF.abs)

/-- `B.sum(B.abs(obs[..., None] - fct), axis=-1) / M`, e.g. `core/crps/_approx.py:43`. -/
def e1 (obs fct : Arr XF) : Except Err (Arr XF) := do
  let s ← sumAxis (← absErr obs fct) (-1)
  .ok (s.map fun x => x / (lastLen fct : XF))

/-- `B.abs(fct[..., None] - fct[..., None, :])`, e.g. `core/crps/_approx.py:45`. -/
def pairDiff (fct : Arr XF) : Except Err (Arr XF) := do
  let d ← Arr.map2 (· - ·) (← expandDims fct [-1]) (← expandDims fct [-2])
  .ok (d.map XF.abs)

/-- `e_1 - 0.5 * e_2`, e.g. `core/crps/_approx.py:48`. -/
def combine (e1 e2 : Arr XF) : Except Err (Arr XF) := Arr.map2 (· - ·) e1 (e2.map fun x => half * x)

/-- `_crps_ensemble_fair`, `core/crps/_approx.py:37-48`. -/
def fair (obs fct : Arr XF) : Except Err (Arr XF) := do
  let M := lastLen fct
  let e1 ← e1 obs fct
  let e2 ← sumLast2 (← pairDiff fct)
  combine e1 (e2.map fun x => x / ((M * (M - 1) : ℕ) : XF))

/-- `_crps_ensemble_nrg`, `core/crps/_approx.py:51-59`. -/
def nrg (obs fct : Arr XF) : Except Err (Arr XF) := do
  let M := lastLen fct
  let e1 ← e1 obs fct
  let e2 ← sumLast2 (← pairDiff fct)
  combine e1 (e2.map fun x => x / ((M ^ 2 : ℕ) : XF))

/-- `_crps_ensemble_pwm`, `core/crps/_approx.py:62-71`. -/
def pwm (obs fct : Arr XF) : Except Err (Arr XF) := do
  let M := lastLen fct
  let d ← e1 obs fct
  let β0 := (← sumAxis fct (-1)).map fun x => x / (M : XF)
  let β1 := (← sumAxis (← Arr.map2 (· * ·) fct (arange 0 M)) (-1)).map fun x =>
    x / ((M : XF) * ((M : XF) - 1))
  Arr.map2 (· - ·) (← Arr.map2 (· + ·) d β0) (β1.map fun x => 2 * x)

/-- `B.sum(B.abs(fct - B.roll(fct, shift=shift, axis=-1)), -1) / M`, `core/crps/_approx.py:81`, `93`. -/
def rollTerm (fct : Arr XF) (shift : ℕ) : Except Err (Arr XF) := do
  let d ← Arr.map2 (· - ·) fct (← roll fct shift (-1))
  let s ← sumAxis (d.map XF.abs) (-1)
  .ok (s.map fun x => x / (lastLen fct : XF))

/-- `_crps_ensemble_akr`, `core/crps/_approx.py:74-82`. -/
def akr (obs fct : Arr XF) : Except Err (Arr XF) := do
  combine (← e1 obs fct) (← rollTerm fct 1)

/-- `_crps_ensemble_akr_circperm`, `core/crps/_approx.py:85-94`. -/
def akrCircperm (obs fct : Arr XF) : Except Err (Arr XF) := do
  let M := lastLen fct
  combine (← e1 obs fct) (← rollTerm fct (M / 2))

/-- `_crps_ensemble_qd`, `core/crps/_approx.py:97-105`; a boolean times a number is `XF.ind`. -/
def qd (obs fct : Arr XF) : Except Err (Arr XF) := do
  let M := lastLen fct
  let alpha := (arange 1 M).map fun x => x - half
  let o ← expandDims obs [-1]
  let le ← Arr.map2 (fun x y => ind (x ≤ y)) fct o
  let below ← Arr.map2 (· * ·) (← Arr.map2 (· * ·) le alpha) (← Arr.map2 (· - ·) o fct)
  let gt ← Arr.map2 (fun x y => ind (y < x)) fct o
  let above ← Arr.map2 (· * ·) (← Arr.map2 (· * ·) gt (alpha.map fun a => (M : XF) - a))
    (← Arr.map2 (· - ·) fct o)
  let out := (← sumAxis (← Arr.map2 (· + ·) below above) (-1)).map fun x => x / ((M ^ 2 : ℕ) : XF)
  .ok (out.map fun x => 2 * x)

/-- the common end of `_crps_ensemble_int` and `_crps_ensemble_int_w` from the sorted
`concat((fct_cdf, y_pos))` on, `core/crps/_approx.py:116-123`, `core/crps/_approx_w.py:123-130`. -/
def intTail (obs fct fctCdf yPos : Arr XF) : Except Err (Arr XF) := do
  let M := lastLen fct
  let o ← expandDims obs [-1]
  let fctCdf := (← concatLast fctCdf yPos).mapRows sort
  let fctExp := (← concatLast fct o).mapRows sort
  let fctDif ← Arr.map2 (· - ·) (takeLast fctExp ((List.range M).map (· + 1)))
    (takeLast fctExp (List.range M))
  let obsCdf ← Arr.map2 (fun y x => ind (y ≤ x) * 1) o fctExp
  let dif := (← Arr.map2 (· - ·) (takeLast fctCdf (List.range M)) (takeLast obsCdf (List.range M))).map
    fun x => x ^ 2
  sumAxis (← Arr.map2 (· * ·) fctDif dif) (-1)

/-- `_crps_ensemble_int`, `core/crps/_approx.py:108-123`; `keepdims=True` is a new last axis. -/
def int (obs fct : Arr XF) : Except Err (Arr XF) := do
  let M := lastLen fct
  let o ← expandDims obs [-1]
  let le ← Arr.map2 (fun x y => ind (x ≤ y) * 1) fct o
  let yPos ← expandDims (← meanAxis le (-1)) [-1]
  let zeros : Arr XF := ⟨fct.shape, fun _ => 0⟩
  let fctCdf ← Arr.map2 (· + ·) zeros ((arange 1 M).map fun x => x / (M : XF))
  intTail obs fct fctCdf yPos

/-- `quantile_pinball`, `core/crps/_approx.py:126-133`. -/
def quantilePinball (obs fct alpha : Arr XF) : Except Err (Arr XF) := do
  let o ← expandDims obs [-1]
  let le ← Arr.map2 (fun x y => ind (x ≤ y)) fct o
  let below ← Arr.map2 (· * ·) (← Arr.map2 (· * ·) le alpha) (← Arr.map2 (· - ·) o fct)
  let gt ← Arr.map2 (fun x y => ind (y < x)) fct o
  let above ← Arr.map2 (· * ·) (← Arr.map2 (· * ·) gt (alpha.map fun a => 1 - a))
    (← Arr.map2 (· - ·) fct o)
  .ok ((← meanAxis (← Arr.map2 (· + ·) below above) (-1)).map fun x => 2 * x)

/-- `ow_ensemble`, `core/crps/_approx.py:136-153`. -/
def ow (obs fct ow fw : Arr XF) : Except Err (Arr XF) := do
  let M := lastLen fct
  let wbar ← meanAxis fw (-1)
  let s ← sumAxis (← Arr.map2 (· * ·) (← absErr obs fct) fw) (-1)
  let e1 ← Arr.map2 (· / ·) (← Arr.map2 (· * ·) s ow) (wbar.map fun x => (M : XF) * x)
  let p ← Arr.map2 (· * ·) (← Arr.map2 (· * ·) (← pairDiff fct) (← expandDims fw [-1]))
    (← expandDims fw [-2])
  let e2 ← sumLast2 p
  let e2 ← inplace (· * ·) e2 (← Arr.map2 (· / ·) ow (wbar.map fun x => ((M ^ 2 : ℕ) : XF) * x ^ 2))
  combine e1 e2

/-- `vr_ensemble`, `core/crps/_approx.py:156-174`, with the `axis=1` of line 173. -/
def vr (obs fct ow fw : Arr XF) : Except Err (Arr XF) := do
  let M := lastLen fct
  let s ← sumAxis (← Arr.map2 (· * ·) (← absErr obs fct) fw) (-1)
  let e1 := (← Arr.map2 (· * ·) s ow).map fun x => x / (M : XF)
  let d := (← Arr.map2 (· - ·) (← expandDims fct [-1]) (← expandDims fct [-2])).map XF.abs
  let f ← Arr.map2 (· * ·) (← expandDims fw [-1]) (← expandDims fw [-2])
  let e2 := (← sumLast2 (← Arr.map2 (· * ·) d f)).map fun x => x / ((M ^ 2 : ℕ) : XF)
  let e3 ← Arr.map2 (· - ·) (← meanAxis (← Arr.map2 (· * ·) (fct.map XF.abs) fw) (-1))
    (← Arr.map2 (· * ·) (obs.map XF.abs) ow)
  let e3 ← inplace (· * ·) e3 (← Arr.map2 (· - ·) (← meanAxis fw 1) ow)
  Arr.map2 (· + ·) (← combine e1 e2) e3

end CrpsNp

/-! ## weighted: `/repo/scoringrules/core/crps/_approx_w.py` -/
namespace CrpsNpW

open CrpsNp

/-- `B.sum(B.abs(obs[..., None] - fct) * w, axis=-1)`, e.g. `core/crps/_approx_w.py:44`. -/
def e1 (obs fct w : Arr XF) : Except Err (Arr XF) := do
  sumAxis (← Arr.map2 (· * ·) (← absErr obs fct) w) (-1)

/-- `B.sum(B.abs(fct[..., None] - fct[..., None, :]) * w[..., None] * w[..., None, :], axis=(-1, -2))`,
`core/crps/_approx_w.py:45-48`. -/
def pairSum (fct w : Arr XF) : Except Err (Arr XF) := do
  sumLast2 (← Arr.map2 (· * ·) (← Arr.map2 (· * ·) (← pairDiff fct) (← expandDims w [-1]))
    (← expandDims w [-2]))

/-- `1 - B.sum(w * w, axis=-1)`, `core/crps/_approx_w.py:48`. -/
def fairC (w : Arr XF) : Except Err (Arr XF) := do
  .ok ((← sumAxis (← Arr.map2 (· * ·) w w) (-1)).map fun x => 1 - x)

/-- `_crps_ensemble_fair_w`, `core/crps/_approx_w.py:39-49`. -/
def fair (obs fct w : Arr XF) : Except Err (Arr XF) := do
  let e1 ← e1 obs fct w
  let e2 ← Arr.map2 (· / ·) (← pairSum fct w) (← fairC w)
  combine e1 e2

/-- `_crps_ensemble_nrg_w`, `core/crps/_approx_w.py:52-62`. -/
def nrg (obs fct w : Arr XF) : Except Err (Arr XF) := do
  combine (← e1 obs fct w) (← pairSum fct w)

/-- `_crps_ensemble_pwm_w`, `core/crps/_approx_w.py:65-74`. -/
def pwm (obs fct w : Arr XF) : Except Err (Arr XF) := do
  let wsum := w.mapRows cumsum
  let d ← e1 obs fct w
  let fw ← Arr.map2 (· * ·) fct w
  let β0 ← sumAxis fw (-1)
  let β1 ← Arr.map2 (· / ·)
    (← sumAxis (← Arr.map2 (· * ·) fw (← Arr.map2 (· - ·) wsum w)) (-1)) (← fairC w)
  Arr.map2 (· - ·) (← Arr.map2 (· + ·) d β0) (β1.map fun x => 2 * x)

/-- `_crps_ensemble_qd_w`, `core/crps/_approx_w.py:77-87`; `B.where(dif > 0, 1 - a, -a)` is a function of
`dif` and `a`. -/
def qd (obs fct w : Arr XF) : Except Err (Arr XF) := do
  let wsum := w.mapRows cumsum
  let a ← Arr.map2 (· - ·) wsum (w.map fun x => half * x)
  let dif ← Arr.map2 (· - ·) fct (← expandDims obs [-1])
  let c ← Arr.map2 (fun d a => if 0 < d then 1 - a else -a) dif a
  let s ← sumAxis (← Arr.map2 (· * ·) (← Arr.map2 (· * ·) w c) dif) (-1)
  .ok (s.map fun x => 2 * x)

/-- `B.sum(B.abs(fct[..., ind] - fct) * w[..., ind], axis=-1)`, `core/crps/_approx_w.py:98`, `111`. -/
def indTerm (fct w : Arr XF) (ind : List ℕ) : Except Err (Arr XF) := do
  let d ← Arr.map2 (· - ·) (takeLast fct ind) fct
  sumAxis (← Arr.map2 (· * ·) (d.map XF.abs) (takeLast w ind)) (-1)

/-- `_crps_ensemble_akr_w`, `core/crps/_approx_w.py:90-99`. -/
def akr (obs fct w : Arr XF) : Except Err (Arr XF) := do
  let M := lastLen fct
  combine (← e1 obs fct w) (← indTerm fct w ((List.range M).map fun i => (i + 1) % M))

/-- `_crps_ensemble_akr_circperm_w`, `core/crps/_approx_w.py:102-112`. -/
def akrCircperm (obs fct w : Arr XF) : Except Err (Arr XF) := do
  let M := lastLen fct
  combine (← e1 obs fct w) (← indTerm fct w ((List.range M).map fun i => (i + (M - 1) / 2) % M))

/-- `_crps_ensemble_int_w`, `core/crps/_approx_w.py:115-130`; `keepdims=True` is a new last axis. -/
def int (obs fct w : Arr XF) : Except Err (Arr XF) := do
  let o ← expandDims obs [-1]
  let le ← Arr.map2 (fun x y => ind (x ≤ y)) fct o
  let yPos ← expandDims (← sumAxis (← Arr.map2 (· * ·) le w) (-1)) [-1]
  intTail obs fct (w.mapRows cumsum) yPos

/-- `ens_w[..., None] * ens_w[..., None, :] * B.abs(…) * fw[..., None] * fw[..., None, :]` summed,
`core/crps/_approx_w.py:145-152`, `168-175`. -/
def pairSumO (fct fw w : Arr XF) : Except Err (Arr XF) := do
  let p ← Arr.map2 (· * ·) (← expandDims w [-1]) (← expandDims w [-2])
  let p ← Arr.map2 (· * ·) p (← pairDiff fct)
  let p ← Arr.map2 (· * ·) p (← expandDims fw [-1])
  let p ← Arr.map2 (· * ·) p (← expandDims fw [-2])
  sumLast2 p

/-- `B.sum(ens_w * B.abs(obs[..., None] - fct) * fw, axis=-1)`, `core/crps/_approx_w.py:144`, `167`. -/
def e1O (obs fct fw w : Arr XF) : Except Err (Arr XF) := do
  sumAxis (← Arr.map2 (· * ·) (← Arr.map2 (· * ·) w (← absErr obs fct)) fw) (-1)

/-- `ow_ensemble_w`, `core/crps/_approx_w.py:133-154`. -/
def ow (obs fct ow fw w : Arr XF) : Except Err (Arr XF) := do
  let wbar ← sumAxis (← Arr.map2 (· * ·) w fw) (-1)
  let e1 ← Arr.map2 (· / ·) (← Arr.map2 (· * ·) (← e1O obs fct fw w) ow) wbar
  let e2 ← pairSumO fct fw w
  let e2 ← inplace (· * ·) e2 (← Arr.map2 (· / ·) ow (wbar.map fun x => x ^ 2))
  combine e1 e2

/-- `vr_ensemble_w`, `core/crps/_approx_w.py:157-178`. -/
def vr (obs fct ow fw w : Arr XF) : Except Err (Arr XF) := do
  let e1 ← Arr.map2 (· * ·) (← e1O obs fct fw w) ow
  let e2 ← pairSumO fct fw w
  let a ← sumAxis (← Arr.map2 (· * ·) (← Arr.map2 (· * ·) w (fct.map XF.abs)) fw) (-1)
  let e3 ← Arr.map2 (· - ·) a (← Arr.map2 (· * ·) (obs.map XF.abs) ow)
  let wf ← sumAxis (← Arr.map2 (· * ·) w fw) (-1)
  let e3 ← inplace (· * ·) e3 (← Arr.map2 (· - ·) wf ow)
  Arr.map2 (· + ·) (← combine e1 e2) e3

end CrpsNpW

end Verif
