import Verif.Model.CrpsNp
import Verif.Model.Energy

/-!
# The vectorised energy score on whole arrays

Literal transcription of `/repo/scoringrules/core/energy/_score.py` and `_score_w.py` with the array
operations of `Verif.Model.Np`: every `expand_dims`, every axis argument and every broadcast is executed.
The formulas for a single observation vector and its ensemble are in `Verif.Model.Energy`.
-/

noncomputable section

open scoped Classical

namespace Verif

open XF Py Np

namespace EnergyNp

/-- `fct.shape[-2]` (e.g. `core/energy/_score.py:36`); the forecast array has at least two axes. -/
def nMembers (a : Arr XF) : ℕ := a.shape.getD (a.ndim - 2) 0

/-- `B.norm(fct - B.expand_dims(obs, -2), -1)`, e.g. `core/energy/_score.py:38`. -/
def errNorm (obs fct : Arr XF) : Except Err (Arr XF) := do
  normLast (← Arr.map2 (· - ·) fct (← expandDims obs [-2]))

/-- `B.norm(B.expand_dims(fct, -3) - B.expand_dims(fct, -2), -1)`, e.g. `core/energy/_score.py:41`. -/
def spread (fct : Arr XF) : Except Err (Arr XF) := do
  normLast (← Arr.map2 (· - ·) (← expandDims fct [-3]) (← expandDims fct [-2]))

/-- `B.norm(B.expand_dims(fct, -2) - B.expand_dims(fct, -3), -1)`, e.g.
`core/energy/_score.py:106-108`. -/
def spread' (fct : Arr XF) : Except Err (Arr XF) := do
  normLast (← Arr.map2 (· - ·) (← expandDims fct [-2]) (← expandDims fct [-3]))

/-- `B.norm(fct - B.roll(fct, shift=shift, axis=-2), -1)`, `core/energy/_score.py:69`, `86`. -/
def rollNorm (fct : Arr XF) (shift : ℕ) : Except Err (Arr XF) := do
  normLast (← Arr.map2 (· - ·) fct (← roll fct shift (-2)))

/-- `_es_ensemble_nrg`, `core/energy/_score.py:33-44`. -/
def nrg (obs fct : Arr XF) : Except Err (Arr XF) := do
  let M := nMembers fct
  let e1 := (← sumAxis (← errNorm obs fct) (-1)).map fun x => x / (M : XF)
  let e2 := (← sumLast2 (← spread fct)).map fun x => x / ((M ^ 2 : ℕ) : XF)
  Arr.map2 (· - ·) e1 (e2.map fun x => half * x)

/-- `_es_ensemble_fair`, `core/energy/_score.py:47-58`. -/
def fair (obs fct : Arr XF) : Except Err (Arr XF) := do
  let M := nMembers fct
  let e1 := (← sumAxis (← errNorm obs fct) (-1)).map fun x => x / (M : XF)
  let e2 := (← sumLast2 (← spread fct)).map fun x => x / ((M * (M - 1) : ℕ) : XF)
  Arr.map2 (· - ·) e1 (e2.map fun x => half * x)

/-- `_es_ensemble_akr`, `core/energy/_score.py:61-72`. -/
def akr (obs fct : Arr XF) : Except Err (Arr XF) := do
  let M := nMembers fct
  let e1 := (← sumAxis (← errNorm obs fct) (-1)).map fun x => x / (M : XF)
  let e2 := (← sumAxis (← rollNorm fct 1) (-1)).map fun x => x / (M : XF)
  Arr.map2 (· - ·) e1 (e2.map fun x => half * x)

/-- `_es_ensemble_akr_circperm`, `core/energy/_score.py:75-89`. -/
def akrCircperm (obs fct : Arr XF) : Except Err (Arr XF) := do
  let M := nMembers fct
  let e1 := (← sumAxis (← errNorm obs fct) (-1)).map fun x => x / (M : XF)
  let e2 := (← sumAxis (← rollNorm fct (M / 2)) (-1)).map fun x => x / (M : XF)
  Arr.map2 (· - ·) e1 (e2.map fun x => half * x)

/-- `owes_ensemble`, `core/energy/_score.py:92-113`. -/
def ow (obs fct ow fw : Arr XF) : Except Err (Arr XF) := do
  let wbar ← meanAxis fw (-1)
  let err ← errNorm obs fct
  let e1 ← Arr.map2 (· / ·) (← meanAxis
    (← Arr.map2 (· * ·) (← Arr.map2 (· * ·) err fw) (← expandDims ow [-1])) (-1)) wbar
  let spread ← spread' fct
  let fwProd ← Arr.map2 (· * ·) (← expandDims fw [-1]) (← expandDims fw [-2])
  let spread ← inplace (· * ·) spread (← Arr.map2 (· * ·) fwProd (← expandDims ow [-2, -1]))
  let e2 ← Arr.map2 (· / ·) (← meanLast2 spread) (wbar.map fun x => x ^ 2)
  Arr.map2 (· - ·) e1 (e2.map fun x => half * x)

/-- `vres_ensemble`, `core/energy/_score.py:116-139`. -/
def vr (obs fct ow fw : Arr XF) : Except Err (Arr XF) := do
  let wbar ← meanAxis fw (-1)
  let err ← errNorm obs fct
  let err ← inplace (· * ·) err (← Arr.map2 (· * ·) fw (← expandDims ow [-1]))
  let e1 ← meanAxis err (-1)
  let spread ← spread' fct
  let fwProd ← Arr.map2 (· * ·) (← expandDims fw [-2]) (← expandDims fw [-1])
  let e2 ← meanLast2 (← Arr.map2 (· * ·) spread fwProd)
  let rhobar ← meanAxis (← Arr.map2 (· * ·) (← normLast fct) fw) (-1)
  let e3 ← Arr.map2 (· * ·)
    (← Arr.map2 (· - ·) rhobar (← Arr.map2 (· * ·) (← normLast obs) ow)) (← Arr.map2 (· - ·) wbar ow)
  Arr.map2 (· + ·) (← Arr.map2 (· - ·) e1 (e2.map fun x => half * x)) e3

end EnergyNp

namespace EnergyNpW

open EnergyNp (errNorm spread spread' rollNorm nMembers)

/-- `B.sum(spread_norm * B.expand_dims(ens_w, -1) * B.expand_dims(ens_w, -2), (-2, -1))`, e.g.
`core/energy/_score_w.py:45-47`. -/
def pairSum (spread w : Arr XF) : Except Err (Arr XF) := do
  sumLast2 (← Arr.map2 (· * ·) (← Arr.map2 (· * ·) spread (← expandDims w [-1])) (← expandDims w [-2]))

/-- `_es_ensemble_nrg_w`, `core/energy/_score_w.py:33-49`. -/
def nrg (obs fct w : Arr XF) : Except Err (Arr XF) := do
  let e1 ← sumAxis (← Arr.map2 (· * ·) (← errNorm obs fct) w) (-1)
  let e2 ← pairSum (← spread fct) w
  Arr.map2 (· - ·) e1 (e2.map fun x => half * x)

/-- `_es_ensemble_fair_w`, `core/energy/_score_w.py:52-70`. -/
def fair (obs fct w : Arr XF) : Except Err (Arr XF) := do
  let e1 ← sumAxis (← Arr.map2 (· * ·) (← errNorm obs fct) w) (-1)
  let e2 ← pairSum (← spread fct) w
  let fairC := (← sumAxis (← Arr.map2 (· * ·) w w) (-1)).map fun x => 1 - x
  Arr.map2 (· - ·) e1 (← Arr.map2 (· / ·) (e2.map fun x => half * x) fairC)

/-- `_es_ensemble_akr_w`, `core/energy/_score_w.py:73-85`. -/
def akr (obs fct w : Arr XF) : Except Err (Arr XF) := do
  let e1 ← sumAxis (← Arr.map2 (· * ·) (← errNorm obs fct) w) (-1)
  let e2 ← sumAxis (← Arr.map2 (· * ·) (← rollNorm fct 1) w) (-1)
  Arr.map2 (· - ·) e1 (e2.map fun x => half * x)

/-- `_es_ensemble_akr_circperm_w`, `core/energy/_score_w.py:88-102`. -/
def akrCircperm (obs fct w : Arr XF) : Except Err (Arr XF) := do
  let M := nMembers fct
  let e1 ← sumAxis (← Arr.map2 (· * ·) (← errNorm obs fct) w) (-1)
  let e2 ← sumAxis (← Arr.map2 (· * ·) (← rollNorm fct (M / 2)) w) (-1)
  Arr.map2 (· - ·) e1 (e2.map fun x => half * x)

/-- `owes_ensemble_w`, `core/energy/_score_w.py:105-129`. -/
def ow (obs fct ow fw w : Arr XF) : Except Err (Arr XF) := do
  let wbar ← sumAxis (← Arr.map2 (· * ·) fw w) (-1)
  let err ← errNorm obs fct
  let e1 ← Arr.map2 (· / ·) (← sumAxis (← Arr.map2 (· * ·)
    (← Arr.map2 (· * ·) (← Arr.map2 (· * ·) err fw) (← expandDims ow [-1])) w) (-1)) wbar
  let spread ← spread' fct
  let fwProd ← Arr.map2 (· * ·) (← expandDims fw [-1]) (← expandDims fw [-2])
  let spread ← inplace (· * ·) spread (← Arr.map2 (· * ·) fwProd (← expandDims ow [-2, -1]))
  let e2 ← Arr.map2 (· / ·) (← pairSum spread w) (wbar.map fun x => x ^ 2)
  Arr.map2 (· - ·) e1 (e2.map fun x => half * x)

/-- `vres_ensemble_w`, `core/energy/_score_w.py:132-159`. -/
def vr (obs fct ow fw w : Arr XF) : Except Err (Arr XF) := do
  let wbar ← sumAxis (← Arr.map2 (· * ·) fw w) (-1)
  let err ← errNorm obs fct
  let err ← inplace (· * ·) err (← Arr.map2 (· * ·) fw (← expandDims ow [-1]))
  let e1 ← sumAxis (← Arr.map2 (· * ·) err w) (-1)
  let spread ← spread' fct
  let fwProd ← Arr.map2 (· * ·) (← expandDims fw [-2]) (← expandDims fw [-1])
  let e2 ← pairSum (← Arr.map2 (· * ·) spread fwProd) w
  let rhobar ← sumAxis (← Arr.map2 (· * ·) (← Arr.map2 (· * ·) (← normLast fct) fw) w) (-1)
  let e3 ← Arr.map2 (· * ·)
    (← Arr.map2 (· - ·) rhobar (← Arr.map2 (· * ·) (← normLast obs) ow)) (← Arr.map2 (· - ·) wbar ow)
  Arr.map2 (· + ·) (← Arr.map2 (· - ·) e1 (e2.map fun x => half * x)) e3

end EnergyNpW
end Verif
