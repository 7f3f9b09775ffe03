import Verif.Model.EnergyNp
import Verif.Model.Variogram

/-!
# The vectorised variogram score on whole arrays

Literal transcription of `/repo/scoringrules/core/variogram/_score.py` and `_score_w.py` with the array
operations of `Verif.Model.Np`: every `expand_dims`, every axis argument and every broadcast is executed.
The formulas for a single observation vector and its ensemble are in `Verif.Model.Variogram`.  The exponent
`p` is a real number (`VsApprox` uses the same `XF.rpow`).
-/

noncomputable section

open scoped Classical

namespace Verif

open XF Py Np

namespace VariogramNp

open EnergyNp (nMembers)

/-- `B.abs(B.expand_dims(x, -2) - B.expand_dims(x, -1)) ** p`, e.g. `core/variogram/_score.py:21-24`. -/
def diff (p : ℝ) (x : Arr XF) : Except Err (Arr XF) := do
  let d ← Arr.map2 (· - ·) (← expandDims x [-2]) (← expandDims x [-1])
  .ok ((d.map XF.abs).map fun x => XF.rpow x p)

/-- `B.sum(B.expand_dims(w, -3) * (fct_diff - B.expand_dims(obs_diff, -3)) ** 2, axis=(-2, -1))`, e.g.
`core/variogram/_score.py:31-32`. -/
def e1 (w fctDiff obsDiff : Arr XF) : Except Err (Arr XF) := do
  let e := (← Arr.map2 (· - ·) fctDiff (← expandDims obsDiff [-3])).map fun x => x ^ 2
  sumLast2 (← Arr.map2 (· * ·) (← expandDims w [-3]) e)

/-- `B.sum(B.expand_dims(w, (-3, -4)) * (B.expand_dims(fct_diff, -3) - B.expand_dims(fct_diff, -4)) ** 2,
axis=(-2, -1))`, e.g. `core/variogram/_score.py:35-38`. -/
def e2 (w fctDiff : Arr XF) : Except Err (Arr XF) := do
  let e := (← Arr.map2 (· - ·) (← expandDims fctDiff [-3]) (← expandDims fctDiff [-4])).map fun x => x ^ 2
  sumLast2 (← Arr.map2 (· * ·) (← expandDims w [-3, -4]) e)

/-- `vs_ensemble` with `estimator="nrg"`, `core/variogram/_score.py:18-28`. -/
def nrg (p : ℝ) (obs fct w : Arr XF) : Except Err (Arr XF) := do
  let M := nMembers fct
  let fctDiff ← diff p fct
  let obsDiff ← diff p obs
  let fctDiff := (← sumAxis fctDiff (-3)).map fun x => x / (M : XF)
  let d := (← Arr.map2 (· - ·) obsDiff fctDiff).map fun x => x ^ 2
  sumLast2 (← Arr.map2 (· * ·) w d)

/-- `vs_ensemble` with `estimator="fair"`, `core/variogram/_score.py:18-24`, `30-41`. -/
def fair (p : ℝ) (obs fct w : Arr XF) : Except Err (Arr XF) := do
  let M := nMembers fct
  let fctDiff ← diff p fct
  let obsDiff ← diff p obs
  let e1 := (← sumAxis (← e1 w fctDiff obsDiff) (-1)).map fun x => x / (M : XF)
  let e2 := (← sumLast2 (← e2 w fctDiff)).map fun x => x / ((M * (M - 1) : ℕ) : XF)
  Arr.map2 (· - ·) e1 (e2.map fun x => half * x)

/-- `owvs_ensemble`, `core/variogram/_score.py:50-82`. -/
def ow (p : ℝ) (obs fct w ow fw : Arr XF) : Except Err (Arr XF) := do
  let wbar ← meanAxis fw (-1)
  let fctDiff ← diff p fct
  let obsDiff ← diff p obs
  let e1 ← e1 w fctDiff obsDiff
  let e1 ← Arr.map2 (· / ·) (← meanAxis
    (← Arr.map2 (· * ·) (← Arr.map2 (· * ·) e1 fw) (← expandDims ow [-1])) (-1)) wbar
  let fwProd ← Arr.map2 (· * ·) (← expandDims fw [-2]) (← expandDims fw [-1])
  let e2 ← e2 w fctDiff
  let e2 ← inplace (· * ·) e2 (← Arr.map2 (· * ·) fwProd (← expandDims ow [-2, -1]))
  let e2 ← Arr.map2 (· / ·) (← meanLast2 e2) (wbar.map fun x => x ^ 2)
  Arr.map2 (· - ·) e1 (e2.map fun x => half * x)

/-- `vrvs_ensemble`, `core/variogram/_score.py:85-120`. -/
def vr (p : ℝ) (obs fct w ow fw : Arr XF) : Except Err (Arr XF) := do
  let wbar ← meanAxis fw (-1)
  let fctDiff ← diff p fct
  let obsDiff ← diff p obs
  let e1 ← e1 w fctDiff obsDiff
  let e1 ← meanAxis (← Arr.map2 (· * ·) (← Arr.map2 (· * ·) e1 fw) (← expandDims ow [-1])) (-1)
  let e2 ← e2 w fctDiff
  let fwProd ← Arr.map2 (· * ·) (← expandDims fw [-2]) (← expandDims fw [-1])
  let e2 ← meanLast2 (← Arr.map2 (· * ·) e2 fwProd)
  let e3 ← sumLast2 (← Arr.map2 (· * ·) (← expandDims w [-3]) (fctDiff.map fun x => x ^ 2))
  let e3 ← meanAxis (← Arr.map2 (· * ·) e3 fw) (-1)
  let e3 ← inplace (· - ·) e3 (← Arr.map2 (· * ·)
    (← sumLast2 (← Arr.map2 (· * ·) w (obsDiff.map fun x => x ^ 2))) ow)
  let e3 ← inplace (· * ·) e3 (← Arr.map2 (· - ·) wbar ow)
  Arr.map2 (· + ·) (← Arr.map2 (· - ·) e1 (e2.map fun x => half * x)) e3

end VariogramNp

namespace VariogramNpW

open VariogramNp (diff e1 e2)

/-- `vs_ensemble_w` with `estimator="nrg"`, `core/variogram/_score_w.py:19-30`. -/
def nrg (p : ℝ) (obs fct w ensW : Arr XF) : Except Err (Arr XF) := do
  let fctDiff ← diff p fct
  let obsDiff ← diff p obs
  let fctDiff ← sumAxis (← Arr.map2 (· * ·) fctDiff (← expandDims ensW [-1, -2])) (-3)
  let d := (← Arr.map2 (· - ·) obsDiff fctDiff).map fun x => x ^ 2
  sumLast2 (← Arr.map2 (· * ·) w d)

/-- `vs_ensemble_w` with `estimator="fair"`, `core/variogram/_score_w.py:19-24`, `32-47`. -/
def fair (p : ℝ) (obs fct w ensW : Arr XF) : Except Err (Arr XF) := do
  let fctDiff ← diff p fct
  let obsDiff ← diff p obs
  let e1 ← sumAxis (← Arr.map2 (· * ·) (← e1 w fctDiff obsDiff) ensW) (-1)
  let e2 ← e2 w fctDiff
  let e2 ← sumLast2 (← Arr.map2 (· * ·)
    (← Arr.map2 (· * ·) e2 (← expandDims ensW [-2])) (← expandDims ensW [-1]))
  let fairC := (← sumAxis (← Arr.map2 (· * ·) ensW ensW) (-1)).map fun x => 1 - x
  Arr.map2 (· - ·) e1 (← Arr.map2 (· / ·) (e2.map fun x => half * x) fairC)

/-- `owvs_ensemble_w`, `core/variogram/_score_w.py:57-93`. -/
def ow (p : ℝ) (obs fct w ow fw ensW : Arr XF) : Except Err (Arr XF) := do
  let wbar ← sumAxis (← Arr.map2 (· * ·) fw ensW) (-1)
  let fctDiff ← diff p fct
  let obsDiff ← diff p obs
  let e1 ← e1 w fctDiff obsDiff
  let e1 ← Arr.map2 (· / ·) (← sumAxis (← Arr.map2 (· * ·)
    (← Arr.map2 (· * ·) (← Arr.map2 (· * ·) e1 fw) (← expandDims ow [-1])) ensW) (-1)) wbar
  let fwProd ← Arr.map2 (· * ·) (← expandDims fw [-2]) (← expandDims fw [-1])
  let ewProd ← Arr.map2 (· * ·) (← expandDims ensW [-2]) (← expandDims ensW [-1])
  let e2 ← e2 w fctDiff
  let e2 ← inplace (· * ·) e2 (← Arr.map2 (· * ·)
    (← Arr.map2 (· * ·) fwProd (← expandDims ow [-2, -1])) ewProd)
  let e2 ← Arr.map2 (· / ·) (← sumLast2 e2) (wbar.map fun x => x ^ 2)
  Arr.map2 (· - ·) e1 (e2.map fun x => half * x)

/-- `vrvs_ensemble_w`, `core/variogram/_score_w.py:96-133`. -/
def vr (p : ℝ) (obs fct w ow fw ensW : Arr XF) : Except Err (Arr XF) := do
  let wbar ← sumAxis (← Arr.map2 (· * ·) fw ensW) (-1)
  let fctDiff ← diff p fct
  let obsDiff ← diff p obs
  let e1 ← e1 w fctDiff obsDiff
  let e1 ← sumAxis (← Arr.map2 (· * ·)
    (← Arr.map2 (· * ·) (← Arr.map2 (· * ·) e1 fw) (← expandDims ow [-1])) ensW) (-1)
  let e2 ← e2 w fctDiff
  let fwProd ← Arr.map2 (· * ·) (← expandDims fw [-2]) (← expandDims fw [-1])
  let ewProd ← Arr.map2 (· * ·) (← expandDims ensW [-2]) (← expandDims ensW [-1])
  let e2 ← sumLast2 (← Arr.map2 (· * ·) (← Arr.map2 (· * ·) e2 fwProd) ewProd)
  let e3 ← sumLast2 (← Arr.map2 (· * ·) (← expandDims w [-3]) (fctDiff.map fun x => x ^ 2))
  let e3 ← sumAxis (← Arr.map2 (· * ·) (← Arr.map2 (· * ·) e3 fw) ensW) (-1)
  let e3 ← inplace (· - ·) e3 (← Arr.map2 (· * ·)
    (← sumLast2 (← Arr.map2 (· * ·) w (obsDiff.map fun x => x ^ 2))) ow)
  let e3 ← inplace (· * ·) e3 (← Arr.map2 (· - ·) wbar ow)
  Arr.map2 (· + ·) (← Arr.map2 (· - ·) e1 (e2.map fun x => half * x)) e3

end VariogramNpW
end Verif
