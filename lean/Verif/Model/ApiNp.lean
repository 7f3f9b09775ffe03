import Verif.Model.CrpsNp
import Verif.Model.EnergyNp
import Verif.Model.VariogramNp
import Verif.Model.KernelNp

/-!
# The public functions with the vectorised array code

The ensemble scores for every backend but numba: the same checks as in `Verif.Model.Api` and its relatives,
followed by the array code of `Verif.Model.CrpsNp`, `EnergyNp`, `VariogramNp` and `KernelNp` instead of a
formula per slice.
-/

noncomputable section

open scoped Classical

namespace Verif

open XF Py

namespace CrpsNp

/-- `ensemble`, `core/crps/_approx.py:9-34`. -/
def ensemble (est : String) (obs fct : Arr XF) : Except Err (Arr XF) :=
  if est = "nrg" then nrg obs fct
  else if est = "pwm" then pwm obs fct
  else if est = "fair" then fair obs fct
  else if est = "qd" then qd obs fct
  else if est = "akr" then akr obs fct
  else if est = "akr_circperm" then akrCircperm obs fct
  else if est = "int" then int obs fct
  else .error .valueError

end CrpsNp

namespace CrpsNpW

/-- `ensemble_w`, `core/crps/_approx_w.py:9-36`. -/
def ensemble (est : String) (obs fct w : Arr XF) : Except Err (Arr XF) :=
  if est = "nrg" then nrg obs fct w
  else if est = "pwm" then pwm obs fct w
  else if est = "fair" then fair obs fct w
  else if est = "qd" then qd obs fct w
  else if est = "akr" then akr obs fct w
  else if est = "akr_circperm" then akrCircperm obs fct w
  else if est = "int" then int obs fct w
  else .error .valueError

end CrpsNpW

namespace EnergyNp

/-- `es_ensemble`, `core/energy/_score.py:9-30`. -/
def ensemble (est : String) (obs fct : Arr XF) : Except Err (Arr XF) :=
  if est = "nrg" then nrg obs fct
  else if est = "fair" then fair obs fct
  else if est = "akr" then akr obs fct
  else if est = "akr_circperm" then akrCircperm obs fct
  else .error .valueError

end EnergyNp

namespace EnergyNpW

/-- `es_ensemble_w`, `core/energy/_score_w.py:9-30`. -/
def ensemble (est : String) (obs fct w : Arr XF) : Except Err (Arr XF) :=
  if est = "nrg" then nrg obs fct w
  else if est = "fair" then fair obs fct w
  else if est = "akr" then akr obs fct w
  else if est = "akr_circperm" then akrCircperm obs fct w
  else .error .valueError

end EnergyNpW

namespace VariogramNp

/-- the dispatch in `vs_ensemble`, `core/variogram/_score.py:26-45`.  Simplification: an unknown estimator
raises before the differences are computed (`_score.py:21-24`). -/
def ensemble (est : String) (p : ℝ) (obs fct w : Arr XF) : Except Err (Arr XF) :=
  if est = "nrg" then nrg p obs fct w
  else if est = "fair" then fair p obs fct w
  else .error .valueError

end VariogramNp

namespace VariogramNpW

/-- the dispatch in `vs_ensemble_w`, `core/variogram/_score_w.py:26-52`, with the same simplification. -/
def ensemble (est : String) (p : ℝ) (obs fct w ensW : Arr XF) : Except Err (Arr XF) :=
  if est = "nrg" then nrg p obs fct w ensW
  else if est = "fair" then fair p obs fct w ensW
  else .error .valueError

end VariogramNpW

namespace KernelNp

/-- `ensemble_uv`, `core/kernels/_approx.py:25-45`. -/
def ensembleUv (est : String) (obs fct : Arr XF) : Except Err (Arr XF) :=
  if est = "nrg" then nrgUv obs fct
  else if est = "fair" then fairUv obs fct
  else if est = "akr" then akrUv obs fct
  else if est = "akr_circperm" then akrCircpermUv obs fct
  else .error .valueError

/-- `ensemble_mv`, `core/kernels/_approx.py:120-143`. -/
def ensembleMv (est : String) (obs fct : Arr XF) : Except Err (Arr XF) :=
  if est = "nrg" then nrgMv obs fct
  else if est = "fair" then fairMv obs fct
  else if est = "akr" then akrMv obs fct
  else if est = "akr_circperm" then akrCircpermMv obs fct
  else .error .valueError

end KernelNp

namespace KernelNpW

/-- `ensemble_uv_w`, `core/kernels/_approx_w.py:25-46`, which tests for the name `"akr_circperm_w"`
(line 39). -/
def ensembleUv (est : String) (obs fct w : Arr XF) : Except Err (Arr XF) :=
  if est = "nrg" then nrgUv obs fct w
  else if est = "fair" then fairUv obs fct w
  else if est = "akr" then akrUv obs fct w
  else if est = "akr_circperm_w" then akrCircpermUv obs fct w
  else .error .valueError

/-- `ensemble_mv_w`, `core/kernels/_approx_w.py:132-153`. -/
def ensembleMv (est : String) (obs fct w : Arr XF) : Except Err (Arr XF) :=
  if est = "nrg" then nrgMv obs fct w
  else if est = "fair" then fairMv obs fct w
  else if est = "akr" then akrMv obs fct w
  else if est = "akr_circperm" then akrCircpermMv obs fct w
  else .error .valueError

end KernelNpW

namespace ApiNp

open Api (univariateArrayCheck univariateWeightCheck applyNanPolicy univariateSortEns uvWeights owPrep
  multivariateArrayCheck multivariateWeightCheck mvWeights)

/-- `crps_ensemble`, `_crps.py:18-155`, for a backend other than numba. -/
def crpsEnsemble (obs fct : Arr XF) (mAxis : ℤ) (ensW : Option (Arr XF)) (est : String) (sorted : Bool)
    (nanPolicy : String) : Except Err (Arr XF) := do
  let fct ← univariateArrayCheck obs fct mAxis
  let (fct, ensW) ← applyNanPolicy obs fct nanPolicy ensW (some est) mAxis
  let (fct, ensW) ← univariateSortEns fct ensW (-1) est sorted
  match ensW with
  | none => CrpsNp.ensemble est obs fct
  | some w =>
    let w ← univariateWeightCheck w fct (-1)
    CrpsNpW.ensemble est obs fct w

/-- `owcrps_ensemble`, `_crps.py:269-388`, for a backend other than numba. -/
def owcrpsEnsemble (obs fct : Arr XF) (wFunc : XF → XF) (mAxis : ℤ) (ensW : Option (Arr XF))
    (nanPolicy : String) : Except Err (Arr XF) := do
  let (fct, obsW, fctW, ensW) ← owPrep obs fct wFunc mAxis ensW nanPolicy
  match ensW with
  | none => CrpsNp.ow obs fct obsW fctW
  | some w => CrpsNpW.ow obs fct obsW fctW w

/-- `vrcrps_ensemble`, `_crps.py:391-508`, for a backend other than numba. -/
def vrcrpsEnsemble (obs fct : Arr XF) (wFunc : XF → XF) (mAxis : ℤ) (ensW : Option (Arr XF))
    (nanPolicy : String) : Except Err (Arr XF) := do
  let (fct, obsW, fctW, ensW) ← owPrep obs fct wFunc mAxis ensW nanPolicy
  match ensW with
  | none => CrpsNp.vr obs fct obsW fctW
  | some w => CrpsNpW.vr obs fct obsW fctW w

/-- `crps_quantile`, `_crps.py:511-577`, for a backend other than numba; `alpha` is one-dimensional. -/
def crpsQuantile (obs fct : Arr XF) (alpha : List XF) (mAxis : ℤ) : Except Err (Arr XF) := do
  let fct ← univariateArrayCheck obs fct mAxis
  if (∃ v ∈ alpha, v ≤ 0) ∨ (∃ v ∈ alpha, 1 ≤ v) then .error .valueError
  else if fct.shape.getLastD 0 ≠ alpha.length then .error .valueError
  else CrpsNp.quantilePinball obs fct (Arr.ofList alpha)

/-- `gksuv_ensemble`, `_kernels.py:20-87`, for a backend other than numba. -/
def gksuvEnsemble (obs fct : Arr XF) (mAxis : ℤ) (ensW : Option (Arr XF)) (est : String) :
    Except Err (Arr XF) := do
  let fct ← univariateArrayCheck obs fct mAxis
  match ensW with
  | none => KernelNp.ensembleUv est obs fct
  | some w =>
    let w ← univariateWeightCheck w fct mAxis
    KernelNpW.ensembleUv est obs fct w

/-- `owgksuv_ensemble`, `_kernels.py:170-251`, for a backend other than numba. -/
def owgksuvEnsemble (obs fct : Arr XF) (wFunc : XF → XF) (mAxis : ℤ) (ensW : Option (Arr XF)) :
    Except Err (Arr XF) := do
  let fct ← univariateArrayCheck obs fct mAxis
  let (obsW, fctW) ← uvWeights obs fct wFunc
  match ensW with
  | none => KernelNp.owUv obs fct obsW fctW
  | some w =>
    let w ← univariateWeightCheck w fct mAxis
    KernelNpW.owUv obs fct obsW fctW w

/-- `vrgksuv_ensemble`, `_kernels.py:254-334`, for a backend other than numba. -/
def vrgksuvEnsemble (obs fct : Arr XF) (wFunc : XF → XF) (mAxis : ℤ) (ensW : Option (Arr XF)) :
    Except Err (Arr XF) := do
  let fct ← univariateArrayCheck obs fct mAxis
  let (obsW, fctW) ← uvWeights obs fct wFunc
  match ensW with
  | none => KernelNp.vrUv obs fct obsW fctW
  | some w =>
    let w ← univariateWeightCheck w fct mAxis
    KernelNpW.vrUv obs fct obsW fctW w

/-- `es_ensemble`, `_energy.py:16-86`, for a backend other than numba. -/
def esEnsemble (obs fct : Arr XF) (mAxis vAxis : ℤ) (ensW : Option (Arr XF)) (est : String) :
    Except Err (Arr XF) := do
  let (obs, fct) ← multivariateArrayCheck obs fct mAxis vAxis
  match ensW with
  | none => EnergyNp.ensemble est obs fct
  | some w =>
    let w ← multivariateWeightCheck w fct mAxis
    EnergyNpW.ensemble est obs fct w

/-- `owes_ensemble`, `_energy.py:152-215`, for a backend other than numba. -/
def owesEnsemble (obs fct : Arr XF) (wFunc : List XF → XF) (mAxis vAxis : ℤ) (ensW : Option (Arr XF)) :
    Except Err (Arr XF) := do
  let (obs, fct) ← multivariateArrayCheck obs fct mAxis vAxis
  let (obsW, fctW) ← mvWeights obs fct wFunc
  match ensW with
  | none => EnergyNp.ow obs fct obsW fctW
  | some w =>
    let w ← multivariateWeightCheck w fct mAxis
    EnergyNpW.ow obs fct obsW fctW w

/-- `vres_ensemble`, `_energy.py:218-282`, for a backend other than numba. -/
def vresEnsemble (obs fct : Arr XF) (wFunc : List XF → XF) (mAxis vAxis : ℤ) (ensW : Option (Arr XF)) :
    Except Err (Arr XF) := do
  let (obs, fct) ← multivariateArrayCheck obs fct mAxis vAxis
  let (obsW, fctW) ← mvWeights obs fct wFunc
  match ensW with
  | none => EnergyNp.vr obs fct obsW fctW
  | some w =>
    let w ← multivariateWeightCheck w fct mAxis
    EnergyNpW.vr obs fct obsW fctW w

/-- `gksmv_ensemble`, `_kernels.py:337-406`, for a backend other than numba. -/
def gksmvEnsemble (obs fct : Arr XF) (mAxis vAxis : ℤ) (ensW : Option (Arr XF)) (est : String) :
    Except Err (Arr XF) := do
  let (obs, fct) ← multivariateArrayCheck obs fct mAxis vAxis
  match ensW with
  | none => KernelNp.ensembleMv est obs fct
  | some w =>
    let w ← multivariateWeightCheck w fct mAxis
    KernelNpW.ensembleMv est obs fct w

/-- `owgksmv_ensemble`, `_kernels.py:475-553`, for a backend other than numba. -/
def owgksmvEnsemble (obs fct : Arr XF) (wFunc : List XF → XF) (mAxis vAxis : ℤ)
    (ensW : Option (Arr XF)) : Except Err (Arr XF) := do
  let (obs, fct) ← multivariateArrayCheck obs fct mAxis vAxis
  let (obsW, fctW) ← mvWeights obs fct wFunc
  match ensW with
  | none => KernelNp.owMv obs fct obsW fctW
  | some w =>
    let w ← multivariateWeightCheck w fct mAxis
    KernelNpW.owMv obs fct obsW fctW w

/-- `vrgksmv_ensemble`, `_kernels.py:556-624`, for a backend other than numba. -/
def vrgksmvEnsemble (obs fct : Arr XF) (wFunc : List XF → XF) (mAxis vAxis : ℤ)
    (ensW : Option (Arr XF)) : Except Err (Arr XF) := do
  let (obs, fct) ← multivariateArrayCheck obs fct mAxis vAxis
  let (obsW, fctW) ← mvWeights obs fct wFunc
  match ensW with
  | none => KernelNp.vrMv obs fct obsW fctW
  | some w =>
    let w ← multivariateWeightCheck w fct mAxis
    KernelNpW.vrMv obs fct obsW fctW w

/-- The pair weights: the given array or `B.ones(obs.shape + (D,))`, `_variogram.py:88-92`, `268-272` and
`362-366`. -/
def pairWeights (obs fct : Arr XF) (w : Option (Arr XF)) : Arr XF :=
  w.getD ⟨obs.shape ++ [fct.shape.getLastD 0], fun _ => 1⟩

/-- `vs_ensemble`, `_variogram.py:17-108`, for a backend other than numba; the pair weights are an array. -/
def vsEnsemble (obs fct : Arr XF) (w : Option (Arr XF)) (mAxis vAxis : ℤ) (ensW : Option (Arr XF)) (p : ℝ)
    (est : String) : Except Err (Arr XF) := do
  let (obs, fct) ← multivariateArrayCheck obs fct mAxis vAxis
  let w := pairWeights obs fct w
  match ensW with
  | none => VariogramNp.ensemble est p obs fct w
  | some ew =>
    let ew ← multivariateWeightCheck ew fct mAxis
    VariogramNpW.ensemble est p obs fct w ew

/-- `owvs_ensemble`, `_variogram.py:197-286`, for a backend other than numba. -/
def owvsEnsemble (obs fct : Arr XF) (wFunc : List XF → XF) (w : Option (Arr XF)) (mAxis vAxis : ℤ)
    (ensW : Option (Arr XF)) (p : ℝ) : Except Err (Arr XF) := do
  let (obs, fct) ← multivariateArrayCheck obs fct mAxis vAxis
  let (obsW, fctW) ← mvWeights obs fct wFunc
  let w := pairWeights obs fct w
  match ensW with
  | none => VariogramNp.ow p obs fct w obsW fctW
  | some ew =>
    let ew ← multivariateWeightCheck ew fct mAxis
    VariogramNpW.ow p obs fct w obsW fctW ew

/-- `vrvs_ensemble`, `_variogram.py:289-380`, for a backend other than numba. -/
def vrvsEnsemble (obs fct : Arr XF) (wFunc : List XF → XF) (w : Option (Arr XF)) (mAxis vAxis : ℤ)
    (ensW : Option (Arr XF)) (p : ℝ) : Except Err (Arr XF) := do
  let (obs, fct) ← multivariateArrayCheck obs fct mAxis vAxis
  let (obsW, fctW) ← mvWeights obs fct wFunc
  let w := pairWeights obs fct w
  match ensW with
  | none => VariogramNp.vr p obs fct w obsW fctW
  | some ew =>
    let ew ← multivariateWeightCheck ew fct mAxis
    VariogramNpW.vr p obs fct w obsW fctW ew

end ApiNp
end Verif
