import Verif.Model.Energy

/-!
# Variogram score

Function-by-function transcription of `/repo/scoringrules/core/variogram/_gufuncs.py`,
`_gufuncs_w.py` (numba), `_score.py`, `_score_w.py` (numpy-style) on one (observation vector,
ensemble) pair, and of the public functions of `/repo/scoringrules/_variogram.py`.

`D` is read off the observation vector: the shape check makes `fct.shape[-1]` the same number.  The
pair weights `w` are one matrix (list of rows) shared by all positions of the leading axes; arrays of
pair weights with leading axes of their own are not modelled.
-/

noncomputable section

open scoped Classical

namespace Verif

open XF Py Mv

/-- `x ** p` for a non-negative base (IEEE `pow`: `pow(x, 0) = 1` even for NaN, a zero base with a
negative exponent is infinite).  Negative bases do not occur in the code modelled here (`abs(.) ** p`)
and are given the value NaN. (`variogram/_gufuncs.py:16-23`, `_score.py:17-19`) -/
def XF.rpow (x : XF) (p : ℝ) : XF :=
  if p = 0 then 1 else
  match x with
  | nan => nan
  | ninf => nan
  | pinf => if 0 < p then pinf else fin 0
  | fin a => if a < 0 then nan else if a = 0 ∧ p < 0 then pinf else fin (a ^ p)

namespace Mv

/-- `w[i, j]` (`variogram/_gufuncs.py:16-23`). -/
def mget (w : List (List XF)) (i j : ℕ) : XF := idx (vat w i) j

/-- `abs(x[i] - x[j]) ** p` (`variogram/_gufuncs.py:16-23`). -/
def rho (p : ℝ) (x : List XF) (i j : ℕ) : XF := XF.rpow (XF.abs (idx x i - idx x j)) p

/-- entry `[i, j]` of `B.abs(B.expand_dims(x, -2) - B.expand_dims(x, -1)) ** p`
(`variogram/_score.py:17-28`). -/
def rhoT (p : ℝ) (x : List XF) (i j : ℕ) : XF := XF.rpow (XF.abs (idx x j - idx x i)) p

/-- `B.sum(a, axis=(-2, -1))` of the `D × D` array with entries `f i j` (`variogram/_score.py:21-28`). -/
def dsum (D : ℕ) (f : ℕ → ℕ → XF) : XF :=
  ((List.range D).map fun i => ((List.range D).map fun j => f i j).sum).sum

end Mv

/-! ## numba, unweighted: `/repo/scoringrules/core/variogram/_gufuncs.py` -/
namespace VsGufunc

/-- `_variogram_score_nrg_gufunc`, `_gufuncs.py:8-25`. -/
def nrg (w : List (List XF)) (p : ℝ) (obs : List XF) (fct : List (List XF)) : XF :=
  let M := fct.length
  let D := obs.length
  forRange 0 D (0 : XF) fun i out =>
    forRange 0 D out fun j out =>
      let vfct := forRange 0 M (0 : XF) fun m v => v + rho p (vat fct m) i j
      let vfct := vfct / (M : XF)
      let vobs := rho p obs i j
      out + mget w i j * (vobs - vfct) ^ 2

/-- `_variogram_score_fair_gufunc`, `_gufuncs.py:29-54`. -/
def fair (w : List (List XF)) (p : ℝ) (obs : List XF) (fct : List (List XF)) : XF :=
  let M := fct.length
  let D := obs.length
  let e := forRange 0 M ((0, 0) : XF × XF) fun k e =>
    (forRange 0 D e.1 fun i e1 => forRange 0 D e1 fun j e1 =>
      e1 + mget w i j * (rho p (vat fct k) i j - rho p obs i j) ^ 2,
     forRange (k + 1) M e.2 fun m e2 => forRange 0 D e2 fun i e2 => forRange 0 D e2 fun j e2 =>
      e2 + mget w i j * 2 * (rho p (vat fct k) i j - rho p (vat fct m) i j) ^ 2)
  e.1 / (M : XF) - half * e.2 / ((M * (M - 1) : ℕ) : XF)

/-- `_owvariogram_score_gufunc`, `_gufuncs.py:58-79`. -/
def ow (w : List (List XF)) (p : ℝ) (obs : List XF) (fct : List (List XF)) (ow : XF)
    (fw : List XF) : XF :=
  let M := fct.length
  let D := obs.length
  let e := forRange 0 M ((0, 0) : XF × XF) fun k e =>
    (forRange 0 D e.1 fun i e1 => forRange 0 D e1 fun j e1 =>
      e1 + mget w i j * (rho p (vat fct k) i j - rho p obs i j) ^ 2 * idx fw k * ow,
     forRange (k + 1) M e.2 fun m e2 => forRange 0 D e2 fun i e2 => forRange 0 D e2 fun j e2 =>
      e2 + 2 * mget w i j * (rho p (vat fct k) i j - rho p (vat fct m) i j) ^ 2
        * idx fw k * idx fw m * ow)
  let wbar := mean fw
  e.1 / ((M : XF) * wbar) - half * e.2 / (((M ^ 2 : ℕ) : XF) * wbar ^ 2)

/-- `_vrvariogram_score_gufunc`, `_gufuncs.py:83-112`.  The accumulator `e_3_x` is independent of the
other two and is written as a separate loop. -/
def vr (w : List (List XF)) (p : ℝ) (obs : List XF) (fct : List (List XF)) (ow : XF)
    (fw : List XF) : XF :=
  let M := fct.length
  let D := obs.length
  let e := forRange 0 M ((0, 0) : XF × XF) fun k e =>
    (forRange 0 D e.1 fun i e1 => forRange 0 D e1 fun j e1 =>
      e1 + mget w i j * (rho p (vat fct k) i j - rho p obs i j) ^ 2 * idx fw k * ow,
     forRange (k + 1) M e.2 fun m e2 => forRange 0 D e2 fun i e2 => forRange 0 D e2 fun j e2 =>
      e2 + 2 * mget w i j * (rho p (vat fct k) i j - rho p (vat fct m) i j) ^ 2
        * idx fw k * idx fw m)
  let e3x := forRange 0 M (0 : XF) fun k s => forRange 0 D s fun i s => forRange 0 D s fun j s =>
    s + mget w i j * (rho p (vat fct k) i j) ^ 2 * idx fw k
  let e3x := e3x * (1 / (M : XF))
  let wbar := mean fw
  let e3y := forRange 0 D (0 : XF) fun i s => forRange 0 D s fun j s =>
    s + mget w i j * (rho p obs i j) ^ 2 * ow
  e.1 / (M : XF) - half * e.2 / ((M ^ 2 : ℕ) : XF) + (e3x - e3y) * (wbar - ow)

end VsGufunc

/-! ## numba, weighted: `/repo/scoringrules/core/variogram/_gufuncs_w.py` -/
namespace VsGufuncW

/-- `_variogram_score_nrg_gufunc_w`, `_gufuncs_w.py:8-18`. -/
def nrg (w : List (List XF)) (p : ℝ) (obs : List XF) (fct : List (List XF)) (ensW : List XF) : XF :=
  let M := fct.length
  let D := obs.length
  forRange 0 D (0 : XF) fun i out =>
    forRange 0 D out fun j out =>
      let vfct := forRange 0 M (0 : XF) fun m v => v + idx ensW m * rho p (vat fct m) i j
      let vobs := rho p obs i j
      out + mget w i j * (vobs - vfct) ^ 2

/-- `_variogram_score_fair_gufunc_w`, `_gufuncs_w.py:22-43`. -/
def fair (w : List (List XF)) (p : ℝ) (obs : List XF) (fct : List (List XF)) (ensW : List XF) : XF :=
  let M := fct.length
  let D := obs.length
  let e := forRange 0 M ((0, 0) : XF × XF) fun k e =>
    (forRange 0 D e.1 fun i e1 => forRange 0 D e1 fun j e1 =>
      e1 + mget w i j * (rho p (vat fct k) i j - rho p obs i j) ^ 2 * idx ensW k,
     forRange (k + 1) M e.2 fun m e2 => forRange 0 D e2 fun i e2 => forRange 0 D e2 fun j e2 =>
      e2 + mget w i j * (2 * (rho p (vat fct k) i j - rho p (vat fct m) i j) ^ 2
        * idx ensW k * idx ensW m))
  let fairC := 1 - (ensW.map fun v => v ^ 2).sum
  e.1 - half * e.2 / fairC

/-- `_owvariogram_score_gufunc_w`, `_gufuncs_w.py:47-76`. -/
def ow (w : List (List XF)) (p : ℝ) (obs : List XF) (fct : List (List XF)) (ow : XF)
    (fw ensW : List XF) : XF :=
  let M := fct.length
  let D := obs.length
  let e := forRange 0 M ((0, 0) : XF × XF) fun k e =>
    (forRange 0 D e.1 fun i e1 => forRange 0 D e1 fun j e1 =>
      e1 + mget w i j * (rho p (vat fct k) i j - rho p obs i j) ^ 2 * idx fw k * ow * idx ensW k,
     forRange (k + 1) M e.2 fun m e2 => forRange 0 D e2 fun i e2 => forRange 0 D e2 fun j e2 =>
      e2 + mget w i j * (2 * (rho p (vat fct k) i j - rho p (vat fct m) i j) ^ 2
        * idx fw k * idx fw m * ow * idx ensW k * idx ensW m))
  let wbar := (zip2 (· * ·) fw ensW).sum
  e.1 / wbar - half * e.2 / wbar ^ 2

/-- `_vrvariogram_score_gufunc_w`, `_gufuncs_w.py:80-110`; `e_3_x` as a separate loop. -/
def vr (w : List (List XF)) (p : ℝ) (obs : List XF) (fct : List (List XF)) (ow : XF)
    (fw ensW : List XF) : XF :=
  let M := fct.length
  let D := obs.length
  let e := forRange 0 M ((0, 0) : XF × XF) fun k e =>
    (forRange 0 D e.1 fun i e1 => forRange 0 D e1 fun j e1 =>
      e1 + mget w i j * (rho p (vat fct k) i j - rho p obs i j) ^ 2 * idx fw k * ow * idx ensW k,
     forRange (k + 1) M e.2 fun m e2 => forRange 0 D e2 fun i e2 => forRange 0 D e2 fun j e2 =>
      e2 + mget w i j * (2 * (rho p (vat fct k) i j - rho p (vat fct m) i j) ^ 2
        * idx fw k * idx fw m * idx ensW k * idx ensW m))
  let e3x := forRange 0 M (0 : XF) fun k s => forRange 0 D s fun i s => forRange 0 D s fun j s =>
    s + mget w i j * (rho p (vat fct k) i j) ^ 2 * idx fw k * idx ensW k
  let wbar := (zip2 (· * ·) fw ensW).sum
  let e3y := forRange 0 D (0 : XF) fun i s => forRange 0 D s fun j s =>
    s + mget w i j * (rho p obs i j) ^ 2 * ow
  e.1 - half * e.2 + (e3x - e3y) * (wbar - ow)

end VsGufuncW

/-! ## numpy-style, unweighted: `/repo/scoringrules/core/variogram/_score.py` -/
namespace VsApprox

/-- `B.sum(B.expand_dims(w, -3) * (fct_diff - B.expand_dims(obs_diff, -3)) ** 2, axis=(-2, -1))`, the
entry of one member (`variogram/_score.py:21-28`). -/
def e1 (w : List (List XF)) (p : ℝ) (obs x : List XF) : XF :=
  dsum obs.length fun i j => mget w i j * (rhoT p x i j - rhoT p obs i j) ^ 2

/-- `B.sum(B.expand_dims(w, (-3, -4)) * (B.expand_dims(fct_diff, -3) - B.expand_dims(fct_diff, -4))
** 2, axis=(-2, -1))`, the entry of one pair of members (`variogram/_score.py:30-41`). -/
def e2 (w : List (List XF)) (p : ℝ) (D : ℕ) (x x' : List XF) : XF :=
  dsum D fun i j => mget w i j * (rhoT p x i j - rhoT p x' i j) ^ 2

/-- `vs_ensemble` with `estimator="nrg"`, `_score.py:21-28`. -/
def nrg (w : List (List XF)) (p : ℝ) (obs : List XF) (fct : List (List XF)) : XF :=
  dsum obs.length fun i j => mget w i j *
    (rhoT p obs i j - (fct.map fun x => rhoT p x i j).sum / (fct.length : XF)) ^ 2

/-- `vs_ensemble` with `estimator="fair"`, `_score.py:30-41`. -/
def fair (w : List (List XF)) (p : ℝ) (obs : List XF) (fct : List (List XF)) : XF :=
  let M := fct.length
  let E1 := (fct.map fun x => e1 w p obs x).sum / (M : XF)
  let E2 := (fct.map fun x => (fct.map fun x' => e2 w p obs.length x x').sum).sum
    / ((M * (M - 1) : ℕ) : XF)
  E1 - half * E2

/-- `owvs_ensemble`, `_score.py:50-82`. -/
def ow (w : List (List XF)) (p : ℝ) (obs : List XF) (fct : List (List XF)) (ow : XF)
    (fw : List XF) : XF :=
  let M := fct.length
  let wbar := mean fw
  let E1 := mean (zip2 (fun e f => e * f * ow) (fct.map fun x => e1 w p obs x) fw) / wbar
  let xw := fct.zip fw
  let E2 := (xw.map fun a => (xw.map fun b =>
    e2 w p obs.length a.1 b.1 * (b.2 * a.2 * ow)).sum).sum / ((M * M : ℕ) : XF) / wbar ^ 2
  E1 - half * E2

/-- `vrvs_ensemble`, `_score.py:85-120`. -/
def vr (w : List (List XF)) (p : ℝ) (obs : List XF) (fct : List (List XF)) (ow : XF)
    (fw : List XF) : XF :=
  let M := fct.length
  let wbar := mean fw
  let E1 := mean (zip2 (fun e f => e * f * ow) (fct.map fun x => e1 w p obs x) fw)
  let xw := fct.zip fw
  let E2 := (xw.map fun a => (xw.map fun b =>
    e2 w p obs.length a.1 b.1 * (b.2 * a.2)).sum).sum / ((M * M : ℕ) : XF)
  let E3 := mean (zip2 (· * ·)
    (fct.map fun x => dsum obs.length fun i j => mget w i j * rhoT p x i j ^ 2) fw)
  let E3 := E3 - (dsum obs.length fun i j => mget w i j * rhoT p obs i j ^ 2) * ow
  let E3 := E3 * (wbar - ow)
  E1 - half * E2 + E3

end VsApprox

/-! ## numpy-style, weighted: `/repo/scoringrules/core/variogram/_score_w.py` -/
namespace VsApproxW

/-- `vs_ensemble_w` with `estimator="nrg"`, `_score_w.py:21-30`. -/
def nrg (w : List (List XF)) (p : ℝ) (obs : List XF) (fct : List (List XF)) (ensW : List XF) : XF :=
  dsum obs.length fun i j => mget w i j *
    (rhoT p obs i j - (zip2 (· * ·) (fct.map fun x => rhoT p x i j) ensW).sum) ^ 2

/-- `vs_ensemble_w` with `estimator="fair"`, `_score_w.py:32-47`. -/
def fair (w : List (List XF)) (p : ℝ) (obs : List XF) (fct : List (List XF)) (ensW : List XF) : XF :=
  let E1 := (zip2 (· * ·) (fct.map fun x => VsApprox.e1 w p obs x) ensW).sum
  let xw := fct.zip ensW
  let E2 := (xw.map fun a => (xw.map fun b =>
    VsApprox.e2 w p obs.length a.1 b.1 * b.2 * a.2).sum).sum
  let fairC := 1 - (zip2 (· * ·) ensW ensW).sum
  E1 - half * E2 / fairC

/-- `owvs_ensemble_w`, `_score_w.py:57-93`. -/
def ow (w : List (List XF)) (p : ℝ) (obs : List XF) (fct : List (List XF)) (ow : XF)
    (fw ensW : List XF) : XF :=
  let wbar := (zip2 (· * ·) fw ensW).sum
  let E1 := (zip2 (· * ·)
    (zip2 (fun e f => e * f * ow) (fct.map fun x => VsApprox.e1 w p obs x) fw) ensW).sum / wbar
  let xw := (fct.zip fw).zip ensW
  let E2 := (xw.map fun a => (xw.map fun b => VsApprox.e2 w p obs.length a.1.1 b.1.1
    * (b.1.2 * a.1.2 * ow * (b.2 * a.2))).sum).sum / wbar ^ 2
  E1 - half * E2

/-- `vrvs_ensemble_w`, `_score_w.py:96-133`. -/
def vr (w : List (List XF)) (p : ℝ) (obs : List XF) (fct : List (List XF)) (ow : XF)
    (fw ensW : List XF) : XF :=
  let wbar := (zip2 (· * ·) fw ensW).sum
  let E1 := (zip2 (· * ·)
    (zip2 (fun e f => e * f * ow) (fct.map fun x => VsApprox.e1 w p obs x) fw) ensW).sum
  let xw := (fct.zip fw).zip ensW
  let E2 := (xw.map fun a => (xw.map fun b => VsApprox.e2 w p obs.length a.1.1 b.1.1
    * (b.1.2 * a.1.2) * (b.2 * a.2)).sum).sum
  let E3 := (zip2 (· * ·) (zip2 (· * ·)
    (fct.map fun x => dsum obs.length fun i j => mget w i j * rhoT p x i j ^ 2) fw) ensW).sum
  let E3 := E3 - (dsum obs.length fun i j => mget w i j * rhoT p obs i j ^ 2) * ow
  let E3 := E3 * (wbar - ow)
  E1 - half * E2 + E3

end VsApproxW

/-! ## public functions: `/repo/scoringrules/_variogram.py` -/
namespace Api

/-- `variogram.estimator_gufuncs` (`_gufuncs.py:115-120`) for `backend == "numba"`, else the dispatch
of `vs_ensemble` (`_score.py:26-45`).  The gufunc table also holds `ownrg`/`vrnrg`, which fail with a
`TypeError` when called with four arguments. -/
def vsKernel (path : Path) (est : String) (w : List (List XF)) (p : ℝ) :
    Except Err (List XF → List (List XF) → XF) :=
  match path with
  | .numba =>
    if est = "fair" then .ok (VsGufunc.fair w p)
    else if est = "nrg" then .ok (VsGufunc.nrg w p)
    else if est = "ownrg" ∨ est = "vrnrg" then .error .typeError
    else .error .valueError
  | .array =>
    if est = "nrg" then .ok (VsApprox.nrg w p)
    else if est = "fair" then .ok (VsApprox.fair w p)
    else .error .valueError

/-- Weighted counterpart: `variogram.estimator_gufuncs_w` (`_gufuncs_w.py:113-118`) and
`vs_ensemble_w` (`_score_w.py:26-52`). -/
def vsKernelW (path : Path) (est : String) (w : List (List XF)) (p : ℝ) :
    Except Err (List XF → List (List XF) → List XF → XF) :=
  match path with
  | .numba =>
    if est = "fair" then .ok (VsGufuncW.fair w p)
    else if est = "nrg" then .ok (VsGufuncW.nrg w p)
    else if est = "ownrg" ∨ est = "vrnrg" then .error .typeError
    else .error .valueError
  | .array =>
    if est = "nrg" then .ok (VsApproxW.nrg w p)
    else if est = "fair" then .ok (VsApproxW.fair w p)
    else .error .valueError

/-- `w = B.ones(obs.shape + (D,))`, lines 88-90, 268-270 and 362-364: one at every pair.
(`_variogram.py:88-90`) -/
def pairOnes (D : ℕ) : List (List XF) := List.replicate D (List.replicate D 1)

/-- `vs_ensemble`, `_variogram.py:17-108`. -/
def vsEnsemble (path : Path) (obs fct : Arr XF) (w : Option (List (List XF))) (mAxis vAxis : ℤ)
    (ensW : Option (Arr XF)) (p : ℝ) (est : String) : Except Err (Arr XF) := do
  let (obs, fct) ← multivariateArrayCheck obs fct mAxis vAxis
  let w := w.getD (pairOnes (fct.shape.getD (fct.ndim - 1) 0))
  match ensW with
  | none => (vsKernel path est w p).map fun k => perMat k obs fct
  | some ew =>
    let ew ← multivariateWeightCheck ew fct mAxis
    (vsKernelW path est w p).map fun k => perMatW k obs fct ew

/-- `twvs_ensemble`, `_variogram.py:111-194`: the chaining function is applied to both whole arrays. -/
def twvsEnsemble (path : Path) (obs fct : Arr XF) (vFunc : Arr XF → Arr XF)
    (w : Option (List (List XF))) (mAxis vAxis : ℤ) (ensW : Option (Arr XF)) (p : ℝ) (est : String) :
    Except Err (Arr XF) :=
  vsEnsemble path (vFunc obs) (vFunc fct) w mAxis vAxis ensW p est

/-- `owvs_ensemble`, `_variogram.py:197-286`. -/
def owvsEnsemble (path : Path) (obs fct : Arr XF) (wFunc : List XF → XF)
    (w : Option (List (List XF))) (mAxis vAxis : ℤ) (ensW : Option (Arr XF)) (p : ℝ) :
    Except Err (Arr XF) := do
  let (obs, fct) ← multivariateArrayCheck obs fct mAxis vAxis
  let (obsW, fctW) ← mvWeights obs fct wFunc
  let w := w.getD (pairOnes (fct.shape.getD (fct.ndim - 1) 0))
  match ensW with
  | none => match path with
    | .numba => .ok (perMatO (VsGufunc.ow w p) obs fct obsW fctW)
    | .array => .ok (perMatO (VsApprox.ow w p) obs fct obsW fctW)
  | some ew =>
    let ew ← multivariateWeightCheck ew fct mAxis
    match path with
    | .numba => .ok (perMatOW (VsGufuncW.ow w p) obs fct obsW fctW ew)
    | .array => .ok (perMatOW (VsApproxW.ow w p) obs fct obsW fctW ew)

/-- `vrvs_ensemble`, `_variogram.py:289-380`. -/
def vrvsEnsemble (path : Path) (obs fct : Arr XF) (wFunc : List XF → XF)
    (w : Option (List (List XF))) (mAxis vAxis : ℤ) (ensW : Option (Arr XF)) (p : ℝ) :
    Except Err (Arr XF) := do
  let (obs, fct) ← multivariateArrayCheck obs fct mAxis vAxis
  let (obsW, fctW) ← mvWeights obs fct wFunc
  let w := w.getD (pairOnes (fct.shape.getD (fct.ndim - 1) 0))
  match ensW with
  | none => match path with
    | .numba => .ok (perMatO (VsGufunc.vr w p) obs fct obsW fctW)
    | .array => .ok (perMatO (VsApprox.vr w p) obs fct obsW fctW)
  | some ew =>
    let ew ← multivariateWeightCheck ew fct mAxis
    match path with
    | .numba => .ok (perMatOW (VsGufuncW.vr w p) obs fct obsW fctW ew)
    | .array => .ok (perMatOW (VsApproxW.vr w p) obs fct obsW fctW ew)

/-- The call `vs_ensemble(y, xs, w, ens_w=ws, p=p, estimator=est)` on one observation vector of
dimension `D` and one ensemble. (`_variogram.py:17-108`) -/
def vs1 (path : Path) (est : String) (p : ℝ) (w : Option (List (List XF))) (D : ℕ) (y : List XF)
    (xs : List (List XF)) (ws : Option (List XF)) : Except Err XF :=
  item (vsEnsemble path (Arr.ofList y) (Arr.ofRows D xs) w (-2) (-1) (ws.map Arr.ofList) p est)

/-- The call `owvs_ensemble(y, xs, w_func, w, ens_w=ws, p=p)` on one observation vector.
(`_variogram.py:197-286`) -/
def owvs1 (path : Path) (p : ℝ) (w : Option (List (List XF))) (D : ℕ) (wFunc : List XF → XF)
    (y : List XF) (xs : List (List XF)) (ws : Option (List XF)) : Except Err XF :=
  item (owvsEnsemble path (Arr.ofList y) (Arr.ofRows D xs) wFunc w (-2) (-1) (ws.map Arr.ofList) p)

/-- The call `vrvs_ensemble(y, xs, w_func, w, ens_w=ws, p=p)` on one observation vector.
(`_variogram.py:289-380`) -/
def vrvs1 (path : Path) (p : ℝ) (w : Option (List (List XF))) (D : ℕ) (wFunc : List XF → XF)
    (y : List XF) (xs : List (List XF)) (ws : Option (List XF)) : Except Err XF :=
  item (vrvsEnsemble path (Arr.ofList y) (Arr.ofRows D xs) wFunc w (-2) (-1) (ws.map Arr.ofList) p)

end Api
end Verif
