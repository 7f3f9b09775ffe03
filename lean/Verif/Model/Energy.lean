import Verif.Model.Multivariate

/-!
# Energy score

Function-by-function transcription of `/repo/scoringrules/core/energy/_gufuncs.py`, `_gufuncs_w.py`
(numba), `_score.py`, `_score_w.py` (numpy-style) on one (observation vector, ensemble) pair, and of
the public functions of `/repo/scoringrules/_energy.py`.
-/

noncomputable section

open scoped Classical

namespace Verif

open XF Py Mv

/-! ## numba, unweighted: `/repo/scoringrules/core/energy/_gufuncs.py` -/
namespace EsGufunc

/-- the double loop of lines 21-27 and 46-52 (`energy/_gufuncs.py:21-27`, `46-52`). -/
def loop (obs : List XF) (fct : List (List XF)) : XF × XF :=
  forRange 0 fct.length ((0, 0) : XF × XF) fun i e =>
    (e.1 + vnorm (vsub (vat fct i) obs),
     forRange (i + 1) fct.length e.2 fun j e2 => e2 + 2 * vnorm (vsub (vat fct i) (vat fct j)))

/-- `_energy_score_nrg_gufunc`, `_gufuncs.py:15-29`. -/
def nrg (obs : List XF) (fct : List (List XF)) : XF :=
  let M := fct.length
  let e := loop obs fct
  e.1 / (M : XF) - half / ((M ^ 2 : ℕ) : XF) * e.2

/-- `_energy_score_fair_gufunc`, `_gufuncs.py:40-54`. -/
def fair (obs : List XF) (fct : List (List XF)) : XF :=
  let M := fct.length
  let e := loop obs fct
  e.1 / (M : XF) - half / ((M * (M - 1) : ℕ) : XF) * e.2

/-- `_energy_score_akr_gufunc`, `_gufuncs.py:58-67`; `fct[i - 1]` with `i = 0` is the last member. -/
def akr (obs : List XF) (fct : List (List XF)) : XF :=
  let M := fct.length
  let e := forRange 0 M ((0, 0) : XF × XF) fun i e =>
    (e.1 + vnorm (vsub (vat fct i) obs),
     e.2 + vnorm (vsub (vat fct i) (vat fct ((if i = 0 then M else i) - 1))))
  e.1 / (M : XF) - half * 1 / (M : XF) * e.2

/-- `_energy_score_akr_circperm_gufunc`, `_gufuncs.py:71-83`. -/
def akrCircperm (obs : List XF) (fct : List (List XF)) : XF :=
  let M := fct.length
  let e := forRange 0 M ((0, 0) : XF × XF) fun i e =>
    (e.1 + vnorm (vsub (vat fct i) obs),
     e.2 + vnorm (vsub (vat fct i) (vat fct ((i + M / 2) % M))))
  e.1 / (M : XF) - half * 1 / (M : XF) * e.2

/-- `_owenergy_score_gufunc`, `_gufuncs.py:87-105`. -/
def ow (obs : List XF) (fct : List (List XF)) (ow : XF) (fw : List XF) : XF :=
  let M := fct.length
  let e := forRange 0 M ((0, 0) : XF × XF) fun i e =>
    (e.1 + vnorm (vsub (vat fct i) obs) * idx fw i * ow,
     forRange (i + 1) M e.2 fun j e2 =>
       e2 + 2 * (vnorm (vsub (vat fct i) (vat fct j)) * idx fw i * idx fw j * ow))
  let wbar := mean fw
  e.1 / ((M : XF) * wbar) - half * e.2 / (((M ^ 2 : ℕ) : XF) * wbar ^ 2)

/-- `_vrenergy_score_gufunc`, `_gufuncs.py:109-131`.  The accumulator `wabs_x` is independent of the
other two and is written as a separate loop. -/
def vr (obs : List XF) (fct : List (List XF)) (ow : XF) (fw : List XF) : XF :=
  let M := fct.length
  let e := forRange 0 M ((0, 0) : XF × XF) fun i e =>
    (e.1 + vnorm (vsub (vat fct i) obs) * idx fw i * ow,
     forRange (i + 1) M e.2 fun j e2 =>
       e2 + 2 * (vnorm (vsub (vat fct i) (vat fct j)) * idx fw i * idx fw j))
  let wabsx := forRange 0 M (0 : XF) fun i s => s + vnorm (vat fct i) * idx fw i
  let wabsx := wabsx / (M : XF)
  let wbar := mean fw
  let wabsy := vnorm obs * ow
  e.1 / (M : XF) - half * e.2 / ((M ^ 2 : ℕ) : XF) + (wabsx - wabsy) * (wbar - ow)

end EsGufunc

/-! ## numba, weighted: `/repo/scoringrules/core/energy/_gufuncs_w.py` -/
namespace EsGufuncW

/-- the double loop of lines 18-22 and 38-42 (`energy/_gufuncs_w.py:18-22`, `38-42`). -/
def loop (obs : List XF) (fct : List (List XF)) (w : List XF) : XF × XF :=
  forRange 0 fct.length ((0, 0) : XF × XF) fun i e =>
    (e.1 + vnorm (vsub (vat fct i) obs) * idx w i,
     forRange (i + 1) fct.length e.2 fun j e2 =>
       e2 + 2 * vnorm (vsub (vat fct i) (vat fct j)) * idx w i * idx w j)

/-- `_energy_score_nrg_gufunc_w`, `_gufuncs_w.py:8-24`. -/
def nrg (obs : List XF) (fct : List (List XF)) (w : List XF) : XF :=
  let e := loop obs fct w
  e.1 - half * e.2

/-- `_energy_score_fair_gufunc_w`, `_gufuncs_w.py:28-46`. -/
def fair (obs : List XF) (fct : List (List XF)) (w : List XF) : XF :=
  let e := loop obs fct w
  let fairC := 1 - (zip2 (· * ·) w w).sum
  e.1 - half * e.2 / fairC

/-- `_energy_score_akr_gufunc_w`, `_gufuncs_w.py:50-62`. -/
def akr (obs : List XF) (fct : List (List XF)) (w : List XF) : XF :=
  let M := fct.length
  let e := forRange 0 M ((0, 0) : XF × XF) fun i e =>
    (e.1 + vnorm (vsub (vat fct i) obs) * idx w i,
     e.2 + vnorm (vsub (vat fct i) (vat fct ((if i = 0 then M else i) - 1))) * idx w i)
  e.1 - half * e.2

/-- `_energy_score_akr_circperm_gufunc_w`, `_gufuncs_w.py:66-79`. -/
def akrCircperm (obs : List XF) (fct : List (List XF)) (w : List XF) : XF :=
  let M := fct.length
  let e := forRange 0 M ((0, 0) : XF × XF) fun i e =>
    (e.1 + vnorm (vsub (vat fct i) obs) * idx w i,
     e.2 + vnorm (vsub (vat fct i) (vat fct ((i + M / 2) % M))) * idx w i)
  e.1 - half * e.2

/-- `_owenergy_score_gufunc_w`, `_gufuncs_w.py:83-109`; line 108 sets `wbar = np.mean(fw)` although
the sums are weighted with `ens_w`.  `ow = ow[0]` only unpacks the scalar. -/
def ow (obs : List XF) (fct : List (List XF)) (ow : XF) (fw w : List XF) : XF :=
  let M := fct.length
  let e := forRange 0 M ((0, 0) : XF × XF) fun i e =>
    (e.1 + vnorm (vsub (vat fct i) obs) * idx fw i * ow * idx w i,
     forRange (i + 1) M e.2 fun j e2 =>
       e2 + 2 * (vnorm (vsub (vat fct i) (vat fct j)) * idx fw i * idx fw j * ow)
         * idx w i * idx w j)
  let wbar := mean fw
  e.1 / wbar - half * e.2 / wbar ^ 2

/-- `_vrenergy_score_gufunc_w`, `_gufuncs_w.py:113-142`; `wabs_x` as a separate loop. -/
def vr (obs : List XF) (fct : List (List XF)) (ow : XF) (fw w : List XF) : XF :=
  let M := fct.length
  let e := forRange 0 M ((0, 0) : XF × XF) fun i e =>
    (e.1 + vnorm (vsub (vat fct i) obs) * idx fw i * ow * idx w i,
     forRange (i + 1) M e.2 fun j e2 =>
       e2 + 2 * (vnorm (vsub (vat fct i) (vat fct j)) * idx fw i * idx fw j) * idx w i * idx w j)
  let wabsx := forRange 0 M (0 : XF) fun i s => s + vnorm (vat fct i) * idx fw i * idx w i
  let wbar := (zip2 (· * ·) fw w).sum
  let wabsy := vnorm obs * ow
  e.1 - half * e.2 + (wabsx - wabsy) * (wbar - ow)

end EsGufuncW

/-! ## numpy-style, unweighted: `/repo/scoringrules/core/energy/_score.py` -/
namespace EsApprox

/-- `err_norm = B.norm(fct - B.expand_dims(obs, -2), -1)` (`energy/_score.py:33-58`). -/
def errNorm (obs : List XF) (fct : List (List XF)) : List XF := fct.map fun x => vnorm (vsub x obs)

/-- `B.sum(err_norm, -1) / M`, shared first term (`energy/_score.py:33-58`). -/
def e1 (obs : List XF) (fct : List (List XF)) : XF := (errNorm obs fct).sum / (fct.length : XF)

/-- `B.sum(spread_norm, (-2, -1))`, the sum over all ordered pairs (`energy/_score.py:33-58`). -/
def spread (fct : List (List XF)) : XF :=
  (fct.map fun a => (fct.map fun b => vnorm (vsub a b)).sum).sum

/-- `_es_ensemble_nrg`, `_score.py:33-44`. -/
def nrg (obs : List XF) (fct : List (List XF)) : XF :=
  e1 obs fct - half * (spread fct / ((fct.length ^ 2 : ℕ) : XF))

/-- `_es_ensemble_fair`, `_score.py:47-58`. -/
def fair (obs : List XF) (fct : List (List XF)) : XF :=
  e1 obs fct - half * (spread fct / ((fct.length * (fct.length - 1) : ℕ) : XF))

/-- `B.norm(fct - B.roll(fct, shift, axis=-2), -1)` (`energy/_score.py:61-89`). -/
def rollNorm (fct : List (List XF)) (shift : ℕ) : List XF :=
  List.zipWith (fun a b => vnorm (vsub a b)) fct (vroll fct shift)

/-- `_es_ensemble_akr`, `_score.py:61-72`. -/
def akr (obs : List XF) (fct : List (List XF)) : XF :=
  e1 obs fct - half * ((rollNorm fct 1).sum / (fct.length : XF))

/-- `_es_ensemble_akr_circperm`, `_score.py:75-89`. -/
def akrCircperm (obs : List XF) (fct : List (List XF)) : XF :=
  e1 obs fct - half * ((rollNorm fct (fct.length / 2)).sum / (fct.length : XF))

/-- `owes_ensemble`, `_score.py:92-113`. -/
def ow (obs : List XF) (fct : List (List XF)) (ow : XF) (fw : List XF) : XF :=
  let M := fct.length
  let wbar := mean fw
  let e1 := mean (zip2 (fun n w => n * w * ow) (errNorm obs fct) fw) / wbar
  let xw := fct.zip fw
  let e2 := (xw.map fun p => (xw.map fun q => vnorm (vsub p.1 q.1) * (p.2 * q.2 * ow)).sum).sum
    / ((M * M : ℕ) : XF) / wbar ^ 2
  e1 - half * e2

/-- `vres_ensemble`, `_score.py:116-139`. -/
def vr (obs : List XF) (fct : List (List XF)) (ow : XF) (fw : List XF) : XF :=
  let M := fct.length
  let wbar := mean fw
  let e1 := mean (zip2 (fun n w => n * (w * ow)) (errNorm obs fct) fw)
  let xw := fct.zip fw
  let e2 := (xw.map fun p => (xw.map fun q => vnorm (vsub p.1 q.1) * (p.2 * q.2)).sum).sum
    / ((M * M : ℕ) : XF)
  let rhobar := mean (zip2 (· * ·) (fct.map vnorm) fw)
  let e3 := (rhobar - vnorm obs * ow) * (wbar - ow)
  e1 - half * e2 + e3

end EsApprox

/-! ## numpy-style, weighted: `/repo/scoringrules/core/energy/_score_w.py` -/
namespace EsApproxW

/-- `B.sum(err_norm * ens_w, -1)`, shared first term (`energy/_score_w.py:33-70`). -/
def e1 (obs : List XF) (fct : List (List XF)) (w : List XF) : XF :=
  (zip2 (· * ·) (EsApprox.errNorm obs fct) w).sum

/-- `B.sum(spread_norm * ens_w[..., None] * ens_w[..., None, :], (-2, -1))` (`energy/_score_w.py:33-70`). -/
def spread (fct : List (List XF)) (w : List XF) : XF :=
  let xw := fct.zip w
  (xw.map fun p => (xw.map fun q => vnorm (vsub p.1 q.1) * p.2 * q.2).sum).sum

/-- `_es_ensemble_nrg_w`, `_score_w.py:33-49`. -/
def nrg (obs : List XF) (fct : List (List XF)) (w : List XF) : XF :=
  e1 obs fct w - half * spread fct w

/-- `_es_ensemble_fair_w`, `_score_w.py:52-70`. -/
def fair (obs : List XF) (fct : List (List XF)) (w : List XF) : XF :=
  let fairC := 1 - (zip2 (· * ·) w w).sum
  e1 obs fct w - half * spread fct w / fairC

/-- `_es_ensemble_akr_w`, `_score_w.py:73-85`. -/
def akr (obs : List XF) (fct : List (List XF)) (w : List XF) : XF :=
  e1 obs fct w - half * (zip2 (· * ·) (EsApprox.rollNorm fct 1) w).sum

/-- `_es_ensemble_akr_circperm_w`, `_score_w.py:88-102`. -/
def akrCircperm (obs : List XF) (fct : List (List XF)) (w : List XF) : XF :=
  e1 obs fct w - half * (zip2 (· * ·) (EsApprox.rollNorm fct (fct.length / 2)) w).sum

/-- `owes_ensemble_w`, `_score_w.py:105-129`. -/
def ow (obs : List XF) (fct : List (List XF)) (ow : XF) (fw w : List XF) : XF :=
  let wbar := (zip2 (· * ·) fw w).sum
  let e1 := (zip2 (· * ·) (zip2 (fun n f => n * f * ow) (EsApprox.errNorm obs fct) fw) w).sum / wbar
  let xw := (fct.zip fw).zip w
  let e2 := (xw.map fun p => (xw.map fun q =>
    vnorm (vsub p.1.1 q.1.1) * (p.1.2 * q.1.2 * ow) * p.2 * q.2).sum).sum / wbar ^ 2
  e1 - half * e2

/-- `vres_ensemble_w`, `_score_w.py:132-159`. -/
def vr (obs : List XF) (fct : List (List XF)) (ow : XF) (fw w : List XF) : XF :=
  let wbar := (zip2 (· * ·) fw w).sum
  let e1 := (zip2 (· * ·) (zip2 (fun n f => n * (f * ow)) (EsApprox.errNorm obs fct) fw) w).sum
  let xw := (fct.zip fw).zip w
  let e2 := (xw.map fun p => (xw.map fun q =>
    vnorm (vsub p.1.1 q.1.1) * (p.1.2 * q.1.2) * p.2 * q.2).sum).sum
  let rhobar := (zip2 (· * ·) (zip2 (· * ·) (fct.map vnorm) fw) w).sum
  let e3 := (rhobar - vnorm obs * ow) * (wbar - ow)
  e1 - half * e2 + e3

end EsApproxW

/-! ## public functions: `/repo/scoringrules/_energy.py` -/
namespace Api

/-- `energy.estimator_gufuncs` (`_gufuncs.py:134-141`) for `backend == "numba"`, else the dispatch of
`es_ensemble` (`_score.py:9-30`).  The gufunc table also holds `ownrg`/`vrnrg`, which fail with a
`TypeError` when called with two arguments. -/
def esKernel (path : Path) (est : String) : Except Err (List XF → List (List XF) → XF) :=
  match path with
  | .numba =>
    if est = "akr_circperm" then .ok EsGufunc.akrCircperm
    else if est = "akr" then .ok EsGufunc.akr
    else if est = "fair" then .ok EsGufunc.fair
    else if est = "nrg" then .ok EsGufunc.nrg
    else if est = "ownrg" ∨ est = "vrnrg" then .error .typeError
    else .error .valueError
  | .array =>
    if est = "nrg" then .ok EsApprox.nrg
    else if est = "fair" then .ok EsApprox.fair
    else if est = "akr" then .ok EsApprox.akr
    else if est = "akr_circperm" then .ok EsApprox.akrCircperm
    else .error .valueError

/-- Weighted counterpart: `energy.estimator_gufuncs_w` (`_gufuncs_w.py:145-152`) and `es_ensemble_w`
(`_score_w.py:9-30`). -/
def esKernelW (path : Path) (est : String) :
    Except Err (List XF → List (List XF) → List XF → XF) :=
  match path with
  | .numba =>
    if est = "akr_circperm" then .ok EsGufuncW.akrCircperm
    else if est = "akr" then .ok EsGufuncW.akr
    else if est = "fair" then .ok EsGufuncW.fair
    else if est = "nrg" then .ok EsGufuncW.nrg
    else if est = "ownrg" ∨ est = "vrnrg" then .error .typeError
    else .error .valueError
  | .array =>
    if est = "nrg" then .ok EsApproxW.nrg
    else if est = "fair" then .ok EsApproxW.fair
    else if est = "akr" then .ok EsApproxW.akr
    else if est = "akr_circperm" then .ok EsApproxW.akrCircperm
    else .error .valueError

/-- `es_ensemble`, `_energy.py:16-86`. -/
def esEnsemble (path : Path) (obs fct : Arr XF) (mAxis vAxis : ℤ) (ensW : Option (Arr XF))
    (est : String) : Except Err (Arr XF) := do
  let (obs, fct) ← multivariateArrayCheck obs fct mAxis vAxis
  match ensW with
  | none => (esKernel path est).map fun k => perMat k obs fct
  | some w =>
    let w ← multivariateWeightCheck w fct mAxis
    (esKernelW path est).map fun k => perMatW k obs fct w

/-- `twes_ensemble`, `_energy.py:89-149`: the chaining function is applied to both whole arrays. -/
def twesEnsemble (path : Path) (obs fct : Arr XF) (vFunc : Arr XF → Arr XF) (mAxis vAxis : ℤ)
    (ensW : Option (Arr XF)) (est : String) : Except Err (Arr XF) :=
  esEnsemble path (vFunc obs) (vFunc fct) mAxis vAxis ensW est

/-- A kernel with outcome weights applied to whole arrays.
(`guvectorize("(d),(m,d),(),(m)->()")`, `energy/_gufuncs.py:86`) -/
def perMatO (k : List XF → List (List XF) → XF → List XF → XF) (obs fct obsW fctW : Arr XF) :
    Arr XF :=
  ⟨obs.shape.dropLast, fun i => k (obs.row i) (fct.mat i) (obsW.get i) (fctW.row i)⟩

/-- A weighted kernel with outcome weights applied to whole arrays.
(`guvectorize("(d),(m,d),(),(m),(m)->()")`, `energy/_gufuncs_w.py:82`) -/
def perMatOW (k : List XF → List (List XF) → XF → List XF → List XF → XF)
    (obs fct obsW fctW w : Arr XF) : Arr XF :=
  ⟨obs.shape.dropLast, fun i => k (obs.row i) (fct.mat i) (obsW.get i) (fctW.row i) (w.row i)⟩

/-- `owes_ensemble`, `_energy.py:152-215`. -/
def owesEnsemble (path : Path) (obs fct : Arr XF) (wFunc : List XF → XF) (mAxis vAxis : ℤ)
    (ensW : Option (Arr XF)) : Except Err (Arr XF) := do
  let (obs, fct) ← multivariateArrayCheck obs fct mAxis vAxis
  let (obsW, fctW) ← mvWeights obs fct wFunc
  match ensW with
  | none => match path with
    | .numba => .ok (perMatO EsGufunc.ow obs fct obsW fctW)
    | .array => .ok (perMatO EsApprox.ow obs fct obsW fctW)
  | some w =>
    let w ← multivariateWeightCheck w fct mAxis
    match path with
    | .numba => .ok (perMatOW EsGufuncW.ow obs fct obsW fctW w)
    | .array => .ok (perMatOW EsApproxW.ow obs fct obsW fctW w)

/-- `vres_ensemble`, `_energy.py:218-282`. -/
def vresEnsemble (path : Path) (obs fct : Arr XF) (wFunc : List XF → XF) (mAxis vAxis : ℤ)
    (ensW : Option (Arr XF)) : Except Err (Arr XF) := do
  let (obs, fct) ← multivariateArrayCheck obs fct mAxis vAxis
  let (obsW, fctW) ← mvWeights obs fct wFunc
  match ensW with
  | none => match path with
    | .numba => .ok (perMatO EsGufunc.vr obs fct obsW fctW)
    | .array => .ok (perMatO EsApprox.vr obs fct obsW fctW)
  | some w =>
    let w ← multivariateWeightCheck w fct mAxis
    match path with
    | .numba => .ok (perMatOW EsGufuncW.vr obs fct obsW fctW w)
    | .array => .ok (perMatOW EsApproxW.vr obs fct obsW fctW w)

/-- The call `es_ensemble(y, xs, ens_w=ws, estimator=est)` on one observation vector of dimension `D`
and one ensemble. (`_energy.py:16-86`) -/
def es1 (path : Path) (est : String) (D : ℕ) (y : List XF) (xs : List (List XF))
    (ws : Option (List XF)) : Except Err XF :=
  item (esEnsemble path (Arr.ofList y) (Arr.ofRows D xs) (-2) (-1) (ws.map Arr.ofList) est)

/-- The call `owes_ensemble(y, xs, w_func, ens_w=ws)` on one observation vector. (`_energy.py:152-215`) -/
def owes1 (path : Path) (D : ℕ) (wFunc : List XF → XF) (y : List XF) (xs : List (List XF))
    (ws : Option (List XF)) : Except Err XF :=
  item (owesEnsemble path (Arr.ofList y) (Arr.ofRows D xs) wFunc (-2) (-1) (ws.map Arr.ofList))

/-- The call `vres_ensemble(y, xs, w_func, ens_w=ws)` on one observation vector. (`_energy.py:218-282`) -/
def vres1 (path : Path) (D : ℕ) (wFunc : List XF → XF) (y : List XF) (xs : List (List XF))
    (ws : Option (List XF)) : Except Err XF :=
  item (vresEnsemble path (Arr.ofList y) (Arr.ofRows D xs) wFunc (-2) (-1) (ws.map Arr.ofList))

end Api
end Verif
