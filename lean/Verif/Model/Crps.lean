import Verif.Model.Py

/-!
# CRPS kernels for one ensemble slice

Function-by-function transcription of
`/repo/scoringrules/core/crps/_gufuncs.py`, `_gufuncs_w.py` (numba) and
`/repo/scoringrules/core/crps/_approx.py`, `_approx_w.py` (numpy-style), each on one slice: a scalar
observation and a 1-D array of members (and of weights).  The leading batch axes are handled in
`Verif.Model.Api`.
-/

noncomputable section

open scoped Classical

namespace Verif

open XF Py

/-! ## numba, unweighted: `/repo/scoringrules/core/crps/_gufuncs.py` -/
namespace Gufunc

/-- `quantile_pinball_gufunc`, `_gufuncs.py:10-20`. -/
def quantilePinball (obs : XF) (fct alpha : List XF) : XF :=
  let Q := fct.length
  let pb := (fct.zip alpha).foldl (fun pb p =>
    pb + (ind (p.1 < obs) * p.2 * (obs - p.1) + ind (obs ≤ p.1) * (1 - p.2) * (p.1 - obs))) 0
  2 * (pb / (Q : XF))

/-- Loop state of the `int` kernels. (local variables of `core/crps/_gufuncs.py:23-56`) -/
structure IntSt where
  obsCdf : Bool
  fcCdf : XF
  prev : XF
  integral : XF
  forecast : XF

/-- `obs_cdf` as a number. (`core/crps/_gufuncs.py:23-56`) -/
def IntSt.obsCdfX (s : IntSt) : XF := if s.obsCdf then 1 else 0

/-- `_crps_ensemble_int_gufunc`, `_gufuncs.py:23-56`.  For an empty ensemble the Python code would
fail on the unbound loop variable; here `forecast` starts as NaN. -/
def int (obs : XF) (fct : List XF) : XF :=
  let M := fct.length
  if obs.isnan then nan else
  match forEnumM fct (⟨false, 0, 0, 0, nan⟩ : IntSt) (fun _ forecast s =>
      if forecast.isnan then none
      else
        let s' : IntSt :=
          if s.obsCdf = false ∧ obs < forecast then
            { s with
              integral := s.integral + (obs - s.prev) * s.fcCdf ^ 2
                + (forecast - obs) * (s.fcCdf - 1) ^ 2
              obsCdf := true }
          else
            { s with
              integral := s.integral + (s.fcCdf - s.obsCdfX) ^ 2 * (forecast - s.prev) }
        some { s' with
          fcCdf := s'.fcCdf + 1 / (M : XF)
          prev := forecast
          forecast := forecast }) with
  | none => nan
  | some s => if s.obsCdf = false then s.integral + (obs - s.forecast) else s.integral

/-- `_crps_ensemble_qd_gufunc`, `_gufuncs.py:59-88`. -/
def qd (obs : XF) (fct : List XF) : XF :=
  let M := fct.length
  if obs.isnan then nan else
  match forEnumM fct ((0, 0) : XF × XF) (fun i forecast s =>
      if forecast.isnan then none
      else
        let obsCdf := if obs < forecast then 1 else s.1
        some (obsCdf,
          s.2 + (forecast - obs) * ((M : XF) * obsCdf - ((i + 1 : ℕ) : XF) + half))) with
  | none => nan
  | some s => 2 / ((M ^ 2 : ℕ) : XF) * s.2

/-- `_crps_ensemble_nrg_gufunc`, `_gufuncs.py:91-115`. -/
def nrg (obs : XF) (fct : List XF) : XF :=
  let M := fct.length
  if obs.isnan then nan else
  let e := forRange 0 M ((0, 0) : XF × XF) fun i e =>
    (e.1 + XF.abs (idx fct i - obs),
     forRange (i + 1) M e.2 fun j e2 => e2 + 2 * XF.abs (idx fct j - idx fct i))
  e.1 / (M : XF) - half * e.2 / ((M ^ 2 : ℕ) : XF)

/-- `_crps_ensemble_fair_gufunc`, `_gufuncs.py:118-142`. -/
def fair (obs : XF) (fct : List XF) : XF :=
  let M := fct.length
  if obs.isnan then nan else
  let e := forRange 0 M ((0, 0) : XF × XF) fun i e =>
    (e.1 + XF.abs (idx fct i - obs),
     forRange (i + 1) M e.2 fun j e2 => e2 + 2 * XF.abs (idx fct j - idx fct i))
  e.1 / (M : XF) - half * e.2 / ((M * (M - 1) : ℕ) : XF)

/-- `_crps_ensemble_pwm_gufunc`, `_gufuncs.py:145-163`. -/
def pwm (obs : XF) (fct : List XF) : XF :=
  let M := fct.length
  if obs.isnan then nan else
  let s := forEnum fct ((0, 0, 0) : XF × XF × XF) fun i forecast s =>
    (s.1 + XF.abs (forecast - obs), s.2.1 + forecast, s.2.2 + forecast * (i : XF))
  s.1 / (M : XF) + s.2.1 / (M : XF) - 2 * s.2.2 / ((M * (M - 1) : ℕ) : XF)

/-- `_crps_ensemble_akr_gufunc`, `_gufuncs.py:166-177`. -/
def akr (obs : XF) (fct : List XF) : XF :=
  let M := fct.length
  let e := forEnum fct ((0, 0) : XF × XF) fun i forecast e =>
    let i' := if i = 0 then M else i
    (e.1 + XF.abs (forecast - obs), e.2 + XF.abs (forecast - idx fct (i' - 1)))
  e.1 / (M : XF) - half * 1 / (M : XF) * e.2

/-- `int((i + 1 + ((M - 1) / 2)) % M)`, `_gufuncs.py:189` and `_gufuncs_w.py:34`.  The float is a
multiple of one half, so the computation is done exactly in halves. -/
def sigma (M i : ℕ) : ℕ := ((2 * (i + 1) + (M - 1)) % (2 * M)) / 2

/-- `_crps_ensemble_akr_circperm_gufunc`, `_gufuncs.py:180-192`. -/
def akrCircperm (obs : XF) (fct : List XF) : XF :=
  let M := fct.length
  let e := forEnum fct ((0, 0) : XF × XF) fun i forecast e =>
    (e.1 + XF.abs (forecast - obs), e.2 + XF.abs (forecast - idx fct (sigma M i)))
  e.1 / (M : XF) - half * 1 / (M : XF) * e.2

/-- `_owcrps_ensemble_nrg_gufunc`, `_gufuncs.py:195-220`. -/
def ow (obs : XF) (fct : List XF) (ow : XF) (fw : List XF) : XF :=
  let M := fct.length
  if obs.isnan then nan else
  let e := forRange 0 M ((0, 0) : XF × XF) fun i e =>
    (e.1 + XF.abs (idx fct i - obs) * idx fw i * ow,
     forRange (i + 1) M e.2 fun j e2 =>
       e2 + 2 * XF.abs (idx fct i - idx fct j) * idx fw i * idx fw j * ow)
  let wbar := mean fw
  e.1 / ((M : XF) * wbar) - half * e.2 / (((M : XF) * wbar) ^ 2)

/-- `_vrcrps_ensemble_nrg_gufunc`, `_gufuncs.py:223-250`. -/
def vr (obs : XF) (fct : List XF) (ow : XF) (fw : List XF) : XF :=
  let M := fct.length
  if obs.isnan then nan else
  let e := forRange 0 M ((0, 0) : XF × XF) fun i e =>
    (e.1 + XF.abs (idx fct i - obs) * idx fw i * ow,
     forRange (i + 1) M e.2 fun j e2 =>
       e2 + 2 * XF.abs (idx fct i - idx fct j) * idx fw i * idx fw j)
  let wbar := mean fw
  let wabsx := mean (zip2 (fun x w => XF.abs x * w) fct fw)
  let wabsy := XF.abs obs * ow
  e.1 / (M : XF) - half * e.2 / ((M ^ 2 : ℕ) : XF) + (wabsx - wabsy) * (wbar - ow)

end Gufunc

/-! ## numba, weighted: `/repo/scoringrules/core/crps/_gufuncs_w.py` -/
namespace GufuncW

/-- `_crps_ensemble_akr_w_gufunc`, `_gufuncs_w.py:10-22`. -/
def akr (obs : XF) (fct w : List XF) : XF :=
  let M := fct.length
  let e := forEnum fct ((0, 0) : XF × XF) fun i forecast e =>
    let pairIdx := if 0 < i then i - 1 else M - 1
    (e.1 + XF.abs (forecast - obs) * idx w i,
     e.2 + XF.abs (forecast - idx fct pairIdx) * idx w i)
  e.1 - half * e.2

/-- `_crps_ensemble_akr_circperm_w_gufunc`, `_gufuncs_w.py:25-37`. -/
def akrCircperm (obs : XF) (fct w : List XF) : XF :=
  let M := fct.length
  let e := forEnum fct ((0, 0) : XF × XF) fun i forecast e =>
    (e.1 + XF.abs (forecast - obs) * idx w i,
     e.2 + XF.abs (forecast - idx fct (Gufunc.sigma M i)) * idx w i)
  e.1 - half * e.2

/-- `_crps_ensemble_fair_w_gufunc`, `_gufuncs_w.py:40-66`. -/
def fair (obs : XF) (fct w : List XF) : XF :=
  let M := fct.length
  if obs.isnan then nan else
  let e := forRange 0 M ((0, 0) : XF × XF) fun i e =>
    (e.1 + XF.abs (idx fct i - obs) * idx w i,
     forRange (i + 1) M e.2 fun j e2 =>
       e2 + XF.abs (idx fct j - idx fct i) * idx w j * idx w i)
  let fairC := 1 - (w.map fun v => v ^ 2).sum
  if fairC.feq 0 then nan else e.1 - e.2 / fairC

/-- `_crps_ensemble_int_w_gufunc`, `_gufuncs_w.py:69-103`. -/
def int (obs : XF) (fct w : List XF) : XF :=
  if obs.isnan then nan else
  match forEnumM fct (⟨false, 0, 0, 0, nan⟩ : Gufunc.IntSt) (fun n forecast s =>
      if forecast.isnan then none
      else
        let s' : Gufunc.IntSt :=
          if s.obsCdf = false ∧ obs < forecast then
            { s with
              integral := s.integral + (obs - s.prev) * s.fcCdf ^ 2
                + (forecast - obs) * (s.fcCdf - 1) ^ 2
              obsCdf := true }
          else
            { s with
              integral := s.integral + (s.fcCdf - s.obsCdfX) ^ 2 * (forecast - s.prev) }
        some { s' with
          fcCdf := s'.fcCdf + idx w n
          prev := forecast
          forecast := forecast }) with
  | none => nan
  | some s => if s.obsCdf = false then s.integral + (obs - s.forecast) else s.integral

/-- `_crps_ensemble_nrg_w_gufunc`, `_gufuncs_w.py:106-125`. -/
def nrg (obs : XF) (fct w : List XF) : XF :=
  let M := fct.length
  if obs.isnan then nan else
  let e := forRange 0 M ((0, 0) : XF × XF) fun i e =>
    (e.1 + XF.abs (idx fct i - obs) * idx w i,
     forRange (i + 1) M e.2 fun j e2 =>
       e2 + XF.abs (idx fct j - idx fct i) * idx w j * idx w i)
  e.1 - e.2

/-- `_crps_ensemble_pwm_w_gufunc`, `_gufuncs_w.py:128-151`. -/
def pwm (obs : XF) (fct w : List XF) : XF :=
  if obs.isnan then nan else
  let wsum := cumsum w
  let s := forEnum fct ((0, 0, 0) : XF × XF × XF) fun i forecast s =>
    (s.1 + XF.abs (forecast - obs) * idx w i,
     s.2.1 + forecast * idx w i,
     s.2.2 + forecast * idx w i * (idx wsum i - idx w i))
  let fairC := 1 - (w.map fun v => v ^ 2).sum
  s.1 + s.2.1 - 2 * s.2.2 / fairC

/-- `_crps_ensemble_qd_w_gufunc`, `_gufuncs_w.py:154-178`. -/
def qd (obs : XF) (fct w : List XF) : XF :=
  if obs.isnan then nan else
  let a := zip2 (fun c v => c - v / 2) (cumsum w) w
  match forEnumM fct ((0, 0) : XF × XF) (fun i forecast s =>
      if forecast.isnan then none
      else
        let obsCdf := if obs < forecast then 1 else s.1
        some (obsCdf, s.2 + idx w i * (obsCdf - idx a i) * (forecast - obs))) with
  | none => nan
  | some s => 2 * s.2

/-- `_owcrps_ensemble_nrg_w_gufunc`, `_gufuncs_w.py:181-207`. -/
def ow (obs : XF) (fct : List XF) (ow : XF) (fw w : List XF) : XF :=
  let M := fct.length
  if obs.isnan then nan else
  let e := forRange 0 M ((0, 0) : XF × XF) fun i e =>
    (e.1 + idx w i * XF.abs (idx fct i - obs) * idx fw i * ow,
     forRange (i + 1) M e.2 fun j e2 =>
       e2 + 2 * idx w i * idx w j * XF.abs (idx fct i - idx fct j) * idx fw i * idx fw j * ow)
  let wbar := (zip2 (· * ·) w fw).sum
  e.1 / wbar - half * e.2 / (wbar ^ 2)

/-- `_vrcrps_ensemble_nrg_w_gufunc`, `_gufuncs_w.py:210-238`. -/
def vr (obs : XF) (fct : List XF) (ow : XF) (fw w : List XF) : XF :=
  let M := fct.length
  if obs.isnan then nan else
  let e := forRange 0 M ((0, 0) : XF × XF) fun i e =>
    (e.1 + idx w i * XF.abs (idx fct i - obs) * idx fw i * ow,
     forRange (i + 1) M e.2 fun j e2 =>
       e2 + 2 * idx w i * idx w j * XF.abs (idx fct i - idx fct j) * idx fw i * idx fw j)
  let wbar := (zip2 (· * ·) w fw).sum
  let wabsx := (zip2 (· * ·) (zip2 (fun v x => v * XF.abs x) w fct) fw).sum
  let wabsy := XF.abs obs * ow
  e.1 - half * e.2 + (wabsx - wabsy) * (wbar - ow)

end GufuncW

/-! ## numpy-style, unweighted: `/repo/scoringrules/core/crps/_approx.py` -/
namespace Approx

/-- `sum(abs(obs[..., None] - fct), axis=-1) / M`, shared first term. (`core/crps/_approx.py:43`) -/
def e1 (obs : XF) (fct : List XF) : XF :=
  (fct.map fun x => XF.abs (obs - x)).sum / (fct.length : XF)

/-- `_crps_ensemble_fair`, `_approx.py:37-48`. -/
def fair (obs : XF) (fct : List XF) : XF :=
  let M := fct.length
  let e2 := sum2 (fun a b => XF.abs (a - b)) fct / ((M * (M - 1) : ℕ) : XF)
  e1 obs fct - half * e2

/-- `_crps_ensemble_nrg`, `_approx.py:51-59`. -/
def nrg (obs : XF) (fct : List XF) : XF :=
  let M := fct.length
  let e2 := sum2 (fun a b => XF.abs (a - b)) fct / ((M ^ 2 : ℕ) : XF)
  e1 obs fct - half * e2

/-- `_crps_ensemble_pwm`, `_approx.py:62-71`. -/
def pwm (obs : XF) (fct : List XF) : XF :=
  let M := fct.length
  let β0 := fct.sum / (M : XF)
  let β1 := (zip2 (· * ·) fct ((List.range M).map fun i : ℕ => (i : XF))).sum
    / ((M : XF) * ((M : XF) - 1))
  e1 obs fct + β0 - 2 * β1

/-- `_crps_ensemble_akr`, `_approx.py:74-82`. -/
def akr (obs : XF) (fct : List XF) : XF :=
  let M := fct.length
  let e2 := (zip2 (fun a b => XF.abs (a - b)) fct (roll fct 1)).sum / (M : XF)
  e1 obs fct - half * e2

/-- `_crps_ensemble_akr_circperm`, `_approx.py:85-94`. -/
def akrCircperm (obs : XF) (fct : List XF) : XF :=
  let M := fct.length
  let e2 := (zip2 (fun a b => XF.abs (a - b)) fct (roll fct (M / 2))).sum / (M : XF)
  e1 obs fct - half * e2

/-- `_crps_ensemble_qd`, `_approx.py:97-105`. -/
def qd (obs : XF) (fct : List XF) : XF :=
  let M := fct.length
  let alpha := (List.range M).map fun i => ((i + 1 : ℕ) : XF) - half
  let below := zip2 (fun x a => ind (x ≤ obs) * a * (obs - x)) fct alpha
  let above := zip2 (fun x a => ind (obs < x) * ((M : XF) - a) * (x - obs)) fct alpha
  let out := (zip2 (· + ·) below above).sum / ((M ^ 2 : ℕ) : XF)
  2 * out

/-- `_crps_ensemble_int`, `_approx.py:108-123`. -/
def int (obs : XF) (fct : List XF) : XF :=
  let M := fct.length
  let ypos := mean (fct.map fun x => ind (x ≤ obs) * 1)
  let fctCdf := (List.range M).map fun i => 0 + ((i + 1 : ℕ) : XF) / (M : XF)
  let fctCdf := sort (fctCdf ++ [ypos])
  let fctExp := sort (fct ++ [obs])
  let fctDif := zip2 (· - ·) (fctExp.drop 1) (fctExp.take M)
  let obsCdf := fctExp.map fun x => ind (obs ≤ x) * 1
  let dif := zip2 (fun c o => (c - o) ^ 2) (fctCdf.take M) (obsCdf.take M)
  (zip2 (· * ·) fctDif dif).sum

/-- `quantile_pinball`, `_approx.py:126-133`. -/
def quantilePinball (obs : XF) (fct alpha : List XF) : XF :=
  let below := zip2 (fun x a => ind (x ≤ obs) * a * (obs - x)) fct alpha
  let above := zip2 (fun x a => ind (obs < x) * (1 - a) * (x - obs)) fct alpha
  2 * mean (zip2 (· + ·) below above)

/-- `ow_ensemble`, `_approx.py:136-153`. -/
def ow (obs : XF) (fct : List XF) (ow : XF) (fw : List XF) : XF :=
  let M := fct.length
  let wbar := mean fw
  let e1 := (zip2 (fun x w => XF.abs (obs - x) * w) fct fw).sum * ow / ((M : XF) * wbar)
  let xw := fct.zip fw
  let e2 := (xw.map fun p => (xw.map fun q => XF.abs (p.1 - q.1) * p.2 * q.2).sum).sum
  let e2 := e2 * (ow / (((M ^ 2 : ℕ) : XF) * wbar ^ 2))
  e1 - half * e2

/-- The slice-wise reading of `vr_ensemble`, `_approx.py:156-174`, with `B.mean(fw, axis=1)` on
line 173 read as the mean over the ensemble axis; the actual array expression is
`Verif.Api.vrEnsembleArr`. The argument `fwMean` is that mean. -/
def vrWith (fwMean : XF) (obs : XF) (fct : List XF) (ow : XF) (fw : List XF) : XF :=
  let M := fct.length
  let e1 := (zip2 (fun x w => XF.abs (obs - x) * w) fct fw).sum * ow / (M : XF)
  let xw := fct.zip fw
  let e2 := (xw.map fun p => (xw.map fun q => XF.abs (p.1 - q.1) * (p.2 * q.2)).sum).sum
    / ((M ^ 2 : ℕ) : XF)
  let e3 := mean (zip2 (fun x w => XF.abs x * w) fct fw) - XF.abs obs * ow
  let e3 := e3 * (fwMean - ow)
  e1 - half * e2 + e3

/-- `vr_ensemble` on a 2-D forecast array, where `axis=1` is the ensemble axis.
(`core/crps/_approx.py:156-174`) -/
def vr (obs : XF) (fct : List XF) (ow : XF) (fw : List XF) : XF := vrWith (mean fw) obs fct ow fw

end Approx

/-! ## numpy-style, weighted: `/repo/scoringrules/core/crps/_approx_w.py` -/
namespace ApproxW

/-- `sum(abs(obs[..., None] - fct) * w, axis=-1)`, shared first term. (`core/crps/_approx_w.py:39-62`) -/
def e1 (obs : XF) (fct w : List XF) : XF := (zip2 (fun x v => XF.abs (obs - x) * v) fct w).sum

/-- `sum(abs(fct[..., None] - fct[..., None, :]) * w[..., None] * w[..., None, :])`.
(`core/crps/_approx_w.py:39-62`) -/
def pairSum (fct w : List XF) : XF :=
  let xw := fct.zip w
  (xw.map fun p => (xw.map fun q => XF.abs (p.1 - q.1) * p.2 * q.2).sum).sum

/-- `_crps_ensemble_fair_w`, `_approx_w.py:39-49`. -/
def fair (obs : XF) (fct w : List XF) : XF :=
  let e2 := pairSum fct w / (1 - (zip2 (· * ·) w w).sum)
  e1 obs fct w - half * e2

/-- `_crps_ensemble_nrg_w`, `_approx_w.py:52-62`. -/
def nrg (obs : XF) (fct w : List XF) : XF := e1 obs fct w - half * pairSum fct w

/-- `_crps_ensemble_pwm_w`, `_approx_w.py:65-74`. -/
def pwm (obs : XF) (fct w : List XF) : XF :=
  let wsum := cumsum w
  let β0 := (zip2 (· * ·) fct w).sum
  let β1 := (zip2 (· * ·) (zip2 (· * ·) fct w) (zip2 (· - ·) wsum w)).sum
    / (1 - (zip2 (· * ·) w w).sum)
  e1 obs fct w + β0 - 2 * β1

/-- `_crps_ensemble_qd_w`, `_approx_w.py:77-87`. -/
def qd (obs : XF) (fct w : List XF) : XF :=
  let wsum := cumsum w
  let a := zip2 (fun s v => s - half * v) wsum w
  let dif := fct.map fun x => x - obs
  let c := zip2 (fun d a => if 0 < d then 1 - a else -a) dif a
  let s := (zip2 (· * ·) (zip2 (· * ·) w c) dif).sum
  2 * s

/-- `_crps_ensemble_akr_w`, `_approx_w.py:90-99`. -/
def akr (obs : XF) (fct w : List XF) : XF :=
  let M := fct.length
  let e2 := ((List.range M).map fun i =>
    XF.abs (idx fct ((i + 1) % M) - idx fct i) * idx w ((i + 1) % M)).sum
  e1 obs fct w - half * e2

/-- `_crps_ensemble_akr_circperm_w`, `_approx_w.py:102-112`; `int((M - 1) / 2)` is Nat division. -/
def akrCircperm (obs : XF) (fct w : List XF) : XF :=
  let M := fct.length
  let shift := (M - 1) / 2
  let e2 := ((List.range M).map fun i =>
    XF.abs (idx fct ((i + shift) % M) - idx fct i) * idx w ((i + shift) % M)).sum
  e1 obs fct w - half * e2

/-- `_crps_ensemble_int_w`, `_approx_w.py:115-130`. -/
def int (obs : XF) (fct w : List XF) : XF :=
  let M := fct.length
  let ypos := (zip2 (fun x v => ind (x ≤ obs) * v) fct w).sum
  let fctCdf := sort (cumsum w ++ [ypos])
  let fctExp := sort (fct ++ [obs])
  let fctDif := zip2 (· - ·) (fctExp.drop 1) (fctExp.take M)
  let obsCdf := fctExp.map fun x => ind (obs ≤ x) * 1
  let dif := zip2 (fun c o => (c - o) ^ 2) (fctCdf.take M) (obsCdf.take M)
  (zip2 (· * ·) fctDif dif).sum

/-- `ow_ensemble_w`, `_approx_w.py:133-154`. -/
def ow (obs : XF) (fct : List XF) (ow : XF) (fw w : List XF) : XF :=
  let wbar := (zip2 (· * ·) w fw).sum
  let e1 := (zip2 (· * ·) (zip2 (fun v x => v * XF.abs (obs - x)) w fct) fw).sum * ow / wbar
  let t := (fct.zip fw).zip w
  let e2 := (t.map fun p => (t.map fun q =>
    p.2 * q.2 * XF.abs (p.1.1 - q.1.1) * p.1.2 * q.1.2).sum).sum
  let e2 := e2 * (ow / wbar ^ 2)
  e1 - half * e2

/-- `vr_ensemble_w`, `_approx_w.py:157-178`. -/
def vr (obs : XF) (fct : List XF) (ow : XF) (fw w : List XF) : XF :=
  let e1 := (zip2 (· * ·) (zip2 (fun v x => v * XF.abs (obs - x)) w fct) fw).sum * ow
  let t := (fct.zip fw).zip w
  let e2 := (t.map fun p => (t.map fun q =>
    p.2 * q.2 * XF.abs (p.1.1 - q.1.1) * p.1.2 * q.1.2).sum).sum
  let e3 := (zip2 (· * ·) (zip2 (fun v x => v * XF.abs x) w fct) fw).sum - XF.abs obs * ow
  let e3 := e3 * ((zip2 (· * ·) w fw).sum - ow)
  e1 - half * e2 + e3

end ApproxW

end Verif
