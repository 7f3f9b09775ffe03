import Verif.Model.Closed
import Verif.Model.Special2

/-!
# Model of closed-form CRPS, `/repo/scoringrules/core/crps/_closed.py` (the other families)

Elementwise functions, given on scalars, as in `Verif.Model.Closed`.
-/

noncomputable section

open scoped Classical

namespace Verif

open XF Stats

namespace Closed

/-- `beta`, `_closed.py:27-59`; `crps_beta`, `_crps.py:580-640` (default `lower = 0`, `upper = 1`). -/
def beta (obs a b lower upper : XF) : Except Err XF :=
  let special := ¬ (XF.feq lower 0 ∧ XF.feq upper 1)
  if special ∧ upper ≤ lower then .error .valueError else
  let obs := if special then (obs - lower) / (upper - lower) else obs
  let Fab := XF.min (XF.max (XF.betainc a b obs) 0) 1
  let Fa1b := XF.min (XF.max (XF.betainc (a + 1) b obs) 0) 1
  let betRat := 2 * XF.beta (2 * a) (2 * b) / (a * XF.beta a b ^ 2)
  let s := obs * (2 * Fab - 1) + (a / (a + b)) * (1 - 2 * Fa1b - betRat)
  .ok (if special then s * (upper - lower) else s)

/-- `binomial`, `_closed.py:62-121`; `crps_binomial`, `_crps.py:643-690`.  One observation, an integer
number of trials; the branches of the code differ in how they arrange arrays. -/
def binomial (obs : XF) (n : ℕ) (prob : XF) : XF :=
  2 * ((List.range (n + 1)).map fun i : ℕ =>
    let x : XF := fin (i : ℝ)
    let w := binomPdf x (fin (n : ℝ)) prob
    let a := binomCdf x (fin (n : ℝ)) prob - fin (1 / 2) * w
    w * (XF.ind (obs < x) - a) * (x - obs)).sum

/-- `gamma`, `_closed.py:180-196`. -/
def gamma (obs shape rate : XF) : XF :=
  let Fab := gammaCdf obs shape rate
  let Fab1 := gammaCdf obs (shape + 1) rate
  obs * (2 * Fab - 1) - (shape / rate) * (2 * Fab1 - 1) - 1 / (rate * XF.beta (fin (1 / 2)) shape)

/-- `csg0`, `_closed.py:199-221`. -/
def csg0 (obs shape rate shift : XF) : XF :=
  let obsS := obs + shift
  let FabS := gammaCdf obsS shape rate
  let F2ab2d := gammaCdf (2 * shift) (2 * shape) rate
  let Fabd := gammaCdf shift shape rate
  let Fab1d := gammaCdf shift (shape + 1) rate
  let Fab1S := gammaCdf obsS (shape + 1) rate
  obsS * (2 * FabS - 1)
    - (shape / (rate * XF.pi)) * XF.beta (fin (1 / 2)) (shape + fin (1 / 2)) * (1 - F2ab2d)
    + shape / rate * (1 + 2 * Fabd * Fab1d - Fabd ^ 2 - 2 * Fab1S)
    - shift * Fabd ^ 2

/-- `EULERMASCHERONI`, `_closed.py:224`: a float; the exact decimal is kept. -/
def eulerMascheroni : XF := fin (57721566490153286060651209008240243 / 10 ^ 35)

/-- `_gev_adjust_fn`, `_closed.py:245-259`. -/
def gevAdjust (s xi fxi : XF) : XF :=
  let res := nan * s
  let nInv := -1 / xi
  let gen := nInv * fxi + XF.gammauinc (1 - xi) (-XF.log fxi) / xi
  let res := if 0 < xi ∧ s ≤ nInv then 0 else res
  let res := if 0 < xi ∧ nInv < s then gen else res
  let res := if xi < 0 ∧ s < nInv then gen else res
  if xi < 0 ∧ nInv ≤ s then nInv + XF.gamma (1 - xi) / xi else res

/-- `gev`, `_closed.py:227-276`; `crps_gev`, `_crps.py:1004-1095` (default `location = 0`, `scale = 1`). -/
def gev (obs shape location scale : XF) : XF :=
  let obs := (obs - location) / scale
  let Fxi := gevCdf obs shape
  let zeroShape := XF.feq shape 0
  let shape := if zeroShape then nan else shape
  let Gxi := gevAdjust obs shape Fxi
  let out := if zeroShape then -obs - 2 * XF.expi (XF.log Fxi) + eulerMascheroni - XF.log 2
    else obs * (2 * Fxi - 1) - 2 * Gxi - (1 - (2 - XF.pow 2 shape) * XF.gamma (1 - shape)) / shape
  out * scale

/-- `gtclogistic`, `_closed.py:304-351`; `crps_gtclogistic`, `_crps.py:1160-1237` (default `lower = -inf`,
`upper = inf`, `lmass = umass = 0`). -/
def gtclogistic (obs mu sigma lower upper lmass umass : XF) : XF :=
  let ω := (obs - mu) / sigma
  let u := (upper - mu) / sigma
  let l := (lower - mu) / sigma
  let z := XF.min (XF.max ω l) u
  let Fu := logisCdf u
  let Fl := logisCdf l
  let Fmu := logisCdf (-u)
  let Fml := logisCdf (-l)
  let Fmz := logisCdf (-z)
  let uInf := XF.feq u pinf
  let lInf := XF.feq l ninf
  let Fmu := if uInf ∨ lInf then nan else Fmu
  let Fml := if uInf ∨ lInf then nan else Fml
  let u := if uInf then nan else u
  let l := if lInf then nan else l
  let Gu := if uInf then 0 else u * Fu + XF.log Fmu
  let Gl := if lInf then 0 else l * Fl + XF.log Fml
  let Hu := if uInf then 1 else Fu - u * Fu ^ 2 + (1 - 2 * Fu) * XF.log Fmu
  let Hl := if lInf then 0 else Fl - l * Fl ^ 2 + (1 - 2 * Fl) * XF.log Fml
  let c := (1 - lmass - umass) / (Fu - Fl)
  let s1u := if uInf ∧ XF.feq umass 0 then 0 else u * umass ^ 2
  let s1l := if lInf ∧ XF.feq lmass 0 then 0 else l * lmass ^ 2
  let s1 := XF.abs (ω - z) + s1u - s1l
  let s2 := c * z * ((1 - 2 * lmass) * Fu + (1 - 2 * umass) * Fl) / (1 - lmass - umass)
  let s3 := c * (2 * XF.log Fmz - 2 * Gu * umass - 2 * Gl * lmass)
  let s4 := c ^ 2 * (Hu - Hl)
  sigma * (s1 - s2 - s3 - s4)

/-- `crps_tlogistic`, `_crps.py:1240-1280` (default `lower = -inf`, `upper = inf`). -/
def tlogistic (obs location scale lower upper : XF) : XF :=
  gtclogistic obs location scale lower upper 0 0

/-- `crps_clogistic`, `_crps.py:1283-1332` (default `lower = -inf`, `upper = inf`). -/
def clogistic (obs location scale lower upper : XF) : XF :=
  let lmass := logisCdf ((lower - location) / scale)
  let umass := 1 - logisCdf ((upper - location) / scale)
  gtclogistic obs location scale lower upper lmass umass

/-- `gtcnormal`, `_closed.py:354-403`; `crps_gtcnormal`, `_crps.py:1335-1387` (default `lower = -inf`,
`upper = inf`, `lmass = umass = 0`). -/
def gtcnormal (obs mu sigma lower upper lmass umass : XF) : XF :=
  let ω := (obs - mu) / sigma
  let u := (upper - mu) / sigma
  let l := (lower - mu) / sigma
  let z := XF.min (XF.max ω l) u
  let Fu := normCdf u
  let Fl := normCdf l
  let Fz := normCdf z
  let Fu2 := normCdf (u * XF.sqrt 2)
  let Fl2 := normCdf (l * XF.sqrt 2)
  let fu := normPdf u
  let fl := normPdf l
  let fz := normPdf z
  let uInf := XF.feq u pinf
  let lInf := XF.feq l ninf
  let u := if uInf then nan else u
  let l := if lInf then nan else l
  let s1u := if uInf ∧ XF.feq umass 0 then 0 else u * umass ^ 2
  let s1l := if lInf ∧ XF.feq lmass 0 then 0 else l * lmass ^ 2
  let c := (1 - lmass - umass) / (Fu - Fl)
  let s1 := XF.abs (ω - z) + s1u - s1l
  let s2 := c * z * (2 * Fz - ((1 - 2 * lmass) * Fu + (1 - 2 * umass) * Fl) / (1 - lmass - umass))
  let s3 := c * (2 * fz - 2 * fu * umass - 2 * fl * lmass)
  let s4 := c ^ 2 * (Fu2 - Fl2) / XF.sqrt XF.pi
  sigma * (s1 + s2 + s3 - s4)

/-- `crps_tnormal`, `_crps.py:1390-1428` (default `lower = -inf`, `upper = inf`). -/
def tnormal (obs location scale lower upper : XF) : XF :=
  gtcnormal obs location scale lower upper 0 0

/-- `crps_cnormal`, `_crps.py:1431-1480` (default `lower = -inf`, `upper = inf`). -/
def cnormal (obs location scale lower upper : XF) : XF :=
  let lmass := normCdf ((lower - location) / scale)
  let umass := 1 - normCdf ((upper - location) / scale)
  gtcnormal obs location scale lower upper lmass umass

/-- `gtct`, `_closed.py:406-471`; `crps_gtct`, `_crps.py:1483-1567` (default `location = 0`, `scale = 1`,
`lower = -inf`, `upper = inf`, `lmass = umass = 0`). -/
def gtct (obs df mu sigma lower upper lmass umass : XF) : XF :=
  let ω := (obs - mu) / sigma
  let u := (upper - mu) / sigma
  let l := (lower - mu) / sigma
  let z := XF.min (XF.max ω l) u
  let Fu := tCdf u df
  let Fl := tCdf l df
  let Fz := tCdf z df
  let fu := tPdf u df
  let fl := tPdf l df
  let fz := tPdf z df
  let uInf := XF.feq u pinf
  let lInf := XF.feq l ninf
  let u := if uInf then nan else u
  let l := if lInf then nan else l
  let s1u := if uInf ∧ XF.feq umass 0 then 0 else u * umass ^ 2
  let s1l := if lInf ∧ XF.feq lmass 0 then 0 else l * lmass ^ 2
  let Gu := if uInf then 0 else -fu * (df + u ^ 2) / (df - 1)
  let Gl := if lInf then 0 else -fl * (df + l ^ 2) / (df - 1)
  let Gz := -fz * (df + z ^ 2) / (df - 1)
  let Iu := if uInf then 1 else XF.betainc (fin (1 / 2)) (df - fin (1 / 2)) (u ^ 2 / (df + u ^ 2))
  let Il := if lInf then 1 else XF.betainc (fin (1 / 2)) (df - fin (1 / 2)) (l ^ 2 / (df + l ^ 2))
  let sgnu : XF := if uInf then 1 else u / XF.abs u
  let sgnl : XF := if lInf then -1 else l / XF.abs l
  let Hu := (sgnu * Iu + 1) / 2
  let Hl := (sgnl * Il + 1) / 2
  let Bbar := (2 * XF.sqrt df / (df - 1)) * XF.beta (fin (1 / 2)) (df - fin (1 / 2))
    / (XF.beta (fin (1 / 2)) (df / 2) ^ 2)
  let c := (1 - lmass - umass) / (Fu - Fl)
  let s1 := XF.abs (ω - z) + s1u - s1l
  let s2 := c * z * (2 * Fz - ((1 - 2 * lmass) * Fu + (1 - 2 * umass) * Fl) / (1 - lmass - umass))
  let s3 := 2 * c * (Gz - Gu * umass - Gl * lmass)
  let s4 := c ^ 2 * Bbar * (Hu - Hl)
  sigma * (s1 + s2 - s3 - s4)

/-- `crps_tt`, `_crps.py:1570-1621` (default `location = 0`, `scale = 1`, `lower = -inf`, `upper = inf`). -/
def tt (obs df location scale lower upper : XF) : XF := gtct obs df location scale lower upper 0 0

/-- `crps_ct`, `_crps.py:1624-1677` (default `location = 0`, `scale = 1`, `lower = -inf`, `upper = inf`). -/
def ct (obs df location scale lower upper : XF) : XF :=
  let lmass := tCdf ((lower - location) / scale) df
  let umass := 1 - tCdf ((upper - location) / scale) df
  gtct obs df location scale lower upper lmass umass

/-- `hypergeometric`, `_closed.py:474-542`; `crps_hypergeometric`, `_crps.py:1680-1731`.  One observation,
integer `m` (success states), `n` (failure states) and `k` (draws); the branches of the code differ in how
they arrange arrays.  The summation runs over `arange(0, n + 1)`. -/
def hypergeometric (obs : XF) (m n k : ℕ) : XF :=
  let M : XF := fin (m : ℝ) + fin (n : ℝ)
  let N : XF := fin (k : ℝ)
  2 * ((List.range (n + 1)).map fun i : ℕ =>
    let x : XF := fin (i : ℝ)
    let f := hypergeoPdf x M (fin (m : ℝ)) N
    let F := hypergeoCdf i M (fin (m : ℝ)) N
    f * (XF.ind (obs < x) - F + f / 2) * (x - obs)).sum

/-- `loglaplace`, `_closed.py:571-603`; `crps_loglaplace`, `_crps.py:1831-1888`. -/
def loglaplace (obs mulog sigmalog : XF) : XF :=
  let x := (XF.log obs - mulog) / sigmalog
  let cond0 := obs ≤ 0
  let cond1 := obs < XF.exp mulog
  let F := XF.ind cond0 * 0 + XF.ind (¬ cond0 ∧ cond1) * (fin (1 / 2) * XF.exp x)
    + XF.ind (¬ cond1) * (1 - fin (1 / 2) * XF.exp (-x))
  let A := XF.ind cond1 * 1 / (1 + sigmalog) * (1 - XF.pow (2 * F) (1 + sigmalog))
    + XF.ind (¬ cond1) * (-1) / (1 - sigmalog) * (1 - XF.pow (2 * (1 - F)) (1 - sigmalog))
  obs * (2 * F - 1) + XF.exp mulog * (A + sigmalog / (4 - sigmalog ^ 2))

/-- `loglogistic`, `_closed.py:606-619`; `crps_loglogistic`, `_crps.py:1891-1948`. -/
def loglogistic (obs mulog sigmalog : XF) : XF :=
  let Fms := 1 / (1 + XF.exp (-(XF.log obs - mulog) / sigmalog))
  let b := XF.beta (1 + sigmalog) (1 - sigmalog)
  let IB := XF.betainc (1 + sigmalog) (1 - sigmalog) Fms
  obs * (2 * Fms - 1) - XF.exp mulog * b * (2 * IB + sigmalog - 1)

/-- `lognormal`, `_closed.py:622-637`; `crps_lognormal`, `_crps.py:1951-1998`. -/
def lognormal (obs mulog sigmalog : XF) : XF :=
  let ω := (XF.log obs - mulog) / sigmalog
  let ex := 2 * XF.exp (mulog + sigmalog ^ 2 / 2)
  obs * (2 * normCdf ω - 1) - ex * (normCdf (ω - sigmalog) + normCdf (sigmalog / XF.sqrt 2) - 1)

/-- `mixnorm`, `_closed.py:640-666`, on one observation with the lists of component means, standard
deviations and weights (the last axis of `m`, `s` and `w`). -/
def mixnorm (obs : XF) (m s w : List XF) : XF :=
  let A (d t : XF) : XF := d * (2 * normCdf (d / t) - 1) + 2 * t * normPdf (d / t)
  let n := m.length
  let sc1 := ((List.range n).map fun i => Py.idx w i * A (obs - Py.idx m i) (Py.idx s i)).sum
  let sc2 := ((List.range n).map fun i => ((List.range n).map fun j =>
    Py.idx w i * Py.idx w j
      * A (Py.idx m i - Py.idx m j) (XF.sqrt (Py.idx s i ^ 2 + Py.idx s j ^ 2))).sum).sum
  sc1 - fin (1 / 2) * sc2

/-- `negbinom`, `_closed.py:669-684`. -/
def negbinom (obs n prob : XF) : XF :=
  let Fnp := negbinomCdf obs n prob
  let Fn1p := negbinomCdf (obs - 1) (n + 1) prob
  let F2 := XF.hyp2f1 (n + 1) (fin (1 / 2)) 2 (-4 * (1 - prob) / prob ^ 2)
  obs * (2 * Fnp - 1) - n * (1 - prob) * (prob * (2 * Fn1p - 1) + F2) / prob ^ 2

/-- `crps_2pnormal`, `_crps.py:2179-2247`. -/
def twopnormal (obs scale1 scale2 location : XF) : XF :=
  let umass := scale2 / (scale1 + scale2)
  let z := XF.min 0 (obs - location) / scale1
  let s1 := scale1 * gtcnormal z 0 1 ninf 0 0 umass
  let lmass := scale1 / (scale1 + scale2)
  let z := XF.max 0 (obs - location) / scale2
  let s2 := scale2 * gtcnormal z 0 1 0 pinf lmass 0
  s1 + s2

/-- `poisson`, `_closed.py:704-721`; `crps_poisson`, `_crps.py:2250-2292`. -/
def poisson (obs mean : XF) : XF :=
  let Fm := poisCdf obs mean
  let fm := poisPdf (XF.floor obs) mean
  (obs - mean) * (2 * Fm - 1) + 2 * mean * fm
    - mean * XF.exp (-2 * mean) * (XF.bessel0 (2 * mean) + XF.bessel1 (2 * mean))

/-- `t`, `_closed.py:724-745`; `crps_t`, `_crps.py:2295-2347` (default `location = 0`, `scale = 1`). -/
def t (obs df mu sigma : XF) : XF :=
  let z := (obs - mu) / sigma
  let Fz := tCdf z df
  let fz := tPdf z df
  let Gz := (df + z ^ 2) / (df - 1)
  let s1 := z * (2 * Fz - 1)
  let s2 := 2 * fz * Gz
  let s3 := (2 * XF.sqrt df / (df - 1)) * XF.beta (fin (1 / 2)) (df - fin (1 / 2))
    / (XF.beta (fin (1 / 2)) (df / 2) ^ 2)
  sigma * (s1 + s2 - s3)

end Closed

/-! ### Public functions with alternative parameters -/

namespace Api

/-- `crps_gamma`, `_crps.py:858-925`; `none` is an argument left out. -/
def crpsGamma (obs shape : XF) (rate scale : Option XF) : Except Err XF :=
  match rate, scale with
  | none, none => .error .valueError
  | some _, some _ => .error .valueError
  | some rate, none => .ok (Closed.gamma obs shape rate)
  | none, some scale => .ok (Closed.gamma obs shape (1 / scale))

/-- `crps_csg0`, `_crps.py:928-1001` (default `shift = 0`). -/
def crpsCsg0 (obs shape : XF) (rate scale : Option XF) (shift : XF) : Except Err XF :=
  match rate, scale with
  | none, none => .error .valueError
  | some _, some _ => .error .valueError
  | some rate, none => .ok (Closed.csg0 obs shape rate shift)
  | none, some scale => .ok (Closed.csg0 obs shape (1 / scale) shift)

/-- `crps_negbinom`, `_crps.py:2070-2130`. -/
def crpsNegbinom (obs n : XF) (prob mu : Option XF) : Except Err XF :=
  match prob, mu with
  | none, none => .error .valueError
  | some _, some _ => .error .valueError
  | some prob, none => .ok (Closed.negbinom obs n prob)
  | none, some mu => .ok (Closed.negbinom obs n (n / (n + mu)))

end Api
end Verif
