import Verif.Model.RoundEnergy
import Verif.Model.Crps

/-!
# The ensemble CRPS of the array path computed with rounding

The functions of `namespace Approx` in `Verif.Model.Crps` (`/repo/scoringrules/core/crps/_approx.py`), with the rounding
function `r` applied after every arithmetic operation and the order of summation left open (`RSum` in
`Verif.Model.RoundEnergy`).
-/

noncomputable section

open scoped Classical

namespace Verif

open XF Py

namespace Rnd

variable (r : ℝ → XF) (S : List XF → XF)

/-- `B.abs(a - b)`, `core/crps/_approx.py:43`, `56-57`, `68`, rounded. -/
def adiff (a b : XF) : XF := XF.abs (rd r (a - b))

/-- `B.sum(B.abs(obs[..., None] - fct), axis=-1) / M`, `core/crps/_approx.py:43`, `56`, `68`, rounded. -/
def crpsE1 (obs : XF) (fct : List XF) : XF := rd r (S (fct.map fun x => adiff r obs x) / (fct.length : XF))

/-- `B.sum(B.abs(fct[..., None] - fct[..., None, :]), axis=(-1, -2))`, `core/crps/_approx.py:44-47`, `57`, rounded. -/
def crpsPairs (fct : List XF) : XF := S (fct.flatMap fun a => fct.map fun b => adiff r a b)

/-- `_crps_ensemble_nrg`, `core/crps/_approx.py:51-58`, rounded. -/
def crpsNrg (obs : XF) (fct : List XF) : XF :=
  rd r (crpsE1 r S obs fct - rd r (half * rd r (crpsPairs r S fct / ((fct.length ^ 2 : ℕ) : XF))))

/-- `_crps_ensemble_fair`, `core/crps/_approx.py:37-48`, rounded. -/
def crpsFair (obs : XF) (fct : List XF) : XF :=
  rd r (crpsE1 r S obs fct - rd r (half * rd r (crpsPairs r S fct / ((fct.length * (fct.length - 1) : ℕ) : XF))))

/-- `_crps_ensemble_qd`, `core/crps/_approx.py:97-105`, rounded.  `B.arange(1, M + 1)` and `M ** 2` are integers. -/
def crpsQd (obs : XF) (fct : List XF) : XF :=
  let M := fct.length
  let alpha := (List.range M).map fun i => rd r (((i + 1 : ℕ) : XF) - half)
  let below := zip2 (fun x a => rd r (rd r (ind (x ≤ obs) * a) * rd r (obs - x))) fct alpha
  let above := zip2 (fun x a => rd r (rd r (ind (obs < x) * rd r ((M : XF) - a)) * rd r (x - obs))) fct alpha
  let out := rd r (S (zip2 (fun b a => rd r (b + a)) below above) / ((M ^ 2 : ℕ) : XF))
  rd r (2 * out)

/-- `_crps_ensemble_pwm`, `core/crps/_approx.py:62-71`, rounded. -/
def crpsPwm (obs : XF) (fct : List XF) : XF :=
  let M := fct.length
  let β0 := rd r (S fct / (M : XF))
  let β1 := rd r (S (zip2 (fun x i => rd r (x * i)) fct ((List.range M).map fun i : ℕ => (i : XF)))
    / rd r ((M : XF) * rd r ((M : XF) - 1)))
  rd r (rd r (crpsE1 r S obs fct + β0) - rd r (2 * β1))

/-- `_crps_ensemble_akr`, `core/crps/_approx.py:74-82`, rounded. -/
def crpsAkr (obs : XF) (fct : List XF) : XF :=
  rd r (crpsE1 r S obs fct - rd r (half * rd r (S (zip2 (fun a b => adiff r a b) fct (roll fct 1)) / (fct.length : XF))))

/-- `_crps_ensemble_akr_circperm`, `core/crps/_approx.py:85-94`, rounded. -/
def crpsAkrCircperm (obs : XF) (fct : List XF) : XF :=
  rd r (crpsE1 r S obs fct
    - rd r (half * rd r (S (zip2 (fun a b => adiff r a b) fct (roll fct (fct.length / 2))) / (fct.length : XF))))

/-- `_crps_ensemble_int`, `core/crps/_approx.py:108-123`, rounded.  Adding to `B.zeros` is exact and not rounded again. -/
def crpsInt (obs : XF) (fct : List XF) : XF :=
  let M := fct.length
  let ypos := rd r (S (fct.map fun x => rd r (ind (x ≤ obs) * 1)) / (M : XF))
  let fctCdf := (List.range M).map fun i => 0 + rd r (((i + 1 : ℕ) : XF) / (M : XF))
  let fctCdf := sort (fctCdf ++ [ypos])
  let fctExp := sort (fct ++ [obs])
  let fctDif := zip2 (fun a b => rd r (a - b)) (fctExp.drop 1) (fctExp.take M)
  let obsCdf := fctExp.map fun x => rd r (ind (obs ≤ x) * 1)
  let dif := zip2 (fun c o => rd r (rd r (c - o) ^ 2)) (fctCdf.take M) (obsCdf.take M)
  S (zip2 (fun d q => rd r (d * q)) fctDif dif)

end Rnd
end Verif
