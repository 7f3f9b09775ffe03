import Verif.Model.RoundEnergy
import Verif.Model.Variogram

/-!
# The variogram score computed with rounding

The functions `nrg` and `fair` of `namespace VsApprox` in `Verif.Model.Variogram`
(`/repo/scoringrules/core/variogram/_score.py`), with the rounding function `r` applied after every arithmetic operation
and the order of summation left open (`RSum` in `Verif.Model.RoundEnergy`).
-/

noncomputable section

open scoped Classical

namespace Verif

open XF Py Mv

namespace Rnd

variable (r : ℝ → XF) (S : List XF → XF)

/-- entry `[i, j]` of `B.abs(B.expand_dims(x, -2) - B.expand_dims(x, -1)) ** p`,
`core/variogram/_score.py:21-24`, rounded. -/
def rhoT (p : ℝ) (x : List XF) (i j : ℕ) : XF := rd r (XF.rpow (XF.abs (rd r (idx x j - idx x i))) p)

/-- `B.sum(a, axis=(-2, -1))` of the `D × D` array with entries `f i j`, `core/variogram/_score.py:28`, in the order of
`S`. -/
def dsum (D : ℕ) (f : ℕ → ℕ → XF) : XF := S ((List.range D).flatMap fun i => (List.range D).map fun j => f i j)

/-- one entry of `w * (a - b) ** 2`, `core/variogram/_score.py:28`, `31-32`, `35-38`, rounded. -/
def wsq (w a b : XF) : XF := rd r (w * rd r (rd r (a - b) ^ 2))

/-- `vs_ensemble` with `estimator="nrg"`, `core/variogram/_score.py:26-28`, rounded. -/
def vsNrg (w : List (List XF)) (p : ℝ) (obs : List XF) (fct : List (List XF)) : XF :=
  dsum S obs.length fun i j => wsq r (mget w i j) (rhoT r p obs i j)
    (rd r (S (fct.map fun x => rhoT r p x i j) / (fct.length : XF)))

/-- one entry of `E_1 = B.sum(B.expand_dims(w, axis=-3) * E_1, axis=(-2, -1))`, `core/variogram/_score.py:31-32`,
rounded. -/
def vsE1 (w : List (List XF)) (p : ℝ) (obs x : List XF) : XF :=
  dsum S obs.length fun i j => wsq r (mget w i j) (rhoT r p x i j) (rhoT r p obs i j)

/-- one entry of `E_2 = B.sum(B.expand_dims(w, (-3, -4)) * E_2, axis=(-2, -1))`, `core/variogram/_score.py:35-38`,
rounded. -/
def vsE2 (w : List (List XF)) (p : ℝ) (D : ℕ) (x x' : List XF) : XF :=
  dsum S D fun i j => wsq r (mget w i j) (rhoT r p x i j) (rhoT r p x' i j)

/-- `vs_ensemble` with `estimator="fair"`, `core/variogram/_score.py:30-41`, rounded. -/
def vsFair (w : List (List XF)) (p : ℝ) (obs : List XF) (fct : List (List XF)) : XF :=
  let M := fct.length
  let E1 := rd r (S (fct.map fun x => vsE1 r S w p obs x) / (M : XF))
  let E2 := rd r (S (fct.flatMap fun x => fct.map fun x' => vsE2 r S w p obs.length x x') / ((M * (M - 1) : ℕ) : XF))
  rd r (E1 - rd r (half * E2))

end Rnd
end Verif
