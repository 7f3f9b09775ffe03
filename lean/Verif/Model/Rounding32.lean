import Verif.Model.Rounding
import Verif.Model.Backends

/-!
# Scores computed in single precision

torch and jax compute in binary32 unless told otherwise.  The functions of `Model/Rounding.lean` are used with a
rounding function that has the properties `Binary32`; the functions for which the torch and jax backends have
formulas of their own are modelled here.
-/

noncomputable section

open scoped Classical

namespace Verif

open XF

/-- What the theorems use of rounding to the nearest binary32 number (the element type torch and jax give an array
of Python floats, `backend/torch.py:28-36`, `backend/jax.py:34-35`): it is monotone, odd and exact on integers up to
`2 ^ 24`; away from overflow the relative error is at most `2 ^ -24`, or the absolute error is at most `2 ^ -126`
(numbers below the smallest normal number may be flushed to zero); results up to `2 ^ -150` become zero, results from
`2 ^ 128` on become infinite, and results within `2 ^ -25` of one become one. -/
structure Binary32 (r : ℝ → XF) : Prop where
  noNan : ∀ a, r a ≠ nan
  mono : ∀ {a b : ℝ}, a ≤ b → r a ≤ r b
  neg : ∀ a, r (-a) = -r a
  nat : ∀ n : ℕ, n ≤ 2 ^ 24 → r n = fin n
  acc : ∀ {a : ℝ}, |a| < 2 ^ 127 →
    ∃ δ η : ℝ, |δ| ≤ 1 / 2 ^ 24 ∧ |η| ≤ 1 / 2 ^ 126 ∧ r a = fin (a * (1 + δ) + η)
  under : ∀ {a : ℝ}, |a| ≤ 1 / 2 ^ 150 → r a = fin 0
  over : ∀ {a : ℝ}, 2 ^ 128 ≤ a → r a = pinf
  one : ∀ {a : ℝ}, |a - 1| ≤ 1 / 2 ^ 25 → r a = fin 1

/-- Rounding to a nearest binary32 number (same place in the code as `Binary32`, `backend/torch.py:28-36`): a number
between two powers of two goes to a nearest multiple of `2 ^ -23` times the lower power.  Which way ties go is left
open. -/
structure Nearest32 (r : ℝ → XF) : Prop extends Binary32 r where
  grid : ∀ {a : ℝ} {e : ℤ}, -126 ≤ e → e ≤ 126 → (2:ℝ) ^ e ≤ a → a < (2:ℝ) ^ (e + 1) →
    ∃ n : ℤ, r a = fin (n * (2:ℝ) ^ (e - 23)) ∧ |a - n * (2:ℝ) ^ (e - 23)| ≤ (2:ℝ) ^ (e - 24)

/-- Rounding to a nearest binary64 number (element type of every array in /repo/scoringrules, numpy float64, and of
torch and jax arrays made from such arrays): a number between two powers of two goes to a nearest multiple of
`2 ^ -52` times the lower power.  Which way ties go is left open. -/
structure Nearest64 (r : ℝ → XF) : Prop extends Binary64 r where
  grid : ∀ {a : ℝ} {e : ℤ}, -1022 ≤ e → e ≤ 1022 → (2:ℝ) ^ e ≤ a → a < (2:ℝ) ^ (e + 1) →
    ∃ n : ℤ, r a = fin (n * (2:ℝ) ^ (e - 52)) ∧ |a - n * (2:ℝ) ^ (e - 52)| ≤ (2:ℝ) ^ (e - 53)

namespace Rnd

variable (r : ℝ → XF)

/-- `TorchBackend.gamma`, `backend/torch.py:268-269`, rounded; `jax.scipy.special.gamma` (`backend/jax.py:250-251`)
is `exp(gammaln(x))` for positive arguments too. -/
def gammaT (x : XF) : XF := rd r (XF.exp (rd r (XF.lgamma x)))

/-- `TorchBackend.gammauinc`, `backend/torch.py:277-278`, and `JaxBackend.gammauinc`, `backend/jax.py:259-260`,
rounded. -/
def gammauincT (a x : XF) : XF := rd r (rd r (1 - XF.gammainc a x) * gammaT r a)

/-- `TorchBackend.factorial`, `backend/torch.py:280-281`, rounded. -/
def factorialT (n : XF) : XF := gammaT r (rd r (n + 1))

/-- `_pois_pdf`, `core/stats.py:75-84`, on torch and jax, rounded. -/
def poisPdfT (x mean : XF) : XF :=
  let xPlus := XF.abs x
  let d := if XF.floor xPlus < xPlus then 0
    else rd r (rd r (rd r (XF.pow mean xPlus) * rd r (XF.exp (-mean))) / factorialT r xPlus)
  if mean < 0 then nan else if x < 0 then 0 else d

/-- `_pois_cdf`, `core/stats.py:87-92`, on torch and jax, rounded. -/
def poisCdfT (x mean : XF) : XF :=
  let k := XF.floor (rd r (XF.abs x + 1))
  let p := rd r (gammauincT r k mean / gammaT r k)
  if x < 0 then 0 else p

/-- `poisson`, `core/crps/_closed.py:704-721`, on torch and jax, rounded. -/
def crpsPoissonT (obs mean : XF) : XF :=
  let Fm := poisCdfT r obs mean
  let fm := poisPdfT r (XF.floor obs) mean
  let m2 := rd r (2 * mean)
  let a := rd r (rd r (obs - mean) * rd r (rd r (2 * Fm) - 1))
  let b := rd r (m2 * fm)
  let c := rd r (rd r (mean * rd r (XF.exp (-m2))) * rd r (rd r (XF.bessel0 m2) + rd r (XF.bessel1 m2)))
  rd r (rd r (a + b) - c)

/-- `poisson`, `core/logarithmic.py:363-372`, on torch and jax, rounded. -/
def logsPoissonT (obs mean : XF) : XF := -rd r (XF.log (poisPdfT r obs mean))

/-- `TorchBackend.comb`, `backend/torch.py:288-289`, and `JaxBackend.comb`, `backend/jax.py:269-272`, rounded.  The
floor division of floats is exact up to the rounding of its result. -/
def combT (n k : XF) : XF :=
  rd r (XF.floorDiv (factorialT r n) (rd r (factorialT r k * factorialT r (rd r (n - k)))))

/-- `_binom_pdf`, `core/stats.py:194-199`, on torch and jax, rounded. -/
def binomPdfT (k n prob : XF) : XF :=
  rd r (rd r (combT r n k * rd r (XF.pow prob k)) * rd r (XF.pow (rd r (1 - prob)) (rd r (n - k))))

/-- `binomial`, `core/logarithmic.py:85-98`, on torch and jax, rounded. -/
def logsBinomialT (obs n prob : XF) : XF :=
  let zind := obs < 0
  let obs := if zind then nan else obs
  let prob := binomPdfT r obs n prob
  if zind then pinf else -rd r (XF.log prob)

end Rnd
end Verif
