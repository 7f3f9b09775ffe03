import Verif.Model.RoundEnergy
import Verif.Model.Brier

/-!
# The ranked probability score and the logarithmic scores computed with rounding

The functions `log1`, `rps1` and `rls1` of `namespace Brier` in `Verif.Model.Brier` (`/repo/scoringrules/core/brier.py`),
with the rounding function `r` applied after every arithmetic operation.  The order in which a backend adds is left open:
`T` gives the entries of the cumulative sums, `S` the sum over the categories (`RSum` in `Verif.Model.RoundEnergy`).  The
logarithm is correctly rounded here; the routine the backend calls for it is not part of the repository.
-/

noncomputable section

open scoped Classical

namespace Verif

open XF Py

namespace Rnd

variable (r : ℝ → XF) (T S : List XF → XF)

/-- `-B.log(B.abs(fct + obs - 1.0))`, `core/brier.py:31`, `42`, rounded; changing the sign is exact. -/
def log1 (obs fct : XF) : XF := - rd r (XF.log (XF.abs (rd r (rd r (fct + obs) - 1))))

/-- `B.cumsum(x, axis=-1)`, `core/brier.py:25`, `42`; entry `i` is a sum of the first `i + 1` entries of `x`, in the order
of `T`. -/
def cumsum (xs : List XF) : List XF := (List.range xs.length).map fun i => T (xs.take (i + 1))

/-- slice-wise `rps_score`, `core/brier.py:25`, rounded. -/
def rps1 (obs fct : List XF) : XF :=
  S (zip2 (fun f o => rd r (rd r (f - o) ^ 2)) (cumsum T fct) (cumsum T obs))

/-- slice-wise `rls_score`, `core/brier.py:41-44`, rounded. -/
def rls1 (obs fct : List XF) : XF := S (zip2 (fun f o => log1 r o f) (cumsum T fct) (cumsum T obs))

end Rnd
end Verif
