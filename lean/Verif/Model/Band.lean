import Verif.Model.Reliability
import Verif.Model.LogsEns

/-!
# Model of the uncertainty band of the reliability diagram

`_uncertainty_band`, `/repo/scoringrules/visualization/reliability.py:116-132`.  The random numbers are an argument:
one `Draw` per bootstrap replicate.
-/

noncomputable section

open scoped Classical

namespace Verif

open XF Py

namespace Reliability

/-- Errors of `_uncertainty_band`: the usual ones, and the use of `_y` before assignment
(`visualization/reliability.py:123-127`). -/
inductive BandErr where
  | py (e : Err)
  | unboundLocalError

/-- The random numbers of one pass of the loop: the positions drawn by `np.random.choice`
(`visualization/reliability.py:121`) and the answer of `bernoulli.rvs` to the probabilities it is given
(`visualization/reliability.py:124, 126`). -/
structure Draw where
  idx : List ℕ
  rv : List XF → List XF

/-- `np.interp(x, xp, fp, left=np.nan, right=np.nan)` at one point (`visualization/reliability.py:128`): the last
knot not above `x` is found by bisection, which on ascending knots is the length of the longest initial part not above
`x`; at a knot the value there is returned, otherwise the line through the two neighbours is evaluated.
Simplification: numpy's second attempt from the right knot when the line gives NaN is left out, it needs infinite
values. -/
def interp1 (xp fp : List XF) (x : XF) : XF :=
  if x.isnan then nan
  else if x < idx xp 0 ∨ idx xp (xp.length - 1) < x then nan
  else
    let j := (xp.takeWhile fun a => decide (a ≤ x)).length - 1
    if j = xp.length - 1 then idx fp j
    else if idx xp j = x then idx fp j
    else
      let slope := (idx fp (j + 1) - idx fp j) / (idx xp (j + 1) - idx xp j)
      slope * (x - idx xp j) + idx fp j

/-- The probabilities passed to `bernoulli.rvs`, `visualization/reliability.py:122-126`; for any other `bandtype` the
variable `_y` stays unassigned and its use in line 127 raises. -/
def bandProbs (x cep : List XF) (bandtype : String) (d : Draw) : Except BandErr (List XF) :=
  if bandtype = "consistency" then .ok (Api.gather x d.idx)
  else if bandtype = "confidence" then .ok (Api.gather cep d.idx)
  else .error .unboundLocalError

/-- One pass of the loop, `visualization/reliability.py:121-128`.  `bernoulli.rvs` raises `ValueError` if some
probability is outside [0, 1] or NaN; `np.interp` raises `ValueError` without knots. -/
def replicate (iso : List XF → List XF) (x cep : List XF) (bandtype : String) (d : Draw) :
    Except BandErr (List XF) :=
  match bandProbs x cep bandtype d with
  | .error e => .error e
  | .ok p =>
    if ∃ q ∈ p, ¬(fin 0 ≤ q ∧ q ≤ fin 1) then .error (.py .valueError)
    else
      match corpReliability iso (d.rv p) (Api.gather x d.idx) with
      | .error e => .error (.py e)
      | .ok (xs, _, c) => if xs = [] then .error (.py .valueError) else .ok (x.map (interp1 xs c))

/-- `np.nanpercentile(·, 100 * p)` of one column, `visualization/reliability.py:130-131`: the quantile of the entries
that are not NaN, and NaN if there are none. -/
def nanQuantile (p : ℝ) (col : List XF) : XF :=
  let v := col.filter fun a => decide (¬a.isnan)
  if v = [] then nan else LogsEns.quantile p v

/-- `_uncertainty_band`, `visualization/reliability.py:116-132`.  `np.nanpercentile` raises `ValueError` if the level
is outside [0, 100].  Simplification: without replicates numpy returns a single NaN, here it is repeated for every
forecast; `alpha` is a real number. -/
def uncertaintyBand (iso : List XF → List XF) (x cep : List XF) (draws : List Draw) (bandtype : String) (alpha : ℝ) :
    Except BandErr (List XF × List XF) := do
  let res ← draws.mapM (replicate iso x cep bandtype)
  if alpha < 0 ∨ 1 < alpha then .error (.py .valueError)
  else
    let col := fun i => res.map fun r => idx r i
    let ql := (List.range x.length).map fun i => nanQuantile alpha (col i)
    let qu := (List.range x.length).map fun i => nanQuantile (1 - alpha) (col i)
    .ok (ql, qu)

/-- The band drawn by `reliability_diagram`, `visualization/reliability.py:70, 73-74`: the sorted forecasts and the
lower and upper ends. -/
def diagramBand (iso : List XF → List XF) (obs fct : List XF) (draws : List Draw) (bandtype : String) (alpha : ℝ) :
    Except BandErr (List XF × List XF × List XF) :=
  match corpReliability iso obs fct with
  | .error e => .error (.py e)
  | .ok (x, _, cep) => (uncertaintyBand iso x cep draws bandtype alpha).map fun q => (x, q.1, q.2)

end Reliability
end Verif
