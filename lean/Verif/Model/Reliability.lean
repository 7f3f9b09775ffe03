import Verif.Model.Api

/-!
# Model of the CORP reliability diagram

`/repo/scoringrules/visualization/reliability.py`.  Only the numbers are modelled: the arrays that are
plotted and the three numbers that are printed.  The drawing and the import checks are not modelled; the bootstrap
uncertainty band is in `Verif/Model/Band.lean`.
-/

noncomputable section

open scoped Classical

namespace Verif

open XF Py

namespace Reliability

/-- `corp_reliability`, `visualization/reliability.py:99-105`.  `iso` stands for
`scipy.optimize.isotonic_regression(·).x`.  `obs[prob_argsort]` raises `IndexError` if there are fewer
observations than forecasts; surplus observations are ignored.  `np.argsort` is modelled as a stable
sort (numpy's default sort is stable on short arrays only). -/
def corpReliability (iso : List XF → List XF) (obs fct : List XF) :
    Except Err (List XF × List XF × List XF) :=
  let ind := Api.argsort fct
  if obs.length < fct.length then .error .indexError
  else
    let x := Api.gather fct ind
    let y := Api.gather obs ind
    let cep := iso y
    .ok (x, y, cep)

/-- `corp_score_decomposition`, `visualization/reliability.py:108-113`: `(sc, sx, sr)`. -/
def decomposition (x y cep : List XF) : XF × XF × XF :=
  let sc := mean (zip2 (fun y c => (y - c) ^ 2) y cep)
  let sx := mean (zip2 (fun y x => (y - x) ^ 2) y x)
  let ybar := mean y
  let sr := mean (y.map fun y => (y - ybar) ^ 2)
  (sc, sx, sr)

/-- The numbers printed by `reliability_diagram`, `visualization/reliability.py:71-72, 86-88`:
`(MCB, DSC, UNC)`, before formatting with three decimals. -/
def printed (iso : List XF → List XF) (obs fct : List XF) : Except Err (XF × XF × XF) := do
  let (x, y, cep) ← corpReliability iso obs fct
  let (sc, sx, sr) := decomposition x y cep
  .ok (sx - sc, sr - sc, sr)

end Reliability
end Verif
