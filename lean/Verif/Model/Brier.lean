import Verif.Arr

/-!
# Brier score, logarithmic score and their ranked versions

Models of `/repo/scoringrules/_brier.py`, `/repo/scoringrules/core/brier.py` and of the checks in
`/repo/scoringrules/core/utils.py:27-60`.
-/

noncomputable section

open scoped Classical

namespace Verif

open XF Py

namespace Brier

/-- `EPSILON`, `core/utils.py:14`. -/
def eps : XF := fin (1 / 100000)

/-- `binary_array_check`, `core/utils.py:27-35`.  `unique_values(obs)` is a subset of `{0, 1}` iff
every entry equals 0 or 1 (NaN does not). -/
def binaryCheck (obs fct : Arr XF) : Except Err Unit :=
  if fct.Any (fun v => v < 0) ∨ fct.Any (fun v => 1 + eps < v) then .error .valueError
  else if obs.Any (fun v => v ≠ 0 ∧ v ≠ 1) then .error .valueError
  else .ok ()

/-- elementwise `brier_score`, `core/brier.py:15`. -/
def brier1 (obs fct : XF) : XF := (fct - obs) ^ 2

/-- elementwise `log_score`, `core/brier.py:31`. -/
def log1 (obs fct : XF) : XF := - XF.log (XF.abs (fct + obs - 1))

/-- `brier_score`, `_brier.py:10-54`. -/
def brierScore (obs fct : Arr XF) : Except Err (Arr XF) := do
  let _ ← binaryCheck obs fct
  Arr.map2 (fun f o => brier1 o f) fct obs

/-- `log_score`, `_brier.py:127-159`. -/
def logScore (obs fct : Arr XF) : Except Err (Arr XF) := do
  let _ ← binaryCheck obs fct
  Arr.map2 (fun f o => log1 o f) fct obs

/-- `np.where(np.expand_dims(obs, -1) == np.arange(1, K + 1), 1, 0)`, `core/utils.py:58-59`. -/
def onehotOf (obs : Arr XF) (K : ℕ) : Arr XF :=
  ⟨obs.shape ++ [K], fun i =>
    if XF.feq (obs.get i.dropLast) ((i.getLastD 0 + 1 : ℕ) : XF) then 1 else 0⟩

/-- the axis permutation of `categorical_array_check`, `core/utils.py:44-47`. -/
def moveK (a : Arr XF) (kAxis : ℤ) : Except Err (Arr XF) :=
  if kAxis ≠ -1 then a.moveaxisLast kAxis else .ok a

/-- `categorical_array_check`, `core/utils.py:38-60`.  The `IndexError` is `fct.shape[-1]` of a 0-d
forecast. -/
def categoricalCheck (obs fct : Arr XF) (kAxis : ℤ) (onehot : Bool) :
    Except Err (Arr XF × Arr XF) := do
  if fct.Any (fun v => v < 0) ∨ fct.Any (fun v => 1 + eps < v) then .error .valueError
  else
    let fct ← moveK fct kAxis
    let obs ← match onehot with
      | true => moveK obs kAxis
      | false => .ok obs
    if onehot = true then
      if obs.shape ≠ fct.shape then .error .valueError else .ok (obs, fct)
    else if obs.shape ≠ fct.shape.dropLast then .error .valueError
    else if fct.shape = [] then .error .indexError
    else .ok (onehotOf obs (fct.shape.getLastD 0), fct)

/-- slice-wise `rps_score`, `core/brier.py:25`. -/
def rps1 (obs fct : List XF) : XF := (zip2 (fun f o => (f - o) ^ 2) (cumsum fct) (cumsum obs)).sum

/-- slice-wise `rls_score`, `core/brier.py:41-44`. -/
def rls1 (obs fct : List XF) : XF :=
  (zip2 (fun f o => - XF.log (XF.abs (f + o - 1))) (cumsum fct) (cumsum obs)).sum

/-- `rps_score`, `_brier.py:57-124`. -/
def rpsScore (obs fct : Arr XF) (kAxis : ℤ) (onehot : Bool) : Except Err (Arr XF) := do
  let (obs, fct) ← categoricalCheck obs fct kAxis onehot
  .ok ⟨fct.shape.dropLast, fun i => rps1 (obs.row i) (fct.row i)⟩

/-- `rls_score`, `_brier.py:162-205`. -/
def rlsScore (obs fct : Arr XF) (kAxis : ℤ) (onehot : Bool) : Except Err (Arr XF) := do
  let (obs, fct) ← categoricalCheck obs fct kAxis onehot
  .ok ⟨fct.shape.dropLast, fun i => rls1 (obs.row i) (fct.row i)⟩

end Brier
end Verif
