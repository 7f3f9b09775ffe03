import Verif.Model.LogsEns
import Verif.Model.Closed2

/-!
# Arrays of normal mixtures

Models of `crps_mixnorm` and `logs_mixnorm` on arrays of any rank.
-/

noncomputable section

open scoped Classical

namespace Verif

open XF Py

/-- `mixnorm`, `core/crps/_closed.py:640-666`, on arrays: broadcast of `obs[..., None]`, `m`, `s`, `w`, then
`Closed.mixnorm` on the last axis.  `m[..., None, :]` raises `IndexError` for a 0-dimensional `m`.
Simplification: one broadcast of the four arrays. -/
def Closed.mixnormArr (obs m s w : Arr XF) : Except Err (Arr XF) :=
  if m.ndim = 0 ∨ s.ndim = 0 ∨ w.ndim = 0 then .error .indexError
  else match Arr.bcast [obs.expandLast.shape, m.shape, s.shape, w.shape] with
  | none => .error .valueError
  | some S =>
    let M := S.getLastD 0
    .ok ⟨S.dropLast, fun i =>
      Closed.mixnorm (obs.expandLast.bget (i ++ [0])) (LogsEns.brow m M i) (LogsEns.brow s M i)
        (LogsEns.brow w M i)⟩

namespace Api

/-- `m.shape[m_axis]`, `_crps.py:2057` and `_logs.py:704`. -/
def axisLen (a : Arr XF) (m : ℤ) : Except Err ℕ :=
  let m' := if 0 ≤ m then m else a.ndim + m
  if 0 ≤ m' ∧ m' < a.ndim then .ok (a.shape.getD m'.toNat 0) else .error .indexError

/-- The component axis of one parameter, `_crps.py:2062-2065` and `_logs.py:709-712`. -/
def mixMove (a : Arr XF) (mAxis : ℤ) : Except Err (Arr XF) :=
  if mAxis ≠ -1 then a.moveaxisLast mAxis else .ok a

/-- The weights of `crps_mixnorm`, `_crps.py:2056-2060`.  Simplification: `1 / M` with `M = 0` (a
`ZeroDivisionError` of Python) is reported as `valueError`. -/
def mixWeightsCrps (m : Arr XF) (w : Option (Arr XF)) (mAxis : ℤ) : Except Err (Arr XF) :=
  match w with
  | some w => .ok w
  | none => do
    let M ← axisLen m mAxis
    if M = 0 then .error .valueError else .ok ⟨m.shape, fun _ => 0 + 1 / (M : XF)⟩

/-- The weights of `logs_mixnorm`, `_logs.py:703-707`. -/
def mixWeightsLogs (m : Arr XF) (w : Option (Arr XF)) (mcAxis : ℤ) : Except Err (Arr XF) :=
  match w with
  | some w => .ok w
  | none => do
    let M ← axisLen m mcAxis
    .ok ⟨m.shape, fun _ => 1 / (M : XF)⟩

/-- `crps_mixnorm`, `_crps.py:2001-2067`. -/
def crpsMixnorm (obs m s : Arr XF) (w : Option (Arr XF)) (mAxis : ℤ) : Except Err (Arr XF) := do
  let w ← mixWeightsCrps m w mAxis
  let m ← mixMove m mAxis
  let s ← mixMove s mAxis
  let w ← mixMove w mAxis
  Closed.mixnormArr obs m s w

/-- `logs_mixnorm`, `_logs.py:662-714`. -/
def logsMixnorm (obs m s : Arr XF) (w : Option (Arr XF)) (mcAxis : ℤ) : Except Err (Arr XF) := do
  let w ← mixWeightsLogs m w mcAxis
  let m ← mixMove m mcAxis
  let s ← mixMove s mcAxis
  let w ← mixMove w mcAxis
  LogsEns.mixnormArr obs m s w

end Api
end Verif
