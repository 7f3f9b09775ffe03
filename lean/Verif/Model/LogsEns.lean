import Verif.Model.Dss
import Verif.Model.Logs
import Mathlib.Analysis.SpecialFunctions.Pow.Real

/-!
# Logarithmic scores of ensembles by kernel density estimation

Models of `logs_ensemble` and `clogs_ensemble` of `/repo/scoringrules/_logs.py` and of
`clogs_ensemble` of `/repo/scoringrules/core/logarithmic.py`.
-/

noncomputable section

open scoped Classical

namespace Verif

open XF Py Stats

namespace LogsEns

/-- `NumpyBackend.quantile`, `backend/numpy.py:62-69`: `np.quantile` with its default linear
interpolation, of one slice.  Any NaN gives NaN.  Simplification: an empty slice gives NaN (numpy
raises). -/
def quantile (p : ℝ) (xs : List XF) : XF :=
  if ∃ x ∈ xs, x.isnan then nan
  else
    let s := sort xs
    let h : ℝ := ((xs.length - 1 : ℕ) : ℝ) * p
    let j := ⌊h⌋₊
    let t : ℝ := h - j
    let lo := idx s j
    let hi := idx s (min (j + 1) (xs.length - 1))
    if t < 1 / 2 then lo + (hi - lo) * fin t else hi - (hi - lo) * (1 - fin t)

/-- Silverman's rule of thumb of one ensemble, `_logs.py:57-62` (the same code is at
`_logs.py:129-134`). -/
def silverman (fct : List XF) : XF :=
  let sigmahat := Dss.std false fct
  let q75 := quantile (3 / 4) fct
  let q25 := quantile (1 / 4) fct
  let iqr := q75 - q25
  fin (106 / 100) * XF.min sigmahat (iqr / fin (134 / 100))
    * fin (((fct.length : ℕ) : ℝ) ^ (-(1 / 5) : ℝ))

/-- The bandwidth array, `_logs.py:56-64` and `_logs.py:128-136`: the given one or Silverman's rule,
repeated along a new last axis of length `M` (`np.stack` of an empty list raises `ValueError`). -/
def bandwidth (fct : Arr XF) (bw : Option (Arr XF)) : Except Err (Arr XF) :=
  let M := fct.shape.getLastD 0
  let bw := bw.getD ⟨fct.shape.dropLast, fun i => silverman (fct.row i)⟩
  if M = 0 then .error .valueError
  else .ok ⟨bw.shape ++ [M], fun i => bw.get i.dropLast⟩

/-- the slice of the broadcast of `a` at leading index `i`, the last axis having length `M`
(broadcasting in `core/logarithmic.py:295-309`). -/
def brow (a : Arr XF) (M : ℕ) (i : List ℕ) : List XF :=
  (List.range M).map fun j => a.bget (i ++ [j])

/-- `mixnorm`, `core/logarithmic.py:295-309`, on arrays: broadcast of `obs[..., None]`, `m`, `s`, `w`,
then `Logs.mixnorm` on the last axis.  Simplification: one broadcast of the four arrays. -/
def mixnormArr (obs m s w : Arr XF) : Except Err (Arr XF) :=
  match Arr.bcast [obs.expandLast.shape, m.shape, s.shape, w.shape] with
  | none => .error .valueError
  | some S =>
    let M := S.getLastD 0
    .ok ⟨S.dropLast, fun i =>
      Logs.mixnorm (obs.expandLast.bget (i ++ [0])) (brow m M i) (brow s M i) (brow w M i)⟩

/-- elementwise operation on three broadcast arrays followed by `B.mean(..., axis=-1)`
(`core/logarithmic.py:26-61`). -/
def meanLast3 (f : XF → XF → XF → XF) (a b c : Arr XF) : Except Err (Arr XF) :=
  match Arr.bcast [a.shape, b.shape, c.shape] with
  | none => .error .valueError
  | some S =>
    .ok ⟨S.dropLast, fun i =>
      mean ((List.range (S.getLastD 0)).map fun j =>
        f (a.bget (i ++ [j])) (b.bget (i ++ [j])) (c.bget (i ++ [j])))⟩

/-- `w_ind = (obs > a) & (obs < b)`, `core/logarithmic.py:53`. -/
def wInd (obs a b : Arr XF) : Except Err (Arr Prop) :=
  match Arr.bcast [obs.shape, a.shape, b.shape] with
  | none => .error .valueError
  | some S => .ok ⟨S, fun i => a.bget i < obs.bget i ∧ obs.bget i < b.bget i⟩

/-- `B.where(c, x, y)` with broadcasting (`backend/numpy.py:277-278`). -/
def whereA (c : Arr Prop) (x y : Arr XF) : Except Err (Arr XF) :=
  match Arr.bcast [c.shape, x.shape, y.shape] with
  | none => .error .valueError
  | some S => .ok ⟨S, fun i => if c.bget i then x.bget i else y.bget i⟩

/-- `clogs_ensemble`, `core/logarithmic.py:26-61`.  `a - fct` (lines 41-42) aligns the last axis of the
thresholds with the ensemble axis of `fct`, while `obs > a` (line 53) aligns it with the last axis of
the observations. -/
def clogs (obs fct a b bw : Arr XF) (cens : Bool) : Except Err (Arr XF) := do
  let dens ← meanLast3 (fun y x h => normPdf ((y - x) / h) / h) obs.expandLast fct bw
  let s1 := dens.map fun d => -XF.log d
  let Fa ← meanLast3 (fun a x h => normCdf ((a - x) / h)) a fct bw
  let Fb ← meanLast3 (fun b x h => normCdf ((b - x) / h)) b fct bw
  let cons ← Arr.map2 (fun u v => u - v) Fb Fa
  let w ← wInd obs a b
  if cens then
    let s2 := cons.map fun c => -XF.log (1 - c)
    whereA w s1 s2
  else
    let s2 := cons.map fun c => XF.log c
    let s ← Arr.map2 (fun u v => u + v) s1 s2
    whereA w s (Arr.scalar 0)

end LogsEns

namespace Api

/-- `logs_ensemble`, `_logs.py:11-69`. -/
def logsEnsemble (obs fct : Arr XF) (mAxis : ℤ) (bw : Option (Arr XF)) : Except Err (Arr XF) := do
  let fct ← univariateArrayCheck obs fct mAxis
  let M := fct.shape.getLastD 0
  let bw ← LogsEns.bandwidth fct bw
  let w : Arr XF := ⟨fct.shape, fun _ => 1 / (M : XF)⟩
  LogsEns.mixnormArr obs fct bw w

/-- `clogs_ensemble`, `_logs.py:72-147`. -/
def clogsEnsemble (obs fct a b : Arr XF) (mAxis : ℤ) (bw : Option (Arr XF)) (cens : Bool) :
    Except Err (Arr XF) := do
  let fct ← univariateArrayCheck obs fct mAxis
  let bw ← LogsEns.bandwidth fct bw
  LogsEns.clogs obs fct a b bw cens

end Api
end Verif
