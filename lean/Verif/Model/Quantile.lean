import Verif.Arr

/-!
# Quantile and interval scores

Models of `/repo/scoringrules/_quantile.py`, `/repo/scoringrules/_interval.py` and
`/repo/scoringrules/core/interval/`.
-/

noncomputable section

open scoped Classical

namespace Verif

open XF Py

namespace Arr

/-- numpy broadcast shape of several arrays; `none` is a `ValueError` (`backend/numpy.py:37-38`). -/
def bcast : List (List ℕ) → Option (List ℕ)
  | [] => some []
  | s :: l => (bcast l).bind fun t => bshape s t

/-- `a[..., None]` (e.g. `_interval.py:95-104`). -/
def expandLast {α : Type} (a : Arr α) : Arr α := ⟨a.shape ++ [1], fun i => a.get i.dropLast⟩

/-- positions of the squeezed index `i` in an array of shape `s`
(part of `np.squeeze`, `backend/numpy.py:126-129`). -/
def unsqueeze : List ℕ → List ℕ → List ℕ
  | [], _ => []
  | n :: s, i => if n = 1 then 0 :: unsqueeze s i else i.headD 0 :: unsqueeze s i.tail

/-- `np.squeeze`: drop the axes of length one (`backend/numpy.py:126-129`). -/
def squeeze {α : Type} (a : Arr α) : Arr α :=
  ⟨a.shape.filter (· ≠ 1), fun i => a.get (unsqueeze a.shape i)⟩

end Arr

namespace Quantile

/-- the elementwise formula of `quantile_score`, `_quantile.py:58`. -/
def score1 (obs fct alpha : XF) : XF := (ind (obs < fct) - alpha) * (fct - obs)

/-- `quantile_score`, `_quantile.py:9-58`.  Simplification: the chain of binary broadcasting
operations is one broadcast of the three arrays. -/
def score (obs fct alpha : Arr XF) : Except Err (Arr XF) :=
  if alpha.Any (fun v => v < 0) ∨ alpha.Any (fun v => 1 < v) then .error .valueError
  else match Arr.bcast [obs.shape, fct.shape, alpha.shape] with
    | none => .error .valueError
    | some s => .ok ⟨s, fun i => score1 (obs.bget i) (fct.bget i) (alpha.bget i)⟩

end Quantile

namespace Interval

/-- the elementwise formula of `interval_score`, `core/interval/_score.py:16-21`. -/
def score1 (obs lower upper alpha : XF) : XF :=
  let width := upper - lower
  let above := ind (upper < obs)
  let below := ind (obs < lower)
  let W := width + below * (2 / alpha) * (lower - obs)
  W + above * (2 / alpha) * (obs - upper)

/-- `interval_score` of `core/interval/_score.py:9-21` on arrays.  Simplification: one broadcast of
the four arrays (the in-place addition at line 20 never changes the shape, `lower` and `upper`
having equal shapes). -/
def core (obs lower upper alpha : Arr XF) : Except Err (Arr XF) :=
  match Arr.bcast [obs.shape, lower.shape, upper.shape, alpha.shape] with
  | none => .error .valueError
  | some s => .ok ⟨s, fun i =>
      score1 (obs.bget i) (lower.bget i) (upper.bget i) (alpha.bget i)⟩

/-- `interval_score`, `_interval.py:11-107`.  `lower.shape[-1]` of a 0-d array is an `IndexError`. -/
def score (obs lower upper alpha : Arr XF) : Except Err (Arr XF) := do
  if lower.shape ≠ upper.shape then .error .valueError
  else if alpha.ndim = 1 then
    if lower.shape = [] then .error .indexError
    else if lower.shape.getLastD 0 ≠ alpha.shape.headD 0 then .error .valueError
    else (core obs.expandLast lower upper alpha).map Arr.squeeze
  else (core obs lower upper alpha).map Arr.squeeze

/-- `_weighted_interval_score_gufunc`, `core/interval/_gufunc.py:7-31`. -/
def wisGufunc (obs median : XF) (lower upper alpha : List XF) (wMedian : XF) (wAlpha : List XF) :
    XF :=
  let K := alpha.length
  let wis := (lower.zip (upper.zip (alpha.zip wAlpha))).foldl (fun wis p =>
    let low := p.1
    let upp := p.2.1
    let a := p.2.2.1
    let wa := p.2.2.2
    let wsa := (upp - low) + ind (obs < low) * (2 / a) * (low - obs)
      + ind (upp < obs) * (2 / a) * (obs - upp)
    wis + wa * wsa) 0
  let wis := wis + wMedian * XF.abs (obs - median)
  wis / ((K : XF) + half)

/-- `weighted_interval_score` of `core/interval/_score.py:24-41`, one forecast case. -/
def wisArray (obs median : XF) (lower upper alpha : List XF) (wMedian : XF) (wAlpha : List XF) :
    XF :=
  let K := wAlpha.length
  let IS := (lower.zip (upper.zip alpha)).map fun p => score1 obs p.1 p.2.1 p.2.2
  let WIS := (zip2 (· * ·) IS wAlpha).sum
  let WIS := WIS + wMedian * median
  WIS / ((K : XF) + half)

/-- `weighted_interval_score`, `_interval.py:110-181`, with `numba = true` for the gufunc.
Simplification: `median` has the shape of `obs`, `lower` and `upper` that shape with one more axis,
`alpha` and `w_alpha` are one-dimensional; `B.asarray` is the identity. -/
def wis (numba : Bool) (obs median lower upper : Arr XF) (alpha : List XF) (wMedian : Option XF)
    (wAlpha : Option (List XF)) : Arr XF :=
  let wm := wMedian.getD half
  let wa := wAlpha.getD (alpha.map fun a => a / 2)
  match numba with
  | true => ⟨obs.shape, fun i =>
      wisGufunc (obs.get i) (median.get i) (lower.row i) (upper.row i) alpha wm wa⟩
  | false => Arr.squeeze ⟨obs.shape, fun i =>
      wisArray (obs.get i) (median.get i) (lower.row i) (upper.row i) alpha wm wa⟩

end Interval
end Verif
