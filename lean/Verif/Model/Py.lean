import Verif.XF
import Mathlib.Data.List.Sort

/-!
# Python / numpy primitives used by the models

One-dimensional arrays are lists of `XF`.
-/

noncomputable section

open scoped Classical

namespace Verif

/-- Exceptions that the modelled functions may raise. (e.g. `core/utils.py:100-104`, `259-262`) -/
inductive Err where
  | valueError
  | notImplemented
  | indexError
  | axisError
  | typeError
  | backendNotAvailable
  | castError
deriving DecidableEq, Repr

namespace Py

open XF

/-- `for i in range(lo, hi): s = body(i, s)`. (e.g. `core/crps/_gufuncs.py:101-110`) -/
def forRange {S : Type} (lo hi : ℕ) (s : S) (body : ℕ → S → S) : S :=
  (List.range' lo (hi - lo)).foldl (fun s i => body i s) s

/-- `for i, x in enumerate(xs): s = body(i, x, s)`. (e.g. `core/crps/_gufuncs.py:73-84`) -/
def forEnum {S : Type} (xs : List XF) (s : S) (body : ℕ → XF → S → S) : S :=
  xs.zipIdx.foldl (fun s p => body p.2 p.1 s) s

/-- `for i, x in enumerate(xs): ...` where the body may `return` NaN early (`none`).
(`core/crps/_gufuncs.py:37-41`) -/
def forEnumM {S : Type} (xs : List XF) (s : S) (body : ℕ → XF → S → Option S) : Option S :=
  xs.zipIdx.foldlM (fun s p => body p.2 p.1 s) s

/-- `xs[i]` for an in-range non-negative index. (e.g. `core/crps/_gufuncs.py:101-110`) -/
def idx (xs : List XF) (i : ℕ) : XF := xs.getD i nan

/-- `np.mean` of a 1-D array. (`backend/numpy.py:40-48`) -/
def mean (xs : List XF) : XF := xs.sum / (xs.length : XF)

/-- `np.cumsum` of a 1-D array. (`backend/numpy.py:101-109`) -/
def cumsum (xs : List XF) : List XF := (List.range xs.length).map fun i => (xs.take (i + 1)).sum

/-- `np.roll(xs, shift)`: entry `j` of the result is `xs[(j - shift) % M]`. (`backend/numpy.py:289-290`) -/
def roll (xs : List XF) (shift : ℕ) : List XF :=
  (List.range xs.length).map fun j => idx xs ((j + (xs.length - shift % xs.length)) % xs.length)

/-- `np.sort` of a 1-D array: ascending, NaN last. (`backend/numpy.py:207-217`) -/
def sort (xs : List XF) : List XF := xs.mergeSort fun a b => decide (sortLe a b)

/-- Elementwise binary operation of equally long arrays. (e.g. `core/crps/_approx_w.py:39-49`) -/
def zip2 (f : XF → XF → XF) (a b : List XF) : List XF := List.zipWith f a b

/-- `sum(f(xs[..., None], xs[..., None, :]), axis=(-1,-2))`: double sum over all ordered pairs of
positions. (e.g. `core/crps/_approx.py:44-47`) -/
def sum2 (f : XF → XF → XF) (xs : List XF) : XF :=
  (xs.map fun a => (xs.map fun b => f a b).sum).sum

/-- The constant `0.5`. (e.g. `core/crps/_approx.py:48`) -/
def half : XF := fin (1 / 2)

end Py
end Verif
