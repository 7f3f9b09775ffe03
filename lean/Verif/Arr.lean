import Verif.Model.Py
import Mathlib.Data.List.InsertIdx

/-!
# N-dimensional arrays

An array is a shape together with a reading function on index lists.  Only indices that are valid
for the shape (`Arr.Valid`) are meaningful.
-/

noncomputable section

open scoped Classical

namespace Verif

/-- N-dimensional array.
(the arrays handled by `backend/numpy.py:27-302`; entries are read through an index function) -/
structure Arr (α : Type) where
  shape : List ℕ
  get : List ℕ → α

namespace Arr

variable {α β : Type}

/-- `idx` is an index tuple of an array of shape `shape`.
(an auxiliary notion; used for `np.any`, `backend/numpy.py:176-184`) -/
def Valid (shape idx : List ℕ) : Prop := List.Forall₂ (· < ·) idx shape

/-- `a.ndim` (e.g. `core/utils.py:115`). -/
def ndim (a : Arr α) : ℕ := a.shape.length

/-- Two arrays are the same as numpy arrays: equal shapes and equal entries.
(to compare the results of calls such as `_crps.py:101-155`) -/
def Same (a b : Arr α) : Prop := a.shape = b.shape ∧ ∀ i, Valid a.shape i → a.get i = b.get i

/-- 0-dimensional array. (result of `B.asarray`, `backend/numpy.py:34-35`) -/
def scalar (x : α) : Arr α := ⟨[], fun _ => x⟩

/-- 1-dimensional array. (result of `B.asarray`, `backend/numpy.py:34-35`) -/
def ofList (l : List XF) : Arr XF := ⟨[l.length], fun i => l.getD (i.headD 0) XF.nan⟩

/-- elementwise map (e.g. `core/utils.py:166`). -/
def map (f : α → β) (a : Arr α) : Arr β := ⟨a.shape, fun i => f (a.get i)⟩

/-- `np.any(p(a))` (`backend/numpy.py:176-184`). -/
def Any (p : α → Prop) (a : Arr α) : Prop := ∃ i, Valid a.shape i ∧ p (a.get i)

/-- the 1-D slice of `a` along its last axis at leading index `idx`
(the reductions with `axis=-1`, e.g. `core/crps/_approx.py:43`). -/
def row (a : Arr α) (idx : List ℕ) : List α :=
  (List.range (a.shape.getLastD 0)).map fun j => a.get (idx ++ [j])

/-- Python `l[:m]` for an integer `m`. (e.g. `core/utils.py:118`) -/
def pyTo (l : List ℕ) (m : ℤ) : List ℕ :=
  l.take (if 0 ≤ m then m.toNat else (l.length + m).toNat)

/-- Python `l[m:]` for an integer `m`. (e.g. `core/utils.py:118`) -/
def pyFrom (l : List ℕ) (m : ℤ) : List ℕ :=
  l.drop (if 0 ≤ m then m.toNat else (l.length + m).toNat)

/-- Python `l[m]` for an integer `m`; `none` is an `IndexError`. (e.g. `_crps.py:2057`) -/
def pyGet (l : List ℕ) (m : ℤ) : Option ℕ :=
  if 0 ≤ m then l[m.toNat]? else if 0 ≤ l.length + m then l[(l.length + m).toNat]? else none

/-- `np.moveaxis(a, k, -1)` for a non-negative in-range axis `k`. (`backend/numpy.py:81-88`) -/
def moveLast (a : Arr α) (k : ℕ) : Arr α where
  shape := a.shape.eraseIdx k ++ [a.shape.getD k 0]
  get := fun i => a.get (i.dropLast.insertIdx k (i.getLastD 0))

/-- `np.moveaxis(a, m, -1)`; an out-of-range axis raises `AxisError`. (`backend/numpy.py:81-88`) -/
def moveaxisLast (a : Arr α) (m : ℤ) : Except Err (Arr α) :=
  let m' := if 0 ≤ m then m else a.ndim + m
  if 0 ≤ m' ∧ m' < a.ndim then .ok (a.moveLast m'.toNat) else .error .axisError

/-- apply `f` to every slice along the last axis; `f` must preserve the length (e.g. `core/utils.py:106`). -/
def mapRows (f : List XF → List XF) (a : Arr XF) : Arr XF where
  shape := a.shape
  get := fun i => (f (a.row i.dropLast)).getD (i.getLastD 0) XF.nan

/-- apply `f` to every pair of slices along the last axes of two arrays of equal shape
(e.g. `core/utils.py:202`). -/
def mapRows2 (f : List XF → List XF → List XF) (a b : Arr XF) : Arr XF where
  shape := a.shape
  get := fun i => (f (a.row i.dropLast) (b.row i.dropLast)).getD (i.getLastD 0) XF.nan

/-! ### broadcasting -/

/-- broadcast of two right-aligned (reversed) shapes (`backend/numpy.py:37-38`). -/
def bshapeR : List ℕ → List ℕ → Option (List ℕ)
  | [], s => some s
  | s, [] => some s
  | a :: s, b :: t =>
    if a = b then (bshapeR s t).map (a :: ·)
    else if a = 1 then (bshapeR s t).map (b :: ·)
    else if b = 1 then (bshapeR s t).map (a :: ·)
    else none

/-- numpy broadcast shape; `none` is a `ValueError` (`backend/numpy.py:37-38`). -/
def bshape (s t : List ℕ) : Option (List ℕ) := (bshapeR s.reverse t.reverse).map List.reverse

/-- read the (right-aligned) broadcast of `a` at index `i` (`backend/numpy.py:37-38`). -/
def bget (a : Arr α) (i : List ℕ) : α :=
  a.get ((List.zipWith (fun n j => if n = 1 then 0 else j) a.shape (i.drop (i.length - a.ndim))))

/-- elementwise binary operation with broadcasting (e.g. `core/utils.py:252`). -/
def map2 (f : α → α → β) (a b : Arr α) : Except Err (Arr β) :=
  match bshape a.shape b.shape with
  | none => .error .valueError
  | some s => .ok ⟨s, fun i => f (a.bget i) (b.bget i)⟩

end Arr
end Verif
