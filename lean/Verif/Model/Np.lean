import Verif.Arr

/-!
# Array operations of the numpy backend

The operations of `/repo/scoringrules/backend/numpy.py` that the vectorised ("array path") formulas are
written with, on whole arrays of any rank.  Axes are counted from the end by negative numbers, as in the
code.  Errors are values.
-/

noncomputable section

open scoped Classical

namespace Verif

open XF Py

namespace Np

variable {α : Type}

/-- `shape = [1 if ax in axis else next(shape_it) for ax in range(out_ndim)]`, the shape built by
`np.expand_dims` (`backend/numpy.py:123-124`) from position `k` on; `n` positions remain. -/
def insOnes (pos : List ℕ) : ℕ → ℕ → List ℕ → List ℕ
  | _, 0, _ => []
  | k, n + 1, l =>
    if k ∈ pos then 1 :: insOnes pos (k + 1) n l
    else l.headD 1 :: insOnes pos (k + 1) n l.tail

/-- the entries of an index tuple at the positions `k, k+1, …` that are not in `pos`: the index of the
original array that an index of `np.expand_dims` stands for (`backend/numpy.py:123-124`). -/
def dropAt (pos : List ℕ) : ℕ → List ℕ → List ℕ
  | _, [] => []
  | k, j :: i => if k ∈ pos then dropAt pos (k + 1) i else j :: dropAt pos (k + 1) i

/-- `axis + ndim if axis < 0 else axis` (`np.normalize_axis_index`, called by the functions of
`backend/numpy.py:40-134`). -/
def normAxis (n : ℕ) (ax : ℤ) : ℤ := if ax < 0 then n + ax else ax

/-- `np.expand_dims(a, axes)`, `backend/numpy.py:123-124`; `a[..., None]` is `axes = -1` and
`a[..., None, :]` is `axes = -2`. -/
def expandDims (a : Arr α) (axes : List ℤ) : Except Err (Arr α) :=
  let out := a.ndim + axes.length
  let pos := axes.map (normAxis out)
  if ∃ p ∈ pos, p < 0 ∨ (out : ℤ) ≤ p then .error .axisError
  else if ¬ pos.Nodup then .error .valueError
  else
    let pos := pos.map Int.toNat
    .ok ⟨insOnes pos 0 out a.shape, fun i => a.get (dropAt pos 0 i)⟩

/-- `np.sum(a, axis=ax)` for one axis, `backend/numpy.py:90-99`. -/
def sumAxis (a : Arr XF) (ax : ℤ) : Except Err (Arr XF) :=
  let p := normAxis a.ndim ax
  if p < 0 ∨ (a.ndim : ℤ) ≤ p then .error .axisError
  else .ok ⟨a.shape.eraseIdx p.toNat, fun i =>
    ((List.range (a.shape.getD p.toNat 0)).map fun j => a.get (i.insertIdx p.toNat j)).sum⟩

/-- `np.sum(a, axis=(-2, -1))` and `np.sum(a, axis=(-1, -2))`, `backend/numpy.py:90-99`: the last axis is
summed first.  Arithmetic is exact, so the order does not matter. -/
def sumLast2 (a : Arr XF) : Except Err (Arr XF) := do sumAxis (← sumAxis a (-1)) (-1)

/-- `np.mean(a, axis=ax)`, `backend/numpy.py:40-48`. -/
def meanAxis (a : Arr XF) (ax : ℤ) : Except Err (Arr XF) :=
  (sumAxis a ax).map fun r => r.map fun x => x / ((a.shape.getD (normAxis a.ndim ax).toNat 0 : ℕ) : XF)

/-- `np.mean(a, axis=(-2, -1))`, `backend/numpy.py:40-48`. -/
def meanLast2 (a : Arr XF) : Except Err (Arr XF) :=
  (sumLast2 a).map fun r => r.map fun x =>
    x / ((a.shape.getD (a.ndim - 2) 0 * a.shape.getD (a.ndim - 1) 0 : ℕ) : XF)

/-- `np.linalg.norm(a, axis=-1)`, `backend/numpy.py:219-222`: the square root of the sum of squares. -/
def normLast (a : Arr XF) : Except Err (Arr XF) :=
  (sumAxis (a.map fun x => x ^ 2) (-1)).map fun r => r.map XF.sqrt

/-- `np.roll(a, shift=shift, axis=ax)`, `backend/numpy.py:289-290`. -/
def roll (a : Arr XF) (shift : ℕ) (ax : ℤ) : Except Err (Arr XF) :=
  let p := normAxis a.ndim ax
  if p < 0 ∨ (a.ndim : ℤ) ≤ p then .error .axisError
  else
    let n := a.shape.getD p.toNat 0
    .ok ⟨a.shape, fun i => a.get (i.set p.toNat ((i.getD p.toNat 0 + (n - shift % n)) % n))⟩

/-- `np.concatenate((a, b), axis=-1)`, `backend/numpy.py:114-121`. -/
def concatLast (a b : Arr XF) : Except Err (Arr XF) :=
  if a.shape = [] ∨ b.shape = [] ∨ a.shape.dropLast ≠ b.shape.dropLast then .error .valueError
  else
    let n := a.shape.getLastD 0
    .ok ⟨a.shape.dropLast ++ [n + b.shape.getLastD 0], fun i =>
      if i.getLastD 0 < n then a.get i else b.get (i.dropLast ++ [i.getLastD 0 - n])⟩

/-- the index list `a[..., ind]` (e.g. `core/crps/_approx_w.py:98`; slices `a[..., 1:]` and `a[..., :M]`
are the index lists `1, 2, …` and `0, …, M - 1`). -/
def takeLast (a : Arr XF) (ind : List ℕ) : Arr XF :=
  ⟨a.shape.dropLast ++ [ind.length], fun i => a.get (i.dropLast ++ [ind.getD (i.getLastD 0) 0])⟩

/-- `a *= b` and the like: broadcasting must not change the shape of `a`
(e.g. `core/crps/_approx.py:152`). -/
def inplace (f : XF → XF → XF) (a b : Arr XF) : Except Err (Arr XF) := do
  let r ← Arr.map2 f a b
  if r.shape = a.shape then .ok r else .error .valueError

/-- `np.arange(lo, lo + n)`, `backend/numpy.py:140-149`. -/
def arange (lo n : ℕ) : Arr XF := ⟨[n], fun i => ((lo + i.headD 0 : ℕ) : XF)⟩

end Np
end Verif
