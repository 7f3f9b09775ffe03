import Verif.Model.DiscreteArr
import Verif.Model.Np

/-!
# Array operations of the torch backend

The one array operation of `/repo/scoringrules/backend/torch.py` that the package writes itself instead of
passing it on: `expand_dims` for a tuple of axes.
-/

noncomputable section

open scoped Classical

namespace Verif

/-- The exceptions of `TorchBackend.expand_dims`, `backend/torch.py:121-129`. -/
inductive TorchErr where
  /-- `next(shape_it)` on an exhausted iterator (`backend/torch.py:128`) -/
  | stopIteration
  /-- `x.reshape(shape)` with another number of entries (`backend/torch.py:129`) -/
  | runtimeError
deriving DecidableEq, Repr

namespace Torch

variable {α : Type}

/-- `axis = [a + out_ndim if a < 0 else a for a in axis]`, `backend/torch.py:126`. -/
def normAxes (out : ℕ) (axes : List ℤ) : List ℤ := axes.map fun a => if a < 0 then a + out else a

/-- `[1 if ax in axis else next(shape_it) for ax in range(out_ndim)]`, `backend/torch.py:128`, from position `k`
on; `n` positions remain and `l` is what `shape_it` has left. -/
def newShape (axes : List ℤ) : ℕ → ℕ → List ℕ → Except TorchErr (List ℕ)
  | _, 0, _ => .ok []
  | k, n + 1, l =>
    if (k : ℤ) ∈ axes then (newShape axes (k + 1) n l).map (1 :: ·)
    else match l with
      | [] => .error .stopIteration
      | d :: l => (newShape axes (k + 1) n l).map (d :: ·)

/-- `x.reshape(shape)` for a list of sizes, `backend/torch.py:129`: the entries in row-major order. -/
def reshape (x : Arr α) (shape : List ℕ) : Except TorchErr (Arr α) :=
  if shape.prod = x.shape.prod then .ok ⟨shape, fun i => x.get (Arr.unravel x.shape (Arr.ravel shape i))⟩
  else .error .runtimeError

/-- `TorchBackend.expand_dims(x, axis)` for a tuple or list of axes, `backend/torch.py:124-129`. -/
def expandDims (x : Arr α) (axes : List ℤ) : Except TorchErr (Arr α) := do
  let out := axes.length + x.ndim
  let shape ← newShape (normAxes out axes) 0 out x.shape
  reshape x shape

end Torch

end Verif
