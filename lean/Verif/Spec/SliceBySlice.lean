import Verif.Spec.Slices
import Verif.Model.Py
import Verif.Model.Multivariate

/-!
# Specification: a call on arrays that behaves like one call per slice
-/

noncomputable section

namespace Verif
namespace Spec

open Py

/-- The array call `call` does what calling `one i` for every index `i` of an array of shape `s` does:
its result has shape `s` and entry `i` is the value of `one i`; if it raises, then some `one i` raises
the same exception. -/
def SliceBySlice (call : Except Err (Arr XF)) (s : List ℕ) (one : List ℕ → Except Err XF) : Prop :=
  match call with
  | .ok out => out.shape = s ∧ ∀ i, Arr.Valid s i → one i = .ok (out.get i)
  | .error e => ∃ i, Arr.Valid s i ∧ one i = .error e

/-- The call returns an array of shape `s` whose entry at every index `i` of that shape is `v i`. -/
def Returns (call : Except Err (Arr XF)) (s : List ℕ) (v : List ℕ → XF) : Prop :=
  ∃ out, call = .ok out ∧ out.shape = s ∧ ∀ i, Arr.Valid s i → out.get i = v i

/-- Two calls have the same outcome: the same exception, or arrays of the same shape with the same entry
at every index of that shape. -/
def SameResult (x y : Except Err (Arr XF)) : Prop :=
  match x, y with
  | .ok a, .ok b => a.shape = b.shape ∧ ∀ i, Arr.Valid a.shape i → a.get i = b.get i
  | .error e, .error e' => e = e'
  | _, _ => False

/-- A function of an array of observations of shape `s` and an array of members of shape `s + (M,)` does what
calling it with each single observation and its members does. -/
def ActsPerSlice (f : Arr XF → Arr XF → Except Err (Arr XF)) : Prop :=
  ∀ (obs fct : Arr XF) (s : List ℕ) (M : ℕ), obs.shape = s → fct.shape = s ++ [M] →
    SliceBySlice (f obs fct) s fun i =>
      (f ⟨[], fun _ => obs.get i⟩ (Arr.ofList (fct.row i))).map fun r => r.get []

/-- The same with weights of the shape of the members. -/
def ActsPerSliceW (f : Arr XF → Arr XF → Arr XF → Except Err (Arr XF)) : Prop :=
  ∀ (obs fct w : Arr XF) (s : List ℕ) (M : ℕ), obs.shape = s → fct.shape = s ++ [M] →
    w.shape = s ++ [M] →
    SliceBySlice (f obs fct w) s fun i =>
      (f ⟨[], fun _ => obs.get i⟩ (Arr.ofList (fct.row i)) (Arr.ofList (w.row i))).map fun r => r.get []

/-- A function of an array of observation vectors of shape `s + (D,)` and an array of ensembles of shape
`s + (M, D)` does what calling it with each single vector and its ensemble does. -/
def ActsPerMat (f : Arr XF → Arr XF → Except Err (Arr XF)) : Prop :=
  ∀ (obs fct : Arr XF) (s : List ℕ) (M D : ℕ), obs.shape = s ++ [D] → fct.shape = s ++ [M, D] →
    SliceBySlice (f obs fct) s fun i =>
      (f (Arr.ofList (obs.row i)) (Arr.ofRows D (fct.mat i))).map fun r => r.get []

/-- The same with weights of shape `s + (M,)`. -/
def ActsPerMatW (f : Arr XF → Arr XF → Arr XF → Except Err (Arr XF)) : Prop :=
  ∀ (obs fct w : Arr XF) (s : List ℕ) (M D : ℕ), obs.shape = s ++ [D] → fct.shape = s ++ [M, D] →
    w.shape = s ++ [M] →
    SliceBySlice (f obs fct w) s fun i =>
      (f (Arr.ofList (obs.row i)) (Arr.ofRows D (fct.mat i)) (Arr.ofList (w.row i))).map fun r => r.get []

/-- The same with a matrix of pair weights of shape `s + (D, D)`. -/
def ActsPerMatP (f : Arr XF → Arr XF → Arr XF → Except Err (Arr XF)) : Prop :=
  ∀ (obs fct w : Arr XF) (s : List ℕ) (M D : ℕ), obs.shape = s ++ [D] → fct.shape = s ++ [M, D] →
    w.shape = s ++ [D, D] →
    SliceBySlice (f obs fct w) s fun i =>
      (f (Arr.ofList (obs.row i)) (Arr.ofRows D (fct.mat i)) (Arr.ofRows D (w.mat i))).map fun r => r.get []

end Spec
end Verif
