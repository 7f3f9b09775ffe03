import Verif.Arr

/-!
# Specification: an array with extra axes of length one
-/

noncomputable section

open scoped Classical

namespace Verif.Spec

/-- the entries of a list at the positions outside `pos` -/
def keepAt (pos : ℕ → Prop) (l : List ℕ) : List ℕ := (l.zipIdx.filter fun q => ¬ pos q.2).map Prod.fst

/-- the position in an array with `n` axes that the axis number `a` names, counted from the end if negative -/
def NamesAxis (n : ℕ) (a : ℤ) (p : ℕ) : Prop := p < n ∧ (a = p ∨ a = (p : ℤ) - n)

/-- every axis number names a position, and no two name the same -/
def AxesOk (n : ℕ) (axes : List ℤ) : Prop :=
  (∀ a ∈ axes, ∃ p, NamesAxis n a p) ∧ axes.Pairwise fun a b => ¬ ∃ p, NamesAxis n a p ∧ NamesAxis n b p

/-- `r` is `x` with new axes of length one at the positions `pos`: without them its shape is that of `x`, and an
entry of `r` is the entry of `x` at the remaining coordinates -/
def IsExpand {α : Type} (x : Arr α) (pos : ℕ → Prop) (r : Arr α) : Prop :=
  keepAt pos r.shape = x.shape ∧ (∀ p, p < r.shape.length → pos p → r.shape[p]? = some 1) ∧
  ∀ i, Arr.Valid r.shape i → r.get i = x.get (keepAt pos i)

end Verif.Spec
