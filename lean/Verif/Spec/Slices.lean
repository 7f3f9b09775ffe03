import Verif.Arr

/-!
# Specification: slices of arrays and Python axis numbers
-/

noncomputable section

namespace Verif

/-- The one-dimensional slice of `a` along axis `k`, the other coordinates being `i`. -/
def Arr.sliceAt {α : Type} (a : Arr α) (k : ℕ) (i : List ℕ) : List α :=
  (List.range (a.shape.getD k 0)).map fun j => a.get (i.insertIdx k j)

namespace Spec

/-- The Python axis number `m` of an array with `nd` dimensions denotes position `k`. -/
def AxisIs (m : ℤ) (nd k : ℕ) : Prop := k < nd ∧ (m = k ∨ m = (k : ℤ) - nd)

/-- Weights, if given, have shape `s`. -/
def WShape (W : Option (Arr XF)) (s : List ℕ) : Prop := ∀ w, W = some w → w.shape = s

end Spec
end Verif
