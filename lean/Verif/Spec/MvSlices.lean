import Verif.Spec.Slices
import Verif.Model.Multivariate

/-!
# Specification: matrices inside arrays
-/

noncomputable section

namespace Verif

/-- The matrix of `a` with rows along axis `m` and columns along axis `v`, the remaining coordinates
being `i`. -/
def Arr.matAt (a : Arr XF) (m v : ℕ) (i : List ℕ) : List (List XF) :=
  (List.range (a.shape.getD m 0)).map fun j => (List.range (a.shape.getD v 0)).map fun k =>
    a.get (Arr.insert2 m v i j k)

namespace Spec

/-- position of axis `k` of an array once axis `j ≠ k` has been removed -/
def axisWithout (j k : ℕ) : ℕ := if j < k then k - 1 else k

/-- `mAxis` and `vAxis` denote the distinct positions `m` and `v` of an `nd`-dimensional array. -/
structure MvAxes (mAxis vAxis : ℤ) (nd m v : ℕ) : Prop where
  hm : AxisIs mAxis nd m
  hv : AxisIs vAxis nd v
  ne : m ≠ v

end Spec
end Verif
