import Verif.Arr

/-!
# The single number of a result
-/

noncomputable section

namespace Verif.Spec

/-- The number in a result without axes; NaN stands for an exception or a result with axes. -/
def single (r : Except Err (Arr XF)) : XF :=
  match r with
  | .ok out => if out.shape = [] then out.get [] else .nan
  | .error _ => .nan

end Verif.Spec
