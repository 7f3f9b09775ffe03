import Verif.Model.Rounding
import Verif.Model.Energy

/-!
# The energy score computed with rounding

The functions of `namespace EsApprox` in `Verif.Model.Energy` (`/repo/scoringrules/core/energy/_score.py`), with the
rounding function `r` applied after every arithmetic operation.  The source does not fix the order in which the
backend adds the entries of an array (numpy adds in blocks): the functions below take the summation as an argument
`S`, and `RSum` says which results are possible.
-/

noncomputable section

open scoped Classical

namespace Verif

open XF Py Mv

/-- `s` is a possible result of `B.sum` (`backend/numpy.py:90-99`) on the entries `xs`: the entries are added two at a
time in some order, and every addition is rounded. -/
inductive RSum (r : ℝ → XF) : List XF → XF → Prop
  | nil : RSum r [] 0
  | one (x : XF) : RSum r [x] x
  | append {xs ys : List XF} {s t : XF} : xs ≠ [] → ys ≠ [] → RSum r xs s → RSum r ys t →
      RSum r (xs ++ ys) (Rnd.rd r (s + t))
  | perm {xs ys : List XF} {s : XF} : xs.Perm ys → RSum r xs s → RSum r ys s

namespace Rnd

variable (r : ℝ → XF) (S : List XF → XF)

/-- the difference of two vectors, rounded (`core/energy/_score.py:38`, `41`). -/
def vsub (a b : List XF) : List XF := zip2 (fun x y => rd r (x - y)) a b

/-- `B.norm(x, -1)`, `backend/numpy.py:219-222`, rounded: `np.linalg.norm` along one axis is the root of the sum of the
squares. -/
def vnorm (a : List XF) : XF := rd r (XF.sqrt (S (a.map fun x => rd r (x * x))))

/-- `E_1 = B.sum(err_norm, -1) / M`, `core/energy/_score.py:38-39`, `52-53`, rounded. -/
def esErr (obs : List XF) (fct : List (List XF)) : XF :=
  rd r (S (fct.map fun x => vnorm r S (vsub r x obs)) / (fct.length : XF))

/-- `B.sum(spread_norm, (-2, -1))`, `core/energy/_score.py:41-42`, `55-56`, rounded. -/
def esSpread (fct : List (List XF)) : XF :=
  S (fct.flatMap fun a => fct.map fun b => vnorm r S (vsub r b a))

/-- `_es_ensemble_nrg`, `core/energy/_score.py:33-44`, rounded. -/
def esNrg (obs : List XF) (fct : List (List XF)) : XF :=
  rd r (esErr r S obs fct - rd r (half * rd r (esSpread r S fct / ((fct.length ^ 2 : ℕ) : XF))))

/-- `_es_ensemble_fair`, `core/energy/_score.py:47-58`, rounded. -/
def esFair (obs : List XF) (fct : List (List XF)) : XF :=
  rd r (esErr r S obs fct - rd r (half * rd r (esSpread r S fct / ((fct.length * (fct.length - 1) : ℕ) : XF))))

end Rnd
end Verif
