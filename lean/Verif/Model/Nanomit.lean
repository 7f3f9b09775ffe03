import Verif.Model.Crps

/-!
# The NaN-omitting estimators and the multivariate NaN policy

None of these is called by a public function; they are exported by `core/crps/__init__.py:33` and `core/utils.py`.
-/

noncomputable section

open scoped Classical

namespace Verif

open XF Py

/-- Loop variables of `_crps_ensemble_akr_nanomit_gufunc`, `core/crps/_gufuncs.py:291-296`. -/
structure NanomitState where
  e1 : XF
  e2 : XF
  mEff : ℕ
  first : XF
  prev : XF

namespace Gufunc

/-- Body of the loop of `_crps_ensemble_akr_nanomit_gufunc`, `core/crps/_gufuncs.py:298-307`. -/
def akrNanomitStep (obs : XF) (s : NanomitState) (x : XF) : NanomitState :=
  if x.isnan then s else
  { e1 := s.e1 + XF.abs (x - obs)
    e2 := if s.mEff + 1 = 1 then s.e2 else s.e2 + XF.abs (x - s.prev)
    mEff := s.mEff + 1
    first := if s.mEff + 1 = 1 then x else s.first
    prev := x }

/-- `_crps_ensemble_akr_nanomit_gufunc`, `core/crps/_gufuncs.py:285-316`. -/
def akrNanomit (obs : XF) (fct : List XF) : XF :=
  let s := fct.foldl (akrNanomitStep obs) ⟨0, 0, 0, 0, 0⟩
  let e2 := if 2 ≤ s.mEff then s.e2 + XF.abs (s.first - s.prev) else s.e2
  if s.mEff = 0 then nan else s.e1 / (s.mEff : XF) - half / (s.mEff : XF) * e2

/-- The search for the member of rank `k` among the valid members, `core/crps/_gufuncs.py:344-351`; the
counter runs down from `k` instead of up to it.  `none`: the loop ends without `break`. -/
def nthValid : List XF → ℕ → Option XF
  | [], _ => none
  | x :: t, k => if x.isnan then nthValid t k else if k = 0 then some x else nthValid t (k - 1)

/-- Body of the second pass of `_crps_ensemble_akr_circperm_nanomit_gufunc`, `core/crps/_gufuncs.py:337-352`;
the state is `(e_1, e_2, i_eff)`. -/
def akrCircpermNanomitStep (obs : XF) (fct : List XF) (mEff : ℕ) (s : XF × XF × ℕ) (x : XF) : XF × XF × ℕ :=
  if x.isnan then s else
  (s.1 + XF.abs (x - obs),
   match nthValid fct (sigma mEff s.2.2) with
   | some z => s.2.1 + XF.abs (x - z)
   | none => s.2.1,
   s.2.2 + 1)

/-- `_crps_ensemble_akr_circperm_nanomit_gufunc`, `core/crps/_gufuncs.py:319-355`. -/
def akrCircpermNanomit (obs : XF) (fct : List XF) : XF :=
  let mEff := fct.foldl (fun m x => if ¬ x.isnan then m + 1 else m) 0
  if mEff = 0 then nan else
  let s := fct.foldl (akrCircpermNanomitStep obs fct mEff) (0, 0, 0)
  s.1 / (mEff : XF) - half / (mEff : XF) * s.2.1

end Gufunc

namespace Api

/-- `nan_policy_check`, `core/utils.py:206-210`. -/
def nanPolicyCheck (policy : String) : Except Err Unit :=
  if policy ∈ ["propagate", "omit", "raise"] then .ok () else .error .valueError

/-- `apply_nan_policy_ens_mv`, `core/utils.py:281-307`, for one observation vector and the list of its
members (the code does the same for every leading index).  The mask is `None` unless the policy is `omit`. -/
def applyNanPolicyMv (obs : List XF) (fct : List (List XF)) (policy : String) :
    Except Err (List XF × List (List XF) × Option (List Bool)) :=
  if policy = "raise" then
    if (∃ x ∈ fct, ∃ v ∈ x, XF.isnan v) ∨ ∃ v ∈ obs, XF.isnan v then .error .valueError
    else .ok (obs, fct, none)
  else if policy = "omit" then
    let mask := fct.map fun x => x.any fun v => decide (XF.isnan v)
    .ok (obs, List.zipWith (fun b x => if b then x.map fun _ => (0 : XF) else x) mask fct, some mask)
  else .ok (obs, fct, none)

end Api

end Verif
