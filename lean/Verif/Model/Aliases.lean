import Verif.Model.Energy
import Verif.Model.Variogram

/-!
# Deprecated names, `/repo/scoringrules/__init__.py:106-129`
-/

noncomputable section

open scoped Classical

namespace Verif

open Py

namespace Alias

/-- What a call does: the warnings it issues and what it returns or raises.  Simplification: warnings are not turned into
exceptions by a filter. (`__init__.py:110-116`) -/
structure Call (α : Type) where
  warned : List String
  result : Except Err α

/-- `_deprecated_alias` and the `wrapper` it returns, `__init__.py:106-118`.  `newName` is `new_func.__name__`; the
arguments of the call are one value of the type `A`. -/
def deprecatedAlias {A α : Type} (newFunc : A → Except Err α) (newName oldFuncName removeVersion : String) (args : A) :
    Call α :=
  ⟨[oldFuncName ++ " is deprecated and will be removed in " ++ removeVersion ++ ". " ++ "Use " ++ newName ++ " instead."],
    newFunc args⟩

/-- The arguments of `es_ensemble`, `_energy.py:16-25`. -/
structure EsArgs where
  (path : Path) (obs fct : Arr XF) (mAxis vAxis : ℤ) (ensW : Option (Arr XF)) (est : String)

/-- The arguments of `twes_ensemble`, `_energy.py:89-99`. -/
structure TwesArgs where
  (path : Path) (obs fct : Arr XF) (vFunc : Arr XF → Arr XF) (mAxis vAxis : ℤ) (ensW : Option (Arr XF)) (est : String)

/-- The arguments of `owes_ensemble` and `vres_ensemble`, `_energy.py:152-161` and `_energy.py:218-227`. -/
structure OwesArgs where
  (path : Path) (obs fct : Arr XF) (wFunc : List XF → XF) (mAxis vAxis : ℤ) (ensW : Option (Arr XF))

/-- The arguments of `vs_ensemble`, `_variogram.py:17-28`. -/
structure VsArgs where
  (path : Path) (obs fct : Arr XF) (w : Option (List (List XF))) (mAxis vAxis : ℤ) (ensW : Option (Arr XF)) (p : ℝ)
  (est : String)

/-- The arguments of `twvs_ensemble`, `_variogram.py:111-123`. -/
structure TwvsArgs where
  (path : Path) (obs fct : Arr XF) (vFunc : Arr XF → Arr XF) (w : Option (List (List XF))) (mAxis vAxis : ℤ)
  (ensW : Option (Arr XF)) (p : ℝ) (est : String)

/-- The arguments of `owvs_ensemble` and `vrvs_ensemble`, `_variogram.py:197-208` and `_variogram.py:289-300`. -/
structure OwvsArgs where
  (path : Path) (obs fct : Arr XF) (wFunc : List XF → XF) (w : Option (List (List XF))) (mAxis vAxis : ℤ)
  (ensW : Option (Arr XF)) (p : ℝ)

/-- `energy_score`, `__init__.py:121`. -/
def energyScore : EsArgs → Call (Arr XF) :=
  deprecatedAlias (fun a => Api.esEnsemble a.path a.obs a.fct a.mAxis a.vAxis a.ensW a.est) "es_ensemble" "energy_score"
    "v1.0.0"

/-- `owenergy_score`, `__init__.py:122`. -/
def owenergyScore : OwesArgs → Call (Arr XF) :=
  deprecatedAlias (fun a => Api.owesEnsemble a.path a.obs a.fct a.wFunc a.mAxis a.vAxis a.ensW) "owes_ensemble"
    "owenergy_score" "v1.0.0"

/-- `twenergy_score`, `__init__.py:123`. -/
def twenergyScore : TwesArgs → Call (Arr XF) :=
  deprecatedAlias (fun a => Api.twesEnsemble a.path a.obs a.fct a.vFunc a.mAxis a.vAxis a.ensW a.est) "twes_ensemble"
    "twenergy_score" "v1.0.0"

/-- `vrenergy_score`, `__init__.py:124`. -/
def vrenergyScore : OwesArgs → Call (Arr XF) :=
  deprecatedAlias (fun a => Api.vresEnsemble a.path a.obs a.fct a.wFunc a.mAxis a.vAxis a.ensW) "vres_ensemble"
    "vrenergy_score" "v1.0.0"

/-- `variogram_score`, `__init__.py:126`. -/
def variogramScore : VsArgs → Call (Arr XF) :=
  deprecatedAlias (fun a => Api.vsEnsemble a.path a.obs a.fct a.w a.mAxis a.vAxis a.ensW a.p a.est) "vs_ensemble"
    "variogram_score" "v1.0.0"

/-- `owvariogram_score`, `__init__.py:127`. -/
def owvariogramScore : OwvsArgs → Call (Arr XF) :=
  deprecatedAlias (fun a => Api.owvsEnsemble a.path a.obs a.fct a.wFunc a.w a.mAxis a.vAxis a.ensW a.p) "owvs_ensemble"
    "owvariogram_score" "v1.0.0"

/-- `twvariogram_score`, `__init__.py:128`. -/
def twvariogramScore : TwvsArgs → Call (Arr XF) :=
  deprecatedAlias (fun a => Api.twvsEnsemble a.path a.obs a.fct a.vFunc a.w a.mAxis a.vAxis a.ensW a.p a.est)
    "twvs_ensemble" "twvariogram_score" "v1.0.0"

/-- `vrvariogram_score`, `__init__.py:129`. -/
def vrvariogramScore : OwvsArgs → Call (Arr XF) :=
  deprecatedAlias (fun a => Api.vrvsEnsemble a.path a.obs a.fct a.wFunc a.w a.mAxis a.vAxis a.ensW a.p) "vrvs_ensemble"
    "vrvariogram_score" "v1.0.0"

end Alias
end Verif
