import Verif.Model.Aliases
import Verif.Lemmas.EnergyApi

/-!
# C144: the deprecated names
-/

noncomputable section

open scoped Classical

namespace Verif

open XF Py Api Spec Mv Alias

namespace Spec

/-- A call does what another name for the same function should: it returns or raises `r`, and it issues one warning,
which says that the old name is deprecated, when it goes away, and what to use. -/
def Renamed {α : Type} (old new : String) (r : Except Err α) (c : Call α) : Prop :=
  c.result = r ∧
    c.warned = [s!"{old} is deprecated and will be removed in v1.0.0. Use {new} instead."]

end Spec

/-- C144: `energy_score` and its three weighted versions behave, for all arguments and also when these are refused, like
`es_ensemble`, `owes_ensemble`, `twes_ensemble` and `vres_ensemble`. -/
theorem C144_energy (path : Path) (obs fct : Arr XF) (wFunc : List XF → XF) (vFunc : Arr XF → Arr XF) (m v : ℤ)
    (W : Option (Arr XF)) (est : String) :
    Spec.Renamed "energy_score" "es_ensemble" (esEnsemble path obs fct m v W est)
        (energyScore ⟨path, obs, fct, m, v, W, est⟩) ∧
      Spec.Renamed "owenergy_score" "owes_ensemble" (owesEnsemble path obs fct wFunc m v W)
        (owenergyScore ⟨path, obs, fct, wFunc, m, v, W⟩) ∧
      Spec.Renamed "twenergy_score" "twes_ensemble" (twesEnsemble path obs fct vFunc m v W est)
        (twenergyScore ⟨path, obs, fct, vFunc, m, v, W, est⟩) ∧
      Spec.Renamed "vrenergy_score" "vres_ensemble" (vresEnsemble path obs fct wFunc m v W)
        (vrenergyScore ⟨path, obs, fct, wFunc, m, v, W⟩) :=
  ⟨⟨rfl, congrArg (fun s => [s]) (by decide +kernel)⟩, ⟨rfl, congrArg (fun s => [s]) (by decide +kernel)⟩, ⟨rfl, congrArg (fun s => [s]) (by decide +kernel)⟩, ⟨rfl, congrArg (fun s => [s]) (by decide +kernel)⟩⟩

/-- A call of a deprecated name that is not refused: the score of one bivariate member. -/
example : ∃ v, item (energyScore ⟨.numba, Arr.ofList (vec (0 : Eu 2)), Arr.ofRows 2 [vec (0 : Eu 2)], -2, -1, none,
    "nrg"⟩).result = .ok (fin v) :=
  ⟨_, es1_nrg .numba (0 : Eu 2) (xs := [0]) (by simp)⟩

/-- A call that is refused: the estimator has no entry. -/
example : ∃ e, esKernel .numba "int" = .error e := ⟨_, rfl⟩

/-- C144: `variogram_score` and its three weighted versions behave, for all arguments and also when these are refused,
like `vs_ensemble`, `owvs_ensemble`, `twvs_ensemble` and `vrvs_ensemble`. -/
theorem C144_variogram (path : Path) (obs fct : Arr XF) (wFunc : List XF → XF) (vFunc : Arr XF → Arr XF)
    (w : Option (List (List XF))) (m v : ℤ) (W : Option (Arr XF)) (p : ℝ) (est : String) :
    Spec.Renamed "variogram_score" "vs_ensemble" (vsEnsemble path obs fct w m v W p est)
        (variogramScore ⟨path, obs, fct, w, m, v, W, p, est⟩) ∧
      Spec.Renamed "owvariogram_score" "owvs_ensemble" (owvsEnsemble path obs fct wFunc w m v W p)
        (owvariogramScore ⟨path, obs, fct, wFunc, w, m, v, W, p⟩) ∧
      Spec.Renamed "twvariogram_score" "twvs_ensemble" (twvsEnsemble path obs fct vFunc w m v W p est)
        (twvariogramScore ⟨path, obs, fct, vFunc, w, m, v, W, p, est⟩) ∧
      Spec.Renamed "vrvariogram_score" "vrvs_ensemble" (vrvsEnsemble path obs fct wFunc w m v W p)
        (vrvariogramScore ⟨path, obs, fct, wFunc, w, m, v, W, p⟩) :=
  ⟨⟨rfl, congrArg (fun s => [s]) (by decide +kernel)⟩, ⟨rfl, congrArg (fun s => [s]) (by decide +kernel)⟩, ⟨rfl, congrArg (fun s => [s]) (by decide +kernel)⟩, ⟨rfl, congrArg (fun s => [s]) (by decide +kernel)⟩⟩

/-- A call of a deprecated name that is refused: the observation has too many axes. -/
example : ∃ e, (variogramScore ⟨.numba, ⟨[1, 2, 2], fun _ => 0⟩, ⟨[2, 2], fun _ => 0⟩, none, -2, -1, none, 1,
    "nrg"⟩).result = .error e := ⟨_, rfl⟩

end Verif
