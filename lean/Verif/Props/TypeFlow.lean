import Verif.Model.TypeFlow
import Mathlib.Tactic.Common

/-!
# Integer data and boolean weight functions on the array backends (C141)

Claim: integer observations and ensembles, and weight functions that return booleans or integers, are scored on every
array backend, like the equal floats.
-/

namespace Verif

open TypeFlow

/-- integers or floats -/
def Numeric (t : Ty) : Prop := t ≠ .bool

/-- The ensemble CRPS accepts integers on every backend. -/
theorem C141_crps (b : Bk) {obs fct : Ty} (ho : Numeric obs) (hf : Numeric fct) :
    crpsNrg b obs fct = .ok .float ∧ crpsPwm b obs fct = .ok .float ∧ crpsQd b obs fct = .ok .float ∧
    crpsInt b obs fct = .ok .float := by
  cases b <;> cases obs <;> cases fct <;> first | exact absurd rfl ho | exact absurd rfl hf | exact ⟨rfl, rfl, rfl, rfl⟩

example : crpsQd .torch .int .int = .ok .float := (C141_crps .torch (by simp [Numeric]) (by simp [Numeric])).2.2.1

/-- Boolean observations are accepted with numeric ensembles by numpy and jax and refused by torch; boolean ensembles are
refused by every backend in the energy form. -/
theorem C141_boolean (b : Bk) {fct : Ty} (hf : Numeric fct) (obs : Ty) :
    (crpsNrg b .bool fct = if b = .torch then .error .typeError else .ok .float) ∧
    (crpsPwm b .bool fct = if b = .torch then .error .typeError else .ok .float) ∧
    (crpsQd b .bool fct = if b = .torch then .error .typeError else .ok .float) ∧
    crpsNrg b obs .bool = .error .typeError := by
  cases b <;> cases obs <;> cases fct <;> first | exact absurd rfl hf | exact ⟨rfl, rfl, rfl, rfl⟩

example : crpsNrg .torch .bool .float = .error .typeError := (C141_boolean .torch (by simp [Numeric]) .int).1

/-- On jax integer data and every type of weight are accepted. -/
theorem C141_jax (batch named : Bool) {obs fct : Ty} (ho : Numeric obs) (hf : Numeric fct) (w : Ty) :
    owcrps .jax batch obs fct w w = .ok .float ∧ vrcrps .jax batch obs fct w w = .ok .float ∧
    owcrpsW .jax batch obs fct w w = .ok .float ∧ vrcrpsW .jax batch obs fct w w = .ok .float ∧
    es .jax obs fct = .ok .float ∧ owes .jax named obs fct w = .ok .float ∧ vres .jax named obs fct w = .ok .float ∧
    dss .jax obs fct = .ok .float ∧ ess .jax obs fct = .ok .float ∧ logsEnsemble .jax obs fct = .ok .float := by
  cases batch <;> cases named <;> cases obs <;> cases fct <;> cases w <;>
    first | exact absurd rfl ho | exact absurd rfl hf | exact ⟨rfl, rfl, rfl, rfl, rfl, rfl, rfl, rfl, rfl, rfl⟩

example : vres .jax true .int .int .bool = .ok .float :=
  (C141_jax true true (by simp [Numeric]) (by simp [Numeric]) _).2.2.2.2.2.2.1

/-- C141 is false on numpy for the outcome-weighted CRPS of integer ensembles: with a weight function that returns
booleans or integers `e_2` is an array of integers, and `e_2 *= ...` cannot store the quotient. -/
theorem C141_numpy_false {obs : Ty} (ho : Numeric obs) {w : Ty} (hw : w ≠ .float) :
    owcrps .numpy true obs .int w w = .error .castError := by
  cases obs <;> cases w <;> first | exact absurd rfl ho | exact absurd rfl hw | rfl

example : owcrps .numpy true .float .int .bool .bool = .error .castError := C141_numpy_false (by simp [Numeric]) (by simp)

/-- On numpy everything else is accepted: float ensembles, a single observation, weight functions that return floats
(the default among them), ensemble weights, and the other scores. -/
theorem C141_numpy_partial (batch named : Bool) {obs fct : Ty} (ho : Numeric obs) (hf : Numeric fct) (w : Ty) :
    (batch = false ∨ fct = .float ∨ w = .float → owcrps .numpy batch obs fct w w = .ok .float) ∧
    vrcrps .numpy batch obs fct w w = .ok .float ∧
    owcrpsW .numpy batch obs fct w w = .ok .float ∧ vrcrpsW .numpy batch obs fct w w = .ok .float ∧
    es .numpy obs fct = .ok .float ∧ owes .numpy named obs fct w = .ok .float ∧
    vres .numpy named obs fct w = .ok .float ∧
    dss .numpy obs fct = .ok .float ∧ ess .numpy obs fct = .ok .float ∧ logsEnsemble .numpy obs fct = .ok .float := by
  cases batch <;> cases named <;> cases obs <;> cases fct <;> cases w <;>
    first
    | exact absurd rfl ho
    | exact absurd rfl hf
    | exact ⟨fun _ => rfl, rfl, rfl, rfl, rfl, rfl, rfl, rfl, rfl, rfl⟩
    | exact ⟨fun h => by simp at h, rfl, rfl, rfl, rfl, rfl, rfl, rfl, rfl, rfl⟩

example : owcrps .numpy true .int .float .bool .bool = .ok .float :=
  (C141_numpy_partial true true (by simp [Numeric]) (by simp [Numeric]) _).1 (Or.inr (Or.inl rfl))

/-- C141 is false on torch for weight functions that return booleans or integers: `mean` of the weights raises in the
outcome-weighted and vertically re-scaled CRPS of every ensemble, and in the energy scores if torch is the active
backend and no backend is named. -/
theorem C141_torch_weights_false (batch : Bool) {obs fct : Ty} (ho : Numeric obs) (hf : Numeric fct) {w : Ty}
    (hw : w ≠ .float) :
    owcrps .torch batch obs fct w w = .error .typeError ∧ vrcrps .torch batch obs fct w w = .error .typeError ∧
    owes .torch false obs fct w = .error .typeError ∧ vres .torch false obs fct w = .error .typeError := by
  cases batch <;> cases obs <;> cases fct <;> cases w <;>
    first | exact absurd rfl ho | exact absurd rfl hf | exact absurd rfl hw | exact ⟨rfl, rfl, rfl, rfl⟩

example : owcrps .torch true .float .float .bool .bool = .error .typeError :=
  (C141_torch_weights_false true (by simp [Numeric]) (by simp [Numeric]) (by simp)).1

/-- C141 is false on torch for integer ensembles: `norm`, `mean`, `std` and `quantile` accept floats only. -/
theorem C141_torch_ensemble_false (named : Bool) {obs : Ty} (ho : Numeric obs) (w : Ty) :
    es .torch obs .int = .error .typeError ∧
    owes .torch named obs .int w = .error .typeError ∧ vres .torch named obs .int w = .error .typeError ∧
    dss .torch obs .int = .error .typeError ∧ ess .torch obs .int = .error .typeError ∧
    logsEnsemble .torch obs .int = .error .typeError := by
  cases named <;> cases obs <;> cases w <;>
    first | exact absurd rfl ho | exact ⟨rfl, rfl, rfl, rfl, rfl, rfl⟩

example : dss .torch .float .int = .error .typeError :=
  (C141_torch_ensemble_false true (by simp [Numeric]) .float).2.2.2.1

/-- The vertically re-scaled CRPS with ensemble weights refuses booleans on torch, and only them. -/
theorem C141_torch_weighted_false (batch : Bool) {obs fct : Ty} (ho : Numeric obs) (hf : Numeric fct) (w : Ty) :
    vrcrpsW .torch batch obs fct w w = if w = .bool then .error .typeError else .ok .float := by
  cases batch <;> cases obs <;> cases fct <;> cases w <;>
    first | exact absurd rfl ho | exact absurd rfl hf | rfl

example : vrcrpsW .torch true .float .float .bool .bool = .error .typeError :=
  C141_torch_weighted_false true (by simp [Numeric]) (by simp [Numeric]) .bool

/-- On torch float ensembles are accepted with weight functions that return floats, in the energy scores with every
weight function if `backend="torch"` is named, and an integer observation is accepted by all but the vertically
re-scaled energy score. -/
theorem C141_torch_partial (batch named : Bool) {obs : Ty} (ho : Numeric obs) (w : Ty) :
    (w = .float → owcrps .torch batch obs .float w w = .ok .float ∧ vrcrps .torch batch obs .float w w = .ok .float) ∧
    owcrpsW .torch batch obs .float w w = .ok .float ∧ es .torch obs .float = .ok .float ∧
    (w = .float ∨ named = true → owes .torch named obs .float w = .ok .float ∧
      vres .torch named obs .float w = if obs = .int then .error .typeError else .ok .float) ∧
    dss .torch obs .float = .ok .float ∧ ess .torch obs .float = .ok .float ∧
    logsEnsemble .torch obs .float = .ok .float := by
  cases batch <;> cases named <;> cases obs <;> cases w <;>
    first
    | exact absurd rfl ho
    | exact ⟨fun _ => ⟨rfl, rfl⟩, rfl, rfl, fun _ => ⟨rfl, rfl⟩, rfl, rfl, rfl⟩
    | exact ⟨fun h => by simp at h, rfl, rfl, fun _ => ⟨rfl, rfl⟩, rfl, rfl, rfl⟩
    | exact ⟨fun h => by simp at h, rfl, rfl, fun h => by simp at h, rfl, rfl, rfl⟩

example : owes .torch true .float .float .bool = .ok .float :=
  ((C141_torch_partial true true (by simp [Numeric]) .bool).2.2.2.1 (Or.inr rfl)).1

end Verif
