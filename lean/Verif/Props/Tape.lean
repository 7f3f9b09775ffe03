import Verif.Lemmas.Tape

/-!
# Backpropagation through scores with operations in place (C140)

Claim: a score computed on torch can be differentiated by the ensemble and by the observation, `score.sum().backward()`
does not raise.
-/

namespace Verif

open Tape

/-- Four tensors made by the user (observation, ensemble, weights), gradient wanted for the ensemble. -/
def exSt : St := ⟨fun _ => 0, 7⟩

def exTen (i : ℕ) (req : Bool) : Ten := ⟨i, req, true, []⟩

theorem exLive {i : ℕ} (h : i < 7) (req : Bool) : Live exSt (exTen i req) :=
  ⟨h, fun _ => rfl, fun p hp => by simp [exTen] at hp⟩

/-- C140 is false for the outcome-weighted and vertically re-scaled energy scores: `spread_norm *= ...` and
`err_norm *= ...` overwrite the result of `B.norm`, which the backward pass of `norm` needs.  Whatever the data and the
weight function are, differentiating by the ensemble raises. -/
theorem C140_energy_false {s : St} {obs fct ow fw ensW : Ten} (ho : Live s obs) (hf : Live s fct) (how : Live s ow)
    (hfw : Live s fw) (hew : Live s ensW) (h : fct.req = true) :
    run (owes obs fct ow fw) s = .error .modified ∧ run (vres obs fct ow fw) s = .error .modified ∧
    run (owesW obs fct ow fw ensW) s = .error .modified ∧ run (vresW obs fct ow fw ensW) s = .error .modified := by
  rw [run_owes ho hf how hfw, run_vres ho hf how hfw, run_owesW ho hf how hfw hew, run_vresW ho hf how hfw hew, h]
  simp

example : run (owes (exTen 0 false) (exTen 1 true) (exTen 2 false) (exTen 3 false)) exSt = .error .modified :=
  (C140_energy_false (exLive (by decide) _) (exLive (by decide) _) (exLive (by decide) _) (exLive (by decide) _)
    (exLive (i := 4) (by decide) false) rfl).1

/-- Differentiating the vertically re-scaled energy score by the observation raises too. -/
theorem C140_energy_obs_false {s : St} {obs fct ow fw ensW : Ten} (ho : Live s obs) (hf : Live s fct) (how : Live s ow)
    (hfw : Live s fw) (hew : Live s ensW) (h : obs.req = true) :
    run (vres obs fct ow fw) s = .error .modified ∧ run (vresW obs fct ow fw ensW) s = .error .modified := by
  rw [run_vres ho hf how hfw, run_vresW ho hf how hfw hew, h]
  simp

example : run (vres (exTen 0 true) (exTen 1 false) (exTen 2 false) (exTen 3 false)) exSt = .error .modified :=
  (C140_energy_obs_false (exLive (by decide) _) (exLive (by decide) _) (exLive (by decide) _) (exLive (by decide) _)
    (exLive (i := 4) (by decide) false) rfl).1

/-- C140 is false for the outcome-weighted and vertically re-scaled multivariate kernel scores: `spread_kern *= ...`
overwrites the result of `B.exp`. -/
theorem C140_kernel_false {s : St} {obs fct ow fw ensW : Ten} (ho : Live s obs) (hf : Live s fct) (how : Live s ow)
    (hfw : Live s fw) (hew : Live s ensW) (h : fct.req = true) :
    run (owksMv obs fct ow fw) s = .error .modified ∧ run (vrksMv obs fct ow fw) s = .error .modified ∧
    run (owksMvW obs fct ow fw ensW) s = .error .modified ∧ run (vrksMvW obs fct ow fw ensW) s = .error .modified := by
  rw [run_owksMv ho hf how hfw, run_vrksMv ho hf how hfw, run_owksMvW ho hf how hfw hew, run_vrksMvW ho hf how hfw hew, h]
  simp

example : run (vrksMv (exTen 0 false) (exTen 1 true) (exTen 2 false) (exTen 3 false)) exSt = .error .modified :=
  (C140_kernel_false (exLive (by decide) _) (exLive (by decide) _) (exLive (by decide) _) (exLive (by decide) _)
    (exLive (i := 4) (by decide) false) rfl).2.1

/-- These scores can be differentiated by what remains: the weights, and the observation except in the vertically
re-scaled energy scores. -/
theorem C140_weighted_partial {s : St} {obs fct ow fw ensW : Ten} (ho : Live s obs) (hf : Live s fct) (how : Live s ow)
    (hfw : Live s fw) (hew : Live s ensW) (h : fct.req = false) :
    run (owes obs fct ow fw) s = .ok () ∧ run (owesW obs fct ow fw ensW) s = .ok () ∧
    (obs.req = false → run (vres obs fct ow fw) s = .ok () ∧ run (vresW obs fct ow fw ensW) s = .ok ()) ∧
    run (owksMv obs fct ow fw) s = .ok () ∧ run (vrksMv obs fct ow fw) s = .ok () ∧
    run (owksMvW obs fct ow fw ensW) s = .ok () ∧ run (vrksMvW obs fct ow fw ensW) s = .ok () := by
  rw [run_owes ho hf how hfw, run_vres ho hf how hfw, run_owesW ho hf how hfw hew, run_vresW ho hf how hfw hew,
    run_owksMv ho hf how hfw, run_vrksMv ho hf how hfw, run_owksMvW ho hf how hfw hew, run_vrksMvW ho hf how hfw hew, h]
  refine ⟨by simp, by simp, fun h' => ?_, by simp, by simp, by simp, by simp⟩
  rw [h']; simp

example : run (owes (exTen 0 true) (exTen 1 false) (exTen 2 true) (exTen 3 true)) exSt = .ok () :=
  (C140_weighted_partial (exLive (by decide) _) (exLive (by decide) _) (exLive (by decide) _) (exLive (by decide) _)
    (exLive (i := 4) (by decide) false) rfl).1

/-- The energy, kernel and variogram scores, all estimators with an own sequence of operations, can be differentiated by
everything. -/
theorem C140_unweighted_partial {s : St} {obs fct ensW w : Ten} (ho : Live s obs) (hf : Live s fct)
    (hew : Live s ensW) (hw : Live s w) :
    run (esNrg obs fct) s = .ok () ∧ run (esAkr obs fct) s = .ok () ∧ run (esNrgW obs fct ensW) s = .ok () ∧
    run (esFairW obs fct ensW) s = .ok () ∧ run (ksNrg kernUv obs fct) s = .ok () ∧
    run (ksNrg kernMv obs fct) s = .ok () ∧ run (ksFair kernUv obs fct) s = .ok () ∧
    run (ksFair kernMv obs fct) s = .ok () ∧ run (vsNrg obs fct w) s = .ok () :=
  ⟨run_esNrg ho hf, run_esAkr ho hf, run_esNrgW ho hf hew, run_esFairW ho hf hew, run_ksNrgUv ho hf, run_ksNrgMv ho hf,
    run_ksFairUv ho hf, run_ksFairMv ho hf, run_vsNrg ho hf hw⟩

example : run (ksFair kernMv (exTen 0 true) (exTen 1 true)) exSt = .ok () :=
  (C140_unweighted_partial (exLive (by decide) _) (exLive (by decide) _) (exLive (i := 4) (by decide) true)
    (exLive (i := 5) (by decide) true)).2.2.2.2.2.2.2.1

/-- The outcome-weighted and vertically re-scaled CRPS, univariate kernel scores and variogram scores can be
differentiated by everything although they use operations in place: what they overwrite is a sum, which the backward
pass does not need. -/
theorem C140_sums_partial {s : St} {obs fct ow fw ensW w : Ten} (ho : Live s obs) (hf : Live s fct) (how : Live s ow)
    (hfw : Live s fw) (hew : Live s ensW) (hw : Live s w) :
    run (owcrps obs fct ow fw) s = .ok () ∧ run (vrcrps obs fct ow fw) s = .ok () ∧
    run (owcrpsW obs fct ow fw ensW) s = .ok () ∧ run (vrcrpsW obs fct ow fw ensW) s = .ok () ∧
    run (owksUv obs fct ow fw) s = .ok () ∧ run (vrksUv obs fct ow fw) s = .ok () ∧
    run (owksUvW obs fct ow fw ensW) s = .ok () ∧
    run (owvs obs fct w ow fw) s = .ok () ∧ run (vrvs obs fct w ow fw) s = .ok () ∧
    run (owvsW obs fct w ow fw ensW) s = .ok () ∧ run (vrvsW obs fct w ow fw ensW) s = .ok () :=
  ⟨run_owcrps ho hf how hfw, run_vrcrps ho hf how hfw, run_owcrpsW ho hf how hfw hew, run_vrcrpsW ho hf how hfw hew,
    run_owksUv ho hf how hfw, run_vrksUv ho hf how hfw, run_owksUvW ho hf how hfw hew, run_owvs ho hf hw how hfw,
    run_vrvs ho hf hw how hfw, run_owvsW ho hf hw how hfw hew, run_vrvsW ho hf hw how hfw hew⟩

example : run (vrvs (exTen 0 true) (exTen 1 true) (exTen 2 true) (exTen 3 true) (exTen 4 true)) exSt = .ok () :=
  (C140_sums_partial (exLive (by decide) _) (exLive (by decide) _) (exLive (by decide) _) (exLive (by decide) _)
    (exLive (i := 5) (by decide) false) (exLive (by decide) _)).2.2.2.2.2.2.2.2.1

/-- The interval scores can be differentiated by everything. -/
theorem C140_interval_partial {s : St} {obs median lower upper alpha wMedian wAlpha : Ten} (ho : Live s obs)
    (hm : Live s median) (hl : Live s lower) (hu : Live s upper) (ha : Live s alpha) (h1 : Live s wMedian)
    (h2 : Live s wAlpha) :
    run (intervalScore obs lower upper alpha) s = .ok () ∧
    run (wis obs median lower upper alpha wMedian wAlpha) s = .ok () :=
  ⟨run_intervalScore ho hl hu ha, run_wis ho hm hl hu ha h1 h2⟩

example : run (wis (exTen 0 true) (exTen 1 true) (exTen 2 true) (exTen 3 true) (exTen 4 true) (exTen 5 true)
    (exTen 6 true)) exSt = .ok () :=
  (C140_interval_partial (exLive (by decide) _) (exLive (by decide) _) (exLive (by decide) _) (exLive (by decide) _)
    (exLive (by decide) _) (exLive (by decide) _) (exLive (by decide) _)).2

/-- C140 is false for `logs_exponential2`, and for `crps_exponentialM` with a location other than the number 0: an
observation made by the user that requires a gradient is refused by `obs -= location`, before any score is computed. -/
theorem C140_location_false {s : St} {mass0 scale1 : Bool} {obs mass location scale : Ten} (h1 : obs.leaf = true)
    (h2 : obs.req = true) :
    run (logsExponential2 obs location scale) s = .error .leaf ∧
    run (crpsExponentialM false mass0 scale1 obs mass location scale) s = .error .leaf :=
  ⟨run_exponential2_leaf h1 h2, run_exponentialM_leaf h1 h2⟩

example : run (logsExponential2 (exTen 0 true) (exTen 1 false) (exTen 2 false)) exSt = .error .leaf :=
  (C140_location_false (mass0 := true) (scale1 := true) (mass := exTen 3 false) rfl rfl).1

/-- With location 0 `crps_exponentialM` can be differentiated by everything; `logs_exponential2` can be differentiated
by its parameters if the observation requires no gradient and nothing else uses its storage. -/
theorem C140_location_partial {s : St} {mass0 scale1 : Bool} {obs mass location scale : Ten} (ho : Live s obs)
    (hm : Live s mass) (hl : Live s location) (hs : Live s scale) :
    run (crpsExponentialM true mass0 scale1 obs mass location scale) s = .ok () ∧
    (obs.req = false → (∀ p ∈ location.saved, p.1 ≠ obs.id) → (∀ p ∈ scale.saved, p.1 ≠ obs.id) →
      scale.id ≠ obs.id → run (logsExponential2 obs location scale) s = .ok ()) :=
  ⟨run_exponentialM_zero ho hm hl hs, fun h n1 n2 n3 =>
    run_exponential2_free h ho.1 hl hs n1 n2 n3 (ho.2.1 h)⟩

example : run (logsExponential2 (exTen 0 false) (exTen 1 true) (exTen 2 true)) exSt = .ok () :=
  (C140_location_partial (mass0 := true) (scale1 := true) (exLive (by decide) _) (exLive (i := 3) (by decide) true)
    (exLive (by decide) _) (exLive (by decide) _)).2 rfl (by simp [exTen]) (by simp [exTen]) (by decide)

/-- What C140 rests on: a tensor that an operation has kept must not be modified before the backward pass.  Products and
quotients keep the other operand, powers, `abs` and `log` their argument, `where` its condition, and so do `*=` and its
right-hand side. -/
theorem C140_kept {s : St} {a b c : Ten} (ha : a.req = true) (hb : b.req = true) (ha' : a.leaf = false)
    (hc' : c.leaf = false) :
    run (do let p ← mul a c; let _ ← ilin c; pure p) s = .error .modified ∧
    run (do let p ← mul c a; let _ ← ilin c; pure p) s = .error .modified ∧
    run (do let p ← div a c; let _ ← ilin c; pure p) s = .error .modified ∧
    run (do let p ← div c b; let _ ← ilin c; pure p) s = .error .modified ∧
    run (do let p ← pow a; let _ ← ilin a; pure p) s = .error .modified ∧
    run (do let p ← abs a; let _ ← ilin a; pure p) s = .error .modified ∧
    run (do let p ← log a; let _ ← ilin a; pure p) s = .error .modified ∧
    run (do let p ← norm a; let _ ← ilin a; pure p) s = .error .modified ∧
    run (do let p ← where_ c a b; let _ ← ilin c; pure p) s = .error .modified ∧
    run (do let p ← imul a c; let _ ← ilin c; pure p) s = .error .modified := by
  refine ⟨?_, ?_, ?_, ?_, ?_, ?_, ?_, ?_, ?_, ?_⟩
  case refine_10 =>
    simp [run, tape_bind, imul, ilin, bump, keep, backward, ha, ha', hc', pure]
    intro _ _
    split_ifs <;> omega
  all_goals
    simp [run, tape_bind, mul, div, pow, Tape.abs, log, Tape.norm, where_, ilin, bump, fresh, keep, backward, ha, hb, ha', hc',
      pure]

/-- the result of an operation is no leaf -/
example : ∃ a : Ten, a.req = true ∧ a.leaf = false ∧ Live exSt a :=
  ⟨⟨2, true, false, []⟩, rfl, rfl, by decide, fun _ => rfl, fun p hp => by simp at hp⟩

end Verif
