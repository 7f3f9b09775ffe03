import Verif.Model.Dispatch
import Verif.Props.Registry
import Verif.Props.CrpsArr
import Verif.Props.Weighted2
import Verif.Props.Ess
import Verif.Props.Quantile

/-!
# Property C114: what happens if the argument `backend` is left out
-/

noncomputable section

open scoped Classical

namespace Verif

open XF Py Api Registry

namespace Spec

/-- The name that stands for a `backend` left out: the last one set active, else numba if it was imported and numpy if
not (documented in every function: "Defaults to numba if available, else numpy"). -/
def defaultName (env : Env) (h : List Op) : String := lastSet (if env.numbaImported then "numba" else "numpy") h

end Spec

theorem resolve_name {env : Env} {s0 : State} (h0 : init env = .ok s0) (h : List Op) {n : String}
    (ha : Spec.Available env n) : ∃ b : Backend, b.cls = n ∧ Dispatch.resolve env (Registry.run env s0 h) (some n) = .ok b := by
  obtain ⟨b, h1, h2, -⟩ := C40_available env h0 h ha
  exact ⟨b, h1, h2⟩

theorem resolve_none {env : Env} {s0 : State} (h0 : init env = .ok s0) (h : List Op) :
    Dispatch.resolve env (Registry.run env s0 h) none
      = Dispatch.resolve env (Registry.run env s0 h) (some (Spec.defaultName env h)) := by
  show (getActive _ _).1 = _
  rw [C40_active env h0 h]
  rfl

theorem byArgument_name {α : Type} {env : Env} {s0 : State} (h0 : init env = .ok s0) (h : List Op) {n : String}
    (ha : Spec.Available env n) (f : Path → Except Err α) :
    Dispatch.byArgument env (Registry.run env s0 h) (some n) f = f (if n = "numba" then .numba else .array) := by
  obtain ⟨b, -, e⟩ := resolve_name h0 h ha
  unfold Dispatch.byArgument
  rw [e]
  simp [bind, Except.bind]

theorem byArgument_none {α : Type} {env : Env} {s0 : State} (h0 : init env = .ok s0) (h : List Op)
    (ha : Spec.Available env (Spec.defaultName env h)) (f : Path → Except Err α) :
    Dispatch.byArgument env (Registry.run env s0 h) none f = f .array := by
  obtain ⟨b, -, e⟩ := resolve_name h0 h ha
  unfold Dispatch.byArgument
  rw [resolve_none h0, e]
  simp [bind, Except.bind]

/-- C114: after any history of the registry, the ensemble scores run the array code if `backend` is left out, also if
the active backend is numba. -/
theorem C114_default_is_array {env : Env} {s0 : State} (h0 : init env = .ok s0) (h : List Op)
    (ha : Spec.Available env (Spec.defaultName env h)) (obs fct : Arr XF) (wF : XF → XF) (m v : ℤ)
    (W : Option (Arr XF)) (est np : String) (sorted bias : Bool) :
    Dispatch.crpsEnsemble env (Registry.run env s0 h) none obs fct m W est sorted np
      = Api.crpsEnsemble .array obs fct m W est sorted np ∧
    Dispatch.vrcrpsEnsemble env (Registry.run env s0 h) none obs fct wF m W np = Api.vrcrpsEnsemble .array obs fct wF m W np ∧
    Dispatch.esEnsemble env (Registry.run env s0 h) none obs fct m v W est = Api.esEnsemble .array obs fct m v W est ∧
    Dispatch.gksuvEnsemble env (Registry.run env s0 h) none obs fct m W est = Api.gksuvEnsemble .array obs fct m W est ∧
    Dispatch.dssuvEnsemble env (Registry.run env s0 h) none obs fct m bias = Api.dssuvEnsemble .array obs fct m bias ∧
    Dispatch.errorSpreadScore env (Registry.run env s0 h) none obs fct m = Api.errorSpreadScore .array obs fct m :=
  ⟨byArgument_none h0 h ha _, byArgument_none h0 h ha _, byArgument_none h0 h ha _, byArgument_none h0 h ha _,
    byArgument_none h0 h ha _, byArgument_none h0 h ha _⟩

/-- All four libraries are installed and numba was imported. -/
def fullEnv : Env := ⟨fun _ => true, true⟩

theorem fullEnv_init : ∃ s, init fullEnv = .ok s :=
  (C40_init fullEnv).2 ⟨⟨by simp, rfl⟩, fun _ => ⟨by simp, rfl⟩⟩

theorem fullEnv_available : Spec.Available fullEnv (Spec.defaultName fullEnv []) := ⟨by
  simp [Spec.defaultName, Spec.lastSet, fullEnv], rfl⟩

/-- with all libraries installed and a history in which jax was set active and numba again -/
example : (∃ s, init fullEnv = .ok s) ∧
    Spec.Available fullEnv (Spec.defaultName fullEnv [.setActive "jax", .lookup "jax", .setActive "numba"]) :=
  ⟨fullEnv_init, by simp [Spec.defaultName, Spec.lastSet], rfl⟩

/-- C114: naming an available backend runs the compiled functions exactly for the name numba; this holds for the
ensemble scores and for the quantile and interval scores alike. -/
theorem C114_named {env : Env} {s0 : State} (h0 : init env = .ok s0) (h : List Op) {n : String}
    (ha : Spec.Available env n) (obs fct lo hi : Arr XF) (wF : XF → XF) (m v : ℤ) (W : Option (Arr XF))
    (est np : String) (sorted bias : Bool) (alpha : List XF) (wm : Option XF) (wa : Option (List XF)) :
    let path : Path := if n = "numba" then .numba else .array
    Dispatch.crpsEnsemble env (Registry.run env s0 h) (some n) obs fct m W est sorted np
      = Api.crpsEnsemble path obs fct m W est sorted np ∧
    Dispatch.vrcrpsEnsemble env (Registry.run env s0 h) (some n) obs fct wF m W np = Api.vrcrpsEnsemble path obs fct wF m W np ∧
    Dispatch.esEnsemble env (Registry.run env s0 h) (some n) obs fct m v W est = Api.esEnsemble path obs fct m v W est ∧
    Dispatch.gksuvEnsemble env (Registry.run env s0 h) (some n) obs fct m W est = Api.gksuvEnsemble path obs fct m W est ∧
    Dispatch.dssuvEnsemble env (Registry.run env s0 h) (some n) obs fct m bias = Api.dssuvEnsemble path obs fct m bias ∧
    Dispatch.errorSpreadScore env (Registry.run env s0 h) (some n) obs fct m = Api.errorSpreadScore path obs fct m ∧
    Dispatch.crpsQuantile env (Registry.run env s0 h) (some n) obs fct alpha m = Api.crpsQuantile path obs fct alpha m ∧
    Dispatch.wis env (Registry.run env s0 h) (some n) obs fct lo hi alpha wm wa
      = .ok (Interval.wis (decide (n = "numba")) obs fct lo hi alpha wm wa) := by
  intro path
  refine ⟨byArgument_name h0 h ha _, byArgument_name h0 h ha _, byArgument_name h0 h ha _, byArgument_name h0 h ha _,
    byArgument_name h0 h ha _, byArgument_name h0 h ha _, ?_, ?_⟩
  · obtain ⟨b, hb, e⟩ := resolve_name h0 h ha
    unfold Dispatch.crpsQuantile Dispatch.byName
    rw [e]
    simp only [bind, Except.bind, hb, path]
  · obtain ⟨b, hb, e⟩ := resolve_name h0 h ha
    unfold Dispatch.wis Dispatch.byName
    rw [e]
    simp only [bind, Except.bind, hb]
    by_cases hn : n = "numba" <;> simp [hn]

/-- with all libraries installed, both kinds of name -/
example : (∃ s, init fullEnv = .ok s) ∧ Spec.Available fullEnv "numba" ∧ Spec.Available fullEnv "torch" :=
  ⟨fullEnv_init, ⟨by simp, rfl⟩, by simp, rfl⟩

/-- C114: for the quantile and interval scores leaving `backend` out is the same as naming the default, always. -/
theorem C114_by_name {env : Env} {s0 : State} (h0 : init env = .ok s0) (h : List Op) (obs fct lo hi : Arr XF) (m : ℤ)
    (alpha : List XF) (wm : Option XF) (wa : Option (List XF)) :
    Dispatch.crpsQuantile env (Registry.run env s0 h) none obs fct alpha m
      = Dispatch.crpsQuantile env (Registry.run env s0 h) (some (Spec.defaultName env h)) obs fct alpha m ∧
    Dispatch.wis env (Registry.run env s0 h) none obs fct lo hi alpha wm wa
      = Dispatch.wis env (Registry.run env s0 h) (some (Spec.defaultName env h)) obs fct lo hi alpha wm wa := by
  constructor
  · unfold Dispatch.crpsQuantile Dispatch.byName; rw [resolve_none h0]
  · unfold Dispatch.wis Dispatch.byName; rw [resolve_none h0]

/-- with all libraries installed -/
example : ∃ s, init fullEnv = .ok s := fullEnv_init

/-- C114: a default that is not installed (possible after `set_active`) is refused with `BackendNotAvailable`, as if it
had been named. -/
theorem C114_unavailable {env : Env} {s0 : State} (h0 : init env = .ok s0) (h : List Op) {backend : Option String}
    (ha : ¬ Spec.Available env (backend.getD (Spec.defaultName env h))) (obs fct : Arr XF) (m : ℤ)
    (W : Option (Arr XF)) (est np : String) (sorted : Bool) (alpha : List XF) :
    Dispatch.crpsEnsemble env (Registry.run env s0 h) backend obs fct m W est sorted np = .error .backendNotAvailable ∧
    Dispatch.crpsQuantile env (Registry.run env s0 h) backend obs fct alpha m = .error .backendNotAvailable := by
  have e : Dispatch.resolve env (Registry.run env s0 h) backend = .error .backendNotAvailable := by
    have key : ∀ n, ¬ Spec.Available env n →
        Dispatch.resolve env (Registry.run env s0 h) (some n) = .error .backendNotAvailable := fun n hn => by
      show (getItem _ _ _).1 = _
      rw [(C40_unavailable env h0 h hn).1]
    cases backend with
    | none => rw [resolve_none h0]; exact key _ ha
    | some n => exact key _ ha
  constructor
  · unfold Dispatch.crpsEnsemble Dispatch.byArgument; rw [e]; rfl
  · unfold Dispatch.crpsQuantile Dispatch.byName; rw [e]; rfl

/-- only numpy is installed and `set_active("jax")` was called -/
example : (∃ s, init ⟨fun n => n == "numpy", false⟩ = .ok s) ∧
    ¬ Spec.Available ⟨fun n => n == "numpy", false⟩
      ((none : Option String).getD (Spec.defaultName ⟨fun n => n == "numpy", false⟩ [.setActive "jax"])) :=
  ⟨(C40_init _).2 ⟨⟨by simp, rfl⟩, by simp⟩, by simp [Spec.Available, Spec.defaultName, Spec.lastSet]⟩

/-- C114 is false of the ensemble scores.  With numba imported, so that it is the documented default: the weighted
`akr_circperm` score of 0 and 2 at 0 is 1 by default and 0 for `backend="numba"`; and `vrcrps_ensemble` raises by
default for arrays of rank three (unless the axes happen to match), while `backend="numba"` returns the scores. -/
theorem C114_false {s0 : State} (h0 : init fullEnv = .ok s0) :
    Spec.defaultName fullEnv [] = "numba" ∧
    (∃ a b : Arr XF,
      Dispatch.crpsEnsemble fullEnv s0 none (Arr.scalar (fin 0)) (Arr.ofList [fin 0, fin 2]) (-1)
        (some (Arr.ofList [fin 1, fin 1])) "akr_circperm" false "propagate" = .ok a ∧
      Dispatch.crpsEnsemble fullEnv s0 (some "numba") (Arr.scalar (fin 0)) (Arr.ofList [fin 0, fin 2]) (-1)
        (some (Arr.ofList [fin 1, fin 1])) "akr_circperm" false "propagate" = .ok b ∧
      a.get [] = fin 1 ∧ b.get [] = fin 0) ∧
    ∀ (obs fct : Arr ℝ) (n q r : ℕ) (wF : XF → XF) (w : ℝ → ℝ), obs.shape = [n, q] → fct.shape = [n, q, r] → q ≠ r →
      2 ≤ r → WeightFn wF w →
      Dispatch.vrcrpsEnsemble fullEnv s0 none (obs.map fin) (fct.map fin) wF (-1) none "propagate"
        = .error .valueError ∧
      ∃ out, Dispatch.vrcrpsEnsemble fullEnv s0 (some "numba") (obs.map fin) (fct.map fin) wF (-1) none "propagate"
        = .ok out ∧ ∀ i, Arr.Valid obs.shape i → out.get i
          = fin (Spec.vrCrps w ((fct.sliceAt 2 i).map fun x => (x, 1)) (obs.get i)) := by
  have e1 := fun {α : Type} (f : Path → Except Err α) => byArgument_none h0 [] fullEnv_available f
  have hn : Spec.Available fullEnv "numba" := ⟨by simp, rfl⟩
  have e2 := fun {α : Type} (f : Path → Except Err α) => byArgument_name h0 [] hn f
  simp only [if_true, Registry.run, List.foldl_nil] at e1 e2
  refine ⟨by simp [Spec.defaultName, Spec.lastSet, fullEnv], ?_, fun obs fct n q r wF w ho hf hqr hr hw => ⟨?_, ?_⟩⟩
  · obtain ⟨k1, k2⟩ := C05_akr_circperm_disagrees
    unfold crps1 at k1 k2
    unfold Dispatch.crpsEnsemble
    rw [e1, e2]
    simp only [Option.map_some] at k1 k2
    revert k1 k2
    generalize Api.crpsEnsemble .array _ _ _ _ _ _ _ = A
    generalize Api.crpsEnsemble .numba _ _ _ _ _ _ _ = B
    intro k1 k2
    cases A with
    | error e => simp [Except.map] at k2
    | ok a => cases B with
      | error e => simp [Except.map] at k1
      | ok b =>
        simp only [Except.map, Except.ok.injEq] at k1 k2
        exact ⟨a, b, rfl, rfl, k2, k1⟩
  · unfold Dispatch.vrcrpsEnsemble
    rw [e1]
    exact C24_false_rank3 ho hf hqr (by omega) hw
  · unfold Dispatch.vrcrpsEnsemble
    rw [e2]
    have hax : Spec.AxisIs (-1) fct.ndim 2 := by constructor <;> simp [Arr.ndim, hf]
    obtain ⟨out, o1, o2, o3⟩ := C24_vr_value_partial (obs := obs) (fct := fct) hax (by simp [ho, hf])
      (by simp [hf]; omega) hw .numba (by simp)
    exact ⟨out, o1, o3⟩

/-- with all libraries installed -/
example : ∃ s, init fullEnv = .ok s := fullEnv_init

/-- C114 for the CRPS.  Partial: without ensemble weights, for finite data of any shape, leaving `backend` out gives the
same scores as `backend="numba"`. -/
theorem C114_crps_partial {env : Env} {s0 : State} (h0 : init env = .ok s0) (h : List Op)
    (ha : Spec.Available env (Spec.defaultName env h)) (hn : Spec.Available env "numba") {obs fct : Arr ℝ} {m : ℤ}
    {k : ℕ} (hk : Spec.AxisIs m fct.ndim k) (hs : obs.shape = fct.shape.eraseIdx k) (hM : 2 ≤ fct.shape.getD k 0)
    (hne : ∃ i, Arr.Valid obs.shape i) (est : String) (he : est ∈ Spec.estimators) :
    ∃ a b : Arr XF,
      Dispatch.crpsEnsemble env (Registry.run env s0 h) none (obs.map fin) (fct.map fin) m none est false "propagate" = .ok a ∧
      Dispatch.crpsEnsemble env (Registry.run env s0 h) (some "numba") (obs.map fin) (fct.map fin) m none est false "propagate"
        = .ok b ∧
      a.shape = obs.shape ∧ b.shape = obs.shape ∧ ∀ i, Arr.Valid obs.shape i → a.get i = b.get i := by
  have e1 := byArgument_none h0 h ha fun path =>
    Api.crpsEnsemble path (obs.map fin) (fct.map fin) m none est false "propagate"
  have e2 := byArgument_name h0 h hn fun path =>
    Api.crpsEnsemble path (obs.map fin) (fct.map fin) m none est false "propagate"
  unfold Dispatch.crpsEnsemble
  rw [e1, e2, if_pos rfl]
  have hv : ∀ i, ∃ v : ℝ, ∀ path, crps1 path est false "propagate" ((obs.map fin).get i) ((fct.map fin).sliceAt k i) none
      = .ok (fin v) := fun i => by
    have hl : 2 ≤ (fct.sliceAt k i).length := by rw [sliceAt_length]; exact hM
    obtain ⟨v, hv⟩ := C04_result_is_finite .array est he false (obs.get i) (fct.sliceAt k i) hl (by simp)
    refine ⟨v, fun path => ?_⟩
    rw [sliceAt_map]
    cases path
    · rw [← hv]
      exact C04_backends_agree est he false (obs.get i) _ (by rintro e; rw [e] at hl; simp at hl) (by simp)
    · exact hv
  choose v hv using hv
  obtain ⟨a, a1, a2, a3⟩ := C14_total (obs := obs.map fin) (fct := fct.map fin) (W := none) hk hs (by simp [Spec.WShape])
    .array est false "propagate" hne (fun i => fin (v i)) fun i _ => hv i _
  obtain ⟨b, b1, b2, b3⟩ := C14_total (obs := obs.map fin) (fct := fct.map fin) (W := none) hk hs (by simp [Spec.WShape])
    .numba est false "propagate" hne (fun i => fin (v i)) fun i _ => hv i _
  exact ⟨a, b, a1, b1, a2, b2, fun i hi => (a3 i hi).trans (b3 i hi).symm⟩

/-- three forecasts with four members each, all libraries installed -/
example : (∃ s, init fullEnv = .ok s) ∧ Spec.Available fullEnv (Spec.defaultName fullEnv []) ∧
    Spec.Available fullEnv "numba" ∧ Spec.AxisIs (-1) 2 1 ∧ [3] = [3, 4].eraseIdx 1 ∧ 2 ≤ [3, 4].getD 1 0 ∧
    (∃ i, Arr.Valid [3] i) ∧ "pwm" ∈ Spec.estimators :=
  ⟨fullEnv_init, fullEnv_available, ⟨by simp, rfl⟩, by constructor <;> simp, rfl, by simp,
    ⟨[0], by simp [Arr.Valid]⟩, by simp [Spec.estimators]⟩

end Verif
