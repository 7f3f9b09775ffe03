import Verif.Model.Registry

/-!
# Property C40: the backend registry
-/

noncomputable section

open scoped Classical

namespace Verif

open Py Registry

namespace Spec

/-- A name is available when it is one of the four supported libraries and installed. -/
def Available (env : Env) (n : String) : Prop :=
  (n = "jax" ∨ n = "numpy" ∨ n = "torch" ∨ n = "numba") ∧ env.findSpec n = true

/-- The name set last in a history, or the default. -/
def lastSet (dflt : String) : List Op → String
  | [] => dflt
  | .setActive n :: h => lastSet n h
  | _ :: h => lastSet dflt h

end Spec

theorem available_iff (env : Env) (n : String) :
    n ∈ availableBackends env ↔ Spec.Available env n := by
  simp only [availableBackends, allBackends, List.mem_filter, List.mem_cons, List.not_mem_nil,
    or_false, Spec.Available]

/-- Every registered object stands under the name of its class, is registered under an available name
and is older than the next object. -/
def RegOk (env : Env) (s : State) : Prop :=
  ∀ n b, s.dict n = some b → Spec.Available env n ∧ b.cls = n ∧ b.ident < s.created

theorem register_ok {env : Env} {n : String} (h : Spec.Available env n) (s : State) :
    registerBackend env n s = (.ok (), { s with
      dict := fun k => if k = n then some ⟨n, s.created⟩ else s.dict k
      created := s.created + 1 }) := by
  unfold registerBackend
  rw [if_neg (by simpa [available_iff] using h)]

theorem register_err {env : Env} {n : String} (h : ¬ Spec.Available env n) (s : State) :
    registerBackend env n s = (.error .backendNotAvailable, s) := by
  unfold registerBackend
  rw [if_pos (by simpa [available_iff] using h)]

theorem getItem_some (env : Env) {n : String} {s : State} {b : Backend} (h : s.dict n = some b) :
    getItem env n s = (.ok b, s) := by
  unfold getItem; rw [h]

theorem getItem_new {env : Env} {n : String} {s : State} (ha : Spec.Available env n)
    (h : s.dict n = none) :
    getItem env n s = (.ok ⟨n, s.created⟩, (registerBackend env n s).2) := by
  unfold getItem; rw [h]
  simp [register_ok ha]

theorem getItem_err {env : Env} {n : String} {s : State} (ha : ¬ Spec.Available env n)
    (h : s.dict n = none) :
    getItem env n s = (.error .backendNotAvailable, s) := by
  unfold getItem; rw [h]
  simp [register_err ha]

theorem regOk_register {env : Env} {s : State} (h : RegOk env s) (n : String) :
    RegOk env (registerBackend env n s).2 := by
  by_cases ha : Spec.Available env n
  · rw [register_ok ha]
    intro k b hb
    simp only at hb ⊢
    split_ifs at hb with hk
    · cases hb; subst hk; exact ⟨ha, rfl, Nat.lt_succ_self _⟩
    · obtain ⟨h1, h2, h3⟩ := h k b hb
      exact ⟨h1, h2, by omega⟩
  · rw [register_err ha]; exact h

theorem getItem_state {env : Env} {s : State} (n : String) :
    (getItem env n s).2 = s ∨ (s.dict n = none ∧ (getItem env n s).2 = (registerBackend env n s).2) := by
  cases hd : s.dict n with
  | some b => left; rw [getItem_some env hd]
  | none =>
    by_cases ha : Spec.Available env n
    · right; exact ⟨rfl, by rw [getItem_new ha hd]⟩
    · left; rw [getItem_err ha hd]

theorem regOk_getItem {env : Env} {s : State} (h : RegOk env s) (n : String) :
    RegOk env (getItem env n s).2 := by
  rcases getItem_state (env := env) (s := s) n with e | ⟨-, e⟩ <;> rw [e]
  · exact h
  · exact regOk_register h n

theorem regOk_step {env : Env} {s : State} (h : RegOk env s) (o : Op) : RegOk env (step env s o) := by
  cases o with
  | register n => exact regOk_register h n
  | lookup n => exact regOk_getItem h n
  | setActive n => exact h
  | active => exact regOk_getItem h _

theorem regOk_run {env : Env} {s : State} (h : RegOk env s) (ops : List Op) :
    RegOk env (run env s ops) := by
  induction ops generalizing s with
  | nil => exact h
  | cons o ops ih => exact ih (regOk_step h o)

theorem regOk_init {env : Env} {s : State} (h : init env = .ok s) :
    RegOk env s ∧ s.active = (if env.numbaImported then "numba" else "numpy") := by
  unfold init at h
  dsimp only at h
  have h0 : RegOk env { dict := fun _ => none, active := "", created := 0 } := by
    intro n b hb; simp at hb
  have h1 := regOk_register h0 "numpy"
  by_cases ha : Spec.Available env "numpy"
  · rw [register_ok ha] at h h1
    simp only at h h1
    split_ifs at h with hn
    · have h2 := regOk_register h1 "numba"
      by_cases hb : Spec.Available env "numba"
      · rw [register_ok hb] at h h2
        simp only [Except.ok.injEq] at h h2
        subst h
        exact ⟨h2, by simp [hn]⟩
      · rw [register_err hb] at h; simp at h
    · simp only [Except.ok.injEq] at h
      subst h
      exact ⟨h1, by simp [hn]⟩
  · rw [register_err ha] at h; simp at h

/-- The registry is created exactly when numpy is installed, and numba whenever it was imported. -/
theorem C40_init (env : Env) : (∃ s, init env = .ok s) ↔
    Spec.Available env "numpy" ∧ (env.numbaImported = true → Spec.Available env "numba") := by
  unfold init
  dsimp only
  by_cases ha : Spec.Available env "numpy"
  · rw [register_ok ha]
    by_cases hn : env.numbaImported = true
    · by_cases hb : Spec.Available env "numba"
      · simp [register_ok hb, hn, ha, hb]
      · simp [register_err hb, hn, hb]
    · simp [hn, ha]
  · rw [register_err ha]
    simp [ha]

/-- C40: after any history, looking up an available name succeeds, with an instance of the class of that
name; and after any further history in which the name is not registered again, looking it up returns
the same object. -/
theorem C40_available (env : Env) {s0 : State} (h0 : init env = .ok s0) (h : List Op) {n : String}
    (ha : Spec.Available env n) :
    ∃ b : Backend, b.cls = n ∧ (getItem env n (run env s0 h)).1 = .ok b ∧
      ∀ h' : List Op, Op.register n ∉ h' →
        (getItem env n (run env s0 (h ++ Op.lookup n :: h'))).1 = .ok b := by
  set s := run env s0 h with hs
  have hok : RegOk env s := regOk_run (regOk_init h0).1 h
  obtain ⟨b, hb, hd, hc⟩ : ∃ b, (getItem env n s).1 = .ok b ∧ (getItem env n s).2.dict n = some b
      ∧ b.cls = n := by
    cases hd : s.dict n with
    | some b => exact ⟨b, by rw [getItem_some env hd], by rw [getItem_some env hd]; exact hd,
        (hok n b hd).2.1⟩
    | none => exact ⟨⟨n, s.created⟩, by rw [getItem_new ha hd],
        by rw [getItem_new ha hd, register_ok ha]; simp, rfl⟩
  refine ⟨b, hc, hb, fun h' hn => ?_⟩
  have key : ∀ (t : State), t.dict n = some b → (run env t h').dict n = some b := by
    have stepGet : ∀ (t : State) (m : String), t.dict n = some b →
        (getItem env m t).2.dict n = some b := by
      intro t m ht
      rcases getItem_state (env := env) (s := t) m with e | ⟨hm, e⟩ <;> rw [e]
      · exact ht
      · by_cases hmn : m = n
        · subst hmn; rw [hm] at ht; simp at ht
        · by_cases hav : Spec.Available env m
          · rw [register_ok hav]; simp [Ne.symm hmn, ht]
          · rw [register_err hav]; exact ht
    induction h' with
    | nil => exact fun t ht => ht
    | cons o ops ih =>
      intro t ht
      simp only [List.mem_cons, not_or] at hn
      apply ih hn.2
      cases o with
      | register m =>
        have hmn : m ≠ n := fun e => hn.1 (by rw [e])
        simp only [step]
        by_cases hav : Spec.Available env m
        · rw [register_ok hav]; simp [Ne.symm hmn, ht]
        · rw [register_err hav]; exact ht
      | lookup m => exact stepGet t m ht
      | setActive m => exact ht
      | active => exact stepGet t _ ht
  have : run env s0 (h ++ Op.lookup n :: h') = run env (getItem env n s).2 h' := by
    simp only [run, List.foldl_append, List.foldl_cons, step, hs]
  rw [this, getItem_some env (key _ hd)]

/-- C40: registering an available name again replaces the object: the next lookup returns one that no
earlier lookup has returned. -/
theorem C40_reregister (env : Env) {s0 : State} (h0 : init env = .ok s0) (h : List Op) {n : String}
    (ha : Spec.Available env n) :
    ∃ b : Backend, (getItem env n (run env s0 (h ++ [Op.register n]))).1 = .ok b ∧
      ∀ (h' : List Op) (m : String) (b' : Backend), h' <+: h →
        (getItem env m (run env s0 h')).1 = .ok b' → (run env s0 h').dict m ≠ none → b' ≠ b := by
  refine ⟨⟨n, (run env s0 h).created⟩, ?_, ?_⟩
  · have : run env s0 (h ++ [Op.register n]) = (registerBackend env n (run env s0 h)).2 := by
      simp only [run, List.foldl_append, List.foldl_cons, List.foldl_nil, step]
    rw [this, register_ok ha, getItem_some env (b := ⟨n, (run env s0 h).created⟩) (by simp)]
  · rintro h' m b' ⟨t, rfl⟩ hb hd e
    obtain ⟨c, hc⟩ := Option.ne_none_iff_exists'.1 hd
    rw [getItem_some env hc] at hb
    simp only [Except.ok.injEq] at hb
    subst hb
    have h1 := (regOk_run (regOk_init h0).1 h' m c hc).2.2
    have mono : ∀ (ops : List Op) (s : State), s.created ≤ (run env s ops).created := by
      have mr : ∀ (s : State) (k : String), s.created ≤ (registerBackend env k s).2.created := by
        intro s k
        by_cases hk : Spec.Available env k
        · rw [register_ok hk]; simp
        · rw [register_err hk]
      have mg : ∀ (s : State) (k : String), s.created ≤ (getItem env k s).2.created := by
        intro s k
        rcases getItem_state (env := env) (s := s) k with e | ⟨-, e⟩ <;> rw [e]
        exact mr s k
      intro ops
      induction ops with
      | nil => intro s; exact le_refl _
      | cons o ops ih =>
        intro s
        refine le_trans ?_ (ih (step env s o))
        cases o with
        | register k => exact mr s k
        | lookup k => exact mg s k
        | setActive k => exact le_refl _
        | active => exact mg s _
    have h2 : (run env s0 h').created ≤ (run env s0 (h' ++ t)).created := by
      simp only [run, List.foldl_append]
      exact mono t _
    rw [e] at h1
    simp only at h1
    omega

/-- C40: after any history, looking up or registering a name that is not available raises
`BackendNotAvailable` and leaves the registry as it was. -/
theorem C40_unavailable (env : Env) {s0 : State} (h0 : init env = .ok s0) (h : List Op) {n : String}
    (ha : ¬ Spec.Available env n) :
    getItem env n (run env s0 h) = (.error .backendNotAvailable, run env s0 h) ∧
      registerBackend env n (run env s0 h) = (.error .backendNotAvailable, run env s0 h) := by
  refine ⟨getItem_err ha ?_, register_err ha _⟩
  cases hd : (run env s0 h).dict n with
  | none => rfl
  | some b => exact absurd (regOk_run (regOk_init h0).1 h n b hd).1 ha

theorem active_register (env : Env) (n : String) (s : State) :
    (registerBackend env n s).2.active = s.active := by
  by_cases ha : Spec.Available env n
  · rw [register_ok ha]
  · rw [register_err ha]

theorem active_getItem (env : Env) (n : String) (s : State) :
    (getItem env n s).2.active = s.active := by
  rcases getItem_state (env := env) (s := s) n with e | ⟨-, e⟩ <;> rw [e]
  exact active_register env n s

/-- C40: after any history the active backend is what a lookup of the name set last gives; before any
name is set it is numba when that could be imported, and numpy otherwise. -/
theorem C40_active (env : Env) {s0 : State} (h0 : init env = .ok s0) (h : List Op) :
    getActive env (run env s0 h)
      = getItem env (Spec.lastSet (if env.numbaImported then "numba" else "numpy") h)
          (run env s0 h) := by
  rw [← (regOk_init h0).2]
  unfold getActive
  congr 1
  clear h0
  induction h generalizing s0 with
  | nil => rfl
  | cons o ops ih =>
    have : run env s0 (o :: ops) = run env (step env s0 o) ops := rfl
    rw [this, ih]
    cases o with
    | register k => simp only [Spec.lastSet, step, active_register]
    | lookup k => simp only [Spec.lastSet, step, active_getItem]
    | setActive k => simp only [Spec.lastSet, step, Registry.setActive]
    | active => simp only [Spec.lastSet, step, getActive, active_getItem]

/-- An environment with numpy, numba and jax but without torch. -/
def exEnv : Env := { findSpec := fun n => n != "torch", numbaImported := true }

/-- `C40_available`, `C40_reregister`, `C40_unavailable` -/
example : (∃ s, init exEnv = .ok s) ∧ Spec.Available exEnv "jax" ∧ ¬ Spec.Available exEnv "torch" ∧
    ¬ Spec.Available exEnv "tensorflow" := by
  refine ⟨(C40_init exEnv).2 ⟨?_, fun _ => ?_⟩, ?_, ?_, ?_⟩ <;> simp [Spec.Available, exEnv]

example : Spec.lastSet "numba" [.setActive "jax", .lookup "numpy", .setActive "torch", .active]
    = "torch" := rfl

example : Op.register "jax" ∉ [Op.register "numpy", .lookup "jax", .setActive "jax"] := by simp

end Verif
