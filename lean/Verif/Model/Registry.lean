import Verif.Model.Py

/-!
# Model of the backend registry, `/repo/scoringrules/backend/registry.py`
-/

noncomputable section

open scoped Classical

namespace Verif

open Py

namespace Registry

/-- What the registry reads from the outside: which libraries `find_spec` finds (`registry.py:42`)
and whether `import numba` succeeded (`registry.py:19-24`).  Both are taken not to change during a
session. -/
structure Env where
  findSpec : String → Bool
  numbaImported : Bool

/-- The keys of `_ALL_BACKENDS_MAP`, `registry.py:12-17`, in order. -/
def allBackends : List String := ["jax", "numpy", "torch", "numba"]

/-- An instance of a backend class: the name under which its class stands in `_ALL_BACKENDS_MAP`, and
its identity (a fresh number for each instantiation). (`backend/registry.py:12-17`, `46-54`) -/
structure Backend where
  cls : String
  ident : ℕ

/-- The state of a `BackendsRegistry`: the dictionary, the attribute `_active`, and the number of
objects created so far. (`backend/registry.py:30-35`) -/
structure State where
  dict : String → Option Backend
  active : String
  created : ℕ

/-- `available_backends`, `registry.py:37-44`. -/
def availableBackends (env : Env) : List String := allBackends.filter fun b => env.findSpec b

/-- `register_backend`, `registry.py:46-54`: either raises or stores a new instance.  On an exception the
state is the one at the time it was raised. -/
def registerBackend (env : Env) (name : String) (s : State) : Except Err Unit × State :=
  if name ∉ availableBackends env then (.error .backendNotAvailable, s)
  else (.ok (), { s with
    dict := fun k => if k = name then some ⟨name, s.created⟩ else s.dict k
    created := s.created + 1 })

/-- `__getitem__`, `registry.py:56-62`.  The second `super().__getitem__` would raise `KeyError`, which
the model has as a lookup that finds nothing (`Err.indexError`). -/
def getItem (env : Env) (key : String) (s : State) : Except Err Backend × State :=
  match s.dict key with
  | some b => (.ok b, s)
  | none =>
    match registerBackend env key s with
    | (.error e, s') => (.error e, s')
    | (.ok (), s') =>
      match s'.dict key with
      | some b => (.ok b, s')
      | none => (.error .indexError, s')

/-- `set_active`, `registry.py:64-65`. -/
def setActive (backend : String) (s : State) : State := { s with active := backend }

/-- The property `active`, `registry.py:67-69`. -/
def getActive (env : Env) (s : State) : Except Err Backend × State := getItem env s.active s

/-- `__init__`, `registry.py:30-35`. -/
def init (env : Env) : Except Err State :=
  let s : State := { dict := fun _ => none, active := "", created := 0 }
  match registerBackend env "numpy" s with
  | (.error e, _) => .error e
  | (.ok (), s) =>
    if env.numbaImported then
      match registerBackend env "numba" s with
      | (.error e, _) => .error e
      | (.ok (), s) => .ok { s with active := "numba" }
    else .ok { s with active := "numpy" }

/-- The operations a user can perform on the registry. (`backend/registry.py:46-69`) -/
inductive Op where
  | register (name : String)
  | lookup (name : String)
  | setActive (name : String)
  | active

/-- The state after one operation (an exception, if any, is caught by the user).
(`backend/registry.py:46-69`) -/
def step (env : Env) (s : State) : Op → State
  | .register n => (registerBackend env n s).2
  | .lookup n => (getItem env n s).2
  | .setActive n => Registry.setActive n s
  | .active => (getActive env s).2

/-- The state after a history of operations. (calls of `backend/registry.py:46-69` one after the other) -/
def run (env : Env) (s : State) (h : List Op) : State := h.foldl (step env) s

end Registry
end Verif
