import Verif.Model.Py

/-!
# What torch keeps for the backward pass

During the forward pass torch keeps the tensors that the backward formulas need, together with the version counter of
their storage; an operation in place raises the counter.  `backward` raises a `RuntimeError` if a tensor it needs has
been modified since.  Here the functions of the array path are transcribed operation by operation, with what each
operation keeps (torch's `derivatives.yaml`).  Simplification: the numbers in the tensors are left out, only storages,
versions and the flags `requires_grad` are followed.
-/

namespace Verif

namespace Tape

/-- What torch raises. (`core/crps/_closed.py:146`, `core/energy/_score.py:110`) -/
inductive TErr
  /-- in place on a leaf that requires a gradient -/
  | leaf
  /-- a tensor needed in the backward pass has been modified in place -/
  | modified
deriving DecidableEq

/-- A tensor: its storage, whether it requires a gradient, whether the user made it (`is_leaf`, which matters only for
tensors that require a gradient), and the storages (with their versions)
that the operations it comes from have kept. (argument `fct` of `core/energy/_score.py:92-98`) -/
structure Ten where
  id : ℕ
  req : Bool
  leaf : Bool
  saved : List (ℕ × ℕ)

/-- Version counters, and the first storage not in use. (state of torch while `core/energy/_score.py:98-113` runs) -/
structure St where
  ver : ℕ → ℕ
  next : ℕ

/-- A computation that allocates and modifies storages. (`core/energy/_score.py:98-113`) -/
abbrev Tp (α : Type) := St → Except TErr (α × St)

instance : Monad Tp where
  pure a := fun s => .ok (a, s)
  bind m f := fun s => match m s with
    | .ok (a, s') => f a s'
    | .error e => .error e

/-- The pair kept for `t` if `c`. (saved tensors, `backend/torch.py:228-229`) -/
def keep (s : St) (c : Bool) (t : Ten) : List (ℕ × ℕ) := if c then [(t.id, s.ver t.id)] else []

/-- A result in a new storage.  `torch` keeps nothing for tensors that need no gradient.
(results of `backend/torch.py:168-181`) -/
def fresh (req : Bool) (saved : List (ℕ × ℕ)) : Tp Ten := fun s =>
  .ok (⟨s.next, req, false, if req then saved else []⟩, { s with next := s.next + 1 })

/-- A view: `x[..., None]`, `expand_dims` (`backend/torch.py:121-129`) share storage and version with `x`. -/
def view (a : Ten) : Ten := a

/-- `sum`, `mean`, `roll`, multiplication and division by a Python number, `1 - x`, `-x`: nothing is kept.
(`backend/torch.py:41-49`, `91-99`, `314-315`) -/
def lin (a : Ten) : Tp Ten := fresh a.req a.saved

/-- `a + b`, `a - b`: nothing is kept. (`core/crps/_approx.py:55`) -/
def add (a b : Ten) : Tp Ten := fresh (a.req || b.req) (a.saved ++ b.saved)

/-- `a * b`: each factor is kept for the derivative by the other. (`core/crps/_approx.py:146`) -/
def mul (a b : Ten) : Tp Ten := fun s =>
  fresh (a.req || b.req) (a.saved ++ b.saved ++ keep s a.req b ++ keep s b.req a) s

/-- `a / b`: the denominator is kept, the numerator for the derivative by the denominator.
(`core/crps/_approx.py:147`) -/
def div (a b : Ten) : Tp Ten := fun s =>
  fresh (a.req || b.req) (a.saved ++ b.saved ++ keep s (a.req || b.req) b ++ keep s b.req a) s

/-- `a ** p` with a Python number `p`: the argument is kept. (`core/variogram/_score.py:64`) -/
def pow (a : Ten) : Tp Ten := fun s => fresh a.req (a.saved ++ keep s a.req a) s

/-- `B.abs(a)`: the argument is kept. (`backend/torch.py:168-169`) -/
def abs (a : Ten) : Tp Ten := fun s => fresh a.req (a.saved ++ keep s a.req a) s

/-- `B.exp(a)`: the result is kept. (`backend/torch.py:171-172`) -/
def exp (a : Ten) : Tp Ten := fun s => fresh a.req (a.saved ++ [(s.next, s.ver s.next)]) s

/-- `B.log(a)`: the argument is kept. (`backend/torch.py:177-178`) -/
def log (a : Ten) : Tp Ten := fun s => fresh a.req (a.saved ++ keep s a.req a) s

/-- `B.norm(a, -1)`: argument and result are kept. (`backend/torch.py:228-229`) -/
def norm (a : Ten) : Tp Ten := fun s => fresh a.req (a.saved ++ keep s a.req a ++ [(s.next, s.ver s.next)]) s

/-- A comparison: no gradient. (`core/crps/_approx.py:101`) -/
def cmp : Tp Ten := fresh false []

/-- `B.where(c, a, b)`: the condition is kept. (`backend/torch.py:296-297`) -/
def where_ (c a b : Ten) : Tp Ten := fun s =>
  fresh (a.req || b.req) (a.saved ++ b.saved ++ keep s (a.req || b.req) c) s

/-- What an operation in place does to the storage of `a`: a leaf that requires a gradient is refused, otherwise the
version goes up. (`core/crps/_closed.py:146`) -/
def bump (a : Ten) (req : Bool) (saved : List (ℕ × ℕ)) : Tp Ten := fun s =>
  if a.leaf && a.req then .error .leaf
  else .ok (⟨a.id, req, false, if req then saved else []⟩,
    { s with ver := fun i => if i = a.id then s.ver i + 1 else s.ver i })

/-- `a *= b`: `b` is kept for the derivative by `a`; for the derivative by `b` torch keeps a copy of the old `a`, which
nobody can modify. (`core/energy/_score.py:110`) -/
def imul (a b : Ten) : Tp Ten := fun s => bump a (a.req || b.req) (a.saved ++ b.saved ++ keep s a.req b) s

/-- `a += b`, `a -= b`: nothing is kept. (`core/variogram/_score.py:117`) -/
def iadd (a b : Ten) : Tp Ten := bump a (a.req || b.req) (a.saved ++ b.saved)

/-- `a /= c` with a Python number: nothing is kept. (`core/interval/_score.py:40`) -/
def ilin (a : Ten) : Tp Ten := bump a a.req a.saved

/-- `out.sum().backward()`: raises if a tensor kept on the way to `out` has another version now.
(a call by the user on the result of `core/energy/_score.py:92-113`) -/
def backward (out : Ten) (s : St) : Except TErr Unit :=
  if out.saved.all fun p => s.ver p.1 == p.2 then .ok () else .error .modified

/-- A score, then the backward pass. (`core/energy/_score.py:92-113` and what the user does next) -/
def run (f : Tp Ten) (s : St) : Except TErr Unit :=
  match f s with
  | .ok (out, s') => backward out s'
  | .error e => .error e

/-! ### Energy score -/

/-- `_es_ensemble_nrg`, `_es_ensemble_fair`, `core/energy/_score.py:33-58`: the two differ in a Python number only. -/
def esNrg (obs fct : Ten) : Tp Ten := do
  let d ← add fct (view obs)
  let errNorm ← norm d
  let e1 ← lin errNorm
  let e1 ← lin e1
  let d ← add (view fct) (view fct)
  let spreadNorm ← norm d
  let e2 ← lin spreadNorm
  let e2 ← lin e2
  let h ← lin e2
  add e1 h

/-- `_es_ensemble_akr`, `_es_ensemble_akr_circperm`, `core/energy/_score.py:61-89`. -/
def esAkr (obs fct : Ten) : Tp Ten := do
  let d ← add fct (view obs)
  let errNorm ← norm d
  let e1 ← lin errNorm
  let e1 ← lin e1
  let r ← lin fct
  let d ← add fct r
  let spreadNorm ← norm d
  let e2 ← lin spreadNorm
  let e2 ← lin e2
  let h ← lin e2
  add e1 h

/-- `_es_ensemble_nrg_w`, `core/energy/_score_w.py:33-49`. -/
def esNrgW (obs fct ensW : Ten) : Tp Ten := do
  let d ← add fct (view obs)
  let errNorm ← norm d
  let p ← mul errNorm ensW
  let e1 ← lin p
  let d ← add (view fct) (view fct)
  let spreadNorm ← norm d
  let p ← mul spreadNorm (view ensW)
  let p ← mul p (view ensW)
  let e2 ← lin p
  let h ← lin e2
  add e1 h

/-- `_es_ensemble_fair_w`, `core/energy/_score_w.py:52-70`. -/
def esFairW (obs fct ensW : Ten) : Tp Ten := do
  let d ← add fct (view obs)
  let errNorm ← norm d
  let p ← mul errNorm ensW
  let e1 ← lin p
  let d ← add (view fct) (view fct)
  let spreadNorm ← norm d
  let p ← mul spreadNorm (view ensW)
  let p ← mul p (view ensW)
  let e2 ← lin p
  let ww ← mul ensW ensW
  let sw ← lin ww
  let fairC ← lin sw
  let h ← lin e2
  let q ← div h fairC
  add e1 q

/-- `owes_ensemble`, `core/energy/_score.py:92-113`. -/
def owes (obs fct ow fw : Ten) : Tp Ten := do
  let wbar ← lin fw
  let d ← add fct (view obs)
  let errNorm ← norm d
  let p ← mul errNorm fw
  let p ← mul p (view ow)
  let m ← lin p
  let e1 ← div m wbar
  let d ← add (view fct) (view fct)
  let spreadNorm ← norm d
  let fwProd ← mul (view fw) (view fw)
  let q ← mul fwProd (view ow)
  let spreadNorm ← imul spreadNorm q
  let m ← lin spreadNorm
  let w2 ← pow wbar
  let e2 ← div m w2
  let h ← lin e2
  add e1 h

/-- `vres_ensemble`, `core/energy/_score.py:116-139`. -/
def vres (obs fct ow fw : Ten) : Tp Ten := do
  let wbar ← lin fw
  let d ← add fct (view obs)
  let errNorm ← norm d
  let q ← mul fw (view ow)
  let errNorm ← imul errNorm q
  let e1 ← lin errNorm
  let d ← add (view fct) (view fct)
  let spreadNorm ← norm d
  let fwProd ← mul (view fw) (view fw)
  let p ← mul spreadNorm fwProd
  let e2 ← lin p
  let n ← norm fct
  let p ← mul n fw
  let rhobar ← lin p
  let n ← norm obs
  let p ← mul n ow
  let l ← add rhobar p
  let r ← add wbar ow
  let e3 ← mul l r
  let h ← lin e2
  let t ← add e1 h
  add t e3

/-- `owes_ensemble_w`, `core/energy/_score_w.py:105-129`. -/
def owesW (obs fct ow fw ensW : Ten) : Tp Ten := do
  let p ← mul fw ensW
  let wbar ← lin p
  let d ← add fct (view obs)
  let errNorm ← norm d
  let p ← mul errNorm fw
  let p ← mul p (view ow)
  let p ← mul p ensW
  let m ← lin p
  let e1 ← div m wbar
  let d ← add (view fct) (view fct)
  let spreadNorm ← norm d
  let fwProd ← mul (view fw) (view fw)
  let q ← mul fwProd (view ow)
  let spreadNorm ← imul spreadNorm q
  let p ← mul spreadNorm (view ensW)
  let p ← mul p (view ensW)
  let m ← lin p
  let w2 ← pow wbar
  let e2 ← div m w2
  let h ← lin e2
  add e1 h

/-- `vres_ensemble_w`, `core/energy/_score_w.py:132-159`. -/
def vresW (obs fct ow fw ensW : Ten) : Tp Ten := do
  let p ← mul fw ensW
  let wbar ← lin p
  let d ← add fct (view obs)
  let errNorm ← norm d
  let q ← mul fw (view ow)
  let errNorm ← imul errNorm q
  let p ← mul errNorm ensW
  let e1 ← lin p
  let d ← add (view fct) (view fct)
  let spreadNorm ← norm d
  let fwProd ← mul (view fw) (view fw)
  let p ← mul spreadNorm fwProd
  let p ← mul p (view ensW)
  let p ← mul p (view ensW)
  let e2 ← lin p
  let n ← norm fct
  let p ← mul n fw
  let p ← mul p ensW
  let rhobar ← lin p
  let n ← norm obs
  let p ← mul n ow
  let l ← add rhobar p
  let r ← add wbar ow
  let e3 ← mul l r
  let h ← lin e2
  let t ← add e1 h
  add t e3

/-! ### Kernel scores -/

/-- `gauss_kern_uv`, `core/kernels/_approx.py:9-14`. -/
def kernUv (x1 x2 : Ten) : Tp Ten := do
  let d ← add x1 x2
  let p ← pow d
  let h ← lin p
  exp h

/-- `gauss_kern_mv`, `core/kernels/_approx.py:17-22`. -/
def kernMv (x1 x2 : Ten) : Tp Ten := do
  let d ← add x1 x2
  let n ← norm d
  let p ← pow n
  let h ← lin p
  exp h

/-- `_ks_ensemble_nrg_uv`, `core/kernels/_approx.py:48-63`, and with the other kernel `_ks_ensemble_nrg_mv`,
`core/kernels/_approx.py:146-161`. -/
def ksNrg (kern : Ten → Ten → Tp Ten) (obs fct : Ten) : Tp Ten := do
  let k ← kern (view obs) fct
  let e1 ← lin k
  let k ← kern (view fct) (view fct)
  let e2 ← lin k
  let e3 ← kern obs obs
  let a ← lin e1
  let h ← lin e2
  let h ← lin h
  let o ← add a h
  let h ← lin e3
  let o ← add o h
  lin o

/-- `_ks_ensemble_fair_uv`, `core/kernels/_approx.py:66-82`, and with the other kernel `_ks_ensemble_fair_mv`,
`core/kernels/_approx.py:164-180`. -/
def ksFair (kern : Ten → Ten → Tp Ten) (obs fct : Ten) : Tp Ten := do
  let k ← kern (view obs) fct
  let e1 ← lin k
  let k ← kern (view fct) (view fct)
  let e2 ← lin k
  let k ← kern fct fct
  let d ← lin k
  let e2 ← iadd e2 d
  let e3 ← kern obs obs
  let a ← lin e1
  let h ← lin e2
  let h ← lin h
  let o ← add a h
  let h ← lin e3
  let o ← add o h
  lin o

/-- `ow_ensemble_uv`, `core/kernels/_approx.py:218-244`. -/
def owksUv (obs fct ow fw : Ten) : Tp Ten := do
  let wbar ← lin fw
  let k ← kernUv (view obs) fct
  let p ← mul k fw
  let t ← lin p
  let t ← mul t ow
  let mw ← lin wbar
  let e1 ← div t mw
  let k ← kernUv (view fct) (view fct)
  let p ← mul k (view fw)
  let p ← mul p (view fw)
  let e2 ← lin p
  let w2 ← pow wbar
  let w2 ← lin w2
  let q ← div ow w2
  let e2 ← imul e2 q
  let k ← kernUv obs obs
  let e3 ← mul k ow
  let h ← lin e2
  let o ← add e1 h
  let h ← lin e3
  let o ← add o h
  lin o

/-- `ow_ensemble_mv`, `core/kernels/_approx.py:247-276`. -/
def owksMv (obs fct ow fw : Ten) : Tp Ten := do
  let t ← lin fw
  let wbar ← lin t
  let errKern ← kernMv (view obs) fct
  let p ← mul errKern fw
  let p ← mul p (view ow)
  let t ← lin p
  let mw ← lin wbar
  let e1 ← div t mw
  let spreadKern ← kernMv (view fct) (view fct)
  let fwProd ← mul (view fw) (view fw)
  let q ← mul fwProd (view ow)
  let spreadKern ← imul spreadKern q
  let t ← lin spreadKern
  let w2 ← pow wbar
  let w2 ← lin w2
  let e2 ← div t w2
  let k ← kernMv obs obs
  let e3 ← mul k ow
  let h ← lin e2
  let o ← add e1 h
  let h ← lin e3
  let o ← add o h
  lin o

/-- `vr_ensemble_uv`, `core/kernels/_approx.py:279-308`. -/
def vrksUv (obs fct ow fw : Ten) : Tp Ten := do
  let k ← kernUv (view obs) fct
  let p ← mul k fw
  let t ← lin p
  let t ← mul t ow
  let e1 ← lin t
  let k ← kernUv (view fct) (view fct)
  let fwProd ← mul (view fw) (view fw)
  let p ← mul k fwProd
  let t ← lin p
  let e2 ← lin t
  let k ← kernUv obs obs
  let t ← mul k ow
  let e3 ← mul t ow
  let h ← lin e2
  let o ← add e1 h
  let h ← lin e3
  let o ← add o h
  lin o

/-- `vr_ensemble_mv`, `core/kernels/_approx.py:311-338`. -/
def vrksMv (obs fct ow fw : Ten) : Tp Ten := do
  let errKern ← kernMv (view obs) fct
  let p ← mul errKern fw
  let p ← mul p (view ow)
  let t ← lin p
  let e1 ← lin t
  let spreadKern ← kernMv (view fct) (view fct)
  let fwProd ← mul (view fw) (view fw)
  let spreadKern ← imul spreadKern fwProd
  let t ← lin spreadKern
  let e2 ← lin t
  let k ← kernMv obs obs
  let t ← mul k ow
  let e3 ← mul t ow
  let h ← lin e2
  let o ← add e1 h
  let h ← lin e3
  let o ← add o h
  lin o

/-- `ow_ensemble_uv_w`, `core/kernels/_approx_w.py:246-274`. -/
def owksUvW (obs fct ow fw ensW : Ten) : Tp Ten := do
  let p ← mul ensW fw
  let wbar ← lin p
  let k ← kernUv (view obs) fct
  let p ← mul ensW k
  let p ← mul p fw
  let t ← lin p
  let t ← mul t ow
  let e1 ← div t wbar
  let ww ← mul (view ensW) (view ensW)
  let k ← kernUv (view fct) (view fct)
  let p ← mul ww k
  let p ← mul p (view fw)
  let p ← mul p (view fw)
  let e2 ← lin p
  let w2 ← pow wbar
  let q ← div ow w2
  let e2 ← imul e2 q
  let k ← kernUv obs obs
  let e3 ← mul k ow
  let h ← lin e2
  let o ← add e1 h
  let h ← lin e3
  let o ← add o h
  lin o

/-- `ow_ensemble_mv_w`, `core/kernels/_approx_w.py:277-309`. -/
def owksMvW (obs fct ow fw ensW : Ten) : Tp Ten := do
  let p ← mul fw ensW
  let wbar ← lin p
  let errKern ← kernMv (view obs) fct
  let p ← mul errKern fw
  let p ← mul p (view ow)
  let p ← mul p ensW
  let t ← lin p
  let e1 ← div t wbar
  let spreadKern ← kernMv (view fct) (view fct)
  let fwProd ← mul (view fw) (view fw)
  let q ← mul fwProd (view ow)
  let spreadKern ← imul spreadKern q
  let p ← mul spreadKern (view ensW)
  let p ← mul p (view ensW)
  let t ← lin p
  let w2 ← pow wbar
  let e2 ← div t w2
  let k ← kernMv obs obs
  let e3 ← mul k ow
  let h ← lin e2
  let o ← add e1 h
  let h ← lin e3
  let o ← add o h
  lin o

/-- `vr_ensemble_mv_w`, `core/kernels/_approx_w.py:341-371`. -/
def vrksMvW (obs fct ow fw ensW : Ten) : Tp Ten := do
  let errKern ← kernMv (view obs) fct
  let p ← mul errKern fw
  let p ← mul p (view ow)
  let p ← mul p ensW
  let e1 ← lin p
  let spreadKern ← kernMv (view fct) (view fct)
  let fwProd ← mul (view fw) (view fw)
  let spreadKern ← imul spreadKern fwProd
  let p ← mul spreadKern (view ensW)
  let p ← mul p (view ensW)
  let e2 ← lin p
  let k ← kernMv obs obs
  let t ← mul k ow
  let e3 ← mul t ow
  let h ← lin e2
  let o ← add e1 h
  let h ← lin e3
  let o ← add o h
  lin o

/-! ### Variogram score -/

/-- `vs_ensemble` with `nrg`, `core/variogram/_score.py:9-28`. -/
def vsNrg (obs fct w : Ten) : Tp Ten := do
  let d ← add (view fct) (view fct)
  let a ← abs d
  let fctDiff ← pow a
  let d ← add (view obs) (view obs)
  let a ← abs d
  let obsDiff ← pow a
  let t ← lin fctDiff
  let fctDiff ← lin t
  let d ← add obsDiff fctDiff
  let p ← pow d
  let t ← mul w p
  lin t

/-- `owvs_ensemble`, `core/variogram/_score.py:50-82`. -/
def owvs (obs fct w ow fw : Ten) : Tp Ten := do
  let wbar ← lin fw
  let d ← add (view fct) (view fct)
  let a ← abs d
  let fctDiff ← pow a
  let d ← add (view obs) (view obs)
  let a ← abs d
  let obsDiff ← pow a
  let d ← add fctDiff (view obsDiff)
  let e1 ← pow d
  let t ← mul (view w) e1
  let e1 ← lin t
  let t ← mul e1 fw
  let t ← mul t (view ow)
  let t ← lin t
  let e1 ← div t wbar
  let spread ← add (view fctDiff) (view fctDiff)
  let fwProd ← mul (view fw) (view fw)
  let p ← pow spread
  let t ← mul (view w) p
  let e2 ← lin t
  let q ← mul fwProd (view ow)
  let e2 ← imul e2 q
  let t ← lin e2
  let w2 ← pow wbar
  let e2 ← div t w2
  let h ← lin e2
  add e1 h

/-- `vrvs_ensemble`, `core/variogram/_score.py:85-120`. -/
def vrvs (obs fct w ow fw : Ten) : Tp Ten := do
  let wbar ← lin fw
  let d ← add (view fct) (view fct)
  let a ← abs d
  let fctDiff ← pow a
  let d ← add (view obs) (view obs)
  let a ← abs d
  let obsDiff ← pow a
  let d ← add fctDiff (view obsDiff)
  let e1 ← pow d
  let t ← mul (view w) e1
  let e1 ← lin t
  let t ← mul e1 fw
  let t ← mul t (view ow)
  let e1 ← lin t
  let d ← add (view fctDiff) (view fctDiff)
  let p ← pow d
  let t ← mul (view w) p
  let e2 ← lin t
  let fwProd ← mul (view fw) (view fw)
  let t ← mul e2 fwProd
  let e2 ← lin t
  let p ← pow fctDiff
  let t ← mul (view w) p
  let e3 ← lin t
  let t ← mul e3 fw
  let e3 ← lin t
  let p ← pow obsDiff
  let t ← mul w p
  let t ← lin t
  let t ← mul t ow
  let e3 ← iadd e3 t
  let q ← add wbar ow
  let e3 ← imul e3 q
  let h ← lin e2
  let o ← add e1 h
  add o e3

/-- `owvs_ensemble_w`, `core/variogram/_score_w.py:57-93`. -/
def owvsW (obs fct w ow fw ensW : Ten) : Tp Ten := do
  let p ← mul fw ensW
  let wbar ← lin p
  let d ← add (view fct) (view fct)
  let a ← abs d
  let fctDiff ← pow a
  let d ← add (view obs) (view obs)
  let a ← abs d
  let obsDiff ← pow a
  let d ← add fctDiff (view obsDiff)
  let e1 ← pow d
  let t ← mul (view w) e1
  let e1 ← lin t
  let t ← mul e1 fw
  let t ← mul t (view ow)
  let t ← mul t ensW
  let t ← lin t
  let e1 ← div t wbar
  let spread ← add (view fctDiff) (view fctDiff)
  let fwProd ← mul (view fw) (view fw)
  let ewProd ← mul (view ensW) (view ensW)
  let p ← pow spread
  let t ← mul (view w) p
  let e2 ← lin t
  let q ← mul fwProd (view ow)
  let q ← mul q ewProd
  let e2 ← imul e2 q
  let t ← lin e2
  let w2 ← pow wbar
  let e2 ← div t w2
  let h ← lin e2
  add e1 h

/-- `vrvs_ensemble_w`, `core/variogram/_score_w.py:96-133`. -/
def vrvsW (obs fct w ow fw ensW : Ten) : Tp Ten := do
  let p ← mul fw ensW
  let wbar ← lin p
  let d ← add (view fct) (view fct)
  let a ← abs d
  let fctDiff ← pow a
  let d ← add (view obs) (view obs)
  let a ← abs d
  let obsDiff ← pow a
  let d ← add fctDiff (view obsDiff)
  let e1 ← pow d
  let t ← mul (view w) e1
  let e1 ← lin t
  let t ← mul e1 fw
  let t ← mul t (view ow)
  let t ← mul t ensW
  let e1 ← lin t
  let d ← add (view fctDiff) (view fctDiff)
  let p ← pow d
  let t ← mul (view w) p
  let e2 ← lin t
  let fwProd ← mul (view fw) (view fw)
  let ewProd ← mul (view ensW) (view ensW)
  let t ← mul e2 fwProd
  let t ← mul t ewProd
  let e2 ← lin t
  let p ← pow fctDiff
  let t ← mul (view w) p
  let e3 ← lin t
  let t ← mul e3 fw
  let t ← mul t ensW
  let e3 ← lin t
  let p ← pow obsDiff
  let t ← mul w p
  let t ← lin t
  let t ← mul t ow
  let e3 ← iadd e3 t
  let q ← add wbar ow
  let e3 ← imul e3 q
  let h ← lin e2
  let o ← add e1 h
  add o e3

/-! ### CRPS -/

/-- `ow_ensemble`, `core/crps/_approx.py:136-153`. -/
def owcrps (obs fct ow fw : Ten) : Tp Ten := do
  let wbar ← lin fw
  let d ← add (view obs) fct
  let a ← abs d
  let t ← mul a fw
  let t ← lin t
  let t ← mul t ow
  let mw ← lin wbar
  let e1 ← div t mw
  let d ← add (view fct) (view fct)
  let a ← abs d
  let t ← mul a (view fw)
  let t ← mul t (view fw)
  let e2 ← lin t
  let w2 ← pow wbar
  let w2 ← lin w2
  let q ← div ow w2
  let e2 ← imul e2 q
  let h ← lin e2
  add e1 h

/-- `vr_ensemble`, `core/crps/_approx.py:156-174`. -/
def vrcrps (obs fct ow fw : Ten) : Tp Ten := do
  let d ← add (view obs) fct
  let a ← abs d
  let t ← mul a fw
  let t ← lin t
  let t ← mul t ow
  let e1 ← lin t
  let d ← add (view fct) (view fct)
  let a ← abs d
  let fwProd ← mul (view fw) (view fw)
  let t ← mul a fwProd
  let t ← lin t
  let e2 ← lin t
  let a ← abs fct
  let t ← mul a fw
  let m ← lin t
  let a ← abs obs
  let t ← mul a ow
  let e3 ← add m t
  let m ← lin fw
  let q ← add m ow
  let e3 ← imul e3 q
  let h ← lin e2
  let o ← add e1 h
  add o e3

/-- `ow_ensemble_w`, `core/crps/_approx_w.py:133-154`. -/
def owcrpsW (obs fct ow fw ensW : Ten) : Tp Ten := do
  let t ← mul ensW fw
  let wbar ← lin t
  let d ← add (view obs) fct
  let a ← abs d
  let t ← mul ensW a
  let t ← mul t fw
  let t ← lin t
  let t ← mul t ow
  let e1 ← div t wbar
  let ww ← mul (view ensW) (view ensW)
  let d ← add (view fct) (view fct)
  let a ← abs d
  let t ← mul ww a
  let t ← mul t (view fw)
  let t ← mul t (view fw)
  let e2 ← lin t
  let w2 ← pow wbar
  let q ← div ow w2
  let e2 ← imul e2 q
  let h ← lin e2
  add e1 h

/-- `vr_ensemble_w`, `core/crps/_approx_w.py:157-178`. -/
def vrcrpsW (obs fct ow fw ensW : Ten) : Tp Ten := do
  let d ← add (view obs) fct
  let a ← abs d
  let t ← mul ensW a
  let t ← mul t fw
  let t ← lin t
  let e1 ← mul t ow
  let ww ← mul (view ensW) (view ensW)
  let d ← add (view fct) (view fct)
  let a ← abs d
  let t ← mul ww a
  let t ← mul t (view fw)
  let t ← mul t (view fw)
  let e2 ← lin t
  let a ← abs fct
  let t ← mul ensW a
  let t ← mul t fw
  let m ← lin t
  let a ← abs obs
  let t ← mul a ow
  let e3 ← add m t
  let t ← mul ensW fw
  let m ← lin t
  let q ← add m ow
  let e3 ← imul e3 q
  let h ← lin e2
  let o ← add e1 h
  add o e3

/-! ### Closed forms with operations in place -/

/-- `_exp_pdf`, `core/stats.py:39-42`. -/
def expPdf (x rate : Ten) : Tp Ten := do
  let n ← lin rate
  let t ← mul n x
  let e ← exp t
  let t ← mul rate e
  let c ← cmp
  let z ← fresh false []
  where_ c z t

/-- `exponential2`, `core/logarithmic.py:114-130`. -/
def logsExponential2 (obs location scale : Ten) : Tp Ten := do
  let obs ← iadd obs location
  let one ← fresh false []
  let rate ← div one scale
  let zind ← cmp
  let nan ← fresh false []
  let obs ← where_ zind nan obs
  let prob ← expPdf obs rate
  let l ← log prob
  let l ← lin l
  let inf ← fresh false []
  where_ zind inf l

/-- `_exp_cdf`, `core/stats.py:45-48` (`maximum` keeps both arguments, `backend/torch.py:251-252`). -/
def expCdf (x rate : Ten) : Tp Ten := do
  let n ← lin rate
  let t ← mul n x
  let e ← exp t
  let l ← lin e
  let z ← fresh false []
  fun s => fresh l.req (l.saved ++ keep s l.req l ++ keep s l.req z) s

/-- `exponentialM`, `core/crps/_closed.py:134-156`.  `loc0`, `mass0` and `scale1` say whether the parameters are the
numbers 0, 0 and 1.  Simplification: where the code multiplies by the Python number `1.0` instead of a tensor, a new
tensor without gradient stands for it. -/
def crpsExponentialM (loc0 mass0 scale1 : Bool) (obs mass location scale : Ten) : Tp Ten := do
  let obs ← if loc0 then pure obs else iadd obs location
  let a ← if mass0 then fresh false [] else lin mass
  let s ← abs obs
  if scale1 then do
    let one ← fresh false []
    let c ← expCdf obs one
    let c ← lin c
    let h ← lin a
    let d ← add c h
    let t ← mul a d
    iadd s t
  else do
    let sa ← mul scale a
    let one ← fresh false []
    let rate ← div one scale
    let c ← expCdf obs rate
    let c ← lin c
    let h ← lin a
    let d ← add c h
    let t ← mul sa d
    iadd s t

/-- `interval_score`, `core/interval/_score.py:9-21`. -/
def intervalScore (obs lower upper alpha : Ten) : Tp Ten := do
  let width ← add upper lower
  let above ← cmp
  let below ← cmp
  let two ← fresh false []
  let q ← div two alpha
  let t ← mul below q
  let d ← add lower obs
  let t ← mul t d
  let W ← add width t
  let q ← div two alpha
  let t ← mul above q
  let d ← add obs upper
  let t ← mul t d
  iadd W t

/-- `weighted_interval_score`, `core/interval/_score.py:24-41`. -/
def wis (obs median lower upper alpha wMedian wAlpha : Ten) : Tp Ten := do
  let is ← intervalScore (view obs) lower upper alpha
  let t ← mul is wAlpha
  let W ← lin t
  let t ← mul wMedian median
  let W ← iadd W t
  let W ← ilin W
  pure (view W)

end Tape
end Verif
