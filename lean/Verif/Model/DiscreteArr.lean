import Verif.Model.Closed2
import Verif.Model.Quantile

/-!
# The binomial and hypergeometric CRPS on arrays

`binomial` and `hypergeometric` of `core/crps/_closed.py` arrange their arrays by hand, because the
sum runs over a number of terms that depends on a parameter.
-/

noncomputable section

open scoped Classical

namespace Verif

open XF Py Stats

namespace Arr

variable {α : Type}

/-- `a.size` (`backend/numpy.py:280-281`). -/
def size (a : Arr α) : ℕ := a.shape.prod

/-- the entry of an array of size one (`int(a)`, used by `arange`, `core/crps/_closed.py:90`). -/
def item (a : Arr α) : α := a.get (a.shape.map fun _ => 0)

/-- `a[None]` (`core/crps/_closed.py:94-96`). -/
def newFirst (a : Arr α) : Arr α := ⟨1 :: a.shape, fun i => a.get i.tail⟩

/-- `a[:, None]` of an array with at least one axis (`core/crps/_closed.py:94-95`). -/
def newSecond (a : Arr α) : Arr α := ⟨a.shape.take 1 ++ 1 :: a.shape.drop 1, fun i => a.get (i.eraseIdx 1)⟩

/-- `a[j]`, the element of the iteration over an array (`core/crps/_closed.py:115`). -/
def sub (a : Arr α) (j : ℕ) : Arr α := ⟨a.shape.tail, fun i => a.get (j :: i)⟩

/-- all indices of an array in row-major order (the order of a sum over all entries,
`backend/numpy.py:90-99`). -/
def allIdx : List ℕ → List (List ℕ)
  | [] => [[]]
  | n :: s => (List.range n).flatMap fun j => (allIdx s).map (j :: ·)

/-- row-major position of an index (`reshape`, `backend/numpy.py:301-302`). -/
def ravel : List ℕ → List ℕ → ℕ
  | _ :: s, j :: i => j * s.prod + ravel s i
  | _, _ => 0

/-- index of a row-major position (`a.reshape(-1)[f]`, `core/crps/_closed.py:521-524`). -/
def unravel : List ℕ → ℕ → List ℕ
  | [], _ => []
  | _ :: s, f => (f / s.prod) :: unravel s (f % s.prod)

end Arr

namespace Closed

open Arr

/-- summand of `binomial` at `x = i`, `core/crps/_closed.py:103-107` and `82-84`. -/
def binomialTerm (obs : XF) (n : ℕ) (prob : XF) (i : ℕ) : XF :=
  let x : XF := fin (i : ℝ)
  let w := binomPdf x (fin (n : ℝ)) prob
  let a := binomCdf x (fin (n : ℝ)) prob - fin (1 / 2) * w
  w * (XF.ind (obs < x) - a) * (x - obs)

/-- `_inner` of `binomial`, `core/crps/_closed.py:79-85`, and the branch without broadcasting, lines 90 and
103-107: `x = arange(0, n + 1)` needs an `n` of size one (else `TypeError`), the sum runs over all entries of
the broadcast arrays.  Simplification: one broadcast of the four arrays. -/
def binomialInner (obs : Arr XF) (n : Arr ℕ) (prob : Arr XF) : Except Err XF :=
  if n.size ≠ 1 then .error .typeError else
  let x : Arr ℕ := ⟨[n.item + 1], fun i => i.headD 0⟩
  match bcast [x.shape, n.shape, prob.shape, obs.shape] with
  | none => .error .valueError
  | some s => .ok (2 * ((allIdx s).map fun i => binomialTerm (obs.bget i) n.item (prob.bget i) (x.bget i)).sum)

/-- The loop of `binomial` over `zip(obs, n, prob, strict=True)`, `core/crps/_closed.py:113-117`.  Different
lengths raise after the common part has been evaluated; `stack` refuses an empty list. -/
def binomialLoop (obs : Arr XF) (n : Arr ℕ) (prob : Arr XF) : Except Err (Arr XF) :=
  if obs.shape = [] ∨ n.shape = [] ∨ prob.shape = [] then .error .typeError else
  let a := obs.shape.headD 0
  let b := n.shape.headD 0
  let c := prob.shape.headD 0
  match (List.range (min a (min b c))).mapM fun j => binomialInner (obs.sub j) (n.sub j) (prob.sub j) with
  | .error e => .error e
  | .ok rows => if a ≠ b ∨ b ≠ c ∨ b = 0 then .error .valueError else .ok ⟨[b], fun i => rows.getD (i.headD 0) nan⟩

/-- `a * ones_like_n` if `a.size == 1`, `core/crps/_closed.py:111-112`. -/
def likeN (a : Arr XF) (n : Arr ℕ) : Except Err (Arr XF) :=
  if a.size = 1 then
    match bshape a.shape n.shape with
    | none => .error .valueError
    | some s => .ok ⟨s, fun i => a.bget i⟩
  else .ok a

/-- The new axis of `obs` and `prob`, `core/crps/_closed.py:94-95`. -/
def binomialAxis (a : Arr XF) : Arr XF := if 1 < a.size then a.newSecond else a.newFirst

/-- `binomial` on arrays, `core/crps/_closed.py:62-121`.  `n` holds natural numbers.  Simplification: one
broadcast of `x`, `n`, `prob` and `obs` in the branch with a scalar `n` (lines 97-107). -/
def binomialArr (obs : Arr XF) (n : Arr ℕ) (prob : Arr XF) : Except Err (Arr XF) :=
  if n.size = 1 then
    if obs.size = 1 ∧ prob.size = 1 then (binomialInner obs n prob).map Arr.scalar
    else
      let o := binomialAxis obs
      let p := binomialAxis prob
      let x : Arr ℕ := ⟨[1, n.item + 1], fun i => i.getD 1 0⟩
      match bcast [x.shape, n.shape, p.shape, o.shape] with
      | none => .error .valueError
      | some s => .ok ⟨s.dropLast, fun i => 2 * ((List.range (s.getLastD 0)).map fun j =>
          binomialTerm (o.bget (i ++ [j])) n.item (p.bget (i ++ [j])) (x.bget (i ++ [j]))).sum⟩
  else
    match likeN obs n, likeN prob n with
    | .ok o, .ok p => binomialLoop o n p
    | .error e, _ => .error e
    | _, .error e => .error e

/-- summand of `hypergeometric` at `x = i`, `core/crps/_closed.py:510-515`. -/
def hypergeometricTerm (obs : XF) (m n k : ℕ) (i : ℕ) : XF :=
  let M : XF := fin (m : ℝ) + fin (n : ℝ)
  let N : XF := fin (k : ℝ)
  let x : XF := fin (i : ℝ)
  let f := hypergeoPdf x M (fin (m : ℝ)) N
  let F := hypergeoCdf i M (fin (m : ℝ)) N
  f * (XF.ind (obs < x) - F + f / 2) * (x - obs)

/-- `hypergeometric` on arrays, `core/crps/_closed.py:474-542`.  `m`, `n`, `k` hold natural numbers.
Simplifications: one broadcast of `x`, `obs`, `M`, `m`, `N` in the branch with a scalar `n` (lines 506-516);
`M - m` is read as the number `n` of failure states. -/
def hypergeometricArr (obs : Arr XF) (m n k : Arr ℕ) : Except Err (Arr XF) :=
  match bshape m.shape n.shape with
  | none => .error .valueError
  | some sM =>
    if n.size = 1 then
      let d := max (max obs.ndim sM.length) (max m.ndim k.ndim)
      let x : Arr ℕ := ⟨(n.item + 1) :: List.replicate d 1, fun i => i.headD 0⟩
      match bcast [x.shape, obs.shape, sM, m.shape, k.shape] with
      | none => .error .valueError
      | some s => .ok ⟨s.tail, fun i => 2 * ((List.range (s.headD 0)).map fun j =>
          hypergeometricTerm (obs.bget (j :: i)) (m.bget (j :: i)) n.item (k.bget (j :: i)) (x.bget (j :: i))).sum⟩
    else
      match bcast [obs.shape, sM, m.shape, k.shape] with
      | none => .error .valueError
      | some s =>
        if s.prod < n.size then .error .indexError
        else if s.prod ≠ n.size then .error .valueError
        else .ok ⟨s, fun i =>
          let f := ravel s i
          let n' := n.get (unravel n.shape f)
          2 * ((List.range (n' + 1)).map fun j =>
            hypergeometricTerm (obs.bget (unravel s f)) (m.bget (unravel s f)) n' (k.bget (unravel s f)) j).sum⟩

end Closed

end Verif
