import Verif.Model.Closed2
import Verif.Model.Logs
import Verif.Model.Api

/-!
# The jax and torch backends

The other models follow the numpy backend.  Here the functions of the jax and torch backends that contain
arithmetic of their own, and the mass functions that use them.  Arithmetic is exact.
-/

noncomputable section

open scoped Classical

namespace Verif

open XF

/-- `lgamma` of torch and jax (`backend/torch.py:268-281`): the logarithm of `|Gamma x|`, infinite at zero
and the negative integers. -/
def XF.lgamma : XF → XF
  | nan => nan
  | ninf => pinf
  | pinf => pinf
  | fin x => if ∃ n : ℕ, x = -(n : ℝ) then pinf else fin (Real.log |Real.Gamma x|)

/-- `a // b` of floats (`backend/torch.py:289`, `backend/jax.py:270-272`): NaN for a zero divisor; a
non-negative number divided by infinity is zero.  Other combinations with infinities are given as NaN. -/
def XF.floorDiv : XF → XF → XF
  | fin a, fin b => if b = 0 then nan else fin (⌊a / b⌋ : ℝ)
  | fin a, pinf => if 0 ≤ a then fin 0 else fin (-1)
  | _, _ => nan

namespace Torch

/-- `TorchBackend.gamma`, `backend/torch.py:268-269`. -/
def gamma (x : XF) : XF := XF.exp (XF.lgamma x)

/-- `TorchBackend.beta`, `backend/torch.py:254-255`. -/
def beta (x y : XF) : XF := XF.exp (XF.lgamma x + XF.lgamma y - XF.lgamma (x + y))

/-- `TorchBackend.gammalinc`, `backend/torch.py:274-275`. -/
def gammalinc (x y : XF) : XF := XF.gammainc x y * XF.exp (XF.lgamma x)

/-- `TorchBackend.gammauinc`, `backend/torch.py:277-278`; `gammaincc` is one minus `gammainc`. -/
def gammauinc (x y : XF) : XF := (1 - XF.gammainc x y) * XF.exp (XF.lgamma x)

/-- `TorchBackend.factorial`, `backend/torch.py:280-281`. -/
def factorial (n : XF) : XF := XF.exp (XF.lgamma (n + 1))

/-- `TorchBackend.comb`, `backend/torch.py:288-289`. -/
def comb (n k : XF) : XF := XF.floorDiv (factorial n) (factorial k * factorial (n - k))

end Torch

namespace Jax

/-- `JaxBackend.factorial`, `backend/jax.py:262-263`: `jax.scipy.special.factorial`, which is zero at
negative arguments. -/
def factorial (n : XF) : XF := if n < 0 then 0 else XF.exp (XF.lgamma (n + 1))

/-- `JaxBackend.comb`, `backend/jax.py:269-272`. -/
def comb (n k : XF) : XF := XF.floorDiv (factorial n) (factorial k * factorial (n - k))

end Jax

/-- The backends (`backend/registry.py:11-68`; numba inherits from numpy, `backend/numpy.py:305-308`). -/
inductive Bk where
  | numpy | jax | torch

namespace Bk

/-- `B.comb`: `backend/numpy.py:271-272`, `backend/jax.py:269-272`, `backend/torch.py:288-289`. -/
def comb : Bk → XF → XF → XF
  | .numpy => XF.comb
  | .jax => Jax.comb
  | .torch => Torch.comb

/-- `B.factorial`: `backend/numpy.py:263-264`, `backend/jax.py:262-263`, `backend/torch.py:280-281`. -/
def factorial : Bk → XF → XF
  | .numpy => XF.factorial
  | .jax => Jax.factorial
  | .torch => Torch.factorial

/-- `_binom_pdf`, `core/stats.py:194-199`. -/
def binomPdf (b : Bk) (k n prob : XF) : XF := b.comb n k * XF.pow prob k * XF.pow (1 - prob) (n - k)

/-- `_hypergeo_pdf`, `core/stats.py:210-223`. -/
def hypergeoPdf (b : Bk) (k M n N : XF) : XF :=
  let ind' := XF.ind (XF.max 0 (N - M + n) ≤ k ∧ k ≤ XF.min n N)
  ind' * b.comb n k * b.comb (M - n) (N - k) / b.comb M N

/-- `_negbinom_pdf`, `core/stats.py:245-256`. -/
def negbinomPdf (b : Bk) (x n prob : XF) : XF :=
  let xPlus := XF.abs x
  let d := if XF.floor xPlus < xPlus then 0
    else b.comb (n + x - 1) x * XF.pow prob n * XF.pow (1 - prob) x
  if x < 0 then 0 else d

/-- `_pois_pdf`, `core/stats.py:75-84`. -/
def poisPdf (b : Bk) (x mean : XF) : XF :=
  let xPlus := XF.abs x
  let d := if XF.floor xPlus < xPlus then 0
    else XF.pow mean xPlus * XF.exp (-mean) / b.factorial xPlus
  if mean < 0 then nan else if x < 0 then 0 else d

/-- `binomial`, `core/logarithmic.py:85-98`. -/
def logsBinomial (b : Bk) (obs n prob : XF) : XF :=
  let zind := obs < 0
  let obs := if zind then nan else obs
  let prob := b.binomPdf obs n prob
  if zind then pinf else -XF.log prob

/-- `negbinom`, `core/logarithmic.py:312-325`. -/
def logsNegbinom (b : Bk) (obs n prob : XF) : XF :=
  let zind := obs < 0 ∨ ¬ XF.feq (XF.floor obs) obs
  let obs := if zind then nan else obs
  let prob := b.negbinomPdf obs n prob
  if zind then pinf else -XF.log prob

/-- `_hypergeo_cdf`, `core/stats.py:226-242`, for one element. -/
def hypergeoCdf (b : Bk) (k : ℕ) (M n N : XF) : XF :=
  ((List.range (k + 1)).map fun m : ℕ => b.hypergeoPdf (fin (m : ℝ)) M n N).sum

/-- `hypergeometric`, `core/crps/_closed.py:474-542`, for one observation and integer parameters. -/
def hypergeometric (b : Bk) (obs : XF) (m n k : ℕ) : XF :=
  let M : XF := fin (m : ℝ) + fin (n : ℝ)
  let N : XF := fin (k : ℝ)
  2 * ((List.range (n + 1)).map fun i : ℕ =>
    let x : XF := fin (i : ℝ)
    let f := b.hypergeoPdf x M (fin (m : ℝ)) N
    let F := b.hypergeoCdf i M (fin (m : ℝ)) N
    f * (XF.ind (obs < x) - F + f / 2) * (x - obs)).sum

end Bk

/-! ### `apply_along_axis` -/

namespace Bk

/-- `NumpyBackend.apply_along_axis` on the last axis, `backend/numpy.py:227-228`. -/
def applyLastNumpy (f : List XF → XF) (x : Arr XF) : Arr XF :=
  ⟨x.shape.dropLast, fun i => f (x.row i)⟩

/-- `TorchBackend.apply_along_axis` on the last axis for a function with scalar values,
`backend/torch.py:234-243`.  If `torch.vmap` accepts the function, the rows of `x.reshape(-1, D)` are
mapped and the result gets the leading shape.  Otherwise the function is applied to the tensors of
`torch.unbind(x, dim=-1)` and the results are stacked along the last axis; this is modelled for a
two-dimensional `x`, where these tensors are the columns. -/
def applyLastTorch (vmapOk : Bool) (f : List XF → XF) (x : Arr XF) : Arr XF :=
  if vmapOk then ⟨x.shape.dropLast, fun i => f (x.row i)⟩
  else ⟨[x.shape.getLastD 0], fun i => f ((List.range (x.shape.getD 0 0)).map fun r => x.get [r, i.getD 0 0])⟩

end Bk
end Verif
