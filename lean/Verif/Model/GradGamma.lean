import Verif.Model.GradEdge
import Verif.Model.Backends

/-!
# Gradients of the gamma, log-logistic and log-Laplace scores by backpropagation

The functions of `/repo/scoringrules/core/crps/_closed.py` as compositions of the operations of `Verif.Model.Grad`.
-/

noncomputable section

open scoped Classical

namespace Verif

open XF

namespace Node

/-- `B.gammainc(a, x)`, `backend/torch.py:271-272`, `backend/jax.py:253-254`, as a function of `x`; both libraries compute the
derivative as `exp((a - 1) * log(x) - x - lgamma(a))`.  Simplified: no cotangent goes to `a`, which is a constant
below (torch does not differentiate with respect to it). -/
def gammainc (a : XF) (x : Node) : Node :=
  ⟨XF.gammainc a x.val, fun g => x.back (g * XF.exp ((a - 1) * XF.log x.val - x.val - XF.lgamma a))⟩

end Node

namespace Grad

open Node

/-- `_gamma_cdf`, `core/stats.py:63-72`, for a shape that is not the leaf. -/
def gammaCdf (x : Node) (shape : XF) (rate : Node) : Node :=
  Node.max (Node.gammainc shape (rate * Node.max x (const 0))) (const 0)

/-- `gamma`, `core/crps/_closed.py:180-196`, for a shape that is not the leaf. -/
def gamma (obs : Node) (shape : XF) (rate : Node) : Node :=
  let Fab := gammaCdf obs shape rate
  let Fab1 := gammaCdf obs (shape + 1) rate
  obs * (const 2 * Fab - const 1) - (const shape / rate) * (const 2 * Fab1 - const 1)
    - const 1 / (rate * const (XF.beta (fin (1 / 2)) shape))

/-- `csg0`, `core/crps/_closed.py:199-221`, for a shape that is not the leaf. -/
def csg0 (obs : Node) (shape : XF) (rate shift : Node) : Node :=
  let obsS := obs + shift
  let FabS := gammaCdf obsS shape rate
  let F2ab2d := gammaCdf (const 2 * shift) (2 * shape) rate
  let Fabd := gammaCdf shift shape rate
  let Fab1d := gammaCdf shift (shape + 1) rate
  let Fab1S := gammaCdf obsS (shape + 1) rate
  obsS * (const 2 * FabS - const 1)
    - (const shape / (rate * const XF.pi)) * const (XF.beta (fin (1 / 2)) (shape + fin (1 / 2))) * (const 1 - F2ab2d)
    + const shape / rate * (const 1 + const 2 * Fabd * Fab1d - Node.pow Fabd 2 - const 2 * Fab1S)
    - shift * Node.pow Fabd 2

/-- `loglaplace`, `core/crps/_closed.py:571-603`. -/
def loglaplace (obs mulog sigmalog : Node) : Node :=
  let x := (log obs - mulog) / sigmalog
  let cond0 := obs.val ≤ 0
  let cond1 := obs.val < (exp mulog).val
  let F := const (XF.ind cond0) * const 0 + const (XF.ind (¬ cond0 ∧ cond1)) * (const (fin (1 / 2)) * exp x)
    + const (XF.ind (¬ cond1)) * (const 1 - const (fin (1 / 2)) * exp (-x))
  let A := const (XF.ind cond1) * const 1 / (const 1 + sigmalog) * (const 1 - tpow (const 2 * F) (const 1 + sigmalog))
    + const (XF.ind (¬ cond1)) * const (-1) / (const 1 - sigmalog)
      * (const 1 - tpow (const 2 * (const 1 - F)) (const 1 - sigmalog))
  obs * (const 2 * F - const 1) + exp mulog * (A + sigmalog / (const 4 - Node.pow sigmalog 2))

/-- `loglogistic`, `core/crps/_closed.py:606-619`, for a scale that is not the leaf.  torch cannot compute this score
(`betainc`, `backend/torch.py:257-260`). -/
def loglogistic (obs mulog : Node) (sigmalog : XF) : Node :=
  let Fms := const 1 / (const 1 + exp (-(log obs - mulog) / const sigmalog))
  let b := XF.beta (1 + sigmalog) (1 - sigmalog)
  let IB := betainc (1 + sigmalog) (1 - sigmalog) Fms
  obs * (const 2 * Fms - const 1) - exp mulog * const b * (const 2 * IB + const sigmalog - const 1)

end Grad
end Verif
