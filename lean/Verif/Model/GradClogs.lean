import Verif.Model.Grad

/-!
# Gradients of the logarithmic scores of ensembles by backpropagation

`logs_ensemble` and `clogs_ensemble` of `/repo/scoringrules/_logs.py` for one ensemble, as compositions of the
operations of `Verif.Model.Grad`.
-/

noncomputable section

open scoped Classical

namespace Verif

open XF

namespace Grad

open Node

/-- `B.mean(x, axis=-1)`, `backend/torch.py:40-49`, `backend/jax.py:38-46`, of one slice. -/
def nmean (l : List Node) : Node := sum l / const (l.length : XF)

/-- `mixnorm`, `core/logarithmic.py:295-309`, of one observation. -/
def logsMixnorm (obs : Node) (m s w : List Node) : Node :=
  let z := List.zipWith (fun mi si => (obs - mi) / si) m s
  let prob := List.zipWith (fun zi si => normPdf zi / si) z s
  let prob := sum (List.zipWith (· * ·) w prob)
  Neg.neg (log prob)

/-- `logs_ensemble`, `_logs.py:11-69`, of one ensemble.  `bw` is the bandwidth, given or estimated. -/
def logsEnsemble (obs : Node) (fct : List Node) (bw : Node) : Node :=
  let M := fct.length
  let bw := List.replicate M bw
  let w := List.replicate M (const (1 / (M : XF)))
  logsMixnorm obs fct bw w

/-- `clogs_ensemble`, `_logs.py:72-147` and `core/logarithmic.py:26-61`, of one ensemble.  `bw` is the bandwidth, given
or estimated. -/
def clogsEnsemble (obs : Node) (fct : List Node) (a b bw : Node) (cens : Bool) : Node :=
  let dens := nmean (fct.map fun x => normPdf ((obs - x) / bw) / bw)
  let s1 := -log dens
  let Fa := nmean (fct.map fun x => normCdf ((a - x) / bw))
  let Fb := nmean (fct.map fun x => normCdf ((b - x) / bw))
  let cons := Fb - Fa
  let wInd := a.val < obs.val ∧ obs.val < b.val
  if cens then
    let s2 := -log (const 1 - cons)
    sel wInd s1 s2
  else
    let s2 := log cons
    sel wInd (s1 + s2) (const 0)

end Grad
end Verif
