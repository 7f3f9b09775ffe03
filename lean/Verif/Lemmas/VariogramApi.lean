import Verif.Lemmas.Variogram

/-! The variogram score functions on one observation vector and one ensemble. -/

noncomputable section

open scoped Classical

namespace Verif

open XF Py Mv Spec

namespace Api

theorem vsEnsemble_eq (path : Path) (obs fct : Arr XF) (w : List (List XF)) (mAxis vAxis : ℤ)
    (EW : Option (Arr XF)) (p : ℝ) (est : String) :
    vsEnsemble path obs fct (some w) mAxis vAxis EW p est
      = mvScore (vsKernel path est w p) (vsKernelW path est w p) obs fct mAxis vAxis EW := by
  unfold vsEnsemble mvScore
  cases multivariateArrayCheck obs fct mAxis vAxis <;> cases EW <;> rfl

theorem vsEnsemble_ones {path : Path} {obs fct : Arr XF} {mAxis vAxis : ℤ} {m v : ℕ}
    (h : MvAxes mAxis vAxis fct.ndim m v) (hs : obs.shape = fct.shape.eraseIdx m)
    (EW : Option (Arr XF)) (p : ℝ) (est : String) :
    vsEnsemble path obs fct none mAxis vAxis EW p est
      = vsEnsemble path obs fct (some (pairOnes (fct.shape.getD v 0))) mAxis vAxis EW p est := by
  unfold vsEnsemble
  rw [mvArrayCheck h hs]
  have : (fct.moveLast2 m v).shape.getD ((fct.moveLast2 m v).ndim - 1) 0 = fct.shape.getD v 0 := by
    simp only [Arr.moveLast2, Arr.ndim]
    generalize Arr.erase2 m v fct.shape = s
    simp [List.getD_eq_getElem?_getD, List.getElem?_append_right]
  simp only [bind, Except.bind, Option.getD_none, Option.getD_some, this]

variable {D : ℕ}

theorem pairOnes_eq (D : ℕ) : pairOnes D = matl fun _ _ : Fin D => (1 : ℝ) := by
  unfold pairOnes matl
  apply List.ext_getElem
  · simp
  · intro i h1 h2
    simp only [List.getElem_replicate, List.getElem_ofFn]
    apply List.ext_getElem
    · simp
    · intro j h3 h4
      simp [one_def]

theorem vs1_default {path : Path} {est : String} {p : ℝ} {y : List XF} {xs : List (List XF)}
    {ws : Option (List XF)} (hy : y.length = D) :
    vs1 path est p none D y xs ws
      = vs1 path est p (some (matl fun _ _ : Fin D => (1 : ℝ))) D y xs ws := by
  unfold vs1
  rw [vsEnsemble_ones (ofRows_axes D xs) (ofRows_shape hy), ← pairOnes_eq]
  rfl

theorem vs1_none {p : ℝ} {w : List (List XF)} {y : List XF} {xs : List (List XF)} (path : Path)
    (est : String) (hy : y.length = D) (hx : ∀ x ∈ xs, x.length = D) :
    vs1 path est p (some w) D y xs none = (vsKernel path est w p).map fun k => k y xs := by
  unfold vs1
  rw [vsEnsemble_eq, Option.map_none, mv1_none hy hx]

theorem vs1_some {p : ℝ} {w : List (List XF)} {y : List XF} {xs : List (List XF)} {ws : List XF}
    (path : Path) (est : String) (hy : y.length = D) (hx : ∀ x ∈ xs, x.length = D)
    (hw : ws.length = xs.length) :
    vs1 path est p (some w) D y xs (some ws) = if ∃ x ∈ ws, x < 0 then .error .valueError
      else (vsKernelW path est w p).map fun k => k y xs (ws.map fun x => x / ws.sum) := by
  unfold vs1
  rw [vsEnsemble_eq, Option.map_some, mv1_some hy hx hw]

theorem owvsEnsemble_eq (path : Path) (obs fct : Arr XF) (f : List XF → XF) (w : List (List XF))
    (mAxis vAxis : ℤ) (EW : Option (Arr XF)) (p : ℝ) :
    owvsEnsemble path obs fct f (some w) mAxis vAxis EW p
      = mvScoreO (VsGufunc.ow w p) (VsApprox.ow w p) (VsGufuncW.ow w p) (VsApproxW.ow w p) path obs
          fct f mAxis vAxis EW := by
  unfold owvsEnsemble mvScoreO
  cases multivariateArrayCheck obs fct mAxis vAxis <;> cases EW <;> rfl

theorem vrvsEnsemble_eq (path : Path) (obs fct : Arr XF) (f : List XF → XF) (w : List (List XF))
    (mAxis vAxis : ℤ) (EW : Option (Arr XF)) (p : ℝ) :
    vrvsEnsemble path obs fct f (some w) mAxis vAxis EW p
      = mvScoreO (VsGufunc.vr w p) (VsApprox.vr w p) (VsGufuncW.vr w p) (VsApproxW.vr w p) path obs
          fct f mAxis vAxis EW := by
  unfold vrvsEnsemble mvScoreO
  cases multivariateArrayCheck obs fct mAxis vAxis <;> cases EW <;> rfl

end Api

section fin
variable {D : ℕ} {p : ℝ} (hp : 0 < p) (W : Fin D → Fin D → ℝ)
open Api
include hp

theorem vs1_nrg (path : Path) (y : Eu D) {xs : List (Eu D)} (h : xs ≠ []) :
    vs1 path "nrg" p (some (matl W)) D (vec y) (xs.map vec) none
      = .ok (fin (Spec.vs p W y (equalW xs))) := by
  rw [vs1_none path _ (vec_length y) (vecs_length xs)]
  cases path <;>
    simp [vsKernel, Except.map, VsGufunc.nrg_fin hp W y xs h, VsApprox.nrg_fin hp W y xs h]

theorem vs1_fair (path : Path) (y : Eu D) {xs : List (Eu D)} (h : 2 ≤ xs.length) :
    vs1 path "fair" p (some (matl W)) D (vec y) (xs.map vec) none
      = .ok (fin (vsFair p W y xs)) := by
  rw [vs1_none path _ (vec_length y) (vecs_length xs)]
  cases path <;>
    simp [vsKernel, Except.map, VsGufunc.fair_fin hp W y xs h, VsApprox.fair_fin hp W y xs h]

omit hp in
theorem vs1_weighted (path : Path) (est : String) (y : Eu D) (l : List (Eu D × ℝ))
    (hw : ∀ p ∈ l, 0 ≤ p.2) (h : (l.map Prod.snd).sum ≠ 0) :
    vs1 path est p (some (matl W)) D (vec y) (l.map fun p => vec p.1) (some (l.map fun p => fin p.2))
      = (vsKernelW path est (matl W) p).map fun k => k (vec y)
        ((Spec.normW l).map fun p => vec p.1) ((Spec.normW l).map fun p => fin p.2) := by
  rw [vs1_some path est (vec_length y) (vecs_length' _ l) (by simp), if_neg (no_neg l _ hw),
    norm_weights l h, normW_fst]

theorem vs1_nrg_weighted (path : Path) (y : Eu D) (l : List (Eu D × ℝ))
    (hw : ∀ p ∈ l, 0 ≤ p.2) (h : (l.map Prod.snd).sum ≠ 0) :
    vs1 path "nrg" p (some (matl W)) D (vec y) (l.map fun p => vec p.1)
      (some (l.map fun p => fin p.2)) = .ok (fin (Spec.vs p W y (Spec.normW l))) := by
  rw [vs1_weighted W path _ y l hw h]
  cases path <;>
    simp [vsKernelW, Except.map, VsGufuncW.nrg_fin hp, VsApproxW.nrg_fin hp]

end fin
end Verif
