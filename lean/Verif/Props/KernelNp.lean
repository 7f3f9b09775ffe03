import Verif.Lemmas.KernelNp
import Verif.Lemmas.NpActs
import Verif.Props.CrpsNp

/-!
# C98: the vectorised kernel scores act on every observation and its ensemble separately

The theorems are about the array code itself (`Verif.Model.KernelNp`): the new axes, the broadcasts, the
axis arguments and the in-place operations of `core/kernels/_approx.py` and `_approx_w.py` are carried out.
The univariate functions take observations of shape `s` and members of shape `s + (M,)`, the multivariate
ones observations of shape `s + (D,)` and ensembles of shape `s + (M, D)`.  The result has shape `s` and its
entry `i` is the formula for one observation and its ensemble (`Verif.Model.Kernel`).
-/

noncomputable section

open scoped Classical

namespace Verif

open XF Py Np Spec

variable {obs fct ow fw w : Arr XF} {s : List ℕ} {M D : ℕ}

/-- The unweighted univariate estimators. -/
theorem C98_uv_estimators (ho : obs.shape = s) (hf : fct.shape = s ++ [M]) :
    Returns (KernelNp.nrgUv obs fct) s
      (fun i => KsApprox.nrg Kern.uv (obs.get i) (fct.row i)) ∧
    Returns (KernelNp.fairUv obs fct) s
      (fun i => KsApprox.fair Kern.uv (obs.get i) (fct.row i)) ∧
    Returns (KernelNp.akrUv obs fct) s
      (fun i => KsApprox.akr Kern.uv nan (obs.get i) (fct.row i)) ∧
    Returns (KernelNp.akrCircpermUv obs fct) s
      (fun i => KsApprox.akrCircperm Kern.uv nan (obs.get i) (fct.row i)) := by
  have h1 := Sc.self ho
  have h2 := Ve.self hf
  simp only [row_eq hf]
  exact ⟨(KernelNp.nrgUv_ev h1 h2).returns fun _ _ => rfl,
    (KernelNp.fairUv_ev h1 h2).returns fun _ _ => rfl,
    (KernelNp.akrUv_ev h1 h2).returns fun _ _ => rfl,
    (KernelNp.akrCircpermUv_ev h1 h2).returns fun _ _ => rfl⟩

/-- two observations with three members each -/
example : ∃ obs fct : Arr XF, obs.shape = [2] ∧ fct.shape = [2] ++ [3] ∧
    fct.get [1, 2] ≠ fct.get [0, 2] :=
  ⟨⟨[2], fun _ => 1⟩, ⟨[2, 3], fun i => fin (i.headD 0 : ℝ)⟩, rfl, rfl, by simp⟩

/-- The weighted univariate estimators. -/
theorem C98_uv_weighted (ho : obs.shape = s) (hf : fct.shape = s ++ [M])
    (hw : w.shape = s ++ [M]) :
    Returns (KernelNpW.nrgUv obs fct w) s
      (fun i => KsApproxW.nrg Kern.uv (obs.get i) (fct.row i) (w.row i)) ∧
    Returns (KernelNpW.fairUv obs fct w) s
      (fun i => KsApproxW.fair Kern.uv (obs.get i) (fct.row i) (w.row i)) ∧
    Returns (KernelNpW.akrUv obs fct w) s
      (fun i => KsApproxW.akr Kern.uv nan (obs.get i) (fct.row i) (w.row i)) ∧
    Returns (KernelNpW.akrCircpermUv obs fct w) s
      (fun i => KsApproxW.akrCircperm Kern.uv nan (obs.get i) (fct.row i) (w.row i)) := by
  have h1 := Sc.self ho
  have h2 := Ve.self hf
  have h3 := Ve.self hw
  simp only [row_eq hf, row_eq hw]
  exact ⟨(KernelNpW.nrgUv_ev h1 h2 h3).returns fun _ _ => rfl,
    (KernelNpW.fairUv_ev h1 h2 h3).returns fun _ _ => rfl,
    (KernelNpW.akrUv_ev h1 h2 h3).returns fun _ _ => rfl,
    (KernelNpW.akrCircpermUv_ev h1 h2 h3).returns fun _ _ => rfl⟩

/-- two observations with three weighted members each -/
example : ∃ obs fct w : Arr XF, obs.shape = [2] ∧ fct.shape = [2] ++ [3] ∧ w.shape = [2] ++ [3] ∧
    w.get [1, 2] ≠ w.get [1, 0] :=
  ⟨⟨[2], fun _ => 1⟩, ⟨[2, 3], fun i => fin (i.headD 0 : ℝ)⟩,
    ⟨[2, 3], fun i => fin (i.getD 1 0 : ℝ)⟩, rfl, rfl, rfl, by simp⟩

/-- The univariate outcome-weighted and vertically re-scaled scores, with and without ensemble weights. -/
theorem C98_uv_outcome (ho : obs.shape = s) (hf : fct.shape = s ++ [M])
    (hc : ow.shape = s) (hu : fw.shape = s ++ [M]) (hw : w.shape = s ++ [M]) :
    Returns (KernelNp.owUv obs fct ow fw) s
      (fun i => KsApprox.owUv Kern.uv (obs.get i) (fct.row i) (ow.get i) (fw.row i)) ∧
    Returns (KernelNp.vrUv obs fct ow fw) s
      (fun i => KsApprox.vrUv Kern.uv (obs.get i) (fct.row i) (ow.get i) (fw.row i)) ∧
    Returns (KernelNpW.owUv obs fct ow fw w) s
      (fun i => KsApproxW.owUv Kern.uv (obs.get i) (fct.row i) (ow.get i) (fw.row i) (w.row i)) ∧
    Returns (KernelNpW.vrUv obs fct ow fw w) s
      (fun i => KsApproxW.vrUv Kern.uv (obs.get i) (fct.row i) (ow.get i) (fw.row i) (w.row i)) := by
  have h1 := Sc.self ho
  have h2 := Ve.self hf
  have h3 := Ve.self hw
  have h4 := Sc.self hc
  have h5 := Ve.self hu
  simp only [row_eq hf, row_eq hw, row_eq hu]
  exact ⟨(KernelNp.owUv_ev h1 h2 h4 h5).returns fun _ _ => rfl,
    (KernelNp.vrUv_ev h1 h2 h4 h5).returns fun _ _ => rfl,
    (KernelNpW.owUv_ev h1 h2 h4 h5 h3).returns fun _ _ => rfl,
    (KernelNpW.vrUv_ev h1 h2 h4 h5 h3).returns fun _ _ => rfl⟩

/-- two observations, three members each, with outcome weights and member weights -/
example : ∃ obs fct ow fw w : Arr XF, obs.shape = [2] ∧ fct.shape = [2] ++ [3] ∧ ow.shape = [2] ∧
    fw.shape = [2] ++ [3] ∧ w.shape = [2] ++ [3] ∧ fw.get [1, 2] ≠ fw.get [0, 2] :=
  ⟨⟨[2], fun _ => 1⟩, ⟨[2, 3], fun _ => 2⟩, ⟨[2], fun _ => 1⟩,
    ⟨[2, 3], fun i => fin (i.headD 0 : ℝ)⟩, ⟨[2, 3], fun _ => 1⟩, rfl, rfl, rfl, rfl, rfl, by simp⟩

/-- The unweighted multivariate estimators. -/
theorem C98_mv_estimators (ho : obs.shape = s ++ [D]) (hf : fct.shape = s ++ [M, D]) :
    Returns (KernelNp.nrgMv obs fct) s
      (fun i => KsApprox.nrg Kern.mv (obs.row i) (fct.mat i)) ∧
    Returns (KernelNp.fairMv obs fct) s
      (fun i => KsApprox.fair Kern.mv (obs.row i) (fct.mat i)) ∧
    Returns (KernelNp.akrMv obs fct) s
      (fun i => KsApprox.akr Kern.mv [] (obs.row i) (fct.mat i)) ∧
    Returns (KernelNp.akrCircpermMv obs fct) s
      (fun i => KsApprox.akrCircperm Kern.mv [] (obs.row i) (fct.mat i)) := by
  have h1 := Ve.self ho
  have h2 := Ma.self hf
  simp only [row_eq ho, mat_of_shape hf]
  exact ⟨(KernelNp.nrgMv_ev h1 h2).returns fun _ _ => rfl,
    (KernelNp.fairMv_ev h1 h2).returns fun _ _ => rfl,
    (KernelNp.akrMv_ev h1 h2).returns fun _ _ => rfl,
    (KernelNp.akrCircpermMv_ev h1 h2).returns fun _ _ => rfl⟩

/-- two observations with three members each -/
example : ∃ obs fct : Arr XF, obs.shape = [2] ++ [2] ∧ fct.shape = [2] ++ [3, 2] ∧
    fct.get [1, 2, 0] ≠ fct.get [0, 2, 0] :=
  ⟨⟨[2, 2], fun _ => 1⟩, ⟨[2, 3, 2], fun i => fin (i.headD 0 : ℝ)⟩, rfl, rfl, by simp⟩

/-- The weighted multivariate estimators. -/
theorem C98_mv_weighted (ho : obs.shape = s ++ [D]) (hf : fct.shape = s ++ [M, D])
    (hw : w.shape = s ++ [M]) :
    Returns (KernelNpW.nrgMv obs fct w) s
      (fun i => KsApproxW.nrg Kern.mv (obs.row i) (fct.mat i) (w.row i)) ∧
    Returns (KernelNpW.fairMv obs fct w) s
      (fun i => KsApproxW.fair Kern.mv (obs.row i) (fct.mat i) (w.row i)) ∧
    Returns (KernelNpW.akrMv obs fct w) s
      (fun i => KsApproxW.akr Kern.mv [] (obs.row i) (fct.mat i) (w.row i)) ∧
    Returns (KernelNpW.akrCircpermMv obs fct w) s
      (fun i => KsApproxW.akrCircperm Kern.mv [] (obs.row i) (fct.mat i) (w.row i)) := by
  have h1 := Ve.self ho
  have h2 := Ma.self hf
  have h3 := Ve.self hw
  simp only [row_eq ho, mat_of_shape hf, row_eq hw]
  exact ⟨(KernelNpW.nrgMv_ev h1 h2 h3).returns fun _ _ => rfl,
    (KernelNpW.fairMv_ev h1 h2 h3).returns fun _ _ => rfl,
    (KernelNpW.akrMv_ev h1 h2 h3).returns fun _ _ => rfl,
    (KernelNpW.akrCircpermMv_ev h1 h2 h3).returns fun _ _ => rfl⟩

/-- two observations with three weighted members each -/
example : ∃ obs fct w : Arr XF, obs.shape = [2] ++ [2] ∧ fct.shape = [2] ++ [3, 2] ∧ w.shape = [2] ++ [3] ∧
    w.get [1, 2] ≠ w.get [1, 0] :=
  ⟨⟨[2, 2], fun _ => 1⟩, ⟨[2, 3, 2], fun i => fin (i.headD 0 : ℝ)⟩,
    ⟨[2, 3], fun i => fin (i.getD 1 0 : ℝ)⟩, rfl, rfl, rfl, by simp⟩

/-- The multivariate outcome-weighted and vertically re-scaled scores, with and without ensemble weights. -/
theorem C98_mv_outcome (ho : obs.shape = s ++ [D]) (hf : fct.shape = s ++ [M, D])
    (hc : ow.shape = s) (hu : fw.shape = s ++ [M]) (hw : w.shape = s ++ [M]) :
    Returns (KernelNp.owMv obs fct ow fw) s
      (fun i => KsApprox.owMv Kern.mv (obs.row i) (fct.mat i) (ow.get i) (fw.row i)) ∧
    Returns (KernelNp.vrMv obs fct ow fw) s
      (fun i => KsApprox.vrMv Kern.mv (obs.row i) (fct.mat i) (ow.get i) (fw.row i)) ∧
    Returns (KernelNpW.owMv obs fct ow fw w) s
      (fun i => KsApproxW.owMv Kern.mv (obs.row i) (fct.mat i) (ow.get i) (fw.row i) (w.row i)) ∧
    Returns (KernelNpW.vrMv obs fct ow fw w) s
      (fun i => KsApproxW.vrMv Kern.mv (obs.row i) (fct.mat i) (ow.get i) (fw.row i) (w.row i)) := by
  have h1 := Ve.self ho
  have h2 := Ma.self hf
  have h3 := Ve.self hw
  have h4 := Sc.self hc
  have h5 := Ve.self hu
  simp only [row_eq ho, mat_of_shape hf, row_eq hw, row_eq hu]
  exact ⟨(KernelNp.owMv_ev h1 h2 h4 h5).returns fun _ _ => rfl,
    (KernelNp.vrMv_ev h1 h2 h4 h5).returns fun _ _ => rfl,
    (KernelNpW.owMv_ev h1 h2 h4 h5 h3).returns fun _ _ => rfl,
    (KernelNpW.vrMv_ev h1 h2 h4 h5 h3).returns fun _ _ => rfl⟩

/-- two observations, three members each, with outcome weights and member weights -/
example : ∃ obs fct ow fw w : Arr XF, obs.shape = [2] ++ [2] ∧ fct.shape = [2] ++ [3, 2] ∧ ow.shape = [2] ∧
    fw.shape = [2] ++ [3] ∧ w.shape = [2] ++ [3] ∧ fw.get [1, 2] ≠ fw.get [0, 2] :=
  ⟨⟨[2, 2], fun _ => 1⟩, ⟨[2, 3, 2], fun _ => 2⟩, ⟨[2], fun _ => 1⟩,
    ⟨[2, 3], fun i => fin (i.headD 0 : ℝ)⟩, ⟨[2, 3], fun _ => 1⟩, rfl, rfl, rfl, rfl, rfl, by simp⟩

/-- Stated without the formulas for one ensemble: every estimator, run on arrays, does what running it on
each observation and its ensemble does. -/
theorem C98_slices :
    ActsPerSlice KernelNp.nrgUv ∧ ActsPerSlice KernelNp.fairUv ∧
    ActsPerSlice KernelNp.akrUv ∧ ActsPerSlice KernelNp.akrCircpermUv ∧
    ActsPerSliceW KernelNpW.nrgUv ∧ ActsPerSliceW KernelNpW.fairUv ∧
    ActsPerSliceW KernelNpW.akrUv ∧ ActsPerSliceW KernelNpW.akrCircpermUv ∧
    ActsPerMat KernelNp.nrgMv ∧ ActsPerMat KernelNp.fairMv ∧
    ActsPerMat KernelNp.akrMv ∧ ActsPerMat KernelNp.akrCircpermMv ∧
    ActsPerMatW KernelNpW.nrgMv ∧ ActsPerMatW KernelNpW.fairMv ∧
    ActsPerMatW KernelNpW.akrMv ∧ ActsPerMatW KernelNpW.akrCircpermMv :=
  ⟨acts_of_returns fun _ _ _ _ ho hf => (C98_uv_estimators ho hf).1,
   acts_of_returns fun _ _ _ _ ho hf => (C98_uv_estimators ho hf).2.1,
   acts_of_returns fun _ _ _ _ ho hf => (C98_uv_estimators ho hf).2.2.1,
   acts_of_returns fun _ _ _ _ ho hf => (C98_uv_estimators ho hf).2.2.2,
   actsW_of_returns fun _ _ _ _ _ ho hf hw => (C98_uv_weighted ho hf hw).1,
   actsW_of_returns fun _ _ _ _ _ ho hf hw => (C98_uv_weighted ho hf hw).2.1,
   actsW_of_returns fun _ _ _ _ _ ho hf hw => (C98_uv_weighted ho hf hw).2.2.1,
   actsW_of_returns fun _ _ _ _ _ ho hf hw => (C98_uv_weighted ho hf hw).2.2.2,
   actsMat_of_returns fun _ _ _ _ _ ho hf => (C98_mv_estimators ho hf).1,
   actsMat_of_returns fun _ _ _ _ _ ho hf => (C98_mv_estimators ho hf).2.1,
   actsMat_of_returns fun _ _ _ _ _ ho hf => (C98_mv_estimators ho hf).2.2.1,
   actsMat_of_returns fun _ _ _ _ _ ho hf => (C98_mv_estimators ho hf).2.2.2,
   actsMatW_of_returns fun _ _ _ _ _ _ ho hf hw => (C98_mv_weighted ho hf hw).1,
   actsMatW_of_returns fun _ _ _ _ _ _ ho hf hw => (C98_mv_weighted ho hf hw).2.1,
   actsMatW_of_returns fun _ _ _ _ _ _ ho hf hw => (C98_mv_weighted ho hf hw).2.2.1,
   actsMatW_of_returns fun _ _ _ _ _ _ ho hf hw => (C98_mv_weighted ho hf hw).2.2.2⟩

end Verif
