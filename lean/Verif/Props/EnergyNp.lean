import Verif.Lemmas.EnergyNp
import Verif.Lemmas.NpActs

/-!
# C96: the vectorised energy score acts on every observation vector and its ensemble separately

The theorems are about the array code itself (`Verif.Model.EnergyNp`): the new axes, the broadcasts, the
axis arguments and the in-place products of `core/energy/_score.py` and `_score_w.py` are carried out.  For
observations of shape `s + (D,)`, ensembles of shape `s + (M, D)` and weights of the shapes that belong to
them, the code returns an array of shape `s` whose entry `i` is the formula for one observation vector and
its ensemble (`Verif.Model.Energy`).
-/

noncomputable section

open scoped Classical

namespace Verif

open XF Py Np Spec

variable {obs fct ow fw w : Arr XF} {s : List ℕ} {M D : ℕ}

/-- The unweighted estimators. -/
theorem C96_estimators (ho : obs.shape = s ++ [D]) (hf : fct.shape = s ++ [M, D]) :
    Returns (EnergyNp.nrg obs fct) s (fun i => EsApprox.nrg (obs.row i) (fct.mat i)) ∧
    Returns (EnergyNp.fair obs fct) s (fun i => EsApprox.fair (obs.row i) (fct.mat i)) ∧
    Returns (EnergyNp.akr obs fct) s (fun i => EsApprox.akr (obs.row i) (fct.mat i)) ∧
    Returns (EnergyNp.akrCircperm obs fct) s (fun i => EsApprox.akrCircperm (obs.row i) (fct.mat i)) := by
  have h1 := Ve.self ho
  have h2 := Ma.self hf
  simp only [row_eq ho, mat_of_shape hf]
  exact ⟨(EnergyNp.nrg_ev h1 h2).returns fun _ _ => rfl, (EnergyNp.fair_ev h1 h2).returns fun _ _ => rfl,
    (EnergyNp.akr_ev h1 h2).returns fun _ _ => rfl,
    (EnergyNp.akrCircperm_ev h1 h2).returns fun _ _ => rfl⟩

/-- two observation vectors of length two with three members each -/
example : ∃ obs fct : Arr XF, obs.shape = [2] ++ [2] ∧ fct.shape = [2] ++ [3, 2] ∧
    fct.get [1, 2, 0] ≠ fct.get [0, 2, 0] :=
  ⟨⟨[2, 2], fun _ => 1⟩, ⟨[2, 3, 2], fun i => fin (i.headD 0 : ℝ)⟩, rfl, rfl, by simp⟩

/-- The weighted estimators. -/
theorem C96_weighted (ho : obs.shape = s ++ [D]) (hf : fct.shape = s ++ [M, D])
    (hw : w.shape = s ++ [M]) :
    Returns (EnergyNpW.nrg obs fct w) s (fun i => EsApproxW.nrg (obs.row i) (fct.mat i) (w.row i)) ∧
    Returns (EnergyNpW.fair obs fct w) s (fun i => EsApproxW.fair (obs.row i) (fct.mat i) (w.row i)) ∧
    Returns (EnergyNpW.akr obs fct w) s (fun i => EsApproxW.akr (obs.row i) (fct.mat i) (w.row i)) ∧
    Returns (EnergyNpW.akrCircperm obs fct w) s
      (fun i => EsApproxW.akrCircperm (obs.row i) (fct.mat i) (w.row i)) := by
  have h1 := Ve.self ho
  have h2 := Ma.self hf
  have h3 := Ve.self hw
  simp only [row_eq ho, mat_of_shape hf, row_eq hw]
  exact ⟨(EnergyNpW.nrg_ev h1 h2 h3).returns fun _ _ => rfl,
    (EnergyNpW.fair_ev h1 h2 h3).returns fun _ _ => rfl,
    (EnergyNpW.akr_ev h1 h2 h3).returns fun _ _ => rfl,
    (EnergyNpW.akrCircperm_ev h1 h2 h3).returns fun _ _ => rfl⟩

/-- a 2 x 2 grid of observation vectors of length two with three weighted members each -/
example : ∃ obs fct w : Arr XF, obs.shape = [2, 2] ++ [2] ∧ fct.shape = [2, 2] ++ [3, 2] ∧
    w.shape = [2, 2] ++ [3] ∧ w.get [0, 1, 2] ≠ w.get [0, 1, 1] :=
  ⟨⟨[2, 2, 2], fun _ => 1⟩, ⟨[2, 2, 3, 2], fun i => fin (i.headD 0 : ℝ)⟩,
    ⟨[2, 2, 3], fun i => fin (i.getD 2 0 : ℝ)⟩, rfl, rfl, rfl, by simp⟩

/-- The outcome-weighted and the vertically re-scaled scores, with and without ensemble weights. -/
theorem C96_outcome (ho : obs.shape = s ++ [D]) (hf : fct.shape = s ++ [M, D]) (hc : ow.shape = s)
    (hu : fw.shape = s ++ [M]) (hw : w.shape = s ++ [M]) :
    Returns (EnergyNp.ow obs fct ow fw) s
      (fun i => EsApprox.ow (obs.row i) (fct.mat i) (ow.get i) (fw.row i)) ∧
    Returns (EnergyNp.vr obs fct ow fw) s
      (fun i => EsApprox.vr (obs.row i) (fct.mat i) (ow.get i) (fw.row i)) ∧
    Returns (EnergyNpW.ow obs fct ow fw w) s
      (fun i => EsApproxW.ow (obs.row i) (fct.mat i) (ow.get i) (fw.row i) (w.row i)) ∧
    Returns (EnergyNpW.vr obs fct ow fw w) s
      (fun i => EsApproxW.vr (obs.row i) (fct.mat i) (ow.get i) (fw.row i) (w.row i)) := by
  have h1 := Ve.self ho
  have h2 := Ma.self hf
  have h3 := Ve.self hw
  have h4 := Sc.self hc
  have h5 := Ve.self hu
  simp only [row_eq ho, mat_of_shape hf, row_eq hw, row_eq hu]
  exact ⟨(EnergyNp.ow_ev h1 h2 h4 h5).returns fun _ _ => rfl,
    (EnergyNp.vr_ev h1 h2 h4 h5).returns fun _ _ => rfl,
    (EnergyNpW.ow_ev h1 h2 h4 h5 h3).returns fun _ _ => rfl,
    (EnergyNpW.vr_ev h1 h2 h4 h5 h3).returns fun _ _ => rfl⟩

/-- two observation vectors of length two, three members each, with outcome weights and member weights -/
example : ∃ obs fct ow fw w : Arr XF, obs.shape = [2] ++ [2] ∧ fct.shape = [2] ++ [3, 2] ∧
    ow.shape = [2] ∧ fw.shape = [2] ++ [3] ∧ w.shape = [2] ++ [3] ∧ fw.get [1, 2] ≠ fw.get [0, 2] :=
  ⟨⟨[2, 2], fun _ => 1⟩, ⟨[2, 3, 2], fun _ => 2⟩, ⟨[2], fun _ => 1⟩,
    ⟨[2, 3], fun i => fin (i.headD 0 : ℝ)⟩, ⟨[2, 3], fun _ => 1⟩, rfl, rfl, rfl, rfl, rfl,
    by simp⟩

/-- Stated without the formulas for one ensemble: every estimator, run on arrays, does what running it on
each observation vector and its ensemble does. -/
theorem C96_slices :
    ActsPerMat EnergyNp.nrg ∧ ActsPerMat EnergyNp.fair ∧ ActsPerMat EnergyNp.akr ∧
    ActsPerMat EnergyNp.akrCircperm ∧
    ActsPerMatW EnergyNpW.nrg ∧ ActsPerMatW EnergyNpW.fair ∧ ActsPerMatW EnergyNpW.akr ∧
    ActsPerMatW EnergyNpW.akrCircperm :=
  ⟨actsMat_of_returns fun _ _ _ _ _ ho hf => (C96_estimators ho hf).1,
   actsMat_of_returns fun _ _ _ _ _ ho hf => (C96_estimators ho hf).2.1,
   actsMat_of_returns fun _ _ _ _ _ ho hf => (C96_estimators ho hf).2.2.1,
   actsMat_of_returns fun _ _ _ _ _ ho hf => (C96_estimators ho hf).2.2.2,
   actsMatW_of_returns fun _ _ _ _ _ _ ho hf hw => (C96_weighted ho hf hw).1,
   actsMatW_of_returns fun _ _ _ _ _ _ ho hf hw => (C96_weighted ho hf hw).2.1,
   actsMatW_of_returns fun _ _ _ _ _ _ ho hf hw => (C96_weighted ho hf hw).2.2.1,
   actsMatW_of_returns fun _ _ _ _ _ _ ho hf hw => (C96_weighted ho hf hw).2.2.2⟩

end Verif
