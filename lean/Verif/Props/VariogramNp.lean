import Verif.Lemmas.VariogramNp
import Verif.Lemmas.NpActs

/-!
# C97: the vectorised variogram score acts on every observation vector and its ensemble separately

The theorems are about the array code itself (`Verif.Model.VariogramNp`): the new axes (up to two of them at
once), the broadcasts, the axis arguments and the in-place operations of `core/variogram/_score.py` and
`_score_w.py` are carried out.  The pair weights are either one matrix per batch index, which is what the
public functions build by default (`B.ones(obs.shape + (D,))`), or one matrix for all.
-/

noncomputable section

open scoped Classical

namespace Verif

open XF Py Np Spec

variable {obs fct ow fw w ensW : Arr XF} {s : List ℕ} {M D : ℕ}

/-- One matrix of pair weights per batch index. -/
theorem C97_estimators (p : ℝ) (ho : obs.shape = s ++ [D]) (hf : fct.shape = s ++ [M, D])
    (hw : w.shape = s ++ [D, D]) (hv : ensW.shape = s ++ [M]) :
    Returns (VariogramNp.nrg p obs fct w) s
      (fun i => VsApprox.nrg (w.mat i) p (obs.row i) (fct.mat i)) ∧
    Returns (VariogramNp.fair p obs fct w) s
      (fun i => VsApprox.fair (w.mat i) p (obs.row i) (fct.mat i)) ∧
    Returns (VariogramNpW.nrg p obs fct w ensW) s
      (fun i => VsApproxW.nrg (w.mat i) p (obs.row i) (fct.mat i) (ensW.row i)) ∧
    Returns (VariogramNpW.fair p obs fct w ensW) s
      (fun i => VsApproxW.fair (w.mat i) p (obs.row i) (fct.mat i) (ensW.row i)) := by
  have h1 := Ve.self ho
  have h2 := Ma.self hf
  have h3 : Wt w s D _ := Or.inl (Ma.self hw)
  have h4 := Ve.self hv
  simp only [row_eq ho, mat_of_shape hf, mat_of_shape hw, row_eq hv]
  exact ⟨(VariogramNp.nrg_ev h1 h2 h3).returns fun _ _ => rfl,
    (VariogramNp.fair_ev h1 h2 h3).returns fun _ _ => rfl,
    (VariogramNpW.nrg_ev h1 h2 h3 h4).returns fun _ _ => rfl,
    (VariogramNpW.fair_ev h1 h2 h3 h4).returns fun _ _ => rfl⟩

/-- two observation vectors of length two with three members each, pair weights that differ between the
two -/
example : ∃ obs fct w ensW : Arr XF, obs.shape = [2] ++ [2] ∧ fct.shape = [2] ++ [3, 2] ∧
    w.shape = [2] ++ [2, 2] ∧ ensW.shape = [2] ++ [3] ∧ w.get [1, 0, 1] ≠ w.get [0, 0, 1] :=
  ⟨⟨[2, 2], fun _ => 1⟩, ⟨[2, 3, 2], fun _ => 2⟩, ⟨[2, 2, 2], fun i => fin (i.headD 0 : ℝ)⟩,
    ⟨[2, 3], fun _ => 1⟩, rfl, rfl, rfl, rfl, by simp⟩

/-- One matrix of pair weights for all batch indices. -/
theorem C97_shared_weights (p : ℝ) (ho : obs.shape = s ++ [D]) (hf : fct.shape = s ++ [M, D])
    (hw : w.shape = [D, D]) (hv : ensW.shape = s ++ [M]) (hc : ow.shape = s) (hu : fw.shape = s ++ [M]) :
    Returns (VariogramNp.nrg p obs fct w) s
      (fun i => VsApprox.nrg (w.mat []) p (obs.row i) (fct.mat i)) ∧
    Returns (VariogramNp.fair p obs fct w) s
      (fun i => VsApprox.fair (w.mat []) p (obs.row i) (fct.mat i)) ∧
    Returns (VariogramNpW.nrg p obs fct w ensW) s
      (fun i => VsApproxW.nrg (w.mat []) p (obs.row i) (fct.mat i) (ensW.row i)) ∧
    Returns (VariogramNpW.fair p obs fct w ensW) s
      (fun i => VsApproxW.fair (w.mat []) p (obs.row i) (fct.mat i) (ensW.row i)) ∧
    Returns (VariogramNp.ow p obs fct w ow fw) s
      (fun i => VsApprox.ow (w.mat []) p (obs.row i) (fct.mat i) (ow.get i) (fw.row i)) ∧
    Returns (VariogramNp.vr p obs fct w ow fw) s
      (fun i => VsApprox.vr (w.mat []) p (obs.row i) (fct.mat i) (ow.get i) (fw.row i)) ∧
    Returns (VariogramNpW.ow p obs fct w ow fw ensW) s
      (fun i => VsApproxW.ow (w.mat []) p (obs.row i) (fct.mat i) (ow.get i) (fw.row i) (ensW.row i)) ∧
    Returns (VariogramNpW.vr p obs fct w ow fw ensW) s
      (fun i => VsApproxW.vr (w.mat []) p (obs.row i) (fct.mat i) (ow.get i) (fw.row i) (ensW.row i)) := by
  have h1 := Ve.self ho
  have h2 := Ma.self hf
  have h3 : Wt w s D (fun _ k l => w.get [k, l]) :=
    Or.inr ⟨fun k l => w.get [k, l], rfl, IsB.congr (Ma.self (s := []) hw) fun i hi _ _ => by cases hi; rfl⟩
  have h4 := Ve.self hv
  have h5 := Sc.self hc
  have h6 := Ve.self hu
  simp only [row_eq ho, mat_of_shape hf, mat_of_shape (s := []) hw, row_eq hv, row_eq hu]
  exact ⟨(VariogramNp.nrg_ev h1 h2 h3).returns fun _ _ => rfl,
    (VariogramNp.fair_ev h1 h2 h3).returns fun _ _ => rfl,
    (VariogramNpW.nrg_ev h1 h2 h3 h4).returns fun _ _ => rfl,
    (VariogramNpW.fair_ev h1 h2 h3 h4).returns fun _ _ => rfl,
    (VariogramNp.ow_ev h1 h2 h3 h5 h6).returns fun _ _ => rfl,
    (VariogramNp.vr_ev h1 h2 h3 h5 h6).returns fun _ _ => rfl,
    (VariogramNpW.ow_ev h1 h2 h3 h5 h6 h4).returns fun _ _ => rfl,
    (VariogramNpW.vr_ev h1 h2 h3 h5 h6 h4).returns fun _ _ => rfl⟩

/-- a 2 x 2 grid of observation vectors of length two with three members each, one matrix of pair weights -/
example : ∃ obs fct w ensW ow fw : Arr XF, obs.shape = [2, 2] ++ [2] ∧ fct.shape = [2, 2] ++ [3, 2] ∧
    w.shape = [2, 2] ∧ ensW.shape = [2, 2] ++ [3] ∧ ow.shape = [2, 2] ∧ fw.shape = [2, 2] ++ [3] ∧
    w.get [0, 1] ≠ w.get [1, 1] :=
  ⟨⟨[2, 2, 2], fun _ => 1⟩, ⟨[2, 2, 3, 2], fun _ => 2⟩, ⟨[2, 2], fun i => fin (i.headD 0 : ℝ)⟩,
    ⟨[2, 2, 3], fun _ => 1⟩, ⟨[2, 2], fun _ => 1⟩, ⟨[2, 2, 3], fun _ => 1⟩, rfl, rfl, rfl, rfl, rfl, rfl,
    by simp⟩

/-- The outcome-weighted and the vertically re-scaled scores, with and without ensemble weights; one matrix
of pair weights per batch index. -/
theorem C97_outcome (p : ℝ) (ho : obs.shape = s ++ [D]) (hf : fct.shape = s ++ [M, D])
    (hw : w.shape = s ++ [D, D]) (hv : ensW.shape = s ++ [M]) (hc : ow.shape = s)
    (hu : fw.shape = s ++ [M]) :
    Returns (VariogramNp.ow p obs fct w ow fw) s
      (fun i => VsApprox.ow (w.mat i) p (obs.row i) (fct.mat i) (ow.get i) (fw.row i)) ∧
    Returns (VariogramNp.vr p obs fct w ow fw) s
      (fun i => VsApprox.vr (w.mat i) p (obs.row i) (fct.mat i) (ow.get i) (fw.row i)) ∧
    Returns (VariogramNpW.ow p obs fct w ow fw ensW) s
      (fun i => VsApproxW.ow (w.mat i) p (obs.row i) (fct.mat i) (ow.get i) (fw.row i) (ensW.row i)) ∧
    Returns (VariogramNpW.vr p obs fct w ow fw ensW) s
      (fun i => VsApproxW.vr (w.mat i) p (obs.row i) (fct.mat i) (ow.get i) (fw.row i) (ensW.row i)) := by
  have h1 := Ve.self ho
  have h2 := Ma.self hf
  have h3 : Wt w s D _ := Or.inl (Ma.self hw)
  have h4 := Ve.self hv
  have h5 := Sc.self hc
  have h6 := Ve.self hu
  simp only [row_eq ho, mat_of_shape hf, mat_of_shape hw, row_eq hv, row_eq hu]
  exact ⟨(VariogramNp.ow_ev h1 h2 h3 h5 h6).returns fun _ _ => rfl,
    (VariogramNp.vr_ev h1 h2 h3 h5 h6).returns fun _ _ => rfl,
    (VariogramNpW.ow_ev h1 h2 h3 h5 h6 h4).returns fun _ _ => rfl,
    (VariogramNpW.vr_ev h1 h2 h3 h5 h6 h4).returns fun _ _ => rfl⟩

/-- two observation vectors of length two with three members each and outcome weights that differ between
the two -/
example : ∃ obs fct w ensW ow fw : Arr XF, obs.shape = [2] ++ [2] ∧ fct.shape = [2] ++ [3, 2] ∧
    w.shape = [2] ++ [2, 2] ∧ ensW.shape = [2] ++ [3] ∧ ow.shape = [2] ∧ fw.shape = [2] ++ [3] ∧
    ow.get [1] ≠ ow.get [0] :=
  ⟨⟨[2, 2], fun _ => 1⟩, ⟨[2, 3, 2], fun _ => 2⟩, ⟨[2, 2, 2], fun _ => 1⟩,
    ⟨[2, 3], fun _ => 1⟩, ⟨[2], fun i => fin (i.headD 0 : ℝ)⟩, ⟨[2, 3], fun _ => 1⟩, rfl, rfl, rfl, rfl, rfl,
    rfl, by simp⟩

/-- Stated without the formulas for one ensemble: both unweighted estimators, run on arrays, do what running
them on each observation vector, its ensemble and its pair weights does. -/
theorem C97_slices (p : ℝ) : ActsPerMatP (VariogramNp.nrg p) ∧ ActsPerMatP (VariogramNp.fair p) :=
  ⟨actsMatP_of_returns (k := fun y x w => VsApprox.nrg w p y x) fun _ fct _ s M _ ho hf hw =>
      (C97_estimators (ensW := ⟨s ++ [M], fun _ => 1⟩) p ho hf hw rfl).1,
   actsMatP_of_returns (k := fun y x w => VsApprox.fair w p y x) fun _ fct _ s M _ ho hf hw =>
      (C97_estimators (ensW := ⟨s ++ [M], fun _ => 1⟩) p ho hf hw rfl).2.1⟩

end Verif
