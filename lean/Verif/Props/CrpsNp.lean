import Verif.Lemmas.CrpsNp
import Mathlib.Tactic.IntervalCases

/-!
# C95: the vectorised CRPS code acts on every slice separately

The theorems are about the array code itself (`Verif.Model.CrpsNp`): the new axes, the broadcasts and the
axis arguments of `core/crps/_approx.py` and `_approx_w.py` are carried out.  For observations of any shape
`s`, members of shape `s + (M,)` and weights of the shapes that belong to them, the code returns an array of
shape `s` whose entry `i` is the formula for one slice (`Verif.Model.Crps`), applied to observation `i` and
the members `i`.
-/

noncomputable section

open scoped Classical

namespace Verif

open XF Py Np Spec

variable {obs fct ow fw w : Arr XF} {s : List ℕ} {M : ℕ}

theorem row_of_shape {a : Arr XF} (h : a.shape = s ++ [M]) (i : List ℕ) :
    a.row i = (List.range M).map fun k => a.get (i ++ [k]) := by
  unfold Arr.row
  rw [h]
  simp

/-- The unweighted estimators. -/
theorem C95_estimators (ho : obs.shape = s) (hf : fct.shape = s ++ [M]) :
    Returns (CrpsNp.nrg obs fct) s (fun i => Approx.nrg (obs.get i) (fct.row i)) ∧
    Returns (CrpsNp.fair obs fct) s (fun i => Approx.fair (obs.get i) (fct.row i)) ∧
    Returns (CrpsNp.pwm obs fct) s (fun i => Approx.pwm (obs.get i) (fct.row i)) ∧
    Returns (CrpsNp.qd obs fct) s (fun i => Approx.qd (obs.get i) (fct.row i)) ∧
    Returns (CrpsNp.akr obs fct) s (fun i => Approx.akr (obs.get i) (fct.row i)) ∧
    Returns (CrpsNp.akrCircperm obs fct) s (fun i => Approx.akrCircperm (obs.get i) (fct.row i)) ∧
    Returns (CrpsNp.int obs fct) s (fun i => Approx.int (obs.get i) (fct.row i)) := by
  have h1 := Sc.self ho
  have h2 := Ve.self hf
  have e := row_of_shape hf
  simp only [e]
  exact ⟨(CrpsNp.nrg_ev h1 h2).returns fun _ _ => rfl, (CrpsNp.fair_ev h1 h2).returns fun _ _ => rfl,
    (CrpsNp.pwm_ev h1 h2).returns fun _ _ => rfl, (CrpsNp.qd_ev h1 h2).returns fun _ _ => rfl,
    (CrpsNp.akr_ev h1 h2).returns fun _ _ => rfl, (CrpsNp.akrCircperm_ev h1 h2).returns fun _ _ => rfl,
    (CrpsNp.int_ev h1 h2).returns fun _ _ => rfl⟩

/-- two observations with three members each -/
example : ∃ obs fct : Arr XF, obs.shape = [2] ∧ fct.shape = [2] ++ [3] ∧
    fct.get [1, 2] ≠ fct.get [0, 2] :=
  ⟨⟨[2], fun _ => 1⟩, ⟨[2, 3], fun i => fin (i.headD 0 : ℝ)⟩, rfl, rfl, by simp⟩

/-- The weighted estimators. -/
theorem C95_weighted (ho : obs.shape = s) (hf : fct.shape = s ++ [M]) (hw : w.shape = s ++ [M]) :
    Returns (CrpsNpW.nrg obs fct w) s (fun i => ApproxW.nrg (obs.get i) (fct.row i) (w.row i)) ∧
    Returns (CrpsNpW.fair obs fct w) s (fun i => ApproxW.fair (obs.get i) (fct.row i) (w.row i)) ∧
    Returns (CrpsNpW.pwm obs fct w) s (fun i => ApproxW.pwm (obs.get i) (fct.row i) (w.row i)) ∧
    Returns (CrpsNpW.qd obs fct w) s (fun i => ApproxW.qd (obs.get i) (fct.row i) (w.row i)) ∧
    Returns (CrpsNpW.akr obs fct w) s (fun i => ApproxW.akr (obs.get i) (fct.row i) (w.row i)) ∧
    Returns (CrpsNpW.akrCircperm obs fct w) s
      (fun i => ApproxW.akrCircperm (obs.get i) (fct.row i) (w.row i)) ∧
    Returns (CrpsNpW.int obs fct w) s (fun i => ApproxW.int (obs.get i) (fct.row i) (w.row i)) := by
  have h1 := Sc.self ho
  have h2 := Ve.self hf
  have h3 := Ve.self hw
  have e := row_of_shape hf
  have e' := row_of_shape hw
  simp only [e, e']
  exact ⟨(CrpsNpW.nrg_ev h1 h2 h3).returns fun _ _ => rfl,
    (CrpsNpW.fair_ev h1 h2 h3).returns fun _ _ => rfl,
    (CrpsNpW.pwm_ev h1 h2 h3).returns fun _ _ => rfl, (CrpsNpW.qd_ev h1 h2 h3).returns fun _ _ => rfl,
    (CrpsNpW.akr_ev h1 h2 h3).returns fun _ _ => rfl,
    (CrpsNpW.akrCircperm_ev h1 h2 h3).returns fun _ _ => rfl,
    (CrpsNpW.int_ev h1 h2 h3).returns fun _ _ => rfl⟩

/-- a 2 x 2 grid of observations with three weighted members each -/
example : ∃ obs fct w : Arr XF, obs.shape = [2, 2] ∧ fct.shape = [2, 2] ++ [3] ∧
    w.shape = [2, 2] ++ [3] ∧ w.get [0, 1, 2] ≠ w.get [0, 1, 1] :=
  ⟨⟨[2, 2], fun _ => 1⟩, ⟨[2, 2, 3], fun i => fin (i.headD 0 : ℝ)⟩,
    ⟨[2, 2, 3], fun i => fin (i.getD 2 0 : ℝ)⟩, rfl, rfl, rfl, by simp⟩

theorem ofList_row (l : List XF) : (Arr.ofList l).row [] = l := by
  rw [row_of_shape (s := []) (M := l.length) rfl]
  conv_rhs => rw [← List.take_length (l := l), CrpsNp.range_of_length l l.length le_rfl]
  simp [Arr.ofList]

theorem acts_of_returns {f : Arr XF → Arr XF → Except Err (Arr XF)} {k : XF → List XF → XF}
    (h : ∀ (obs fct : Arr XF) (s : List ℕ) (M : ℕ), obs.shape = s → fct.shape = s ++ [M] →
      Returns (f obs fct) s fun i => k (obs.get i) (fct.row i)) : ActsPerSlice f := by
  intro obs fct s M ho hf
  obtain ⟨out, e, hs, hv⟩ := h obs fct s M ho hf
  rw [e]
  refine ⟨hs, fun i hi => ?_⟩
  have hl : (fct.row i).length = M := by rw [row_of_shape hf]; simp
  obtain ⟨o, e', _, hv'⟩ := h ⟨[], fun _ => obs.get i⟩ (Arr.ofList (fct.row i)) [] M rfl
    (by rw [← hl]; rfl)
  have := hv' [] List.Forall₂.nil
  dsimp only at this
  rw [ofList_row] at this
  dsimp only
  rw [e', hv i hi]
  dsimp only
  rw [← this]
  rfl

theorem actsW_of_returns {f : Arr XF → Arr XF → Arr XF → Except Err (Arr XF)}
    {k : XF → List XF → List XF → XF}
    (h : ∀ (obs fct w : Arr XF) (s : List ℕ) (M : ℕ), obs.shape = s → fct.shape = s ++ [M] →
      w.shape = s ++ [M] → Returns (f obs fct w) s fun i => k (obs.get i) (fct.row i) (w.row i)) :
    ActsPerSliceW f := by
  intro obs fct w s M ho hf hw
  obtain ⟨out, e, hs, hv⟩ := h obs fct w s M ho hf hw
  rw [e]
  refine ⟨hs, fun i hi => ?_⟩
  have hl : (fct.row i).length = M := by rw [row_of_shape hf]; simp
  have hl' : (w.row i).length = M := by rw [row_of_shape hw]; simp
  obtain ⟨o, e', _, hv'⟩ := h ⟨[], fun _ => obs.get i⟩ (Arr.ofList (fct.row i)) (Arr.ofList (w.row i)) []
    M rfl (by rw [← hl]; rfl) (by rw [← hl']; rfl)
  have := hv' [] List.Forall₂.nil
  dsimp only at this
  rw [ofList_row, ofList_row] at this
  dsimp only
  rw [e', hv i hi]
  dsimp only
  rw [← this]
  rfl

/-- Stated without the one-slice formulas: every estimator, run on arrays, does what running it on each
single observation and its members does. -/
theorem C95_slices :
    ActsPerSlice CrpsNp.nrg ∧ ActsPerSlice CrpsNp.fair ∧ ActsPerSlice CrpsNp.pwm ∧
    ActsPerSlice CrpsNp.qd ∧ ActsPerSlice CrpsNp.akr ∧ ActsPerSlice CrpsNp.akrCircperm ∧
    ActsPerSlice CrpsNp.int ∧
    ActsPerSliceW CrpsNpW.nrg ∧ ActsPerSliceW CrpsNpW.fair ∧ ActsPerSliceW CrpsNpW.pwm ∧
    ActsPerSliceW CrpsNpW.qd ∧ ActsPerSliceW CrpsNpW.akr ∧ ActsPerSliceW CrpsNpW.akrCircperm ∧
    ActsPerSliceW CrpsNpW.int :=
  ⟨acts_of_returns fun _ _ _ _ ho hf => (C95_estimators ho hf).1,
   acts_of_returns fun _ _ _ _ ho hf => (C95_estimators ho hf).2.1,
   acts_of_returns fun _ _ _ _ ho hf => (C95_estimators ho hf).2.2.1,
   acts_of_returns fun _ _ _ _ ho hf => (C95_estimators ho hf).2.2.2.1,
   acts_of_returns fun _ _ _ _ ho hf => (C95_estimators ho hf).2.2.2.2.1,
   acts_of_returns fun _ _ _ _ ho hf => (C95_estimators ho hf).2.2.2.2.2.1,
   acts_of_returns fun _ _ _ _ ho hf => (C95_estimators ho hf).2.2.2.2.2.2,
   actsW_of_returns fun _ _ _ _ _ ho hf hw => (C95_weighted ho hf hw).1,
   actsW_of_returns fun _ _ _ _ _ ho hf hw => (C95_weighted ho hf hw).2.1,
   actsW_of_returns fun _ _ _ _ _ ho hf hw => (C95_weighted ho hf hw).2.2.1,
   actsW_of_returns fun _ _ _ _ _ ho hf hw => (C95_weighted ho hf hw).2.2.2.1,
   actsW_of_returns fun _ _ _ _ _ ho hf hw => (C95_weighted ho hf hw).2.2.2.2.1,
   actsW_of_returns fun _ _ _ _ _ ho hf hw => (C95_weighted ho hf hw).2.2.2.2.2.1,
   actsW_of_returns fun _ _ _ _ _ ho hf hw => (C95_weighted ho hf hw).2.2.2.2.2.2⟩

/-- a concrete call of the array code: two observations, two members each; the second score is
`|3 - 1| / 2 + |3 - 2| / 2 - (|1 - 2| + |2 - 1|) / 8 = 5 / 4` -/
example : Returns (CrpsNp.nrg ⟨[2], fun i => fin (3 * i.headD 0)⟩
    ⟨[2, 2], fun i => fin (i.headD 0 + i.getD 1 0)⟩) [2]
    (fun i => if i = [1] then fin (5 / 4) else fin (1 / 4)) := by
  obtain ⟨o, e, h, hv⟩ := (C95_estimators (obs := ⟨[2], fun i => fin (3 * i.headD 0)⟩)
    (fct := ⟨[2, 2], fun i => fin (i.headD 0 + i.getD 1 0)⟩) (s := [2]) (M := 2) rfl rfl).1
  refine ⟨o, e, h, fun i hi => ?_⟩
  rw [hv i hi]
  obtain ⟨k, hk, rfl⟩ := valid1 hi
  interval_cases k
  all_goals
    norm_num [Approx.nrg, Approx.e1, Arr.row, sum2, half, List.range_succ]
    rw [ofNat_def 2, ofNat_def 4, fin_div (by norm_num), fin_div (by norm_num)]
    norm_num

/-- The outcome-weighted score, with and without ensemble weights, and the vertically re-scaled score with
ensemble weights. -/
theorem C95_outcome (ho : obs.shape = s) (hf : fct.shape = s ++ [M]) (hc : ow.shape = s)
    (hw : fw.shape = s ++ [M]) (hv : w.shape = s ++ [M]) :
    Returns (CrpsNp.ow obs fct ow fw) s
      (fun i => Approx.ow (obs.get i) (fct.row i) (ow.get i) (fw.row i)) ∧
    Returns (CrpsNpW.ow obs fct ow fw w) s
      (fun i => ApproxW.ow (obs.get i) (fct.row i) (ow.get i) (fw.row i) (w.row i)) ∧
    Returns (CrpsNpW.vr obs fct ow fw w) s
      (fun i => ApproxW.vr (obs.get i) (fct.row i) (ow.get i) (fw.row i) (w.row i)) := by
  have h1 := Sc.self ho
  have h2 := Ve.self hf
  have h3 := Ve.self hw
  have h4 := Sc.self hc
  have h5 := Ve.self hv
  have e := row_of_shape hf
  have e' := row_of_shape hw
  have e'' := row_of_shape hv
  simp only [e, e', e'']
  exact ⟨(CrpsNp.ow_ev h1 h2 h4 h3).returns fun _ _ => rfl,
    (CrpsNpW.ow_ev h1 h2 h4 h3 h5).returns fun _ _ => rfl,
    (CrpsNpW.vr_ev h1 h2 h4 h3 h5).returns fun _ _ => rfl⟩

/-- two observations, three members each, with outcome weights and member weights -/
example : ∃ obs fct ow fw w : Arr XF, obs.shape = [2] ∧ fct.shape = [2] ++ [3] ∧ ow.shape = [2] ∧
    fw.shape = [2] ++ [3] ∧ w.shape = [2] ++ [3] ∧ fw.get [1, 2] ≠ fw.get [0, 2] :=
  ⟨⟨[2], fun _ => 1⟩, ⟨[2, 3], fun _ => 2⟩, ⟨[2], fun _ => 1⟩,
    ⟨[2, 3], fun i => fin (i.headD 0 : ℝ)⟩, ⟨[2, 3], fun _ => 1⟩, rfl, rfl, rfl, rfl, rfl,
    by simp⟩

/-- The quantile (pinball) form, whose levels are a vector without batch axes. -/
theorem C95_quantile {al : List XF} (ho : obs.shape = s) (hf : fct.shape = s ++ [al.length]) :
    Returns (CrpsNp.quantilePinball obs fct (Arr.ofList al)) s
      (fun i => Approx.quantilePinball (obs.get i) (fct.row i) al) := by
  have h1 := Sc.self ho
  have h2 := Ve.self hf
  have e := row_of_shape hf
  have h3 : Ve (Arr.ofList al) [] al.length fun _ k => al.getD k nan := by
    refine ⟨rfl, fun i hi j hj => ?_⟩
    cases hi
    obtain ⟨k, _, rfl⟩ := valid1 hj
    rfl
  refine (CrpsNp.quantilePinball_ev h1 h2 h3).returns fun i _ => ?_
  rw [e, ← CrpsNp.range_of_length al al.length le_rfl, List.take_length]

/-- two observations, quantiles at the levels 1/4 and 3/4 -/
example : ∃ (al : List XF) (obs fct : Arr XF), obs.shape = [2] ∧ fct.shape = [2] ++ [al.length] ∧
    al = [fin (1 / 4), fin (3 / 4)] :=
  ⟨[fin (1 / 4), fin (3 / 4)], ⟨[2], fun _ => 1⟩, ⟨[2, 2], fun _ => 2⟩, rfl, rfl, rfl⟩

/-- The vertically re-scaled score without ensemble weights, whose last factor averages over `axis=1`
(C24): executing the array code has the same outcome, exceptions included, as the slice-wise formula with
that average. -/
theorem C95_vr (ho : obs.shape = s) (hf : fct.shape = s ++ [M]) (hc : ow.shape = s)
    (hw : fw.shape = s ++ [M]) :
    SameResult (CrpsNp.vr obs fct ow fw) (Api.vrEnsembleArr obs fct ow fw) :=
  CrpsNp.vr_same (Sc.self ho) (Ve.self hf) (Sc.self hc) (Ve.self hw)

/-- For a one-dimensional batch `axis=1` is the ensemble axis, and the score is the one of each slice. -/
theorem C95_vr_rank2 {n : ℕ} (ho : obs.shape = [n]) (hf : fct.shape = [n, M]) (hc : ow.shape = [n])
    (hw : fw.shape = [n, M]) :
    Returns (CrpsNp.vr obs fct ow fw) [n]
      (fun i => Approx.vr (obs.get i) (fct.row i) (ow.get i) (fw.row i)) := by
  have h := C95_vr (s := [n]) ho hf hc hw
  have e : Api.vrEnsembleArr obs fct ow fw = .ok ⟨obs.shape, fun i =>
      Approx.vrWith ((⟨[n], fun i => Py.mean ((List.range M).map fun j =>
        fw.get (i.insertIdx 1 j))⟩ : Arr XF).bget i) (obs.get i) (fct.row i) (ow.get i) (fw.row i)⟩ := by
    unfold Api.vrEnsembleArr Api.meanAxis1
    simp [Arr.ndim, hw, ho, hc, bind, Except.bind, Arr.bshape_self]
  rw [e] at h
  cases hx : CrpsNp.vr obs fct ow fw with
  | error er => rw [hx] at h; exact absurd h (by simp [SameResult])
  | ok a =>
    rw [hx] at h
    obtain ⟨h1, h2⟩ := h
    rw [ho] at h1
    refine ⟨a, rfl, h1, fun i hi => ?_⟩
    rw [h2 i (by rw [h1]; exact hi)]
    dsimp only
    rw [Arr.bget_self (a := ⟨[n], _⟩) hi]
    obtain ⟨k, hk, rfl⟩ := valid1 hi
    unfold Approx.vr
    rw [row_of_shape (s := [n]) hw]
    rfl

/-- two observations, three members each -/
example : ∃ obs fct ow fw : Arr XF, obs.shape = [2] ∧ fct.shape = [2, 3] ∧ ow.shape = [2] ∧
    fw.shape = [2, 3] ∧ fw.get [1, 2] ≠ fw.get [0, 2] :=
  ⟨⟨[2], fun _ => 1⟩, ⟨[2, 3], fun _ => 2⟩, ⟨[2], fun _ => 1⟩,
    ⟨[2, 3], fun i => fin (i.headD 0 : ℝ)⟩, rfl, rfl, rfl, rfl, by simp⟩

end Verif
