import Verif.Props.Weighted

/-!
# Rank and axis handling of the weighted CRPS variants (C24, C25)
-/

noncomputable section

open scoped Classical

namespace Verif

open XF Py Api

/-! ### C24 -/

/-- C24 is false: a scalar observation with a one-dimensional ensemble, scored by the numba path,
makes the numpy path raise, because `vr_ensemble` takes the mean over `axis=1`. -/
theorem C24_false_scalar (y : ℝ) (xs : List ℝ) {wF : XF → XF} {w : ℝ → ℝ} (hw : WeightFn wF w) :
    vrcrpsEnsemble .array (Arr.scalar (fin y)) (Arr.ofList (xs.map fin)) wF (-1) none "propagate"
      = .error .axisError := by
  have hax : Spec.AxisIs (-1) (Arr.ofList (xs.map fin)).ndim 0 := by
    constructor <;> simp [Arr.ndim, Arr.ofList]
  have h1 : ¬ ((Arr.scalar (fin y)).map wF).Any (fun v => v < 0) := by
    rintro ⟨i, -, hi⟩
    have : ((Arr.scalar (fin y)).map wF).get i = fin (w y) := hw.eq y
    rw [this, zero_fin, fin_lt] at hi
    exact absurd hi (not_lt.2 (hw.nonneg _))
  have h2 : ¬ (((Arr.ofList (xs.map fin)).moveLast 0).map wF).Any (fun v => v < 0) := by
    rintro ⟨i, hv, hi⟩
    have hv' : Arr.Valid [xs.length] i := by
      have e : (((Arr.ofList (xs.map fin)).moveLast 0).map wF).shape = [xs.length] := by
        simp [Arr.map, Arr.moveLast, Arr.ofList]
      rwa [e] at hv
    cases hv' with
    | cons h1 h2 =>
      cases h2
      rename_i j
      have : (((Arr.ofList (xs.map fin)).moveLast 0).map wF).get [j] = fin (w xs[j]) := by
        show wF ((Arr.ofList (xs.map fin)).get _) = _
        simp [Arr.ofList, h1, hw.eq]
      rw [this, zero_fin, fin_lt] at hi
      exact absurd hi (not_lt.2 (hw.nonneg _))
  have hp := owPrep_none (obs := Arr.scalar (fin y)) (fct := Arr.ofList (xs.map fin)) (w := wF)
    (k := 0) hax rfl h1 h2
  unfold vrcrpsEnsemble
  simp only [hp, bind, Except.bind]
  unfold vrEnsembleArr meanAxis1
  rw [if_pos]
  · rfl
  · simp [Arr.ndim, Arr.map, Arr.moveLast, Arr.ofList]

example : WeightFn (fun x => x * x) (fun x => x * x) := ⟨fun _ => rfl, fun x => mul_self_nonneg x⟩

/-- C24 is false for three-dimensional forecasts: unless the middle axis and the ensemble axis happen
to match, the call raises. -/
theorem C24_false_rank3 {obs fct : Arr ℝ} {n q r : ℕ} (ho : obs.shape = [n, q])
    (hf : fct.shape = [n, q, r]) (hqr : q ≠ r) (hr : r ≠ 1) {wF : XF → XF} {w : ℝ → ℝ}
    (hw : WeightFn wF w) :
    vrcrpsEnsemble .array (obs.map fin) (fct.map fin) wF (-1) none "propagate"
      = .error .valueError := by
  have hax : Spec.AxisIs (-1) (fct.map fin).ndim 2 := by
    constructor <;> simp [Arr.ndim, Arr.map, hf]
  have hs : (obs.map fin).shape = (fct.map fin).shape.eraseIdx 2 := by
    simp [Arr.map, ho, hf]
  have hp := owPrep_none (obs := obs.map fin) (fct := fct.map fin) (w := wF) hax hs (hw.not_neg _)
    (by rw [moveLast_map]; exact hw.not_neg _)
  unfold vrcrpsEnsemble
  simp only [hp, bind, Except.bind]
  have hsh : (((fct.map fin).moveLast 2).map wF).shape = [n, q, r] := by
    simp [Arr.map, Arr.moveLast, hf]
  have hos : ((obs.map fin).map wF).shape = [n, q] := ho
  have hos' : (obs.map fin).shape = [n, q] := ho
  unfold vrEnsembleArr meanAxis1
  rw [if_neg (by simp [Arr.ndim, hsh])]
  simp only [bind, Except.bind, hsh, hos, hos']
  by_cases hq : q = 1
  · subst hq
    have : Arr.bshape ([n, 1, r].eraseIdx 1) [n, 1] = some [n, r] := by
      simp [Arr.bshape, Arr.bshapeR, hr]
    rw [this]
    simp [hr]
  · have : Arr.bshape ([n, q, r].eraseIdx 1) [n, q] = none := by
      simp [Arr.bshape, Arr.bshapeR, hr, hq, Ne.symm hqr]
    rw [this]

/-- a (2, 3, 4) forecast satisfies the hypotheses -/
example : (3 : ℕ) ≠ 4 ∧ (4 : ℕ) ≠ 1 := by norm_num

/-- C24 is false even where the call succeeds: on a (1, 2, 2) forecast the numpy path silently uses
the mean over the wrong axis. -/
theorem C24_false_silent :
    ∃ (obs fct : Arr ℝ) (wF : XF → XF) (w : ℝ → ℝ) (out out' : Arr XF),
      (∀ i, Arr.Valid fct.shape i → wF (fin (fct.get i)) = fin (w (fct.get i)) ∧
        0 ≤ w (fct.get i)) ∧
      obs.shape = [1, 2] ∧ fct.shape = [1, 2, 2] ∧
      vrcrpsEnsemble .array (obs.map fin) (fct.map fin) wF (-1) none "propagate" = .ok out ∧
      vrcrpsEnsemble .numba (obs.map fin) (fct.map fin) wF (-1) none "propagate" = .ok out' ∧
      Arr.Valid obs.shape [0, 0] ∧ out.get [0, 0] ≠ out'.get [0, 0] := by
  let fct : Arr ℝ := ⟨[1, 2, 2], fun i => 2 * (i.getD 1 0 : ℕ) + (i.getD 2 0 : ℕ)⟩
  let obs : Arr ℝ := ⟨[1, 2], fun _ => 0⟩
  have hw : WeightFn (fun x => XF.abs x) (fun x => |x|) := ⟨fun _ => rfl, fun x => abs_nonneg x⟩
  have hax : Spec.AxisIs (-1) (fct.map fin).ndim 2 := by
    constructor <;> simp [Arr.ndim, Arr.map, fct]
  have hs : (obs.map fin).shape = (fct.map fin).shape.eraseIdx 2 := by
    simp [Arr.map, fct, obs]
  have hp := owPrep_none (obs := obs.map fin) (fct := fct.map fin) (w := fun x => XF.abs x) hax hs
    (hw.not_neg _) (by rw [moveLast_map]; exact hw.not_neg _)
  have r1 : ((fct.map fin).moveLast 2).row [0, 0] = [fin 0, fin 1] := by
    simp [Arr.row, Arr.map, Arr.moveLast, fct, List.range_succ]
  have r2 : (((fct.map fin).moveLast 2).map fun x => XF.abs x).row [0, 0] = [fin 0, fin 1] := by
    rw [Arr.row_map, r1]; simp
  have hA : ∃ out, vrcrpsEnsemble .array (obs.map fin) (fct.map fin) (fun x => XF.abs x) (-1) none
      "propagate" = .ok out ∧ out.get [0, 0] = fin (1 / 2) := by
    unfold vrcrpsEnsemble
    simp only [hp, bind, Except.bind]
    unfold vrEnsembleArr meanAxis1
    rw [if_neg (by simp [Arr.ndim, Arr.map, Arr.moveLast, fct])]
    simp only [bind, Except.bind]
    have hb : Arr.bshape ((((fct.map fin).moveLast 2).map fun x => XF.abs x).shape.eraseIdx 1)
      ((obs.map fin).map fun x => XF.abs x).shape = some [1, 2] := by
      have e1 : (((fct.map fin).moveLast 2).map fun x => XF.abs x).shape.eraseIdx 1 = [1, 2] := rfl
      have e2 : ((obs.map fin).map fun x => XF.abs x).shape = [1, 2] := rfl
      rw [e1, e2, Arr.bshape_self]
    rw [hb]
    simp only []
    rw [if_neg (by simp [Arr.map, obs])]
    refine ⟨_, rfl, ?_⟩
    dsimp only
    rw [r1, r2, Arr.bget_self (by simp [Arr.Valid, Arr.map, Arr.moveLast, fct])]
    have em : (List.range ((((fct.map fin).moveLast 2).map fun x => XF.abs x).shape.getD 1 0)).map
        (fun j => (((fct.map fin).moveLast 2).map fun x => XF.abs x).get (([0, 0] : List ℕ).insertIdx 1 j))
        = [fin 0, fin 2] := by
      simp [Arr.map, Arr.moveLast, fct, List.range_succ]
    dsimp only
    rw [em]
    have e0 : ((obs.map fin).map fun x => XF.abs x).get [0, 0] = fin 0 := by simp [Arr.map, obs]
    have e0' : (obs.map fin).get [0, 0] = fin 0 := rfl
    rw [e0, e0']
    have h2 : (2 : ℝ) ≠ 0 := two_ne_zero
    have h4 : (4 : ℝ) ≠ 0 := four_ne_zero
    simp [Approx.vrWith, mean, zip2, half_fin, ofNat_def, fin_div h2, fin_div h4, zero_fin]
  have hB : ∃ out, vrcrpsEnsemble .numba (obs.map fin) (fct.map fin) (fun x => XF.abs x) (-1) none
      "propagate" = .ok out ∧ out.get [0, 0] = fin (1 / 4) := by
    unfold vrcrpsEnsemble
    simp only [hp, bind, Except.bind]
    refine ⟨_, rfl, ?_⟩
    show Gufunc.vr (fin 0) (((fct.map fin).moveLast 2).row [0, 0]) (XF.abs (fin 0))
      ((((fct.map fin).moveLast 2).map fun x => XF.abs x).row [0, 0]) = _
    rw [r1, r2]
    have := Gufunc.vr_fin 0 0 [(0, 0), (1, 1)] (by simp)
    simp only [Xs, Ws, List.map_cons, List.map_nil] at this
    rw [fin_abs, abs_zero, this, fin_inj]
    simp [vrVal, wabs, wpair, pairsAll, wtot]
    norm_num
  obtain ⟨out, h1, h2⟩ := hA
  obtain ⟨out', h1', h2'⟩ := hB
  refine ⟨obs, fct, fun x => XF.abs x, fun x => |x|, out, out', fun i _ => ⟨rfl, abs_nonneg _⟩, rfl,
    rfl, h1, h1', ?_, ?_⟩
  · simp [Arr.Valid, obs]
  · rw [h2, h2', Ne, fin_inj]; norm_num

/-! ### C25 -/

/-- replacing NaN by zero -/
def clean (x : XF) : XF := if x.isnan then 0 else x

theorem applyNan_omit_none (obs fct : Arr XF) :
    applyNanPolicy obs fct "omit" none none (-1)
      = .ok (fct.map clean, some (fct.map fun x => if x.isnan then 0 else 1)) := by
  unfold applyNanPolicy nanMask
  simp [bind, Except.bind]
  exact ⟨rfl, rfl⟩

theorem applyNan_omit_some (obs fct w : Arr XF) (h : 0 < w.ndim) (hs : w.shape = fct.shape) :
    ∃ w', applyNanPolicy obs fct "omit" (some w) none (-1) = .ok (fct.map clean, some w') ∧
      w'.shape = fct.shape ∧ ∀ i, Arr.Valid fct.shape i →
        w'.get i = if (fct.get i).isnan ∨ (w.get i).isnan then 0 else w.get i := by
  have s1 := moveLast_last_same h
  have hs1 : (w.moveLast (w.ndim - 1)).shape = fct.shape := s1.1.trans hs
  obtain ⟨m, hm1, hm2, hm3⟩ := nanMask_some (fct := fct) rfl hs1
  obtain ⟨w', hw1, hw2, hw3⟩ := whereZero_same hm2 hs1
  refine ⟨w', ?_, hw2, fun i hi => ?_⟩
  · unfold applyNanPolicy
    simp [bind, Except.bind, moveaxisLast_neg1 h, Except.map, hm1, hw1]
    rfl
  · have e : (w.moveLast (w.ndim - 1)).get i = w.get i := s1.2 i (by rw [hs1]; exact hi)
    rw [hw3 i hi, e]
    have := hm3 i hi
    rw [e] at this
    by_cases hc : m.get i
    · rw [if_pos hc, if_pos (this.1 hc)]
    · rw [if_neg hc, if_neg (fun h => hc (this.2 h))]

/-- the state before the final weight check, with policy `omit` and no ensemble weights -/
theorem owPrep_omit {obs fct : Arr XF} {m : ℤ} {k : ℕ} {w : XF → XF}
    (h : Spec.AxisIs m fct.ndim k)
    (hs : obs.shape = fct.shape.eraseIdx k) (h1 : ¬ (obs.map w).Any (fun v => v < 0))
    (h2 : ¬ ((fct.moveLast k).map w).Any (fun v => v < 0)) :
    ∃ W2 : Arr XF, W2.shape = (fct.moveLast k).shape ∧
      (∀ i, Arr.Valid (fct.moveLast k).shape i → W2.get i =
        if (w ((fct.moveLast k).get i)).isnan ∨ ((fct.moveLast k).get i).isnan then 0 else 1) ∧
      owPrep obs fct w m none "omit" =
        (univariateWeightCheck W2 ((fct.moveLast k).map clean) m).map fun v =>
          ((fct.moveLast k).map clean, obs.map w, ((fct.moveLast k).map w).map clean, some v) := by
  set F := fct.moveLast k with hF
  obtain ⟨W2, hW1, hW2, hW3⟩ := applyNan_omit_some (obs.map w) (F.map w)
    (F.map fun x => if x.isnan then 0 else 1)
    (by show 0 < F.ndim; rw [hF, ndim_moveLast h.1]; have := h.1; omega) rfl
  refine ⟨W2, hW2, fun i hi => ?_, ?_⟩
  · rw [hW3 i hi]
    have e : (F.map fun x => if x.isnan then (0 : XF) else 1).get i
      = if (F.get i).isnan then (0 : XF) else 1 := rfl
    have e' : (F.map w).get i = w (F.get i) := rfl
    rw [e, e']
    by_cases c1 : (w (F.get i)).isnan <;> by_cases c2 : (F.get i).isnan <;>
      simp [c1, c2, zero_fin, one_fin]
  · unfold owPrep
    rw [arrayCheck_axis h hs]
    simp only [bind, Except.bind, ← hF]
    rw [uvWeights_ok h1 h2]
    simp only [applyNan_omit_none, hW1]
    cases univariateWeightCheck W2 (F.map clean) m <;> rfl

theorem not_lt_zero_or_one (p : Prop) [Decidable p] : ¬ ((if p then (0 : XF) else 1) < 0) := by
  split_ifs
  · rw [zero_fin, fin_lt]; exact lt_irrefl _
  · rw [zero_fin, one_fin, fin_lt]; norm_num

/-- C25 is false: with `nan_policy='omit'` and the ensemble on the first axis of a non-square array,
both functions raise `ValueError` (even without any missing value), although the same data with the
ensemble axis moved to the end are scored (`C25_omit_last_ok`). -/
theorem C25_false_omit_raises {obs fct : Arr ℝ} {n r : ℕ} (ho : obs.shape = [n])
    (hf : fct.shape = [r, n]) (hrn : r ≠ n) {wF : XF → XF} {w : ℝ → ℝ} (hw : WeightFn wF w)
    (path : Path) :
    owcrpsEnsemble path (obs.map fin) (fct.map fin) wF 0 none "omit" = .error .valueError ∧
      vrcrpsEnsemble path (obs.map fin) (fct.map fin) wF 0 none "omit" = .error .valueError := by
  have hax : Spec.AxisIs 0 (fct.map fin).ndim 0 := by
    constructor <;> simp [Arr.ndim, Arr.map, hf]
  have hs : (obs.map fin).shape = (fct.map fin).shape.eraseIdx 0 := by
    simp [Arr.map, ho, hf]
  obtain ⟨W2, hsh, -, hp⟩ := owPrep_omit (obs := obs.map fin) (fct := fct.map fin) (w := wF) hax hs
    (hw.not_neg _) (by rw [moveLast_map]; exact hw.not_neg _)
  have hsh' : W2.shape = [n, r] := by rw [hsh]; simp [Arr.moveLast, Arr.map, hf]
  have hc : univariateWeightCheck W2 (((fct.map fin).moveLast 0).map clean) 0
      = .error .valueError := by
    unfold univariateWeightCheck
    simp only [le_refl, if_true]
    have hmv : W2.moveaxisLast 0 = .ok (W2.moveLast 0) :=
      moveaxisLast_axis ⟨by simp [Arr.ndim, hsh'], Or.inl rfl⟩
    rw [hmv]
    simp only [bind, Except.bind]
    rw [if_pos]
    simp only [Arr.moveLast, Arr.map, hsh', hf]
    simp
    intro h; exact absurd h hrn
  rw [hc] at hp
  unfold owcrpsEnsemble vrcrpsEnsemble
  simp only [hp, bind, Except.bind, Except.map]
  exact ⟨trivial, trivial⟩

/-- With the ensemble on the last axis and `nan_policy='omit'` the calls succeed. -/
theorem C25_omit_last_ok {obs fct : Arr ℝ} {n r : ℕ} (ho : obs.shape = [n])
    (hf : fct.shape = [n, r]) {wF : XF → XF} {w : ℝ → ℝ} (hw : WeightFn wF w) (path : Path) :
    (∃ out, owcrpsEnsemble path (obs.map fin) (fct.map fin) wF (-1) none "omit" = .ok out) ∧
      ∃ out, vrcrpsEnsemble path (obs.map fin) (fct.map fin) wF (-1) none "omit" = .ok out := by
  have hax : Spec.AxisIs (-1) (fct.map fin).ndim 1 := by
    constructor <;> simp [Arr.ndim, Arr.map, hf]
  have hs : (obs.map fin).shape = (fct.map fin).shape.eraseIdx 1 := by
    simp [Arr.map, ho, hf]
  obtain ⟨W2, hsh, hv, hp⟩ := owPrep_omit (obs := obs.map fin) (fct := fct.map fin) (w := wF) hax hs
    (hw.not_neg _) (by rw [moveLast_map]; exact hw.not_neg _)
  have hsh0 : ((fct.map fin).moveLast 1).shape = [n] ++ [r] := by simp [Arr.moveLast, Arr.map, hf]
  have hsh' : W2.shape = [n] ++ [r] := hsh.trans hsh0
  have hc := weightCheck_last (w := W2) (fct := ((fct.map fin).moveLast 1).map clean) hsh' hsh0
  rw [if_neg] at hc
  · rw [hc] at hp
    unfold owcrpsEnsemble vrcrpsEnsemble
    simp only [hp, bind, Except.bind, Except.map]
    cases path <;> exact ⟨⟨_, rfl⟩, ⟨_, rfl⟩⟩
  · rintro ⟨i, hi, v, hvm, hneg⟩
    simp only [Arr.row, List.mem_map, hsh', List.mem_range] at hvm
    obtain ⟨j, hj, rfl⟩ := hvm
    rw [hv _ (by rw [hsh0]; exact Arr.valid_append_iff.2 ⟨i, j, rfl, hi, by simpa using hj⟩)] at hneg
    exact not_lt_zero_or_one _ hneg

/-- `C25_false_omit_raises`, `C25_omit_last_ok` -/
example : (⟨[3], fun _ => 0⟩ : Arr ℝ).shape = [3] ∧ (⟨[2, 3], fun _ => 1⟩ : Arr ℝ).shape = [2, 3] ∧
    2 ≠ 3 ∧ (⟨[3, 2], fun _ => 1⟩ : Arr ℝ).shape = [3, 2] ∧
    WeightFn (fun x => x * x) (fun x => x * x) :=
  ⟨rfl, rfl, by norm_num, rfl, fun _ => rfl, fun x => mul_self_nonneg x⟩

/-- C25 is false, silently: on a square array with the ensemble on the first axis, `omit` applies the
mask of the missing values transposed.  Case 0 has members 0 and 1 (none missing) and observation 1;
its outcome-weighted CRPS (weight 1) is 1/4, the code returns 1. -/
theorem C25_false_omit_silent (path : Path) :
    ∃ (obs fct : Arr XF) (out out' : Arr XF), obs.shape = [2] ∧ fct.shape = [2, 2] ∧
      owcrpsEnsemble path obs fct (fun _ => 1) 0 none "omit" = .ok out ∧
      owcrpsEnsemble path obs (fct.moveLast 0) (fun _ => 1) (-1) none "omit" = .ok out' ∧
      out.get [0] = fin 1 ∧ out'.get [0] = fin (1 / 4) := by
  let fct : Arr XF := ⟨[2, 2], fun i => if i = [0, 0] then fin 0 else if i = [0, 1] then nan
    else if i = [1, 0] then fin 1 else fin 2⟩
  let obs : Arr XF := ⟨[2], fun _ => fin 1⟩
  have hneg : ∀ a : Arr XF, ¬ (a.map fun _ => (1 : XF)).Any (fun v => v < 0) := by
    rintro a ⟨i, hi, h⟩
    have h' : fin 1 < fin 0 := h
    rw [fin_lt] at h'
    norm_num at h'
  have hA : ∃ out, owcrpsEnsemble path obs fct (fun _ => 1) 0 none "omit" = .ok out ∧
      out.get [0] = fin 1 := by
    obtain ⟨W2, hsh, hv, hp⟩ := owPrep_omit (obs := obs) (fct := fct) (m := 0) (k := 0)
      (w := fun _ => 1) (by constructor <;> simp [Arr.ndim, Arr.moveLast, fct])
      (by simp [obs, Arr.moveLast, fct]) (hneg _) (hneg _)
    have hsh' : W2.shape = [2, 2] := by rw [hsh]; simp [Arr.moveLast, fct]
    have hms : (W2.moveLast 0).shape = [2] ++ [2] := by simp [Arr.moveLast, hsh']
    have hW : ¬ W2.Any (fun v => v < 0) := by
      rintro ⟨i, hi, h⟩
      rw [hv i (by rw [← hsh]; exact hi)] at h
      exact not_lt_zero_or_one _ h
    have hrow : (W2.moveLast 0).row [0] = [fin 1, fin 0] := by
      have e1 : W2.get [0, 0] = fin 1 := by
        rw [hv _ (by simp [Arr.Valid, Arr.moveLast, fct])]
        simp [Arr.moveLast, fct, one_fin, zero_fin]
      have e2 : W2.get [1, 0] = fin 0 := by
        rw [hv _ (by simp [Arr.Valid, Arr.moveLast, fct])]
        simp [Arr.moveLast, fct, one_fin, zero_fin]
      simp [Arr.row, List.range_succ, Arr.moveLast, hsh', e1, e2]
    have hmr : ((W2.moveLast 0).mapRows fun r => r.map fun v => v / r.sum).row [0] = [fin 1, fin 0] := by
      have h1 : (1 : ℝ) ≠ 0 := one_ne_zero
      have h2 : (2 : ℝ) ≠ 0 := two_ne_zero
      have h3 : (1 + 1 : ℝ) ≠ 0 := by norm_num
      rw [Arr.row_mapRows hms _ _ (by simp [hrow]), hrow]
      simp [zero_fin, fin_div h1, fin_div h2, fin_div h3]
      try norm_num
    have hmv : W2.moveaxisLast 0 = .ok (W2.moveLast 0) :=
      moveaxisLast_axis ⟨by simp [Arr.ndim, hsh'], Or.inl rfl⟩
    have hc : univariateWeightCheck W2 ((fct.moveLast 0).map clean) 0
        = .ok ((W2.moveLast 0).mapRows fun r => r.map fun v => v / r.sum) := by
      unfold univariateWeightCheck
      simp only [le_refl, if_true]
      rw [hmv]
      simp only [bind, Except.bind]
      rw [if_neg (by simp [Arr.map, Arr.moveLast, hsh', fct]), if_neg]
      exact fun h => hW (any_moveLast (by simp [Arr.ndim, hsh']) _ h)
    have hfr : (((fct).moveLast 0).map clean).row [0] = Tx [((0 : ℝ), (1 : ℝ), (1 : ℝ)), (1, 1, 0)] := by
      simp [Arr.row, Arr.map, List.range_succ, Arr.moveLast, fct, Tx, clean, zero_fin]
    have hwr : ((((fct).moveLast 0).map fun _ => (1 : XF)).map clean).row [0] = Tw [((0 : ℝ), (1 : ℝ), (1 : ℝ)), (1, 1, 0)] := by
      simp [Arr.row, Arr.map, List.range_succ, Arr.moveLast, fct, Tw, clean, one_fin]
    have hne : wtot (comb [((0 : ℝ), (1 : ℝ), (1 : ℝ)), (1, 1, 0)]) ≠ 0 := by simp [comb, wtot]; try norm_num
    rw [hc] at hp
    unfold owcrpsEnsemble
    simp only [hp, bind, Except.bind, Except.map]
    have ev : (1 : ℝ) * energy 1 (norml (comb [((0 : ℝ), (1 : ℝ), (1 : ℝ)), (1, 1, 0)])) = 1 := by
      simp [energy, norml, comb, wtot, wabs, wpair, pairsAll]; try norm_num
    have eT : [fin 1, fin 0] = Tv [((0 : ℝ), (1 : ℝ), (1 : ℝ)), (1, 1, 0)] := by simp [Tv]
    cases path
    · refine ⟨_, rfl, ?_⟩
      show GufuncW.ow (fin 1) _ (fin 1) _ _ = _
      rw [hfr, hwr, hmr, eT, GufuncW.ow_fin _ _ _ hne, ev]
    · refine ⟨_, rfl, ?_⟩
      show ApproxW.ow (fin 1) _ (fin 1) _ _ = _
      rw [hfr, hwr, hmr, eT, ApproxW.ow_fin _ _ _ hne, ev]
  have hB : ∃ out, owcrpsEnsemble path obs (fct.moveLast 0) (fun _ => 1) (-1) none "omit" = .ok out ∧
      out.get [0] = fin (1 / 4) := by
    obtain ⟨W2, hsh, hv, hp⟩ := owPrep_omit (obs := obs) (fct := (fct.moveLast 0)) (m := (-1)) (k := 1)
      (w := fun _ => 1) (by constructor <;> simp [Arr.ndim, Arr.moveLast, fct])
      (by simp [obs, Arr.moveLast, fct]) (hneg _) (hneg _)
    have hsh' : W2.shape = [2, 2] := by rw [hsh]; simp [Arr.moveLast, fct]
    have hms : (W2.moveLast 1).shape = [2] ++ [2] := by simp [Arr.moveLast, hsh']
    have hW : ¬ W2.Any (fun v => v < 0) := by
      rintro ⟨i, hi, h⟩
      rw [hv i (by rw [← hsh]; exact hi)] at h
      exact not_lt_zero_or_one _ h
    have hrow : (W2.moveLast 1).row [0] = [fin 1, fin 1] := by
      have e1 : W2.get [0, 0] = fin 1 := by
        rw [hv _ (by simp [Arr.Valid, Arr.moveLast, fct])]
        simp [Arr.moveLast, fct, one_fin, zero_fin]
      have e2 : W2.get [0, 1] = fin 1 := by
        rw [hv _ (by simp [Arr.Valid, Arr.moveLast, fct])]
        simp [Arr.moveLast, fct, one_fin, zero_fin]
      simp [Arr.row, List.range_succ, Arr.moveLast, hsh', e1, e2]
    have hmr : ((W2.moveLast 1).mapRows fun r => r.map fun v => v / r.sum).row [0] = [fin (1/2), fin (1/2)] := by
      have h1 : (1 : ℝ) ≠ 0 := one_ne_zero
      have h2 : (2 : ℝ) ≠ 0 := two_ne_zero
      have h3 : (1 + 1 : ℝ) ≠ 0 := by norm_num
      rw [Arr.row_mapRows hms _ _ (by simp [hrow]), hrow]
      simp [zero_fin, fin_div h1, fin_div h2, fin_div h3]
      try norm_num
    have hc := weightCheck_last (w := W2) (fct := ((fct.moveLast 0).moveLast 1).map clean)
      (s := [2]) (n := 2) hsh' (by simp [Arr.map, Arr.moveLast, fct])
    rw [if_neg (fun h => hW ((Arr.any_iff (s := [2]) (n := 2) hsh' _).2 h))] at hc
    simp only [List.length_singleton] at hc
    have hfr : ((((fct.moveLast 0)).moveLast 1).map clean).row [0] = Tx [((0 : ℝ), (1 : ℝ), (1 / 2 : ℝ)), (1, 1, 1 / 2)] := by
      simp [Arr.row, Arr.map, List.range_succ, Arr.moveLast, fct, Tx, clean, zero_fin]
    have hwr : (((((fct.moveLast 0)).moveLast 1).map fun _ => (1 : XF)).map clean).row [0] = Tw [((0 : ℝ), (1 : ℝ), (1 / 2 : ℝ)), (1, 1, 1 / 2)] := by
      simp [Arr.row, Arr.map, List.range_succ, Arr.moveLast, fct, Tw, clean, one_fin]
    have hne : wtot (comb [((0 : ℝ), (1 : ℝ), (1 / 2 : ℝ)), (1, 1, 1 / 2)]) ≠ 0 := by simp [comb, wtot]; try norm_num
    rw [hc] at hp
    unfold owcrpsEnsemble
    simp only [hp, bind, Except.bind, Except.map]
    have ev : (1 : ℝ) * energy 1 (norml (comb [((0 : ℝ), (1 : ℝ), (1 / 2 : ℝ)), (1, 1, 1 / 2)])) = (1 / 4) := by
      simp [energy, norml, comb, wtot, wabs, wpair, pairsAll]; try norm_num
    have eT : [fin (1/2), fin (1/2)] = Tv [((0 : ℝ), (1 : ℝ), (1 / 2 : ℝ)), (1, 1, 1 / 2)] := by simp [Tv]
    cases path
    · refine ⟨_, rfl, ?_⟩
      show GufuncW.ow (fin 1) _ (fin 1) _ _ = _
      rw [hfr, hwr, hmr, eT, GufuncW.ow_fin _ _ _ hne, ev]
    · refine ⟨_, rfl, ?_⟩
      show ApproxW.ow (fin 1) _ (fin 1) _ _ = _
      rw [hfr, hwr, hmr, eT, ApproxW.ow_fin _ _ _ hne, ev]
  obtain ⟨out, h1, h2⟩ := hA
  obtain ⟨out', h1', h2'⟩ := hB
  exact ⟨obs, fct, out, out', rfl, rfl, h1, h1', h2, h2'⟩

/-- a (2, 3) forecast meets the hypotheses of `C25_false_omit_raises` -/
example : (⟨[2, 3], fun _ => 1⟩ : Arr ℝ).shape = [2, 3] ∧ (2 : ℕ) ≠ 3 := by norm_num

theorem sliceAt_moved {α : Type} (a : Arr α) {k : ℕ} (hk : k < a.ndim) {i : List ℕ}
    (hi : Arr.Valid (a.shape.eraseIdx k) i) :
    (a.moveLast k).sliceAt (a.ndim - 1) i = a.sliceAt k i := by
  have hs : (a.moveLast k).shape = a.shape.eraseIdx k ++ [a.shape.getD k 0] := rfl
  have hl : (a.shape.eraseIdx k).length = a.ndim - 1 := by
    exact List.length_eraseIdx_of_lt hk
  have := Arr.sliceAt_last hs hi.length
  rw [hl] at this
  rw [this, Arr.row_moveLast]

theorem axisIs_moved {α : Type} (a : Arr α) {k : ℕ} (hk : k < a.ndim) :
    Spec.AxisIs (-1) (a.moveLast k).ndim (a.ndim - 1) := by
  rw [ndim_moveLast hk]
  constructor
  · omega
  · right; omega

theorem shape_moved {α : Type} (a : Arr α) {k : ℕ} (hk : k < a.ndim) :
    (a.moveLast k).shape.eraseIdx (a.ndim - 1) = a.shape.eraseIdx k := by
  have hl : (a.shape.eraseIdx k).length = a.ndim - 1 := by
    exact List.length_eraseIdx_of_lt hk
  rw [show (a.moveLast k).shape = a.shape.eraseIdx k ++ [a.shape.getD k 0] from rfl, ← hl,
    List.eraseIdx_append_of_length_le (le_refl _)]
  simp

/-- C25 (policy `propagate` only; for `omit` it is false): the outcome-weighted CRPS does not depend
on where the ensemble axis is. -/
theorem C25_ow_axis_partial {obs fct : Arr ℝ} {m : ℤ} {k : ℕ} (h : Spec.AxisIs m fct.ndim k)
    (hs : obs.shape = fct.shape.eraseIdx k) {wF : XF → XF} {w : ℝ → ℝ} (hw : WeightFn wF w)
    (hpos : ∀ i, Arr.Valid obs.shape i → 0 < ((fct.sliceAt k i).map w).sum) (path : Path) :
    ∃ out out', owcrpsEnsemble path (obs.map fin) (fct.map fin) wF m none "propagate" = .ok out ∧
      owcrpsEnsemble path (obs.map fin) ((fct.moveLast k).map fin) wF (-1) none "propagate"
        = .ok out' ∧ out.Same out' := by
  have e : ∀ i, Arr.Valid obs.shape i →
      (fct.moveLast k).sliceAt (fct.ndim - 1) i = fct.sliceAt k i :=
    fun i hi => sliceAt_moved fct h.1 (hs ▸ hi)
  obtain ⟨out, h1, h2, h3⟩ := C23_ow_value h hs hw hpos path
  obtain ⟨out', h1', h2', h3'⟩ := C23_ow_value (axisIs_moved fct h.1)
    (hs.trans (shape_moved fct h.1).symm) hw (fun i hi => by rw [e i hi]; exact hpos i hi) path
  refine ⟨out, out', h1, h1', h2.trans h2'.symm, fun i hi => ?_⟩
  rw [h2] at hi
  rw [h3 i hi, h3' i hi, e i hi]

theorem C25_ow_axis_weighted_partial {obs fct W : Arr ℝ} {m : ℤ} {k : ℕ}
    (h : Spec.AxisIs m fct.ndim k)
    (hs : obs.shape = fct.shape.eraseIdx k) (hW : W.shape = fct.shape) {wF : XF → XF} {w : ℝ → ℝ}
    (hw : WeightFn wF w) (hv : ∀ i, 0 ≤ W.get i)
    (hpos : ∀ i, Arr.Valid obs.shape i → 0 < (W.sliceAt k i).sum)
    (hpos' : ∀ i, Arr.Valid obs.shape i →
      0 < ((Spec.reweightW w ((fct.sliceAt k i).zip (W.sliceAt k i))).map Prod.snd).sum)
    (path : Path) :
    ∃ out out', owcrpsEnsemble path (obs.map fin) (fct.map fin) wF m (some (W.map fin)) "propagate"
        = .ok out ∧
      owcrpsEnsemble path (obs.map fin) ((fct.moveLast k).map fin) wF (-1)
        (some ((W.moveLast k).map fin)) "propagate" = .ok out' ∧ out.Same out' := by
  have e : ∀ i, Arr.Valid obs.shape i →
      (fct.moveLast k).sliceAt (fct.ndim - 1) i = fct.sliceAt k i :=
    fun i hi => sliceAt_moved fct h.1 (hs ▸ hi)
  have hWn : W.ndim = fct.ndim := by unfold Arr.ndim; rw [hW]
  have e' : ∀ i, Arr.Valid obs.shape i →
      (W.moveLast k).sliceAt (fct.ndim - 1) i = W.sliceAt k i := by
    intro i hi
    rw [← hWn]
    exact sliceAt_moved W (hWn ▸ h.1) (by rw [hW]; exact hs ▸ hi)
  obtain ⟨out, h1, h2, h3⟩ := C23_ow_value_weighted h hs hW hw hv hpos hpos' path
  obtain ⟨out', h1', h2', h3'⟩ := C23_ow_value_weighted (W := W.moveLast k) (axisIs_moved fct h.1)
    (hs.trans (shape_moved fct h.1).symm) (by simp [Arr.moveLast, hW]) hw (fun i => hv _)
    (fun i hi => by rw [e' i hi]; exact hpos i hi)
    (fun i hi => by rw [e i hi, e' i hi]; exact hpos' i hi) path
  refine ⟨out, out', h1, h1', h2.trans h2'.symm, fun i hi => ?_⟩
  rw [h2] at hi
  rw [h3 i hi, h3' i hi, e i hi, e' i hi]

/-- C25 (policy `propagate` only) for the vertically re-scaled CRPS; array path: two-dimensional
forecasts, because of the disagreement C24 -/
theorem C25_vr_axis_partial {obs fct : Arr ℝ} {m : ℤ} {k : ℕ} (h : Spec.AxisIs m fct.ndim k)
    (hs : obs.shape = fct.shape.eraseIdx k) (hk : fct.shape.getD k 0 ≠ 0) {wF : XF → XF}
    {w : ℝ → ℝ} (hw : WeightFn wF w) (path : Path) (hrank : path = .array → fct.ndim = 2) :
    ∃ out out', vrcrpsEnsemble path (obs.map fin) (fct.map fin) wF m none "propagate" = .ok out ∧
      vrcrpsEnsemble path (obs.map fin) ((fct.moveLast k).map fin) wF (-1) none "propagate"
        = .ok out' ∧ out.Same out' := by
  have e : ∀ i, Arr.Valid obs.shape i →
      (fct.moveLast k).sliceAt (fct.ndim - 1) i = fct.sliceAt k i :=
    fun i hi => sliceAt_moved fct h.1 (hs ▸ hi)
  have hl : (fct.shape.eraseIdx k).length = fct.ndim - 1 := by
    exact List.length_eraseIdx_of_lt h.1
  obtain ⟨out, h1, h2, h3⟩ := C24_vr_value_partial h hs hk hw path hrank
  obtain ⟨out', h1', h2', h3'⟩ := C24_vr_value_partial (axisIs_moved fct h.1)
    (hs.trans (shape_moved fct h.1).symm)
    (by
      rw [show (fct.moveLast k).shape = fct.shape.eraseIdx k ++ [fct.shape.getD k 0] from rfl, ← hl]
      simpa [List.getD] using hk)
    hw path (fun hp => by rw [ndim_moveLast h.1]; exact hrank hp)
  refine ⟨out, out', h1, h1', h2.trans h2'.symm, fun i hi => ?_⟩
  rw [h2] at hi
  rw [h3 i hi, h3' i hi, e i hi]

/-- `C25_ow_axis_partial`, `C25_ow_axis_weighted_partial`, `C25_vr_axis_partial`: members along the
first axis -/
example : let fct : Arr ℝ := ⟨[2, 3], fun i => 1 + i.headD 0⟩
    let obs : Arr ℝ := ⟨[3], fun i => i.sum⟩
    let W : Arr ℝ := ⟨[2, 3], fun i => 1 + i.headD 0⟩
    Spec.AxisIs 0 fct.ndim 0 ∧ obs.shape = fct.shape.eraseIdx 0 ∧ W.shape = fct.shape ∧
      fct.shape.getD 0 0 ≠ 0 ∧ fct.ndim = 2 ∧ WeightFn (fun x => x * x) (fun x => x * x) ∧
      (∀ i, 0 ≤ W.get i) ∧ (∀ i, 0 < ((fct.sliceAt 0 i).map fun x => x * x).sum) ∧
      (∀ i, 0 < (W.sliceAt 0 i).sum) ∧
      ∀ i, 0 < ((Spec.reweightW (fun x => x * x)
        ((fct.sliceAt 0 i).zip (W.sliceAt 0 i))).map Prod.snd).sum := by
  refine ⟨⟨by simp [Arr.ndim], Or.inl rfl⟩, rfl, rfl, by simp, rfl,
    ⟨fun _ => rfl, fun x => mul_self_nonneg x⟩, fun i => by positivity, ?_, ?_, ?_⟩ <;>
  · intro i
    simp [Arr.sliceAt, List.range_succ, Spec.reweightW]
    positivity

theorem C25_vr_axis_weighted_partial {obs fct W : Arr ℝ} {m : ℤ} {k : ℕ}
    (h : Spec.AxisIs m fct.ndim k)
    (hs : obs.shape = fct.shape.eraseIdx k) (hW : W.shape = fct.shape) {wF : XF → XF} {w : ℝ → ℝ}
    (hw : WeightFn wF w) (hv : ∀ i, 0 ≤ W.get i)
    (hpos : ∀ i, Arr.Valid obs.shape i → 0 < (W.sliceAt k i).sum) (path : Path) :
    ∃ out out', vrcrpsEnsemble path (obs.map fin) (fct.map fin) wF m (some (W.map fin)) "propagate"
        = .ok out ∧
      vrcrpsEnsemble path (obs.map fin) ((fct.moveLast k).map fin) wF (-1)
        (some ((W.moveLast k).map fin)) "propagate" = .ok out' ∧ out.Same out' := by
  have e : ∀ i, Arr.Valid obs.shape i →
      (fct.moveLast k).sliceAt (fct.ndim - 1) i = fct.sliceAt k i :=
    fun i hi => sliceAt_moved fct h.1 (hs ▸ hi)
  have hWn : W.ndim = fct.ndim := by unfold Arr.ndim; rw [hW]
  have e' : ∀ i, Arr.Valid obs.shape i →
      (W.moveLast k).sliceAt (fct.ndim - 1) i = W.sliceAt k i := by
    intro i hi
    rw [← hWn]
    exact sliceAt_moved W (hWn ▸ h.1) (by rw [hW]; exact hs ▸ hi)
  obtain ⟨out, h1, h2, h3⟩ := C23_vr_value_weighted h hs hW hw hv hpos path
  obtain ⟨out', h1', h2', h3'⟩ := C23_vr_value_weighted (W := W.moveLast k) (axisIs_moved fct h.1)
    (hs.trans (shape_moved fct h.1).symm) (by simp [Arr.moveLast, hW]) hw (fun i => hv _)
    (fun i hi => by rw [e' i hi]; exact hpos i hi) path
  refine ⟨out, out', h1, h1', h2.trans h2'.symm, fun i hi => ?_⟩
  rw [h2] at hi
  rw [h3 i hi, h3' i hi, e i hi, e' i hi]

/-- first-axis ensembles of shape (2, 3) with constant weight one meet the hypotheses above -/
example : Spec.AxisIs 0 (⟨[2, 3], fun _ => 1⟩ : Arr ℝ).ndim 0 ∧
    WeightFn (fun _ => 1) (fun _ => 1) ∧
    ∀ i, 0 < (((⟨[2, 3], fun _ => 1⟩ : Arr ℝ).sliceAt 0 i).map fun _ => (1 : ℝ)).sum := by
  refine ⟨⟨by simp [Arr.ndim], Or.inl rfl⟩, ⟨fun _ => rfl, fun _ => zero_le_one⟩, fun i => ?_⟩
  simp [Arr.sliceAt]

end Verif
