import Verif.Lemmas.ApiNp

/-!
# C99: the public functions on whole arrays

For a backend other than numba the public ensemble scores check their arguments, move the axes, treat the
weights and then run the vectorised array code on whole arrays (`Verif.Model.ApiNp`).  Every call has the
same outcome, exception or array, as the function in which the same checks are followed by one formula per
observation (`Verif.Model.Api` and its relatives), about which the theorems on the scores are stated.

The univariate functions are covered for all inputs.  The multivariate ones are covered whenever the two
axis arguments denote two different axes of the forecasts.
-/

noncomputable section

open scoped Classical

namespace Verif

open XF Py Np Spec ApiNp

variable {obs fct : Arr XF} {mAxis vAxis : ℤ} {m v : ℕ}

/-- the dispatch of `core/crps/_approx.py` -/
theorem crps_dispatch {obs fct : Arr XF} {s : List ℕ} {M : ℕ} (ho : obs.shape = s) (hf : fct.shape = s ++ [M]) (est : String) :
    SameResult (CrpsNp.ensemble est obs fct) ((Api.kernel .array est).map fun k => Api.perSlice k obs fct) := by
  have H := C95_estimators ho hf
  simp only [CrpsNp.ensemble, Api.kernel, Api.ensembleKernel]
  split_ifs
  · exact same_of_returns H.1 ho.symm
  · exact same_of_returns H.2.2.1 ho.symm
  · exact same_of_returns H.2.1 ho.symm
  · exact same_of_returns H.2.2.2.1 ho.symm
  · exact same_of_returns H.2.2.2.2.1 ho.symm
  · exact same_of_returns H.2.2.2.2.2.1 ho.symm
  · exact same_of_returns H.2.2.2.2.2.2 ho.symm
  · exact rfl

/-- the dispatch of `core/crps/_approx_w.py` -/
theorem crps_dispatchW {obs fct w : Arr XF} {s : List ℕ} {M : ℕ} (ho : obs.shape = s) (hf : fct.shape = s ++ [M])
    (hw : w.shape = s ++ [M]) (est : String) :
    SameResult (CrpsNpW.ensemble est obs fct w) ((Api.kernelW .array est).map fun k => Api.perSliceW k obs fct w) := by
  have H := C95_weighted ho hf hw
  simp only [CrpsNpW.ensemble, Api.kernelW, Api.ensembleKernelW]
  split_ifs
  · exact same_of_returns H.1 ho.symm
  · exact same_of_returns H.2.2.1 ho.symm
  · exact same_of_returns H.2.1 ho.symm
  · exact same_of_returns H.2.2.2.1 ho.symm
  · exact same_of_returns H.2.2.2.2.1 ho.symm
  · exact same_of_returns H.2.2.2.2.2.1 ho.symm
  · exact same_of_returns H.2.2.2.2.2.2 ho.symm
  · exact rfl

/-- the dispatch of `core/energy/_score.py` -/
theorem es_dispatch {obs fct : Arr XF} {s : List ℕ} {M D : ℕ} (ho : obs.shape = s ++ [D])
    (hf : fct.shape = s ++ [M, D]) (est : String) :
    SameResult (EnergyNp.ensemble est obs fct) ((Api.esKernel .array est).map fun k => Api.perMat k obs fct) := by
  have H := C96_estimators ho hf
  simp only [EnergyNp.ensemble, Api.esKernel]
  split_ifs
  · exact same_of_returns H.1 (by rw [ho]; simp)
  · exact same_of_returns H.2.1 (by rw [ho]; simp)
  · exact same_of_returns H.2.2.1 (by rw [ho]; simp)
  · exact same_of_returns H.2.2.2 (by rw [ho]; simp)
  · exact rfl

/-- the dispatch of `core/energy/_score_w.py` -/
theorem es_dispatchW {obs fct w : Arr XF} {s : List ℕ} {M D : ℕ} (ho : obs.shape = s ++ [D])
    (hf : fct.shape = s ++ [M, D]) (hw : w.shape = s ++ [M]) (est : String) :
    SameResult (EnergyNpW.ensemble est obs fct w) ((Api.esKernelW .array est).map fun k => Api.perMatW k obs fct w) := by
  have H := C96_weighted ho hf hw
  simp only [EnergyNpW.ensemble, Api.esKernelW]
  split_ifs
  · exact same_of_returns H.1 (by rw [ho]; simp)
  · exact same_of_returns H.2.1 (by rw [ho]; simp)
  · exact same_of_returns H.2.2.1 (by rw [ho]; simp)
  · exact same_of_returns H.2.2.2 (by rw [ho]; simp)
  · exact rfl

/-- the univariate dispatch of `core/kernels/_approx.py` -/
theorem gksuv_dispatch {obs fct : Arr XF} {s : List ℕ} {M : ℕ} (ho : obs.shape = s) (hf : fct.shape = s ++ [M]) (est : String) :
    SameResult (KernelNp.ensembleUv est obs fct) ((Api.gksuvKernel .array est).map fun k => Api.perSlice k obs fct) := by
  have H := C98_uv_estimators ho hf
  simp only [KernelNp.ensembleUv, Api.gksuvKernel]
  split_ifs
  · exact same_of_returns H.1 ho.symm
  · exact same_of_returns H.2.1 ho.symm
  · exact same_of_returns H.2.2.1 ho.symm
  · exact same_of_returns H.2.2.2 ho.symm
  · exact rfl

/-- the univariate dispatch of `core/kernels/_approx_w.py` -/
theorem gksuv_dispatchW {obs fct w : Arr XF} {s : List ℕ} {M : ℕ} (ho : obs.shape = s) (hf : fct.shape = s ++ [M])
    (hw : w.shape = s ++ [M]) (est : String) :
    SameResult (KernelNpW.ensembleUv est obs fct w) ((Api.gksuvKernelW .array est).map fun k => Api.perSliceW k obs fct w) := by
  have H := C98_uv_weighted ho hf hw
  simp only [KernelNpW.ensembleUv, Api.gksuvKernelW]
  split_ifs
  · exact same_of_returns H.1 ho.symm
  · exact same_of_returns H.2.1 ho.symm
  · exact same_of_returns H.2.2.1 ho.symm
  · exact same_of_returns H.2.2.2 ho.symm
  · exact rfl

/-- the multivariate dispatch of `core/kernels/_approx.py` -/
theorem gksmv_dispatch {obs fct : Arr XF} {s : List ℕ} {M D : ℕ} (ho : obs.shape = s ++ [D])
    (hf : fct.shape = s ++ [M, D]) (est : String) :
    SameResult (KernelNp.ensembleMv est obs fct) ((Api.gksmvKernel .array est).map fun k => Api.perMat k obs fct) := by
  have H := C98_mv_estimators ho hf
  simp only [KernelNp.ensembleMv, Api.gksmvKernel]
  split_ifs
  · exact same_of_returns H.1 (by rw [ho]; simp)
  · exact same_of_returns H.2.1 (by rw [ho]; simp)
  · exact same_of_returns H.2.2.1 (by rw [ho]; simp)
  · exact same_of_returns H.2.2.2 (by rw [ho]; simp)
  · exact rfl

/-- the multivariate dispatch of `core/kernels/_approx_w.py` -/
theorem gksmv_dispatchW {obs fct w : Arr XF} {s : List ℕ} {M D : ℕ} (ho : obs.shape = s ++ [D])
    (hf : fct.shape = s ++ [M, D]) (hw : w.shape = s ++ [M]) (est : String) :
    SameResult (KernelNpW.ensembleMv est obs fct w) ((Api.gksmvKernelW .array est).map fun k => Api.perMatW k obs fct w) := by
  have H := C98_mv_weighted ho hf hw
  simp only [KernelNpW.ensembleMv, Api.gksmvKernelW]
  split_ifs
  · exact same_of_returns H.1 (by rw [ho]; simp)
  · exact same_of_returns H.2.1 (by rw [ho]; simp)
  · exact same_of_returns H.2.2.1 (by rw [ho]; simp)
  · exact same_of_returns H.2.2.2 (by rw [ho]; simp)
  · exact rfl

/-- `crps_ensemble` -/
theorem C99_crps (ensW : Option (Arr XF)) (est : String) (sorted : Bool) (pol : String) :
    SameResult (ApiNp.crpsEnsemble obs fct mAxis ensW est sorted pol)
      (Api.crpsEnsemble .array obs fct mAxis ensW est sorted pol) := by
  unfold ApiNp.crpsEnsemble Api.crpsEnsemble
  refine same_bind _ fun f hf => ?_
  obtain ⟨M, hM⟩ := check_shape hf
  refine same_bind _ fun ⟨f2, w2⟩ h2 => ?_
  refine same_bind _ fun ⟨f3, w3⟩ h3 => ?_
  have e := (sort_shape h3).trans ((nan_shape h2).trans hM)
  cases w3 with
  | none => exact crps_dispatch rfl e est
  | some w => exact same_bind _ fun w4 h4 => crps_dispatchW rfl e ((weight_shape h4).trans e) est

/-- `twcrps_ensemble`, whose chaining function is applied to every entry first -/
theorem C99_twcrps (vFunc : XF → XF) (ensW : Option (Arr XF)) (est : String) (sorted : Bool)
    (pol : String) :
    SameResult (ApiNp.crpsEnsemble (obs.map vFunc) (fct.map vFunc) mAxis ensW est sorted pol)
      (Api.twcrpsEnsemble .array obs fct vFunc mAxis ensW est sorted pol) :=
  C99_crps ensW est sorted pol

/-- `owcrps_ensemble` -/
theorem C99_owcrps (wFunc : XF → XF) (ensW : Option (Arr XF)) (pol : String) :
    SameResult (ApiNp.owcrpsEnsemble obs fct wFunc mAxis ensW pol)
      (Api.owcrpsEnsemble .array obs fct wFunc mAxis ensW pol) := by
  unfold ApiNp.owcrpsEnsemble Api.owcrpsEnsemble
  refine same_bind _ fun ⟨f, ow, fw, w⟩ h => ?_
  obtain ⟨M, h1, h2, h3, h4⟩ := owPrep_shape h
  cases w with
  | none => exact same_of_returns (C95_outcome rfl h1 h2 h3 h3).1 rfl
  | some w => exact same_of_returns (C95_outcome rfl h1 h2 h3 (h4 w rfl)).2.1 rfl

/-- `vrcrps_ensemble`, including the average over `axis=1` (C24) -/
theorem C99_vrcrps (wFunc : XF → XF) (ensW : Option (Arr XF)) (pol : String) :
    SameResult (ApiNp.vrcrpsEnsemble obs fct wFunc mAxis ensW pol)
      (Api.vrcrpsEnsemble .array obs fct wFunc mAxis ensW pol) := by
  unfold ApiNp.vrcrpsEnsemble Api.vrcrpsEnsemble
  refine same_bind _ fun ⟨f, ow, fw, w⟩ h => ?_
  obtain ⟨M, h1, h2, h3, h4⟩ := owPrep_shape h
  cases w with
  | none => exact C95_vr rfl h1 h2 h3
  | some w => exact same_of_returns (C95_outcome rfl h1 h2 h3 (h4 w rfl)).2.2 rfl

/-- `crps_quantile` -/
theorem C99_quantile (alpha : List XF) :
    SameResult (ApiNp.crpsQuantile obs fct alpha mAxis) (Api.crpsQuantile .array obs fct alpha mAxis) := by
  unfold ApiNp.crpsQuantile Api.crpsQuantile
  refine same_bind _ fun f hf => ?_
  obtain ⟨M, hM⟩ := check_shape hf
  split_ifs with h1 h2
  · exact rfl
  · exact rfl
  · have e : M = alpha.length := by
      push Not at h2
      rw [hM] at h2
      simpa using h2
    exact same_of_returns (C95_quantile rfl (by rw [hM, e])) rfl

/-- `gksuv_ensemble` -/
theorem C99_gksuv (ensW : Option (Arr XF)) (est : String) :
    SameResult (ApiNp.gksuvEnsemble obs fct mAxis ensW est)
      (Api.gksuvEnsemble .array obs fct mAxis ensW est) := by
  unfold ApiNp.gksuvEnsemble Api.gksuvEnsemble
  refine same_bind _ fun f hf => ?_
  obtain ⟨M, hM⟩ := check_shape hf
  cases ensW with
  | none => exact gksuv_dispatch rfl hM est
  | some w => exact same_bind _ fun w4 h4 => gksuv_dispatchW rfl hM ((weight_shape h4).trans hM) est

/-- `twgksuv_ensemble` -/
theorem C99_twgksuv (vFunc : XF → XF) (ensW : Option (Arr XF)) (est : String) :
    SameResult (ApiNp.gksuvEnsemble (obs.map vFunc) (fct.map vFunc) mAxis ensW est)
      (Api.twgksuvEnsemble .array obs fct vFunc mAxis ensW est) :=
  C99_gksuv ensW est

/-- `owgksuv_ensemble` -/
theorem C99_owgksuv (wFunc : XF → XF) (ensW : Option (Arr XF)) :
    SameResult (ApiNp.owgksuvEnsemble obs fct wFunc mAxis ensW)
      (Api.owgksuvEnsemble .array obs fct wFunc mAxis ensW) := by
  unfold ApiNp.owgksuvEnsemble Api.owgksuvEnsemble
  refine same_bind _ fun f hf => ?_
  obtain ⟨M, hM⟩ := check_shape hf
  refine same_bind _ fun ⟨o, u⟩ h2 => ?_
  obtain ⟨h3, h4⟩ := uvWeights_shape h2
  cases ensW with
  | none => exact same_of_returns (C98_uv_outcome rfl hM h3 (h4.trans hM) hM).1 rfl
  | some w =>
    refine same_bind _ fun w5 h5 => ?_
    exact same_of_returns (C98_uv_outcome rfl hM h3 (h4.trans hM) ((weight_shape h5).trans hM)).2.2.1 rfl

/-- `vrgksuv_ensemble` -/
theorem C99_vrgksuv (wFunc : XF → XF) (ensW : Option (Arr XF)) :
    SameResult (ApiNp.vrgksuvEnsemble obs fct wFunc mAxis ensW)
      (Api.vrgksuvEnsemble .array obs fct wFunc mAxis ensW) := by
  unfold ApiNp.vrgksuvEnsemble Api.vrgksuvEnsemble
  refine same_bind _ fun f hf => ?_
  obtain ⟨M, hM⟩ := check_shape hf
  refine same_bind _ fun ⟨o, u⟩ h2 => ?_
  obtain ⟨h3, h4⟩ := uvWeights_shape h2
  cases ensW with
  | none => exact same_of_returns (C98_uv_outcome rfl hM h3 (h4.trans hM) hM).2.1 rfl
  | some w =>
    refine same_bind _ fun w5 h5 => ?_
    exact same_of_returns (C98_uv_outcome rfl hM h3 (h4.trans hM) ((weight_shape h5).trans hM)).2.2.2 rfl

/-- `es_ensemble` -/
theorem C99_es (hx : MvAxes mAxis vAxis fct.ndim m v) (ensW : Option (Arr XF)) (est : String) :
    SameResult (ApiNp.esEnsemble obs fct mAxis vAxis ensW est)
      (Api.esEnsemble .array obs fct mAxis vAxis ensW est) := by
  unfold ApiNp.esEnsemble Api.esEnsemble
  refine same_bind _ fun ⟨o, f⟩ h => ?_
  obtain ⟨s, M, D, h1, h2⟩ := mv_shape hx h
  cases ensW with
  | none => exact es_dispatch h1 h2 est
  | some w => exact same_bind _ fun w4 h4 => es_dispatchW h1 h2 (mvWeight_shape h2 h4) est

/-- an ensemble axis in front of the variable axis, given with negative numbers, in a three-dimensional
array of forecasts -/
example : ∃ fct : Arr XF, MvAxes (-2) (-1) fct.ndim 1 2 ∧ fct.shape = [2, 5, 3] :=
  ⟨⟨[2, 5, 3], fun _ => 1⟩, ⟨⟨by simp [Arr.ndim], Or.inr (by simp [Arr.ndim])⟩,
    ⟨by simp [Arr.ndim], Or.inr (by simp [Arr.ndim])⟩, by simp⟩, rfl⟩

/-- `twes_ensemble`, whose chaining function is applied to both whole arrays first -/
theorem C99_twes (vFunc : Arr XF → Arr XF) (hx : MvAxes mAxis vAxis (vFunc fct).ndim m v)
    (ensW : Option (Arr XF)) (est : String) :
    SameResult (ApiNp.esEnsemble (vFunc obs) (vFunc fct) mAxis vAxis ensW est)
      (Api.twesEnsemble .array obs fct vFunc mAxis vAxis ensW est) :=
  C99_es hx ensW est

/-- the same axes with a chaining function that doubles every entry -/
example : ∃ (vFunc : Arr XF → Arr XF) (fct : Arr XF), MvAxes 1 (-1) (vFunc fct).ndim 1 2 ∧
    (vFunc fct).get [0, 0, 0] = fin 2 :=
  ⟨fun a => a.map fun x => x + x, ⟨[2, 5, 3], fun _ => fin 1⟩,
    ⟨⟨by simp [Arr.ndim, Arr.map], Or.inl rfl⟩,
    ⟨by simp [Arr.ndim, Arr.map], Or.inr (by simp [Arr.ndim, Arr.map])⟩, by simp⟩,
    by simp only [Arr.map, fin_add]; norm_num⟩

/-- `owes_ensemble` -/
theorem C99_owes (hx : MvAxes mAxis vAxis fct.ndim m v) (wFunc : List XF → XF) (ensW : Option (Arr XF)) :
    SameResult (ApiNp.owesEnsemble obs fct wFunc mAxis vAxis ensW)
      (Api.owesEnsemble .array obs fct wFunc mAxis vAxis ensW) := by
  unfold ApiNp.owesEnsemble Api.owesEnsemble
  refine same_bind _ fun ⟨o, f⟩ h => ?_
  obtain ⟨s, M, D, h1, h2⟩ := mv_shape hx h
  refine same_bind _ fun ⟨a, b⟩ h3 => ?_
  obtain ⟨h4, h5⟩ := mvWeights_shape h1 h2 h3
  cases ensW with
  | none => exact same_of_returns (C96_outcome h1 h2 h4 h5 h5).1 (by rw [h1]; simp)
  | some w =>
    refine same_bind _ fun w6 h6 => ?_
    exact same_of_returns (C96_outcome h1 h2 h4 h5 (mvWeight_shape h2 h6)).2.2.1 (by rw [h1]; simp)

/-- the ensemble axis after the variable axis, in a three-dimensional array of forecasts -/
example : ∃ fct : Arr XF, MvAxes 2 1 fct.ndim 2 1 ∧ fct.shape = [2, 3, 5] :=
  ⟨⟨[2, 3, 5], fun _ => 1⟩, ⟨⟨by simp [Arr.ndim], Or.inl rfl⟩, ⟨by simp [Arr.ndim], Or.inl rfl⟩,
    by simp⟩, rfl⟩

/-- `vres_ensemble` -/
theorem C99_vres (hx : MvAxes mAxis vAxis fct.ndim m v) (wFunc : List XF → XF) (ensW : Option (Arr XF)) :
    SameResult (ApiNp.vresEnsemble obs fct wFunc mAxis vAxis ensW)
      (Api.vresEnsemble .array obs fct wFunc mAxis vAxis ensW) := by
  unfold ApiNp.vresEnsemble Api.vresEnsemble
  refine same_bind _ fun ⟨o, f⟩ h => ?_
  obtain ⟨s, M, D, h1, h2⟩ := mv_shape hx h
  refine same_bind _ fun ⟨a, b⟩ h3 => ?_
  obtain ⟨h4, h5⟩ := mvWeights_shape h1 h2 h3
  cases ensW with
  | none => exact same_of_returns (C96_outcome h1 h2 h4 h5 h5).2.1 (by rw [h1]; simp)
  | some w =>
    refine same_bind _ fun w6 h6 => ?_
    exact same_of_returns (C96_outcome h1 h2 h4 h5 (mvWeight_shape h2 h6)).2.2.2 (by rw [h1]; simp)

/-- the ensemble axis after the variable axis, in a three-dimensional array of forecasts -/
example : ∃ fct : Arr XF, MvAxes 2 1 fct.ndim 2 1 ∧ fct.shape = [2, 3, 5] :=
  ⟨⟨[2, 3, 5], fun _ => 1⟩, ⟨⟨by simp [Arr.ndim], Or.inl rfl⟩, ⟨by simp [Arr.ndim], Or.inl rfl⟩,
    by simp⟩, rfl⟩

/-- `gksmv_ensemble` -/
theorem C99_gksmv (hx : MvAxes mAxis vAxis fct.ndim m v) (ensW : Option (Arr XF)) (est : String) :
    SameResult (ApiNp.gksmvEnsemble obs fct mAxis vAxis ensW est)
      (Api.gksmvEnsemble .array obs fct mAxis vAxis ensW est) := by
  unfold ApiNp.gksmvEnsemble Api.gksmvEnsemble
  refine same_bind _ fun ⟨o, f⟩ h => ?_
  obtain ⟨s, M, D, h1, h2⟩ := mv_shape hx h
  cases ensW with
  | none => exact gksmv_dispatch h1 h2 est
  | some w => exact same_bind _ fun w4 h4 => gksmv_dispatchW h1 h2 (mvWeight_shape h2 h4) est

/-- an ensemble axis in front of the variable axis, given with negative numbers, in a three-dimensional
array of forecasts -/
example : ∃ fct : Arr XF, MvAxes (-2) (-1) fct.ndim 1 2 ∧ fct.shape = [2, 5, 3] :=
  ⟨⟨[2, 5, 3], fun _ => 1⟩, ⟨⟨by simp [Arr.ndim], Or.inr (by simp [Arr.ndim])⟩,
    ⟨by simp [Arr.ndim], Or.inr (by simp [Arr.ndim])⟩, by simp⟩, rfl⟩

/-- `twgksmv_ensemble`, whose chaining function is applied to both whole arrays first -/
theorem C99_twgksmv (vFunc : Arr XF → Arr XF) (hx : MvAxes mAxis vAxis (vFunc fct).ndim m v)
    (ensW : Option (Arr XF)) (est : String) :
    SameResult (ApiNp.gksmvEnsemble (vFunc obs) (vFunc fct) mAxis vAxis ensW est)
      (Api.twgksmvEnsemble .array obs fct vFunc mAxis vAxis ensW est) :=
  C99_gksmv hx ensW est

/-- the same axes with a chaining function that doubles every entry -/
example : ∃ (vFunc : Arr XF → Arr XF) (fct : Arr XF), MvAxes 1 (-1) (vFunc fct).ndim 1 2 ∧
    (vFunc fct).get [0, 0, 0] = fin 2 :=
  ⟨fun a => a.map fun x => x + x, ⟨[2, 5, 3], fun _ => fin 1⟩,
    ⟨⟨by simp [Arr.ndim, Arr.map], Or.inl rfl⟩,
    ⟨by simp [Arr.ndim, Arr.map], Or.inr (by simp [Arr.ndim, Arr.map])⟩, by simp⟩,
    by simp only [Arr.map, fin_add]; norm_num⟩

/-- `owgksmv_ensemble` -/
theorem C99_owgksmv (hx : MvAxes mAxis vAxis fct.ndim m v) (wFunc : List XF → XF) (ensW : Option (Arr XF)) :
    SameResult (ApiNp.owgksmvEnsemble obs fct wFunc mAxis vAxis ensW)
      (Api.owgksmvEnsemble .array obs fct wFunc mAxis vAxis ensW) := by
  unfold ApiNp.owgksmvEnsemble Api.owgksmvEnsemble
  refine same_bind _ fun ⟨o, f⟩ h => ?_
  obtain ⟨s, M, D, h1, h2⟩ := mv_shape hx h
  refine same_bind _ fun ⟨a, b⟩ h3 => ?_
  obtain ⟨h4, h5⟩ := mvWeights_shape h1 h2 h3
  cases ensW with
  | none => exact same_of_returns (C98_mv_outcome h1 h2 h4 h5 h5).1 (by rw [h1]; simp)
  | some w =>
    refine same_bind _ fun w6 h6 => ?_
    exact same_of_returns (C98_mv_outcome h1 h2 h4 h5 (mvWeight_shape h2 h6)).2.2.1 (by rw [h1]; simp)

/-- the ensemble axis after the variable axis, in a three-dimensional array of forecasts -/
example : ∃ fct : Arr XF, MvAxes 2 1 fct.ndim 2 1 ∧ fct.shape = [2, 3, 5] :=
  ⟨⟨[2, 3, 5], fun _ => 1⟩, ⟨⟨by simp [Arr.ndim], Or.inl rfl⟩, ⟨by simp [Arr.ndim], Or.inl rfl⟩,
    by simp⟩, rfl⟩

/-- `vrgksmv_ensemble` -/
theorem C99_vrgksmv (hx : MvAxes mAxis vAxis fct.ndim m v) (wFunc : List XF → XF) (ensW : Option (Arr XF)) :
    SameResult (ApiNp.vrgksmvEnsemble obs fct wFunc mAxis vAxis ensW)
      (Api.vrgksmvEnsemble .array obs fct wFunc mAxis vAxis ensW) := by
  unfold ApiNp.vrgksmvEnsemble Api.vrgksmvEnsemble
  refine same_bind _ fun ⟨o, f⟩ h => ?_
  obtain ⟨s, M, D, h1, h2⟩ := mv_shape hx h
  refine same_bind _ fun ⟨a, b⟩ h3 => ?_
  obtain ⟨h4, h5⟩ := mvWeights_shape h1 h2 h3
  cases ensW with
  | none => exact same_of_returns (C98_mv_outcome h1 h2 h4 h5 h5).2.1 (by rw [h1]; simp)
  | some w =>
    refine same_bind _ fun w6 h6 => ?_
    exact same_of_returns (C98_mv_outcome h1 h2 h4 h5 (mvWeight_shape h2 h6)).2.2.2 (by rw [h1]; simp)

/-- the ensemble axis after the variable axis, in a three-dimensional array of forecasts -/
example : ∃ fct : Arr XF, MvAxes 2 1 fct.ndim 2 1 ∧ fct.shape = [2, 3, 5] :=
  ⟨⟨[2, 3, 5], fun _ => 1⟩, ⟨⟨by simp [Arr.ndim], Or.inl rfl⟩, ⟨by simp [Arr.ndim], Or.inl rfl⟩,
    by simp⟩, rfl⟩


/-! ### the variogram scores -/

theorem ones_mat (s : List ℕ) (D : ℕ) (i : List ℕ) :
    (⟨s ++ [D, D], fun _ => 1⟩ : Arr XF).mat i = Api.pairOnes D := by
  rw [mat_of_shape (s := s) (M := D) (D := D) rfl]
  unfold Api.pairOnes
  simp [List.map_const']

/-- The pair weights as an array and as a matrix: both paths of the model use ones when none are given. -/
theorem pair_cases {o f : Arr XF} {s : List ℕ} {M D : ℕ} (h1 : o.shape = s ++ [D])
    (h2 : f.shape = s ++ [M, D]) :
    ApiNp.pairWeights o f none = ⟨s ++ [D, D], fun _ => 1⟩ ∧
      f.shape.getD (f.ndim - 1) 0 = D := by
  constructor
  · unfold ApiNp.pairWeights
    simp [h1, h2]
  · unfold Arr.ndim
    simp [h2]

/-- the dispatch of `core/variogram/_score.py` -/
theorem vs_dispatch {o f : Arr XF} {s : List ℕ} {M D : ℕ} (h1 : o.shape = s ++ [D])
    (h2 : f.shape = s ++ [M, D]) (w : Option (Arr XF)) (hw : ∀ W, w = some W → W.shape = [D, D])
    (p : ℝ) (est : String) :
    SameResult (VariogramNp.ensemble est p o f (ApiNp.pairWeights o f w))
      ((Api.vsKernel .array est ((w.map fun W => W.mat []).getD
        (Api.pairOnes (f.shape.getD (f.ndim - 1) 0))) p).map fun k => Api.perMat k o f) := by
  obtain ⟨e1, e2⟩ := pair_cases h1 h2
  rw [e2]
  cases w with
  | none =>
    have H := C97_estimators (w := ⟨s ++ [D, D], fun _ => 1⟩) (ensW := ⟨s ++ [M], fun _ => 1⟩) p h1 h2
      rfl rfl
    simp only [ones_mat] at H
    rw [e1]
    simp only [VariogramNp.ensemble, Api.vsKernel, Option.map_none, Option.getD_none]
    split_ifs
    · exact same_of_returns H.1 (by rw [h1]; simp)
    · exact same_of_returns H.2.1 (by rw [h1]; simp)
    · exact rfl
  | some W =>
    have H := C97_shared_weights (w := W) (ensW := ⟨s ++ [M], fun _ => 1⟩) (ow := ⟨s, fun _ => 1⟩)
      (fw := ⟨s ++ [M], fun _ => 1⟩) p h1 h2 (hw W rfl) rfl rfl rfl
    simp only [VariogramNp.ensemble, Api.vsKernel, Option.map_some, Option.getD_some,
      ApiNp.pairWeights]
    split_ifs
    · exact same_of_returns H.1 (by rw [h1]; simp)
    · exact same_of_returns H.2.1 (by rw [h1]; simp)
    · exact rfl

/-- the dispatch of `core/variogram/_score_w.py` -/
theorem vs_dispatchW {o f ew : Arr XF} {s : List ℕ} {M D : ℕ} (h1 : o.shape = s ++ [D])
    (h2 : f.shape = s ++ [M, D]) (h3 : ew.shape = s ++ [M]) (w : Option (Arr XF))
    (hw : ∀ W, w = some W → W.shape = [D, D]) (p : ℝ) (est : String) :
    SameResult (VariogramNpW.ensemble est p o f (ApiNp.pairWeights o f w) ew)
      ((Api.vsKernelW .array est ((w.map fun W => W.mat []).getD
        (Api.pairOnes (f.shape.getD (f.ndim - 1) 0))) p).map fun k => Api.perMatW k o f ew) := by
  obtain ⟨e1, e2⟩ := pair_cases h1 h2
  rw [e2]
  cases w with
  | none =>
    have H := C97_estimators (w := ⟨s ++ [D, D], fun _ => 1⟩) (ensW := ew) p h1 h2 rfl h3
    simp only [ones_mat] at H
    rw [e1]
    simp only [VariogramNpW.ensemble, Api.vsKernelW, Option.map_none, Option.getD_none]
    split_ifs
    · exact same_of_returns H.2.2.1 (by rw [h1]; simp)
    · exact same_of_returns H.2.2.2 (by rw [h1]; simp)
    · exact rfl
  | some W =>
    have H := C97_shared_weights (w := W) (ensW := ew) (ow := ⟨s, fun _ => 1⟩)
      (fw := ⟨s ++ [M], fun _ => 1⟩) p h1 h2 (hw W rfl) h3 rfl rfl
    simp only [VariogramNpW.ensemble, Api.vsKernelW, Option.map_some, Option.getD_some,
      ApiNp.pairWeights]
    split_ifs
    · exact same_of_returns H.2.2.1 (by rw [h1]; simp)
    · exact same_of_returns H.2.2.2.1 (by rw [h1]; simp)
    · exact rfl

/-- The length of the variable axis survives the axis permutation. -/
theorem mv_shapeD {obs fct o f : Arr XF} {mAxis vAxis : ℤ} {m v : ℕ}
    (hx : MvAxes mAxis vAxis fct.ndim m v)
    (h : Api.multivariateArrayCheck obs fct mAxis vAxis = .ok (o, f)) :
    ∃ s M, o.shape = s ++ [fct.shape.getD v 0] ∧ f.shape = s ++ [M, fct.shape.getD v 0] := by
  obtain ⟨s, M, D, h1, h2⟩ := mv_shape hx h
  have : D = fct.shape.getD v 0 := by
    have e := mv_fct hx h
    rw [e] at h2
    have := congrArg List.getLast? h2
    simpa [Arr.moveLast2] using this.symm
  subst this
  exact ⟨s, M, h1, h2⟩

/-- `vs_ensemble`, without pair weights or with one matrix of them for all observations -/
theorem C99_vs (hx : MvAxes mAxis vAxis fct.ndim m v) (w : Option (Arr XF))
    (hw : ∀ W, w = some W → W.shape = [fct.shape.getD v 0, fct.shape.getD v 0])
    (ensW : Option (Arr XF)) (p : ℝ) (est : String) :
    SameResult (ApiNp.vsEnsemble obs fct w mAxis vAxis ensW p est)
      (Api.vsEnsemble .array obs fct (w.map fun W => W.mat []) mAxis vAxis ensW p est) := by
  unfold ApiNp.vsEnsemble Api.vsEnsemble
  refine same_bind _ fun ⟨o, f⟩ h => ?_
  obtain ⟨s, M, h1, h2⟩ := mv_shapeD hx h
  cases ensW with
  | none => exact vs_dispatch h1 h2 w hw p est
  | some ew => exact same_bind _ fun w4 h4 => vs_dispatchW h1 h2 (mvWeight_shape h2 h4) w hw p est

/-- a matrix of unequal pair weights for vectors of length three -/
example : ∃ (fct : Arr XF) (w : Option (Arr XF)), MvAxes 1 (-1) fct.ndim 1 2 ∧
    (∀ W, w = some W → W.shape = [fct.shape.getD 2 0, fct.shape.getD 2 0]) ∧
    ∃ W, w = some W ∧ W.get [0, 1] ≠ W.get [1, 0] :=
  ⟨⟨[2, 5, 3], fun _ => fin 1⟩, some ⟨[3, 3], fun i => fin (i.headD 0)⟩,
    ⟨⟨by simp [Arr.ndim], Or.inl rfl⟩, ⟨by simp [Arr.ndim], Or.inr (by simp [Arr.ndim])⟩, by simp⟩,
    fun W hW => by cases hW; rfl, _, rfl, by simp⟩

/-- `twvs_ensemble` -/
theorem C99_twvs (vFunc : Arr XF → Arr XF) (hx : MvAxes mAxis vAxis (vFunc fct).ndim m v)
    (w : Option (Arr XF))
    (hw : ∀ W, w = some W → W.shape = [(vFunc fct).shape.getD v 0, (vFunc fct).shape.getD v 0])
    (ensW : Option (Arr XF)) (p : ℝ) (est : String) :
    SameResult (ApiNp.vsEnsemble (vFunc obs) (vFunc fct) w mAxis vAxis ensW p est)
      (Api.twvsEnsemble .array obs fct vFunc (w.map fun W => W.mat []) mAxis vAxis ensW p est) :=
  C99_vs hx w hw ensW p est

/-- the same with a chaining function that doubles every entry -/
example : ∃ (vFunc : Arr XF → Arr XF) (fct : Arr XF) (w : Option (Arr XF)),
    MvAxes 1 (-1) (vFunc fct).ndim 1 2 ∧
    (∀ W, w = some W → W.shape = [(vFunc fct).shape.getD 2 0, (vFunc fct).shape.getD 2 0]) ∧
    ∃ W, w = some W ∧ W.get [0, 1] ≠ W.get [1, 0] :=
  ⟨fun a => a.map fun x => x + x, ⟨[2, 5, 3], fun _ => fin 1⟩,
    some ⟨[3, 3], fun i => fin (i.headD 0)⟩,
    ⟨⟨by simp [Arr.ndim, Arr.map], Or.inl rfl⟩,
      ⟨by simp [Arr.ndim, Arr.map], Or.inr (by simp [Arr.ndim, Arr.map])⟩, by simp⟩,
    fun W hW => by cases hW; rfl, _, rfl, by simp⟩

/-- `owvs_ensemble`, without pair weights or with one matrix of them for all observations -/
theorem C99_owvs (hx : MvAxes mAxis vAxis fct.ndim m v) (wFunc : List XF → XF) (w : Option (Arr XF))
    (hw : ∀ W, w = some W → W.shape = [fct.shape.getD v 0, fct.shape.getD v 0])
    (ensW : Option (Arr XF)) (p : ℝ) :
    SameResult (ApiNp.owvsEnsemble obs fct wFunc w mAxis vAxis ensW p)
      (Api.owvsEnsemble .array obs fct wFunc (w.map fun W => W.mat []) mAxis vAxis ensW p) := by
  unfold ApiNp.owvsEnsemble Api.owvsEnsemble
  refine same_bind _ fun ⟨o, f⟩ h => ?_
  obtain ⟨s, M, h1, h2⟩ := mv_shapeD hx h
  refine same_bind _ fun ⟨a, b⟩ h3 => ?_
  obtain ⟨h4, h5⟩ := mvWeights_shape h1 h2 h3
  obtain ⟨e1, e2⟩ := pair_cases h1 h2
  dsimp only
  rw [e2]
  generalize fct.shape.getD v 0 = D at *
  cases ensW with
  | none =>
    cases w with
    | none =>
      have H := C97_outcome (w := ⟨s ++ [D, D], fun _ => 1⟩) p h1 h2 rfl h5 h4 h5
      simp only [ones_mat] at H
      rw [e1]
      exact same_of_returns H.1 (by rw [h1]; simp)
    | some W =>
      exact same_of_returns (C97_shared_weights p h1 h2 (hw W rfl) h5 h4 h5).2.2.2.2.1 (by rw [h1]; simp)
  | some ew =>
    refine same_bind _ fun w6 h6 => ?_
    have h7 := mvWeight_shape h2 h6
    cases w with
    | none =>
      have H := C97_outcome (w := ⟨s ++ [D, D], fun _ => 1⟩) p h1 h2 rfl h7 h4 h5
      simp only [ones_mat] at H
      rw [e1]
      exact same_of_returns H.2.2.1 (by rw [h1]; simp)
    | some W =>
      exact same_of_returns (C97_shared_weights p h1 h2 (hw W rfl) h7 h4 h5).2.2.2.2.2.2.1 (by rw [h1]; simp)

/-- a matrix of unequal pair weights, and the ensemble axis last -/
example : ∃ (fct : Arr XF) (w : Option (Arr XF)), MvAxes 2 1 fct.ndim 2 1 ∧
    (∀ W, w = some W → W.shape = [fct.shape.getD 1 0, fct.shape.getD 1 0]) ∧
    ∃ W, w = some W ∧ W.get [0, 1] ≠ W.get [1, 0] :=
  ⟨⟨[2, 3, 5], fun _ => fin 1⟩, some ⟨[3, 3], fun i => fin (i.headD 0)⟩,
    ⟨⟨by simp [Arr.ndim], Or.inl rfl⟩, ⟨by simp [Arr.ndim], Or.inl rfl⟩, by simp⟩,
    fun W hW => by cases hW; rfl, _, rfl, by simp⟩

/-- `vrvs_ensemble`, without pair weights or with one matrix of them for all observations -/
theorem C99_vrvs (hx : MvAxes mAxis vAxis fct.ndim m v) (wFunc : List XF → XF) (w : Option (Arr XF))
    (hw : ∀ W, w = some W → W.shape = [fct.shape.getD v 0, fct.shape.getD v 0])
    (ensW : Option (Arr XF)) (p : ℝ) :
    SameResult (ApiNp.vrvsEnsemble obs fct wFunc w mAxis vAxis ensW p)
      (Api.vrvsEnsemble .array obs fct wFunc (w.map fun W => W.mat []) mAxis vAxis ensW p) := by
  unfold ApiNp.vrvsEnsemble Api.vrvsEnsemble
  refine same_bind _ fun ⟨o, f⟩ h => ?_
  obtain ⟨s, M, h1, h2⟩ := mv_shapeD hx h
  refine same_bind _ fun ⟨a, b⟩ h3 => ?_
  obtain ⟨h4, h5⟩ := mvWeights_shape h1 h2 h3
  obtain ⟨e1, e2⟩ := pair_cases h1 h2
  dsimp only
  rw [e2]
  generalize fct.shape.getD v 0 = D at *
  cases ensW with
  | none =>
    cases w with
    | none =>
      have H := C97_outcome (w := ⟨s ++ [D, D], fun _ => 1⟩) p h1 h2 rfl h5 h4 h5
      simp only [ones_mat] at H
      rw [e1]
      exact same_of_returns H.2.1 (by rw [h1]; simp)
    | some W =>
      exact same_of_returns (C97_shared_weights p h1 h2 (hw W rfl) h5 h4 h5).2.2.2.2.2.1 (by rw [h1]; simp)
  | some ew =>
    refine same_bind _ fun w6 h6 => ?_
    have h7 := mvWeight_shape h2 h6
    cases w with
    | none =>
      have H := C97_outcome (w := ⟨s ++ [D, D], fun _ => 1⟩) p h1 h2 rfl h7 h4 h5
      simp only [ones_mat] at H
      rw [e1]
      exact same_of_returns H.2.2.2 (by rw [h1]; simp)
    | some W =>
      exact same_of_returns (C97_shared_weights p h1 h2 (hw W rfl) h7 h4 h5).2.2.2.2.2.2.2 (by rw [h1]; simp)

/-- a matrix of unequal pair weights, and the ensemble axis last -/
example : ∃ (fct : Arr XF) (w : Option (Arr XF)), MvAxes 2 1 fct.ndim 2 1 ∧
    (∀ W, w = some W → W.shape = [fct.shape.getD 1 0, fct.shape.getD 1 0]) ∧
    ∃ W, w = some W ∧ W.get [0, 1] ≠ W.get [1, 0] :=
  ⟨⟨[2, 3, 5], fun _ => fin 1⟩, some ⟨[3, 3], fun i => fin (i.headD 0)⟩,
    ⟨⟨by simp [Arr.ndim], Or.inl rfl⟩, ⟨by simp [Arr.ndim], Or.inl rfl⟩, by simp⟩,
    fun W hW => by cases hW; rfl, _, rfl, by simp⟩

end Verif
