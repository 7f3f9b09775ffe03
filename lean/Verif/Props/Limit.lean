import Verif.Lemmas.IidLimit
import Verif.Lemmas.Stable
import Verif.Props.Unbiased

/-!
# Property C121: with more and more members drawn from a law the scores approach the score of the law
-/

noncomputable section

open scoped Classical
open MeasureTheory

namespace Verif

open XF Py Api Spec Mv

variable {D : ℕ}

section
variable {E : Type} [NormedAddCommGroup E] [MeasurableSpace E] [BorelSpace E] [SecondCountableTopology E]

theorem negDist_meas : Measurable fun z : E × E => negDist z.1 z.2 := by
  unfold negDist
  exact (by fun_prop : Continuous fun z : E × E => -dist z.1 z.2).measurable

end

/-! ### The continuous ranked probability score -/

/-- C121: if the members are drawn independently from a law with a finite mean, the score of the ensemble comes
arbitrarily close to the score of the law as the ensemble grows, in mean absolute distance, for every estimator of
`crps_ensemble` and both code paths. -/
theorem C121_crps (path : Path) (est : String)
    (he : est ∈ ["nrg", "fair", "pwm", "qd", "int", "akr", "akr_circperm"]) (y : ℝ) (Q : Measure ℝ)
    [IsProbabilityMeasure Q] (hQ : Integrable (fun x => x) Q) :
    ∃ S : ∀ M : ℕ, (Fin M → ℝ) → XF,
      (∀ M, 2 ≤ M → ∀ x : Fin M → ℝ,
        crps1 path est false "propagate" (fin y) ((List.ofFn x).map fin) none = .ok (S M x)) ∧
      ConvergesInMean (fun M => iid M Q) S (crps (distr Q) y) := by
  obtain ⟨i1, i2, i3⟩ := negDist_int (finMean_real hQ) y
  have hx : ∀ {M : ℕ}, 2 ≤ M → ∀ x : Fin M → ℝ, List.ofFn x ≠ [] := @fun M hM x => by
    have : M ≠ 0 := by omega
    simpa using this
  have hx' : ∀ {M : ℕ}, 2 ≤ M → ∀ x : Fin M → ℝ, (List.ofFn x).map fin ≠ [] := fun hM x => by
    simpa only [ne_eq, List.map_eq_nil_iff] using hx hM x
  have hl : ∀ {M : ℕ}, 2 ≤ M → ∀ x : Fin M → ℝ, 2 ≤ (List.ofFn x).length := fun hM x => by simpa using hM
  have hs : ∀ {M : ℕ} (x : Fin M → ℝ), SortOK false (List.ofFn x) := fun x h => by simp at h
  simp only [← ksLaw_crps y hQ]
  have k1 := ks_limit negDist_meas i1 y i2 i3
  have k2 := ksFair_limit negDist_meas i1 y i3
  simp only [List.mem_cons, List.not_mem_nil, or_false] at he
  rcases he with rfl | rfl | rfl | rfl | rfl | rfl | rfl
  · exact ⟨_, fun M hM x => by rw [crps1_nrg path false y (hx hM x), energy_ks, uw_eqW], k1⟩
  · exact ⟨_, fun M hM x => by rw [crps1_fair path false y (hl hM x), fairCrps_ks], k2⟩
  · exact ⟨_, fun M hM x => by
      rw [crps1_pwm path y (hl hM x) (fun h => by simp at h), fairCrps_ks], k2⟩
  · exact ⟨_, fun M hM x => by rw [crps1_qd path y (hx hM x) (hs x), energy_ks, uw_eqW], k1⟩
  · exact ⟨_, fun M hM x => by rw [crps1_int path y (hx hM x) (hs x), energy_ks, uw_eqW], k1⟩
  · exact ⟨_, fun M hM x => by
      rw [crps1_akr path false _ _ (hx' hM x), Gufunc.akr_fin y _ (hx hM x),
        crps_circ prevF (h := prevI (List.ofFn x).length) (fun i => by simp [prevF])],
      ksCirc_limit negDist_meas i1 (fun M => prevF) (fun M hM => ⟨prevF_inj, prevF_ne hM⟩) y i3⟩
  · exact ⟨_, fun M hM x => by
      rw [crps1_akrCircperm path false _ _ (hx' hM x), Gufunc.akrCircperm_fin y _ (hx hM x),
        crps_circ sigmaF (h := Gufunc.sigma (List.ofFn x).length) (fun i => by simp [sigmaF])],
      ksCirc_limit negDist_meas i1 (fun M => sigmaF) (fun M hM => ⟨sigmaF_inj, sigmaF_ne hM⟩) y i3⟩

/-- a law that is not concentrated on one point -/
example : "akr" ∈ ["nrg", "fair", "pwm", "qd", "int", "akr", "akr_circperm"] ∧
    Integrable (fun x : ℝ => x) (ensLaw (eqW [1, 2, (2:ℝ)])) :=
  ⟨by simp, (integral_ensLaw (eqW_nonneg _) _).1⟩

/-! ### The energy score -/

/-- C121: the same for the energy score. -/
theorem C121_es (path : Path) (est : String) (he : est ∈ ["nrg", "fair", "akr", "akr_circperm"]) (y : Eu D)
    (Q : Measure (Eu D)) [IsProbabilityMeasure Q] (hQ : Q ∈ FinMean (Eu D)) :
    ∃ S : ∀ M : ℕ, (Fin M → Eu D) → XF,
      (∀ M, 2 ≤ M → ∀ x : Fin M → Eu D, es1 path est D (vec y) ((List.ofFn x).map vec) none = .ok (S M x)) ∧
      ConvergesInMean (fun M => iid M Q) S (esLaw y Q) := by
  obtain ⟨i1, i2, i3⟩ := negDist_int hQ y
  simp only [← ksLaw_es y Q]
  simp only [List.mem_cons, List.not_mem_nil, or_false] at he
  rcases he with rfl | rfl | rfl | rfl
  · exact ⟨_, fun M hM x => by
      have hM0 : M ≠ 0 := by omega
      rw [es1_nrg path y (by simpa using hM0 : List.ofFn x ≠ []), es_ks]
      rfl, ks_limit negDist_meas i1 y i2 i3⟩
  · exact ⟨_, fun M hM x => by rw [es1_fair path y (by simpa using hM), esFair_ks], ksFair_limit negDist_meas i1 y i3⟩
  · exact ⟨_, fun M hM x => es1_akr_value path (by omega) y x,
      ksCirc_limit negDist_meas i1 (fun M => prevF) (fun M hM => ⟨prevF_inj, prevF_ne hM⟩) y i3⟩
  · exact ⟨_, fun M hM x => es1_akrCircperm_value path (by omega) y x,
      ksCirc_limit negDist_meas i1 (fun M => halfF) (fun M hM => ⟨halfF_inj, halfF_ne hM⟩) y i3⟩

/-- a law in the plane -/
example : "akr_circperm" ∈ ["nrg", "fair", "akr", "akr_circperm"] ∧
    ensLaw (eqW [!₂[3, 4], !₂[0, (1:ℝ)]]) ∈ FinMean (Eu 2) :=
  ⟨by simp, (integral_ensLaw (eqW_nonneg _) _).1⟩

/-! ### The Gaussian kernel score -/

section
variable {E : Type} [NormedAddCommGroup E] [InnerProductSpace ℝ E] [MeasurableSpace E] [BorelSpace E]
  [FiniteDimensional ℝ E]

theorem gk_meas (s : ℝ) : Measurable fun z : E × E => gk s z.1 z.2 := (gk_continuous s).measurable

end

/-- C121: the same for the Gaussian kernel score and every law. -/
theorem C121_gksuv (path : Path) (est : String) (he : est ∈ ["nrg", "fair", "akr", "akr_circperm"]) (y : ℝ)
    (Q : Measure ℝ) [IsProbabilityMeasure Q] :
    ∃ S : ∀ M : ℕ, (Fin M → ℝ) → XF,
      (∀ M, 2 ≤ M → ∀ x : Fin M → ℝ, gksuv1 path est (fin y) ((List.ofFn x).map fin) none = .ok (S M x)) ∧
      ConvergesInMean (fun M => iid M Q) S (ksLaw gauss1 y Q) := by
  obtain ⟨i1, i2, i3⟩ := gk_int (Q := Q) (by norm_num : (0:ℝ) ≤ 1 / 2) y
  have hm := gk_meas (E := ℝ) (1 / 2)
  simp only [← gauss1_eq] at i1 i2 i3 hm
  simp only [List.mem_cons, List.not_mem_nil, or_false] at he
  rcases he with rfl | rfl | rfl | rfl
  · exact ⟨_, fun M hM x => C37_gksuv_value path y (by
      have : M ≠ 0 := by omega
      simpa using this), ks_limit hm i1 y i2 i3⟩
  · exact ⟨_, fun M hM x => C37_gksuv_fair path y (by simpa using hM), ksFair_limit hm i1 y i3⟩
  · refine ⟨_, fun M hM x => ?_,
      ksCirc_limit hm i1 (fun M => prevF) (fun M hM => ⟨prevF_inj, prevF_ne hM⟩) y i3⟩
    have hM0 : M ≠ 0 := by omega
    rw [gksuv1_none]
    cases path
    · simp [-List.map_ofFn, gksuvKernel, Except.map, nanGuard, KsGufunc.akr_value uv_emb nan hM0 y x]
    · simp [-List.map_ofFn, gksuvKernel, Except.map, ← KsGufunc.akr_eq uv_symm, KsGufunc.akr_value uv_emb nan hM0 y x]
  · refine ⟨_, fun M hM x => ?_,
      ksCirc_limit hm i1 (fun M => sigmaF) (fun M hM => ⟨sigmaF_inj, sigmaF_ne hM⟩) y i3⟩
    have hM0 : M ≠ 0 := by omega
    rw [gksuv1_none]
    cases path
    · simp [-List.map_ofFn, gksuvKernel, Except.map, nanGuard, KsGufunc.akrCircperm_value uv_emb nan hM0 y x]
    · simp [-List.map_ofFn, gksuvKernel, Except.map, ← KsGufunc.akrCircperm_eq uv_symm,
        KsGufunc.akrCircperm_value uv_emb nan hM0 y x]

/-- a law without a mean is allowed too; here the law of a fair coin -/
example : "akr" ∈ ["nrg", "fair", "akr", "akr_circperm"] ∧ IsProbabilityMeasure (ensLaw (eqW [0, (1:ℝ)])) :=
  ⟨by simp, ensLaw_prob (eqW_nonneg _) (eqW_sum (by simp))⟩

/-- C121: the same in several variables. -/
theorem C121_gksmv (path : Path) (est : String) (he : est ∈ ["nrg", "fair", "akr", "akr_circperm"]) (y : Eu D)
    (Q : Measure (Eu D)) [IsProbabilityMeasure Q] :
    ∃ S : ∀ M : ℕ, (Fin M → Eu D) → XF,
      (∀ M, 2 ≤ M → ∀ x : Fin M → Eu D, gksmv1 path est D (vec y) ((List.ofFn x).map vec) none = .ok (S M x)) ∧
      ConvergesInMean (fun M => iid M Q) S (ksLaw gaussD y Q) := by
  obtain ⟨i1, i2, i3⟩ := gk_int (Q := Q) (by norm_num : (0:ℝ) ≤ 1 / 2) y
  have hm := gk_meas (E := Eu D) (1 / 2)
  simp only [← gaussD_eq] at i1 i2 i3 hm
  simp only [List.mem_cons, List.not_mem_nil, or_false] at he
  rcases he with rfl | rfl | rfl | rfl
  · exact ⟨_, fun M hM x => C37_gksmv_value path y (by
      have : M ≠ 0 := by omega
      simpa using this), ks_limit hm i1 y i2 i3⟩
  · exact ⟨_, fun M hM x => C37_gksmv_fair path y (by simpa using hM), ksFair_limit hm i1 y i3⟩
  · refine ⟨_, fun M hM x => ?_,
      ksCirc_limit hm i1 (fun M => prevF) (fun M hM => ⟨prevF_inj, prevF_ne hM⟩) y i3⟩
    have hM0 : M ≠ 0 := by omega
    rw [gksmv1_none _ _ (vec_length y) (vecs_length _)]
    cases path
    · simp [-List.map_ofFn, gksmvKernel, Except.map, KsGufunc.akr_value mv_emb [] hM0 y x]
    · simp [-List.map_ofFn, gksmvKernel, Except.map, ← KsGufunc.akr_eq mv_symm, KsGufunc.akr_value mv_emb [] hM0 y x]
  · refine ⟨_, fun M hM x => ?_,
      ksCirc_limit hm i1 (fun M => sigmaF) (fun M hM => ⟨sigmaF_inj, sigmaF_ne hM⟩) y i3⟩
    have hM0 : M ≠ 0 := by omega
    rw [gksmv1_none _ _ (vec_length y) (vecs_length _)]
    cases path
    · simp [-List.map_ofFn, gksmvKernel, Except.map, KsGufunc.akrCircperm_value mv_emb [] hM0 y x]
    · simp [-List.map_ofFn, gksmvKernel, Except.map, ← KsGufunc.akrCircperm_eq mv_symm,
        KsGufunc.akrCircperm_value mv_emb [] hM0 y x]

/-- a law in the plane -/
example : "nrg" ∈ ["nrg", "fair", "akr", "akr_circperm"] ∧
    IsProbabilityMeasure (ensLaw (eqW [!₂[3, 4], !₂[0, (1:ℝ)]])) :=
  ⟨by simp, ensLaw_prob (eqW_nonneg _) (eqW_sum (by simp))⟩

/-! ### The variogram score -/

section
variable {p : ℝ}

theorem negV_meas (W : Fin D → Fin D → ℝ) : Measurable fun z : Eu D × Eu D => negV p W z.1 z.2 := by
  unfold negV vdist
  refine (Finset.measurable_fun_sum _ fun i _ => Finset.measurable_fun_sum _ fun j _ => ?_).neg
  exact ((((measurable_vdiff p i j).comp measurable_fst).sub
    ((measurable_vdiff p i j).comp measurable_snd)).pow_const 2).const_mul _

/-- C121: the same for the variogram score if the variogram has a finite second moment. -/
theorem C121_vs (hp : 0 < p) (W : Fin D → Fin D → ℝ) (path : Path) (est : String) (he : est ∈ ["nrg", "fair"])
    (y : Eu D) (Q : Measure (Eu D)) [IsProbabilityMeasure Q]
    (hQ : ∀ i j, Integrable (fun x => vdiff p x i j ^ 2) Q) :
    ∃ S : ∀ M : ℕ, (Fin M → Eu D) → XF,
      (∀ M, 2 ≤ M → ∀ x : Fin M → Eu D,
        vs1 path est p (some (matl W)) D (vec y) ((List.ofFn x).map vec) none = .ok (S M x)) ∧
      ConvergesInMean (fun M => iid M Q) S (vsLaw p W y Q) := by
  obtain ⟨⟨i1, i2, i3⟩, e, _⟩ := negV_int (W := W) hQ y
  rw [← e]
  simp only [List.mem_cons, List.not_mem_nil, or_false] at he
  rcases he with rfl | rfl
  · refine ⟨_, fun M hM x => ?_, ks_limit (negV_meas W) i1 y i2 i3⟩
    have hM0 : M ≠ 0 := by omega
    have hx : List.ofFn x ≠ [] := by simpa using hM0
    rw [vs1_nrg hp W path y hx]
    exact congrArg _ (congrArg _ (vs_ks _ (eqW_sum hx)))
  · exact ⟨_, fun M hM x => by rw [vs1_fair hp W path y (by simpa using hM), vsFair_ks],
      ksFair_limit (negV_meas W) i1 y i3⟩

/-- order 1/2 in the plane -/
example : (0:ℝ) < 1 / 2 ∧ "fair" ∈ ["nrg", "fair"] ∧
    ∀ i j : Fin 2, Integrable (fun y => vdiff (1 / 2) y i j ^ 2) (ensLaw (eqW [!₂[3, 4], !₂[0, (1:ℝ)]])) :=
  ⟨by norm_num, by simp, fun i j => (integral_ensLaw (eqW_nonneg _) _).1⟩

end

/-! ### In probability -/

/-- C121: convergence in mean implies convergence in probability, so the theorems above also say that the score of a
large ensemble is close to the score of the law except with small probability. -/
theorem C121_in_probability {Ω : ℕ → Type} [∀ M, MeasurableSpace (Ω M)] (P : ∀ M, Measure (Ω M))
    [∀ M, IsFiniteMeasure (P M)] (S : ∀ M, Ω M → XF) (m : ℝ) (h : ConvergesInMean P S m) (δ η : ℝ) (hδ : 0 < δ)
    (hη : 0 < η) :
    ∃ N : ℕ, ∀ M, N ≤ M → ((P M).real {x | ¬∃ s : ℝ, S M x = fin s ∧ |s - m| < δ}) ≤ η := by
  obtain ⟨N, hN⟩ := h (δ * η) (by positivity)
  refine ⟨N, fun M hM => ?_⟩
  obtain ⟨s, h1, h2, h3⟩ := hN M hM
  have h4 := mul_meas_ge_le_integral_of_nonneg (ae_of_all _ fun x => abs_nonneg (s x - m)) h2 δ
  have h5 : (P M).real {x | ¬∃ s : ℝ, S M x = fin s ∧ |s - m| < δ} ≤ (P M).real {x | δ ≤ |s x - m|} := by
    refine ENNReal.toReal_mono (measure_ne_top _ _) (measure_mono_ae ?_)
    filter_upwards [h1] with x hx hn
    by_contra hc
    exact hn ⟨s x, hx, not_le.1 hc⟩
  have h6 := h4.trans h3
  exact h5.trans (le_of_mul_le_mul_left h6 hδ)

/-- the energy score of members drawn from a law with two atoms -/
example : ∃ S : ∀ M : ℕ, (Fin M → Eu 2) → XF,
    ConvergesInMean (fun M => iid M (ensLaw (eqW [!₂[3, 4], !₂[0, (1:ℝ)]]))) S
      (esLaw !₂[1, 1] (ensLaw (eqW [!₂[3, 4], !₂[0, (1:ℝ)]]))) := by
  have := ensLaw_prob (eqW_nonneg [!₂[3, 4], !₂[0, (1:ℝ)]]) (eqW_sum (by simp))
  obtain ⟨S, _, h⟩ := C121_es .numba "fair" (by simp) !₂[1, 1] (ensLaw (eqW [!₂[3, 4], !₂[0, (1:ℝ)]]))
    (integral_ensLaw (eqW_nonneg _) _).1
  exact ⟨S, h⟩

end Verif
