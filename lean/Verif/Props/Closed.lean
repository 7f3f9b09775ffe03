import Verif.Lemmas.ClosedScale

/-!
# C43 to C50: the closed forms are the CRPS of their distributions

Each theorem says that, for every real observation and all admissible parameters, the CRPS integral of the
documented distribution function converges and the code's closed form is its value.
-/

noncomputable section

open scoped Classical
open MeasureTheory

namespace Verif

open XF

/-- C43: `crps_uniform`, with point masses at the ends of the interval. -/
theorem C43_uniform {l u L U : ℝ} (hlu : l < u) (hL : 0 ≤ L) (hU : 0 ≤ U) (hLU : L + U < 1) (y : ℝ) :
    Spec.HasCrps (Spec.cdfUniform l u L U) y ∧
    Closed.uniform (fin y) (fin l) (fin u) (fin L) (fin U)
      = fin (Spec.crps (Spec.cdfUniform l u L U) y) := by
  have hd : 0 < u - l := sub_pos.2 hlu
  have e : Spec.cdfUniform l u L U = fun z => unif L U ((z - l) / (u - l)) := by
    funext z
    have h1 : (z - l) / (u - l) < 0 ↔ z < l := by
      rw [div_neg_iff]; constructor
      · rintro (h | h) <;> linarith [h.1, h.2]
      · intro h; right; exact ⟨by linarith, hd⟩
    have h2 : (z - l) / (u - l) < 1 ↔ z < u := by
      rw [div_lt_one hd]; constructor <;> intro h <;> linarith
    simp only [Spec.cdfUniform, unif, h1, h2]
  obtain ⟨hi, hv⟩ := crps_unif hL hU hLU.le ((y - l) / (u - l))
  rw [e]
  refine ⟨Spec.HasCrps.scale hd hi, ?_⟩
  rw [Spec.crps_scale _ _ hd, hv]
  unfold Closed.uniform
  simp only [fin_sub, fin_div hd.ne']
  simp only [XF.one_def, XF.zero_def, XF.ofNat_def, fin_sub, fin_max, fin_min, fin_abs, fin_mul, fin_pow,
    fin_add]
  rw [fin_div (by norm_num)]
  simp

/-- C44: `crps_exponential`. -/
theorem C44_exponential {rate : ℝ} (hr : 0 < rate) (y : ℝ) :
    Spec.HasCrps (Spec.cdfExp rate) y ∧
    Closed.exponential (fin y) (fin rate) = fin (Spec.crps (Spec.cdfExp rate) y) := by
  have e : Spec.cdfExp rate = fun z => expM 0 ((z - 0) / (1 / rate)) := by
    funext z
    have h1 : (z - 0) / (1 / rate) < 0 ↔ z < 0 := by
      rw [sub_zero, div_neg_iff]
      have : 0 < 1 / rate := by positivity
      constructor
      · rintro (h | h) <;> linarith [h.1, h.2]
      · intro h; exact Or.inr ⟨h, this⟩
    simp only [Spec.cdfExp, expM, h1]
    split_ifs
    · rfl
    · simp; ring_nf
  have hs : 0 < 1 / rate := by positivity
  obtain ⟨hi, hv⟩ := crps_expM (M := 0) le_rfl zero_le_one ((y - 0) / (1 / rate))
  rw [e]
  refine ⟨Spec.HasCrps.scale hs hi, ?_⟩
  rw [Spec.crps_scale _ _ hs, hv]
  unfold Closed.exponential
  rw [expCdf_fin]
  simp only [XF.one_def, XF.ofNat_def, fin_abs, fin_mul]
  rw [fin_div hr.ne', fin_div (by positivity), fin_sub, fin_add]
  congr 1
  have hyy : (y - 0) / (1 / rate) = rate * y := by field_simp; ring
  rw [hyy]
  rcases le_or_gt 0 y with h | h
  · have hm : max (rate * y) 0 = rate * y := max_eq_left (by positivity)
    have hm2 : max (1 - Real.exp (-rate * y)) 0 = 1 - Real.exp (-rate * y) :=
      max_eq_left (sub_nonneg.2 (Real.exp_le_one_iff.2 (by nlinarith)))
    rw [hm, hm2, abs_of_nonneg h, abs_of_nonneg (by positivity : 0 ≤ rate * y), neg_mul]
    field_simp; ring
  · have hm : max (rate * y) 0 = 0 := max_eq_right (by nlinarith)
    have hm2 : max (1 - Real.exp (-rate * y)) 0 = 0 :=
      max_eq_right (sub_nonpos.2 (Real.one_le_exp (by nlinarith)))
    rw [hm, hm2, abs_of_neg h, abs_of_neg (by nlinarith : rate * y < 0)]
    simp
    field_simp

theorem expCdf_pos_part (x : ℝ) : max (1 - Real.exp (-x)) 0 = 1 - Real.exp (-max x 0) := by
  rcases le_or_gt 0 x with h | h
  · rw [max_eq_left h, max_eq_left (sub_nonneg.2 (Real.exp_le_one_iff.2 (by linarith)))]
  · rw [max_eq_right h.le, max_eq_right (sub_nonpos.2 (Real.one_le_exp (by linarith)))]; simp

/-- C45: `crps_exponentialM`. -/
theorem C45_exponentialM {M μ σ : ℝ} (hσ : 0 < σ) (h0 : 0 ≤ M) (h1 : M ≤ 1) (y : ℝ) :
    Spec.HasCrps (Spec.cdfExpM M μ σ) y ∧
    Closed.exponentialM (fin y) (fin M) (fin μ) (fin σ) = fin (Spec.crps (Spec.cdfExpM M μ σ) y) := by
  have e : Spec.cdfExpM M μ σ = fun z => expM M ((z - μ) / σ) := by
    funext z
    have h1 : (z - μ) / σ < 0 ↔ z < μ := by
      rw [div_neg_iff]; constructor
      · rintro (h | h) <;> linarith [h.1, h.2]
      · intro h; right; exact ⟨by linarith, hσ⟩
    simp only [Spec.cdfExpM, expM, h1]
  obtain ⟨hi, hv⟩ := crps_expM h0 h1 ((y - μ) / σ)
  rw [e]
  refine ⟨Spec.HasCrps.scale hσ hi, ?_⟩
  rw [Spec.crps_scale _ _ hσ, hv]
  unfold Closed.exponentialM
  have eo : (if ¬ XF.feq (fin μ) 0 then fin y - fin μ else fin y) = fin (y - μ) := by
    simp only [XF.zero_def, fin_feq, fin_sub]; split_ifs with h
    · rw [h, sub_zero]
    · rfl
  have ea : (if XF.feq (fin M) 0 then (1 : XF) else 1 - fin M) = fin (1 - M) := by
    simp only [XF.zero_def, XF.one_def, fin_feq, fin_sub]; split_ifs with h
    · rw [h, sub_zero]
    · rfl
  simp only [eo, ea]
  have key : σ * (|(y - μ) / σ| - (1 - M) * (2 * (1 - Real.exp (-max ((y - μ) / σ) 0)) - 1 / 2 * (1 - M)))
      = |y - μ| - σ * (1 - M) * (2 * (1 - Real.exp (-max ((y - μ) / σ) 0)) - 1 / 2 * (1 - M)) := by
    rw [abs_div, abs_of_pos hσ]; field_simp
  split_ifs with h
  · simp only [XF.one_def, fin_feq] at h
    subst h
    simp only [XF.one_def, expCdf_fin, XF.ofNat_def, fin_abs, fin_mul, fin_sub]
    rw [neg_one_mul, expCdf_pos_part]
    congr 1
    rw [div_one]; ring
  · simp only [XF.one_def]
    rw [fin_div hσ.ne', expCdf_fin]
    simp only [XF.ofNat_def, fin_abs, fin_mul, fin_sub]
    rw [key, show -(1 / σ) * (y - μ) = -((y - μ) / σ) by ring, expCdf_pos_part]

theorem exp2p_scaled_cdf {a b μ : ℝ} :
    Spec.cdf2pexp a b μ = fun z => exp2p a b ((z - μ) / 1) := by
  funext z
  simp only [Spec.cdf2pexp, exp2p, div_one, sub_neg]

/-- C47: `crps_2pexponential`. -/
theorem C47_2pexponential {a b : ℝ} (ha : 0 < a) (hb : 0 < b) (μ y : ℝ) :
    Spec.HasCrps (Spec.cdf2pexp a b μ) y ∧
    Closed.twopexponential (fin y) (fin a) (fin b) (fin μ) = fin (Spec.crps (Spec.cdf2pexp a b μ) y) := by
  obtain ⟨hi, hv⟩ := crps_exp2p ha hb ((y - μ) / 1)
  rw [exp2p_scaled_cdf]
  refine ⟨Spec.HasCrps.scale one_pos hi, ?_⟩
  rw [Spec.crps_scale _ _ one_pos, hv, one_mul, div_one]
  unfold Closed.twopexponential
  have hab : a + b ≠ 0 := by positivity
  simp only [XF.zero_def, XF.ofNat_def, fin_sub, fin_abs, fin_pow, fin_add, fin_mul, fin_neg]
  have hab2 : 2 * (a + b) ^ 2 ≠ 0 := by positivity
  simp only [fin_div hab, fin_div hab2, fin_div ha.ne', fin_div hb.ne']
  simp only [fin_exp, fin_mul, fin_add, fin_sub, fin_lt]
  split_ifs <;> · congr 1; ring

/-- C46: `crps_laplace`. -/
theorem C46_laplace {σ : ℝ} (hσ : 0 < σ) (μ y : ℝ) :
    Spec.HasCrps (Spec.cdfLaplace μ σ) y ∧
    Closed.laplace (fin y) (fin μ) (fin σ) = fin (Spec.crps (Spec.cdfLaplace μ σ) y) := by
  have e : Spec.cdfLaplace μ σ = fun z => exp2p 1 1 ((z - μ) / σ) := by
    funext z
    have h1 : (z - μ) / σ < 0 ↔ z < μ := by
      rw [div_neg_iff]; constructor
      · rintro (h | h) <;> linarith [h.1, h.2]
      · intro h; right; exact ⟨by linarith, hσ⟩
    simp only [Spec.cdfLaplace, exp2p, h1, div_one]
    split_ifs <;> ring
  obtain ⟨hi, hv⟩ := crps_exp2p one_pos one_pos ((y - μ) / σ)
  rw [e]
  refine ⟨Spec.HasCrps.scale hσ hi, ?_⟩
  rw [Spec.crps_scale _ _ hσ, hv]
  unfold Closed.laplace
  simp only [XF.ofNat_def, fin_sub, fin_div hσ.ne', fin_abs, fin_neg, fin_exp, fin_add]
  rw [fin_div (by norm_num), fin_sub, fin_mul]
  congr 1
  rw [ite_self, div_one]
  ring

/-- C48: `crps_logistic`. -/
theorem C48_logistic {σ : ℝ} (hσ : 0 < σ) (μ y : ℝ) :
    Spec.HasCrps (Spec.cdfLogistic μ σ) y ∧
    Closed.logistic (fin y) (fin μ) (fin σ) = fin (Spec.crps (Spec.cdfLogistic μ σ) y) := by
  have e : Spec.cdfLogistic μ σ = fun z => logis ((z - μ) / σ) := rfl
  obtain ⟨hi, hv⟩ := crps_logis ((y - μ) / σ)
  rw [e]
  refine ⟨Spec.HasCrps.scale hσ hi, ?_⟩
  rw [Spec.crps_scale _ _ hσ, hv]
  unfold Closed.logistic
  have hp : 0 < logis ((y - μ) / σ) := by unfold logis; positivity
  simp only [XF.one_def, XF.ofNat_def, fin_sub, fin_div hσ.ne', logisCdf_fin, fin_log hp, fin_mul]

/-- C50: `crps_normal`. -/
theorem C50_normal {σ : ℝ} (hσ : 0 < σ) (μ y : ℝ) :
    Spec.HasCrps (Spec.cdfNormal μ σ) y ∧
    Closed.normal (fin y) (fin μ) (fin σ) = fin (Spec.crps (Spec.cdfNormal μ σ) y) := by
  have e : Spec.cdfNormal μ σ = fun z => Spec.Φ ((z - μ) / σ) := rfl
  obtain ⟨hi, hv⟩ := crps_Φ ((y - μ) / σ)
  rw [e]
  refine ⟨Spec.HasCrps.scale hσ hi, ?_⟩
  rw [Spec.crps_scale _ _ hσ, hv]
  unfold Closed.normal XF.pi
  rw [fin_sqrt Real.pi_pos.le]
  simp only [XF.one_def, XF.ofNat_def, fin_sub, fin_div hσ.ne', normCdf_fin, normPdf_fin, fin_mul, fin_add]
  rw [fin_div (Real.sqrt_pos.2 Real.pi_pos).ne', fin_sub, fin_mul]

/-- C49: `crps_gpd`. -/
theorem C49_gpd {M ξ σ : ℝ} (hσ : 0 < σ) (hξ : ξ < 1) (h0 : 0 ≤ M) (h1 : M ≤ 1) (μ y : ℝ) :
    Spec.HasCrps (Spec.cdfGpd M ξ μ σ) y ∧
    Closed.gpd (fin y) (fin ξ) (fin μ) (fin σ) (fin M) = fin (Spec.crps (Spec.cdfGpd M ξ μ σ) y) := by
  have e : Spec.cdfGpd M ξ μ σ = fun z => Spec.cdfGpd0 M ξ ((z - μ) / σ) := rfl
  obtain ⟨hi, hv⟩ := crps_gpd0 h0 h1 hξ ((y - μ) / σ)
  rw [e]
  refine ⟨Spec.HasCrps.scale hσ hi, ?_⟩
  rw [Spec.crps_scale _ _ hσ, hv]
  unfold Closed.gpd
  have d1 : 1 - ξ ≠ 0 := by linarith
  have d2 : 2 - ξ ≠ 0 := by linarith
  have c1 : fin ξ < (1 : XF) := by rw [XF.one_def, fin_lt]; exact hξ
  have c2 : (0 : XF) ≤ fin M ∧ fin M ≤ (1 : XF) := by
    rw [XF.one_def, XF.zero_def, fin_le, fin_le]; exact ⟨h0, h1⟩
  simp only [if_pos c1, if_pos c2, fin_sub, fin_div hσ.ne', gpdCdf_fin]
  simp only [XF.one_def, XF.ofNat_def, fin_sub, fin_abs, fin_mul, fin_pow]
  rw [gpd_pow hξ, fin_sub, fin_mul, fin_div d1, fin_div d2, fin_sub, fin_add, fin_mul]

/-! ### The hypotheses are met -/

example : Closed.uniform (fin 3) (fin 1) (fin 2) (fin (1 / 4)) (fin (1 / 4))
    = fin (Spec.crps (Spec.cdfUniform 1 2 (1 / 4) (1 / 4)) 3) :=
  (C43_uniform (by norm_num) (by norm_num) (by norm_num) (by norm_num) 3).2

example : Closed.exponential (fin (-1)) (fin 2) = fin (Spec.crps (Spec.cdfExp 2) (-1)) :=
  (C44_exponential (by norm_num) (-1)).2

example : Closed.exponentialM (fin 3) (fin (1 / 3)) (fin 1) (fin 2)
    = fin (Spec.crps (Spec.cdfExpM (1 / 3) 1 2) 3) :=
  (C45_exponentialM (by norm_num) (by norm_num) (by norm_num) 3).2

example : Closed.laplace (fin 3) (fin 1) (fin 2) = fin (Spec.crps (Spec.cdfLaplace 1 2) 3) :=
  (C46_laplace (by norm_num) 1 3).2

example : Closed.twopexponential (fin 3) (fin 1) (fin 2) (fin 5)
    = fin (Spec.crps (Spec.cdf2pexp 1 2 5) 3) := (C47_2pexponential (by norm_num) (by norm_num) 5 3).2

example : Closed.logistic (fin 3) (fin 1) (fin 2) = fin (Spec.crps (Spec.cdfLogistic 1 2) 3) :=
  (C48_logistic (by norm_num) 1 3).2

/-- A negative shape with the observation beyond the upper end of the support. -/
example : Closed.gpd (fin 9) (fin (-1 / 2)) (fin 1) (fin 2) (fin (1 / 5))
    = fin (Spec.crps (Spec.cdfGpd (1 / 5) (-1 / 2) 1 2) 9) :=
  (C49_gpd (by norm_num) (by norm_num) (by norm_num) (by norm_num) 1 9).2

example : Closed.normal (fin 3) (fin 1) (fin 2) = fin (Spec.crps (Spec.cdfNormal 1 2) 3) :=
  (C50_normal (by norm_num) 1 3).2

end Verif
