import Verif.Lemmas.Lognormal
import Verif.Lemmas.LogFam
import Verif.Props.NanCases

/-!
# C56, C73, C74: distributions of an exponential
-/

noncomputable section

open scoped Classical Topology
open MeasureTheory Filter Set

namespace Verif

open XF Spec

theorem log_neg_nan {y : ℝ} (h : y < 0) : XF.log (fin y) = nan := by
  simp [XF.log, h.ne, not_lt.2 h.le]

/-! ### C73: log-normal -/

/-- C73 fails: `crps_lognormal` is NaN at every negative observation, where the CRPS is a number. -/
theorem C73_false_negative (μ : ℝ) {σ y : ℝ} (hσ : 0 < σ) (hy : y < 0) :
    HasCrps (cdfLog (cdfNormal μ σ)) y ∧ Closed.lognormal (fin y) (fin μ) (fin σ) = nan := by
  refine ⟨(crps_lognormal μ hσ y).1, ?_⟩
  unfold Closed.lognormal
  simp only [log_neg_nan hy, nan_sub, nan_div]
  have : Stats.normCdf nan = nan := rfl
  simp only [this, mul_nan, nan_sub]

/-- What holds: `crps_lognormal` is the CRPS at all other observations.  Missing: negative observations, where
it is false. -/
theorem C73_partial (μ : ℝ) {σ y : ℝ} (hσ : 0 < σ) (hy : 0 ≤ y) :
    HasCrps (cdfLog (cdfNormal μ σ)) y ∧
    Closed.lognormal (fin y) (fin μ) (fin σ) = fin (Spec.crps (cdfLog (cdfNormal μ σ)) y) := by
  obtain ⟨hi, hv⟩ := crps_lognormal μ hσ y
  refine ⟨hi, ?_⟩
  rw [hv]
  have h2 : (Real.sqrt 2) ≠ 0 := (Real.sqrt_pos.2 two_pos).ne'
  rcases hy.eq_or_lt with rfl | hy
  · have e : XF.log (fin 0) = ninf := by simp [XF.log]
    have e2 : ((ninf : XF) - fin μ) / fin σ = ninf := by rw [ninf_sub_fin, ninf_div_pos hσ]
    unfold Closed.lognormal
    simp only [e, sqrt2_fin, fin_div h2]
    simp only [e2]
    simp only [ninf_sub_fin, normCdf_ninf, normCdf_fin, fin_pow, fin_add, fin_exp,
      XF.ofNat_def, XF.one_def, fin_div (two_ne_zero' ℝ), fin_mul, fin_sub, if_pos le_rfl, fin_inj,
      XF.zero_def]
    ring
  · rw [if_neg (not_le.2 hy)]
    unfold Closed.lognormal
    simp only [sqrt2_fin, fin_div h2]
    simp only [fin_log hy, fin_sub, fin_div hσ.ne', normCdf_fin, fin_pow, fin_add, fin_exp, XF.ofNat_def, XF.one_def, fin_div (two_ne_zero' ℝ), fin_mul]

example : HasCrps (cdfLog (cdfNormal 0 2)) 3 := (C73_partial 0 two_pos (by norm_num)).1

example : Closed.lognormal (fin (-1)) (fin 0) (fin 1) = nan := (C73_false_negative 0 one_pos (by norm_num)).2

/-! ### C74: log-logistic -/

/-- C74 fails: `crps_loglogistic` is NaN at every negative observation, where the CRPS is a number. -/
theorem C74_false_negative (μ : ℝ) {σ y : ℝ} (hσ : 0 < σ) (hσ1 : σ < 1) (hy : y < 0) :
    HasCrps (cdfLog (cdfLogistic μ σ)) y ∧ Closed.loglogistic (fin y) (fin μ) (fin σ) = nan := by
  refine ⟨(crps_loglogistic μ hσ hσ1 y).1, ?_⟩
  unfold Closed.loglogistic
  simp only [log_neg_nan hy, nan_sub, nan_div, neg_nan, exp_nan, add_nan, div_nan, mul_nan]

/-- What holds: `crps_loglogistic` is the CRPS at all other observations.  Missing: negative observations,
where it is false. -/
theorem C74_partial (μ : ℝ) {σ y : ℝ} (hσ : 0 < σ) (hσ1 : σ < 1) (hy : 0 ≤ y) :
    HasCrps (cdfLog (cdfLogistic μ σ)) y ∧
    Closed.loglogistic (fin y) (fin μ) (fin σ) = fin (Spec.crps (cdfLog (cdfLogistic μ σ)) y) := by
  obtain ⟨hi, hv⟩ := crps_loglogistic μ hσ hσ1 y
  refine ⟨hi, ?_⟩
  rw [hv]
  have p1 : 0 < 1 + σ := by linarith
  have p2 : 0 < 1 - σ := by linarith
  have hb := (betaF_pos p1 p2).ne'
  have main : ∀ f : ℝ, 0 ≤ f → f ≤ 1 →
      fin y * (2 * fin f - 1) - XF.exp (fin μ) * XF.beta (1 + fin σ) (1 - fin σ)
        * (2 * XF.betainc (1 + fin σ) (1 - fin σ) (fin f) + fin σ - 1)
      = fin (y * (2 * f - 1)
          - Real.exp μ * (2 * prim (bK (1 + σ) (1 - σ)) f + (σ - 1) * betaF (1 + σ) (1 - σ))) := by
    intro f hf0 hf1
    simp only [XF.one_def, fin_add, fin_sub, XF.beta, XF.betainc]
    rw [if_pos ⟨p1, p2⟩, if_pos ⟨p1, p2, hf0, hf1⟩]
    simp only [XF.ofNat_def, fin_exp, fin_mul, fin_sub, fin_add, fin_inj]
    rw [prim_bK p1 p2 hf0 hf1]
    change _ - Real.exp μ * betaF (1 + σ) (1 - σ) * (2 * (_ / betaF (1 + σ) (1 - σ)) + σ - 1) = _
    field_simp
    ring
  rcases hy.eq_or_lt with rfl | hy
  · have e : XF.log (fin 0) = ninf := by simp [XF.log]
    have e2 : -((ninf : XF) - fin μ) / fin σ = pinf := by
      rw [ninf_sub_fin]; exact pinf_div_pos hσ
    have e3 : (1 : XF) / (1 + XF.exp pinf) = fin 0 := by
      have : XF.exp pinf = pinf := rfl
      rw [this]; rfl
    unfold Closed.loglogistic
    simp only [e, e2, e3]
    rw [main 0 le_rfl zero_le_one, if_pos le_rfl, prim_bK_neg le_rfl]
    congr 1; ring
  · rw [if_neg (not_le.2 hy), ← main _ (cdfLogistic_pos _ _ _).le (cdfLogistic_lt _ _ _).le]
    have e : (1 : XF) / (1 + XF.exp (-(XF.log (fin y) - fin μ) / fin σ)) = fin (cdfLogistic μ σ (Real.log y)) := by
      have : 1 + Real.exp (-(Real.log y - μ) / σ) ≠ 0 := by positivity
      simp only [fin_log hy, fin_sub, fin_neg, fin_div hσ.ne', fin_exp, XF.one_def, fin_add, fin_div this,
        cdfLogistic, fin_inj]
      rw [neg_div]
    unfold Closed.loglogistic
    simp only [e]

example : HasCrps (cdfLog (cdfLogistic 0 (1 / 2))) 3 :=
  (C74_partial 0 (by norm_num) (by norm_num) (by norm_num)).1

example : Closed.loglogistic (fin (-1)) (fin 0) (fin (1 / 2)) = nan :=
  (C74_false_negative 0 (by norm_num) (by norm_num) (by norm_num)).2

/-! ### C56: log-Laplace -/

/-- C56: at positive observations `crps_loglaplace` is the CRPS.  Missing: the others, where it is false. -/
theorem C56_crps_partial (μ : ℝ) {σ y : ℝ} (hσ : 0 < σ) (hσ1 : σ < 1) (hy : 0 < y) :
    HasCrps (cdfLog (cdfLaplace μ σ)) y ∧
    Closed.loglaplace (fin y) (fin μ) (fin σ) = fin (Spec.crps (cdfLog (cdfLaplace μ σ)) y) := by
  obtain ⟨hi, hv⟩ := crps_loglaplace μ hσ hσ1 y
  refine ⟨hi, ?_⟩
  rw [hv, if_neg (not_le.2 hy), loglaplace_fin hσ hσ1 μ hy]
  congr 1
  dsimp only
  have e1 : 2 * (1 / 2 * Real.exp ((Real.log y - μ) / σ)) = Real.exp ((Real.log y - μ) / σ) := by ring
  have e2 : 2 * (1 - (1 - 1 / 2 * Real.exp (-((Real.log y - μ) / σ))))
      = Real.exp (-((Real.log y - μ) / σ)) := by ring
  have e3 : 2 * (1 - 1 / 2 * Real.exp (-((Real.log y - μ) / σ))) - 1
      = 1 - Real.exp (-((Real.log y - μ) / σ)) := by ring
  rw [e1, e2, e3, ← Real.exp_mul, ← Real.exp_mul]
  rw [show -((Real.log y - μ) / σ) * (1 - σ) = (σ - 1) * ((Real.log y - μ) / σ) by ring,
    mul_comm ((Real.log y - μ) / σ)]

/-- The CRPS is a number at the observations where `crps_loglaplace` is NaN. -/
theorem C56_false_value (μ : ℝ) {σ y : ℝ} (hσ : 0 < σ) (hσ1 : σ < 1) (hy : y ≤ 0) :
    HasCrps (cdfLog (cdfLaplace μ σ)) y ∧ Closed.loglaplace (fin y) (fin μ) (fin σ) = nan :=
  ⟨(crps_loglaplace μ hσ hσ1 y).1, C56_false hσ μ hy⟩

example : HasCrps (cdfLog (cdfLaplace 0 (1 / 2))) 3 :=
  (C56_crps_partial 0 (by norm_num) (by norm_num) (by norm_num)).1

end Verif
