import Verif.Lemmas.Csg0
import Verif.Lemmas.LogsFin
import Verif.Model.Logs

/-!
# C57 (gamma), C75, C76: gamma distributions
-/

noncomputable section

open scoped Classical Topology
open MeasureTheory Filter Set

namespace Verif

open XF Spec

/-! ### C75: gamma -/

/-- C75: `crps_gamma` is the CRPS of the gamma distribution at every observation. -/
theorem C75_gamma {α β : ℝ} (hα : 0 < α) (hβ : 0 < β) (y : ℝ) :
    HasCrps (cdfGamma α β) y ∧
    Closed.gamma (fin y) (fin α) (fin β) = fin (Spec.crps (cdfGamma α β) y) := by
  obtain ⟨h1, h2⟩ := crps_gamma hα hβ y
  refine ⟨h1, ?_⟩
  rw [h2]
  have hb := betaF_pos (show (0:ℝ) < 1 / 2 by norm_num) hα
  have hbb : β * betaF (1 / 2) α ≠ 0 := (mul_pos hβ hb).ne'
  unfold Closed.gamma
  have e3 : fin α + 1 = fin (α + 1) := by rw [XF.one_def, fin_add]
  simp only [e3, gammaCdf_fin hα hβ, gammaCdf_fin (show 0 < α + 1 by linarith) hβ,
    beta_fin (show (0:ℝ) < 1 / 2 by norm_num) hα]
  simp only [XF.ofNat_def, XF.one_def, fin_mul, fin_sub, fin_div hβ.ne', fin_div hbb]

/-- C75 for the public function, with a rate and with a scale. -/
theorem C75_api {α β : ℝ} (hα : 0 < α) (hβ : 0 < β) (y : ℝ) :
    Api.crpsGamma (fin y) (fin α) (some (fin β)) none = .ok (fin (Spec.crps (cdfGamma α β) y)) ∧
    Api.crpsGamma (fin y) (fin α) none (some (fin β)) = .ok (fin (Spec.crps (cdfGamma α (1 / β)) y)) := by
  refine ⟨congrArg _ (C75_gamma hα hβ y).2, ?_⟩
  rw [← (C75_gamma hα (one_div_pos.2 hβ) y).2, ← fin_div hβ.ne']
  rfl

example : HasCrps (cdfGamma 2 3) 1 := (C75_gamma two_pos three_pos 1).1

/-- The distribution function is not degenerate: the exponential distribution is a case. -/
example (y : ℝ) (hy : 0 ≤ y) : cdfGamma 1 1 y = 1 - Real.exp (-y) := by
  rw [cdfGamma_eq one_pos, one_mul, gF, prim_gK one_pos hy, Real.Gamma_one, div_one]
  simp

/-! ### C76: censored, shifted gamma -/

/-- C76 fails: with a positive shift `crps_csg0` is strictly smaller than the CRPS at every negative
observation. -/
theorem C76_false_negative {α β δ y : ℝ} (hα : 0 < α) (hβ : 0 < β) (hδ : 0 < δ) (hy : y < 0) :
    ∃ v, Closed.csg0 (fin y) (fin α) (fin β) (fin δ) = fin v ∧ HasCrps (cdfCsg0 α β δ) y ∧
      v < Spec.crps (cdfCsg0 α β δ) y :=
  ⟨_, csg0_fin hα hβ δ y, (crps_csg0 hα hβ δ).1 y, (crps_csg0 hα hβ δ).2.2 hδ y hy⟩

/-- What holds: `crps_csg0` is the CRPS at the other observations, and everywhere without a positive shift.
Missing: negative observations with a positive shift, where it is false. -/
theorem C76_partial {α β δ y : ℝ} (hα : 0 < α) (hβ : 0 < β) (h : 0 ≤ y ∨ δ ≤ 0) :
    HasCrps (cdfCsg0 α β δ) y ∧
    Closed.csg0 (fin y) (fin α) (fin β) (fin δ) = fin (Spec.crps (cdfCsg0 α β δ) y) := by
  refine ⟨(crps_csg0 hα hβ δ).1 y, ?_⟩
  rw [csg0_fin hα hβ, (crps_csg0 hα hβ δ).2.1 y h]

/-- C76 for the public function, with a rate and with a scale. -/
theorem C76_api_partial {α β δ y : ℝ} (hα : 0 < α) (hβ : 0 < β) (h : 0 ≤ y ∨ δ ≤ 0) :
    Api.crpsCsg0 (fin y) (fin α) (some (fin β)) none (fin δ) = .ok (fin (Spec.crps (cdfCsg0 α β δ) y)) ∧
    Api.crpsCsg0 (fin y) (fin α) none (some (fin β)) (fin δ)
      = .ok (fin (Spec.crps (cdfCsg0 α (1 / β) δ) y)) := by
  refine ⟨congrArg _ (C76_partial hα hβ h).2, ?_⟩
  rw [← (C76_partial hα (one_div_pos.2 hβ) h).2, ← fin_div hβ.ne']
  rfl

example : HasCrps (cdfCsg0 2 3 1) 0 := (C76_partial two_pos three_pos (Or.inl le_rfl)).1

example : ∃ v, Closed.csg0 (fin (-1)) (fin 2) (fin 3) (fin 1) = fin v ∧
    HasCrps (cdfCsg0 2 3 1) (-1) ∧ v < Spec.crps (cdfCsg0 2 3 1) (-1) :=
  C76_false_negative two_pos three_pos one_pos (by norm_num)

/-! ### C57: logarithmic score -/

theorem gammaPdf_fin {α β : ℝ} (hα : 0 < α) (hβ : 0 < β) (y : ℝ) :
    Stats.gammaPdf (fin y) (fin α) (fin β) = fin (densGamma α β y) := by
  have hG := Real.Gamma_pos_of_pos hα
  unfold Stats.gammaPdf densGamma
  simp only [XF.zero_def, fin_le]
  split_ifs with h
  · rfl
  · have hy := not_le.1 h
    have e : XF.gamma (fin α) = fin (Real.Gamma α) := by
      simp only [XF.gamma]
      rw [if_neg hα.ne', if_neg]
      rintro ⟨n, hn⟩
      have : (0:ℝ) ≤ n := n.cast_nonneg
      linarith
    simp only [XF.one_def, fin_sub, pow_fin_pos hβ, pow_fin_pos hy, fin_neg, fin_mul, fin_exp, e, fin_div hG.ne']
    rw [neg_mul]

theorem densGamma_nonneg {α β : ℝ} (hα : 0 < α) (hβ : 0 < β) (x : ℝ) : 0 ≤ densGamma α β x := by
  rw [densGamma_eq hβ]
  exact mul_nonneg hβ.le (div_nonneg (gK_nonneg _ _) (Real.Gamma_pos_of_pos hα).le)

theorem dist_gamma {α β : ℝ} (hα : 0 < α) (hβ : 0 < β) : IsDensity (densGamma α β) (cdfGamma α β) := by
  have hG := Real.Gamma_pos_of_pos hα
  have e : densGamma α β = fun x => β * (gK α (β * x) / Real.Gamma α) := funext (densGamma_eq hβ)
  refine ⟨densGamma_nonneg hα hβ, ?_, ?_, fun y => rfl⟩
  · rw [e]
    exact (((gK_integrable hα).comp_mul_left' hβ.ne').div_const _).const_mul _
  · rw [e, integral_const_mul, integral_div, Measure.integral_comp_mul_left, gK_integral hα,
      abs_of_pos (inv_pos.2 hβ), smul_eq_mul]
    field_simp

/-- `logs_gamma`. -/
theorem C57_gamma {α β : ℝ} (hα : 0 < α) (hβ : 0 < β) :
    IsDensity (densGamma α β) (cdfGamma α β) ∧
    ∀ y, Api.logsGamma (fin y) (fin α) (some (fin β)) none = .ok (negLog (densGamma α β y)) := by
  refine ⟨dist_gamma hα hβ, fun y => ?_⟩
  change Except.ok (Logs.gamma (fin y) (fin α) (fin β)) = _
  unfold Logs.gamma
  rw [gammaPdf_fin hα hβ, log_fin_nonneg (densGamma_nonneg hα hβ y)]

example : Api.logsGamma (fin 2) (fin 1) (some (fin 1)) none = .ok (fin 2) := by
  rw [(C57_gamma one_pos one_pos).2]
  norm_num [densGamma, negLog, Real.exp_ne_zero]

end Verif
