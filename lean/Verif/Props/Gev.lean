import Verif.Lemmas.Gumbel
import Verif.Lemmas.ClosedScale
import Verif.Lemmas.EulerGamma
import Verif.Props.Poisson
import Verif.Model.Logs
import Verif.Model.Closed2

/-!
# C82 and C57: `crps_gev` and `logs_gev`
-/

noncomputable section

open scoped Classical

namespace Verif

open XF Spec Stats

theorem gev_supp {ξ x : ℝ} (hξ : ξ ≠ 0) :
    (0 < ξ ∧ x ≤ -1 / ξ ↔ 0 < ξ ∧ 1 + ξ * x ≤ 0) ∧ (ξ < 0 ∧ -1 / ξ ≤ x ↔ ξ < 0 ∧ 1 + ξ * x ≤ 0) := by
  refine ⟨and_congr_right fun h => ?_, and_congr_right fun h => ?_⟩
  · rw [le_div_iff₀ h]; constructor <;> intro h <;> linarith
  · rw [div_le_iff_of_neg h]; constructor <;> intro h <;> linarith

theorem gevCdf_fin (ξ x : ℝ) : gevCdf (fin x) (fin ξ) = fin (cdfGev0 ξ x) := by
  unfold gevCdf
  by_cases h0 : ξ = 0
  · subst h0
    simp [cdfGev0, XF.zero_def, XF.one_def]
  · have hs := gev_supp (x := x) h0
    have hab : (ξ < 0 ∧ 1 / |ξ| ≤ x) ↔ (ξ < 0 ∧ 1 + ξ * x ≤ 0) := by
      rw [← hs.2]
      refine and_congr_right fun h => ?_
      rw [abs_of_neg h, div_neg, neg_div]
    have hg : (-1 < ξ * x) ↔ 0 < 1 + ξ * x := by constructor <;> intro h <;> linarith
    simp only [XF.zero_def, XF.one_def, fin_feq, h0, if_false, not_false_eq_true, true_and, fin_neg, fin_mul, fin_lt,
      fin_le, fin_abs, fin_div h0, fin_div (abs_ne_zero.2 h0), hg, hs.1, hab, fin_add]
    rw [cdfGev0, if_neg h0]
    by_cases hA : 0 < 1 + ξ * x
    · simp only [hA, if_true, not_le.2 hA, and_false, if_false, fin_add, fin_mul]
      rw [pow_fin_pos hA, fin_neg, fin_exp]
    · have hA' := not_lt.1 hA
      rcases lt_or_gt_of_ne h0 with h | h
      · simp [hA, hA', h, not_lt.2 h.le]
      · simp [hA, hA', h, not_lt.2 h.le]

theorem gammauinc_fin {ξ w : ℝ} (h1 : ξ < 1) (hw : 0 ≤ w) :
    XF.gammauinc (fin (1 - ξ)) (fin w) = fin (gevU ξ w) := by
  have hp : 0 < 1 - ξ := by linarith
  unfold XF.gammauinc
  rw [gamma_fin_pos hp]
  simp only [XF.gammainc]
  rw [if_pos ⟨hp, hw⟩, XF.one_def, fin_sub, fin_mul, gevU, prim_gK hp hw]
  have := (Real.Gamma_pos_of_pos hp).ne'
  congr 1
  field_simp

/-- `crps_gev`, shape other than zero and below one. -/
theorem C82_gev {ξ σ : ℝ} (μ y : ℝ) (hξ : ξ ≠ 0) (h1 : ξ < 1) (hσ : 0 < σ) :
    HasCrps (cdfGev ξ μ σ) y ∧
    Closed.gev (fin y) (fin ξ) (fin μ) (fin σ) = fin (Spec.crps (cdfGev ξ μ σ) y) := by
  obtain ⟨ha, hb⟩ := crps_gev0 hξ h1 ((y - μ) / σ)
  refine ⟨ha.scale hσ, ?_⟩
  rw [show Spec.crps (cdfGev ξ μ σ) y = σ * Spec.crps (cdfGev0 ξ) ((y - μ) / σ) from crps_scale _ μ hσ y, hb]
  unfold Closed.gev
  have hs := gev_supp (x := (y - μ) / σ) hξ
  have hp : 0 < 1 - ξ := by linarith
  have hs1 : 0 < ξ ∧ -1 / ξ < (y - μ) / σ ↔ 0 < ξ ∧ 0 < 1 + ξ * ((y - μ) / σ) := by
    have := hs.1
    refine and_congr_right fun h => ?_
    rw [← not_le, ← not_le, not_iff_not]
    simpa [h] using this
  have hs2 : ξ < 0 ∧ (y - μ) / σ < -1 / ξ ↔ ξ < 0 ∧ 0 < 1 + ξ * ((y - μ) / σ) := by
    have := hs.2
    refine and_congr_right fun h => ?_
    rw [← not_le, ← not_le, not_iff_not]
    simpa [h] using this
  have hpow : XF.pow (fin 2) (fin ξ) = fin ((2:ℝ) ^ ξ) := pow_fin_pos two_pos ξ
  have hadj : Closed.gevAdjust (fin ((y - μ) / σ)) (fin ξ) (fin (cdfGev0 ξ ((y - μ) / σ)))
      = fin (((y - μ) / σ) * cdfGev0 ξ ((y - μ) / σ) - gevP 1 ξ (1 + ξ * ((y - μ) / σ))) := by
    generalize (y - μ) / σ = z at *
    unfold Closed.gevAdjust
    simp only [XF.zero_def, XF.one_def, fin_neg, fin_div hξ, fin_lt, fin_le, fin_sub, hs.1, hs.2, hs1, hs2,
      gamma_fin_pos hp, fin_add]
    rw [cdfGev0, if_neg hξ, gevP]
    by_cases hA : 0 < 1 + ξ * z
    · have hw : 0 ≤ (1 + ξ * z) ^ (-1 / ξ) := Real.rpow_nonneg hA.le _
      rw [if_pos hA, glue_pos hA, gevφ, fin_log (Real.exp_pos _), Real.log_exp, fin_neg, neg_neg, fin_mul,
        gammauinc_fin h1 hw, fin_div hξ, fin_add, Real.one_rpow, one_mul, one_mul]
      have e : -1 / ξ * Real.exp (-(1 + ξ * z) ^ (-1 / ξ)) + gevU ξ ((1 + ξ * z) ^ (-1 / ξ)) / ξ
          = z * Real.exp (-(1 + ξ * z) ^ (-1 / ξ)) - ((1 + ξ * z) / ξ * Real.exp (-(1 + ξ * z) ^ (-1 / ξ))
            - gevU ξ ((1 + ξ * z) ^ (-1 / ξ)) / ξ) := by
        field_simp; ring
      rw [e]
      rcases lt_or_gt_of_ne hξ with h | h
      · simp [hA, h, not_lt.2 h.le, not_le.2 hA]
      · simp [hA, h, not_lt.2 h.le, not_le.2 hA]
    · have hA' := not_lt.1 hA
      rw [if_neg hA, glue_neg hA', gevψ]
      rcases lt_or_gt_of_ne hξ with h | h
      · simp only [h, hA', hA, not_lt.2 h.le, true_and, if_true, if_false]
        congr 1
        rw [Real.one_rpow]; field_simp; ring
      · simp [h, hA', hA, not_lt.2 h.le]
  simp only [XF.zero_def, XF.one_def, fin_sub, fin_div hσ.ne', gevCdf_fin, fin_feq, hξ, if_false, hadj,
    gamma_fin_pos hp, XF.ofNat_def, Nat.cast_ofNat, hpow, fin_mul, fin_sub, fin_div hξ]
  congr 1
  rw [gevq]
  generalize (y - μ) / σ = z
  ring

example : ∃ r, Closed.gev (fin 3) (fin (1 / 2)) (fin 1) (fin 2) = fin r ∧
    r = Spec.crps (cdfGev (1 / 2) 1 2) 3 :=
  ⟨_, (C82_gev 1 3 (by norm_num) (by norm_num) two_pos).2, rfl⟩

/-- Above the support of the reversed exponential distribution. -/
example : Closed.gev (fin 2) (fin (-1)) (fin 0) (fin 1) = fin (3 / 2) := by
  rw [(C82_gev 0 2 (by norm_num) (by norm_num) one_pos).2]
  have h : cdfGev (-1) 0 1 = cdfGev0 (-1) := by funext z; simp [cdfGev]
  have hG : Real.Gamma (1 - -1) = 1 := by norm_num
  rw [h, (crps_gev0 (by norm_num) (by norm_num) 2).2, gevP, glue_neg (by norm_num), gevψ, gevq, hG]
  norm_num [Real.rpow_neg_one]

/-- Shape zero: the code adds a decimal expansion of Euler's constant; the result differs from the CRPS by
the error of that expansion. -/
theorem C82_gumbel {σ : ℝ} (μ y : ℝ) (hσ : 0 < σ) :
    HasCrps (cdfGev 0 μ σ) y ∧
    Closed.gev (fin y) (fin 0) (fin μ) (fin σ) = fin (Spec.crps (cdfGev 0 μ σ) y
      + σ * (57721566490153286060651209008240243 / 10 ^ 35 - Real.eulerMascheroniConstant)) := by
  obtain ⟨ha, hb⟩ := crps_gumbel ((y - μ) / σ)
  refine ⟨ha.scale hσ, ?_⟩
  rw [show Spec.crps (cdfGev 0 μ σ) y = σ * Spec.crps (cdfGev0 0) ((y - μ) / σ) from crps_scale _ μ hσ y, hb]
  unfold Closed.gev
  have hlt : -Real.exp (-((y - μ) / σ)) < 0 := neg_lt_zero.2 (Real.exp_pos _)
  have hF : cdfGev0 0 ((y - μ) / σ) = Real.exp (-Real.exp (-((y - μ) / σ))) := by simp [cdfGev0]
  have he : XF.expi (fin (-Real.exp (-((y - μ) / σ)))) = fin (-E1 (Real.exp (-((y - μ) / σ)))) := by
    simp only [XF.expi]
    rw [if_pos hlt, neg_neg, E1]
  have hl : XF.log (fin 2) = fin (Real.log 2) := fin_log two_pos
  simp only [XF.zero_def, fin_sub, fin_div hσ.ne', gevCdf_fin, fin_feq, if_true, hF, fin_log (Real.exp_pos _),
    Real.log_exp, he, XF.ofNat_def, Nat.cast_ofNat, hl, Closed.eulerMascheroni, fin_neg, fin_mul, fin_add, fin_sub]
  congr 1
  ring

example : (0 : ℝ) < 3 := by norm_num

/-- Shape zero, without reference to the decimal expansion. -/
theorem C82_gumbel_bound {σ : ℝ} (μ y : ℝ) (hσ : 0 < σ) :
    ∃ r, Closed.gev (fin y) (fin 0) (fin μ) (fin σ) = fin r ∧
      |r - Spec.crps (cdfGev 0 μ σ) y| ≤ σ / 10 ^ 7 := by
  refine ⟨_, (C82_gumbel μ y hσ).2, ?_⟩
  rw [add_sub_cancel_left, abs_mul, abs_of_pos hσ]
  have := mul_le_mul_of_nonneg_left eulerMascheroni_decimal hσ.le
  rwa [mul_one_div] at this

example : ∃ r, Closed.gev (fin 3) (fin 0) (fin 1) (fin 2) = fin r ∧
    |r - Spec.crps (cdfGev 0 1 2) 3| ≤ 2 / 10 ^ 7 := C82_gumbel_bound 1 3 two_pos

theorem gevPdf_fin (ξ z : ℝ) : gevPdf (fin z) (fin ξ) = fin (densGev0 ξ z) := by
  unfold gevPdf
  by_cases h0 : ξ = 0
  · subst h0
    simp [densGev0, XF.zero_def]
  · have hg : (-1 < z * ξ) ↔ 0 < 1 + ξ * z := by rw [mul_comm]; constructor <;> intro h <;> linarith
    simp only [XF.zero_def, XF.one_def, fin_feq, h0, if_false, not_false_eq_true, true_and, or_false, fin_neg,
      fin_mul, fin_lt, hg, densGev0, fin_add, fin_div h0]
    by_cases hA : 0 < 1 + ξ * z
    · have hA2 : 0 < 1 + z * ξ := by linarith [mul_comm ξ z]
      simp only [hA, if_true, fin_mul, fin_add]
      rw [pow_fin_pos hA2, pow_fin_pos hA2, fin_neg, fin_exp, fin_mul, mul_comm z ξ,
        show -(ξ + 1) / ξ = -1 / ξ - 1 by field_simp; ring]
    · simp [hA]

theorem densGev0_nonneg (ξ z : ℝ) : 0 ≤ densGev0 ξ z := by
  by_cases h : ξ = 0
  · subst h; exact diff_gumbel.nonneg z
  · exact (diff_gev0 h).nonneg z

/-- `logs_gev`. -/
theorem C57_gev (ξ μ : ℝ) {σ : ℝ} (hσ : 0 < σ) :
    IsDensity (densGev ξ μ σ) (cdfGev ξ μ σ) ∧
    ∀ y, Logs.gev (fin y) (fin ξ) (fin μ) (fin σ) = negLog (densGev ξ μ σ y) := by
  have hd : DiffDist (densGev0 ξ) (cdfGev0 ξ) := by
    by_cases h : ξ = 0
    · subst h; exact diff_gumbel
    · exact diff_gev0 h
  refine ⟨(hd.scale μ hσ).isDensity, fun y => ?_⟩
  unfold Logs.gev
  simp only [fin_sub, fin_div hσ.ne', gevPdf_fin, XF.zero_def, fin_feq, densGev]
  by_cases h : densGev0 ξ ((y - μ) / σ) = 0
  · rw [if_pos h, negLog, if_pos (by rw [h, zero_div])]
  · have hp : 0 < densGev0 ξ ((y - μ) / σ) := lt_of_le_of_ne (hd.nonneg _) (Ne.symm h)
    rw [if_neg h, if_neg h, fin_log (div_pos hp hσ), fin_neg, negLog, if_neg (div_pos hp hσ).ne']

example : Logs.gev (fin 5) (fin (-1)) (fin 0) (fin 2) = pinf ∧
    Logs.gev (fin 0) (fin (-1)) (fin 0) (fin 2) = fin (1 + Real.log 2) := by
  rw [(C57_gev (-1) 0 two_pos).2, (C57_gev (-1) 0 two_pos).2]
  refine ⟨by norm_num [densGev, densGev0, negLog], ?_⟩
  have : densGev (-1) 0 2 0 = Real.exp (-1) / 2 := by norm_num [densGev, densGev0]
  rw [this, negLog, if_neg (by positivity), Real.log_div (Real.exp_ne_zero _) (by norm_num), Real.log_exp]
  congr 1; ring

end Verif
