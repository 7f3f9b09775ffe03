import Verif.Lemmas.Gpd
import Verif.Lemmas.Normal
import Verif.Model.Closed

/-!
# From the standard distributions to location and scale; the model's `erf` and the normal distribution
-/

noncomputable section

open scoped Classical Topology
open MeasureTheory Filter Set

namespace Verif

open XF

theorem Spec.HasCrps.scale {F : ℝ → ℝ} {μ σ y : ℝ} (hσ : 0 < σ)
    (h : Spec.HasCrps F ((y - μ) / σ)) : Spec.HasCrps (fun z => F ((z - μ) / σ)) y := by
  have h1 := (h.comp_div hσ.ne').comp_sub_right μ
  refine h1.congr (ae_of_all _ fun z => ?_)
  have : (y - μ) / σ ≤ (z - μ) / σ ↔ y ≤ z := by
    rw [div_le_div_iff_of_pos_right hσ]; constructor <;> intro h <;> linarith
  simp only [this]

/-- `(1 + erf (x / sqrt 2)) / 2` is the normal distribution function. -/
theorem erf_Φ (x : ℝ) :
    (1 + 2 / Real.sqrt Real.pi * ∫ t in (0:ℝ)..(x / Real.sqrt 2), Real.exp (-t ^ 2)) / 2 = Spec.Φ x := by
  have h2 : (0:ℝ) < Real.sqrt 2 := Real.sqrt_pos.2 two_pos
  have hp : (0:ℝ) < Real.sqrt Real.pi := Real.sqrt_pos.2 Real.pi_pos
  have e : ∫ t in (0:ℝ)..x, Spec.φ t
      = (Real.sqrt 2) * ∫ t in (0:ℝ)..(x / Real.sqrt 2), Spec.φ (t * Real.sqrt 2) := by
    rw [intervalIntegral.integral_comp_mul_right _ h2.ne', smul_eq_mul, zero_mul, div_mul_cancel₀ _ h2.ne',
      ← mul_assoc, mul_inv_cancel₀ h2.ne', one_mul]
  have e2 : ∀ t : ℝ, Spec.φ (t * Real.sqrt 2) = (Real.sqrt 2 * Real.sqrt Real.pi)⁻¹ * Real.exp (-t ^ 2) := by
    intro t
    unfold Spec.φ
    rw [mul_pow, Real.sq_sqrt (by norm_num), Real.sqrt_mul (by norm_num), div_eq_inv_mul]
    congr 2; ring
  rw [Φ_eq, Φ_zero, e]
  simp only [e2]
  rw [intervalIntegral.integral_const_mul]
  field_simp

theorem sqrt2_fin : XF.sqrt 2 = fin (Real.sqrt 2) := by
  rw [XF.ofNat_def, fin_sqrt (by norm_num)]

theorem normCdf_fin (x : ℝ) : Stats.normCdf (fin x) = fin (Spec.Φ x) := by
  unfold Stats.normCdf
  rw [sqrt2_fin, fin_div (Real.sqrt_pos.2 two_pos).ne']
  simp only [XF.erf]
  rw [← erf_Φ]
  simp only [XF.one_def, XF.ofNat_def, fin_add]
  rw [fin_div (by norm_num)]

theorem normPdf_fin (x : ℝ) : Stats.normPdf (fin x) = fin (Spec.φ x) := by
  unfold Stats.normPdf XF.pi Spec.φ
  simp only [XF.one_def, XF.ofNat_def, fin_mul, fin_pow, fin_neg]
  rw [fin_sqrt (by positivity), fin_div (by positivity), fin_div (by norm_num), fin_exp, fin_mul]
  congr 1
  field_simp

@[simp] theorem fin_feq (a b : ℝ) : XF.feq (fin a) (fin b) ↔ a = b := by simp [XF.feq]

theorem expCdf_fin (x r : ℝ) : Stats.expCdf (fin x) (fin r) = fin (max (1 - Real.exp (-r * x)) 0) := by
  simp [Stats.expCdf, XF.one_def, XF.zero_def]

theorem logisCdf_fin (x : ℝ) : Stats.logisCdf (fin x) = fin (logis x) := by
  unfold Stats.logisCdf logis
  simp only [XF.one_def, fin_neg, fin_exp, fin_add]
  rw [fin_div (by positivity)]

/-! ### generalised Pareto -/

theorem pow_fin_pos {a : ℝ} (ha : 0 < a) (b : ℝ) : XF.pow (fin a) (fin b) = fin (a ^ b) := by
  unfold XF.pow
  simp only [XF.zero_def, XF.one_def, fin_inj, if_pos ha]
  split_ifs with h1 h2
  · rw [h1, Real.rpow_zero]
  · rw [h2, Real.one_rpow]
  · rfl

theorem pow_fin_zero {b : ℝ} (hb : 0 < b) : XF.pow (fin 0) (fin b) = fin 0 := by
  unfold XF.pow
  simp [XF.zero_def, XF.one_def, hb.ne', hb]

/-- The standard generalised Pareto distribution function without point mass. -/
def gpdG (ξ x : ℝ) : ℝ :=
  if x < 0 then 0 else if ξ = 0 then 1 - Real.exp (-x) else 1 - gpdB ξ x ^ (-1 / ξ)

theorem gpdCdf_fin (x ξ : ℝ) : Stats.gpdCdf (fin x) (fin ξ) = fin (gpdG ξ x) := by
  unfold Stats.gpdCdf gpdG
  simp only [XF.zero_def, XF.one_def, fin_feq, fin_le]
  by_cases h0 : ξ = 0
  · have e1 : ¬ (fin 0 < nan) := fun h => h
    have e2 : ∀ a : XF, a / nan = nan := by intro a; cases a <;> rfl
    have e3 : ¬ (nan < fin x) := fun h => h
    simp only [h0, if_true, e1, true_or, not_true_eq_false, e2, e3, false_and, and_false, or_false, if_false,
      true_and]
    rcases le_or_gt 0 x with h | h
    · simp [h, not_lt.2 h]
    · simp [h, not_le.2 h]
  · simp only [h0, if_false, false_or, fin_lt, fin_neg, fin_div h0, not_lt, false_and]
    rcases le_or_gt 0 x with h | h
    · simp only [h, if_true, and_true, not_lt.2 h, if_false]
      rcases lt_or_gt_of_ne h0 with hn | hp
      · simp only [hn.le, true_and, true_or, if_true]
        split_ifs with h'
        · have hB : gpdB ξ x = 0 := by
            have := mul_lt_mul_of_neg_left h' hn
            rw [mul_div_cancel₀ _ h0] at this
            exact max_eq_right (by linarith)
          rw [hB, Real.zero_rpow (div_pos_of_neg_of_neg (by norm_num) hn).ne', sub_zero]
        · simp only [fin_mul, fin_add, fin_div h0]
          have hx : 0 ≤ 1 + ξ * x := by
            have := mul_le_mul_of_nonpos_left (not_lt.1 h') hn.le
            rw [mul_div_cancel₀ _ h0] at this
            linarith
          have hB : gpdB ξ x = 1 + ξ * x := max_eq_left hx
          rw [hB]
          rcases hx.lt_or_eq with hx | hx
          · rw [pow_fin_pos hx, fin_sub]
          · rw [← hx, pow_fin_zero (div_pos_of_neg_of_neg (by norm_num) hn), fin_sub,
              Real.zero_rpow (div_pos_of_neg_of_neg (by norm_num) hn).ne']
      · have hn' : ¬ ξ ≤ 0 := not_le.2 hp
        simp only [hn', hp, false_and, false_or, if_true, if_false, fin_mul, fin_add, fin_div h0]
        have hx : 0 < 1 + ξ * x := by positivity
        have hB : gpdB ξ x = 1 + ξ * x := max_eq_left hx.le
        rw [pow_fin_pos hx, fin_sub, hB]
    · simp only [not_le.2 h, and_false, or_false, if_false, h, if_true]
      rw [if_neg]
      rintro ⟨h1, h2⟩
      have : 0 ≤ -1 / ξ := div_nonneg_of_nonpos (by norm_num) h1
      linarith

/-- `b ** (1 - 1 / ξ)` in the form used by the code. -/
def gpdV (ξ x : ℝ) : ℝ :=
  if ξ = 0 then Real.exp (-max x 0) else gpdB ξ (max x 0) ^ (1 - 1 / ξ)

theorem gpd_pow {ξ : ℝ} (hξ : ξ < 1) (x : ℝ) :
    XF.pow (fin (1 - gpdG ξ x)) (fin (1 - ξ)) = fin (gpdV ξ x) := by
  unfold gpdG gpdV
  rcases le_or_gt 0 x with h | h
  · simp only [not_lt.2 h, if_false, max_eq_left h]
    split_ifs with h0
    · subst h0
      rw [sub_sub_cancel, pow_fin_pos (Real.exp_pos _), sub_zero, Real.rpow_one]
    · rw [sub_sub_cancel]
      have hb : 0 ≤ gpdB ξ x := le_max_right _ _
      rcases hb.lt_or_eq with hb | hb
      · rw [pow_fin_pos (Real.rpow_pos_of_pos hb _), ← Real.rpow_mul hb.le]
        congr 2; field_simp; ring
      · have hn : ξ < 0 := by
          rcases lt_or_gt_of_ne h0 with h' | h'
          · exact h'
          · exfalso
            have : 0 < gpdB ξ x := lt_max_of_lt_left (by positivity)
            linarith
        have r1 : 0 < 1 - 1 / ξ := by
          have : 1 / ξ < 0 := div_neg_of_pos_of_neg one_pos hn
          linarith
        rw [← hb, Real.zero_rpow (div_pos_of_neg_of_neg (by norm_num) hn).ne',
          pow_fin_zero (by linarith), Real.zero_rpow r1.ne']
  · simp only [h, if_true, max_eq_right h.le]
    rw [sub_zero, pow_fin_pos one_pos, Real.one_rpow]
    simp [gpdB]

theorem crps_gpd0 {M ξ : ℝ} (h0 : 0 ≤ M) (h1 : M ≤ 1) (hξ : ξ < 1) (y : ℝ) :
    Spec.HasCrps (Spec.cdfGpd0 M ξ) y ∧
    Spec.crps (Spec.cdfGpd0 M ξ) y = |y| - 2 * (1 - M) * (1 - gpdV ξ y) / (1 - ξ)
      + (1 - M) ^ 2 / (2 - ξ) := by
  by_cases hz : ξ = 0
  · have e : Spec.cdfGpd0 M ξ = expM M := by funext x; simp [Spec.cdfGpd0, expM, hz]
    obtain ⟨hi, hv⟩ := crps_expM h0 h1 y
    rw [e]
    refine ⟨hi, hv.trans ?_⟩
    subst hz
    simp only [gpdV, if_true]; ring
  · have e : Spec.cdfGpd0 M ξ = gpdF M ξ := by
      funext x
      simp only [Spec.cdfGpd0, gpdF, hz, if_false]
      split_ifs with h h'
      · rfl
      · have hB : gpdB ξ x = 0 := by
          have := mul_lt_mul_of_neg_left h'.2 h'.1
          rw [mul_div_cancel₀ _ hz] at this
          exact max_eq_right (by linarith)
        rw [hB, Real.zero_rpow (div_pos_of_neg_of_neg (by norm_num) h'.1).ne']; ring
      · have hB : gpdB ξ x = 1 + ξ * x := by
          refine max_eq_left ?_
          rcases lt_or_gt_of_ne hz with hn | hp
          · have := mul_le_mul_of_nonpos_left (not_lt.1 fun h2 => h' ⟨hn, h2⟩) hn.le
            rw [mul_div_cancel₀ _ hz] at this
            linarith
          · have := not_lt.1 h
            positivity
        rw [hB]; ring
    obtain ⟨hi, hv⟩ := crps_gpdF h0 h1 hz hξ y
    rw [e]
    refine ⟨hi, hv.trans ?_⟩
    simp only [gpdV, hz, if_false]

end Verif
