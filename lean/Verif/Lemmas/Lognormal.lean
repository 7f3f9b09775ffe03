import Verif.Lemmas.Prim
import Verif.Lemmas.NormalConv
import Verif.Lemmas.LogCrps

/-!
# CRPS of the log-normal distribution
-/

noncomputable section

open scoped Classical Topology ENNReal NNReal
open MeasureTheory Filter Set ProbabilityTheory

namespace Verif

open Spec

/-- `∫ φ(x - c) Φ(x) dx = Φ(c / √2)`. -/
theorem φΦ_integral (c : ℝ) :
    Integrable (fun x => φ (x - c) * Φ x) ∧ ∫ x, φ (x - c) * Φ x = Φ (c / Real.sqrt 2) := by
  have hi : Integrable (fun x => φ (x - c) * Φ x) := by
    refine Integrable.mono (φ_integrable.comp_sub_right c)
      ((φ_cont.comp (by fun_prop)).mul Φ_cont).aestronglyMeasurable (ae_of_all _ fun x => ?_)
    rw [Real.norm_of_nonneg (mul_nonneg (φ_pos _).le (Φ_nonneg x)), Real.norm_of_nonneg (φ_pos _).le]
    nlinarith [φ_pos (x - c), Φ_le_one x]
  refine ⟨hi, ?_⟩
  have h2 : Real.sqrt 2 ^ 2 = 2 := Real.sq_sqrt (by norm_num)
  have hc : gauss (-c) 1 ∗ gauss 0 1 = gauss (-c) (Real.sqrt 2) := by
    unfold gauss
    rw [gaussianReal_conv_gaussianReal]
    congr 1
    · ring
    · rw [h2, ← Real.toNNReal_add (by norm_num) (by norm_num)]; norm_num
  have hv : gauss (-c) (Real.sqrt 2) (Iic 0) = ENNReal.ofReal (Φ (c / Real.sqrt 2)) := by
    rw [gauss_Iic (Real.sqrt_pos.2 two_pos)]; congr 3; ring
  rw [← hc, ← lintegral_indicator_one measurableSet_Iic, Measure.lintegral_conv] at hv
  swap
  · exact measurable_const.indicator measurableSet_Iic
  have e : ∀ q : ℝ, ∫⁻ p, (Iic (0:ℝ)).indicator (1 : ℝ → ℝ≥0∞) (q + p) ∂(gauss 0 1) = ENNReal.ofReal (Φ (-q)) := by
    intro q
    have := gauss_Iic one_pos 0 (-q)
    rw [sub_zero, div_one] at this
    rw [← this, ← lintegral_indicator_one measurableSet_Iic]
    refine lintegral_congr fun p => ?_
    by_cases h : q + p ≤ 0
    · have : p ≤ -q := by linarith
      simp [indicator, h, this]
    · have : ¬ p ≤ -q := by linarith
      simp [indicator, h, this]
  simp only [e] at hv
  have h1 : Real.toNNReal ((1:ℝ) ^ 2) ≠ 0 := (Real.toNNReal_pos.2 (by positivity)).ne'
  have hint : ∫ q, Φ (-q) ∂(gauss (-c) 1) = ∫ x, φ (x - c) * Φ x := by
    unfold gauss
    rw [integral_gaussianReal_eq_integral_smul h1, ← integral_neg_eq_self]
    refine integral_congr_ae (ae_of_all _ fun x => ?_)
    dsimp only
    rw [gauss_pdf one_pos, neg_neg, div_one, div_one, smul_eq_mul, ← φ_neg]
    congr 2; ring
  have hg : Integrable (fun q => Φ (-q)) (gauss (-c) 1) := by
    refine Integrable.mono (integrable_const (1:ℝ)) (Φ_cont.comp continuous_neg).aestronglyMeasurable
      (ae_of_all _ fun x => ?_)
    simpa [abs_of_nonneg (Φ_nonneg _)] using Φ_le_one _
  have h3 := ofReal_integral_eq_lintegral_ofReal hg (ae_of_all _ fun x => Φ_nonneg _)
  rw [hv, hint] at h3
  exact (ENNReal.ofReal_eq_ofReal_iff
    (integral_nonneg fun x => mul_nonneg (φ_pos _).le (Φ_nonneg x)) (Φ_nonneg _)).1 h3

theorem φ_shift (μ t : ℝ) {σ : ℝ} (hσ : 0 < σ) :
    Real.exp t * φ ((t - μ) / σ) = Real.exp (μ + σ ^ 2 / 2) * φ ((t - μ) / σ - σ) := by
  unfold φ
  rw [mul_div_assoc', mul_div_assoc', ← Real.exp_add, ← Real.exp_add]
  congr 2
  field_simp
  ring

/-- The CRPS of the log-normal distribution. -/
theorem crps_lognormal (μ : ℝ) {σ : ℝ} (hσ : 0 < σ) (y : ℝ) :
    HasCrps (cdfLog (cdfNormal μ σ)) y ∧
    Spec.crps (cdfLog (cdfNormal μ σ)) y
      = if y ≤ 0 then 2 * Real.exp (μ + σ ^ 2 / 2) * (1 - Φ (σ / Real.sqrt 2)) - y
        else y * (2 * Φ ((Real.log y - μ) / σ) - 1)
          - 2 * Real.exp (μ + σ ^ 2 / 2) * (Φ ((Real.log y - μ) / σ - σ) + Φ (σ / Real.sqrt 2) - 1) := by
  obtain ⟨hMi, hM⟩ := φΦ_integral σ
  set m := Real.exp (μ + σ ^ 2 / 2) with hm
  set f : ℝ → ℝ := fun x => φ (x - σ) * Φ x with hf
  have hfc : Continuous f := (φ_cont.comp (by fun_prop)).mul Φ_cont
  have hω : ∀ t, HasDerivAt (fun t : ℝ => (t - μ) / σ) (1 / σ) t := fun t =>
    ((hasDerivAt_id t).sub_const μ).div_const σ
  have hωb : Tendsto (fun t : ℝ => (t - μ) / σ) atBot atBot :=
    (tendsto_atBot_add_const_right _ (-μ) tendsto_id).atBot_div_const hσ
  have hωt : Tendsto (fun t : ℝ => (t - μ) / σ) atTop atTop :=
    (tendsto_atTop_add_const_right _ (-μ) tendsto_id).atTop_div_const hσ
  have hF : ∀ t, HasDerivAt (fun t => Φ ((t - μ) / σ)) (φ ((t - μ) / σ) * (1 / σ)) t := fun t =>
    (Φ_deriv _).comp t (hω t)
  have hFs : ∀ t, HasDerivAt (fun t => Φ ((t - μ) / σ - σ)) (φ ((t - μ) / σ - σ) * (1 / σ)) t := fun t =>
    (Φ_deriv _).comp t ((hω t).sub_const σ)
  have hMd : ∀ t, HasDerivAt (fun t => prim f ((t - μ) / σ)) (f ((t - μ) / σ) * (1 / σ)) t := fun t =>
    (prim_deriv hMi hfc.continuousAt).comp t (hω t)
  have hA : ∀ t, HasDerivAt (fun t => Real.exp t * Φ ((t - μ) / σ) ^ 2 - 2 * m * prim f ((t - μ) / σ))
      (cdfNormal μ σ t ^ 2 * Real.exp t) t := by
    intro t
    refine (((Real.hasDerivAt_exp t).mul ((hF t).pow 2)).sub ((hMd t).const_mul (2 * m))).congr_deriv ?_
    have e := φ_shift μ t hσ
    rw [← hm] at e
    simp only [cdfNormal, hf, Pi.pow_apply]
    push_cast
    linear_combination (2 * Φ ((t - μ) / σ) / σ) * e
  have hB : ∀ t, HasDerivAt (fun t => Real.exp t * (1 - Φ ((t - μ) / σ)) ^ 2
      + 2 * m * (Φ ((t - μ) / σ - σ) - prim f ((t - μ) / σ)))
      ((1 - cdfNormal μ σ t) ^ 2 * Real.exp t) t := by
    intro t
    refine (((Real.hasDerivAt_exp t).mul (((hF t).const_sub 1).pow 2)).add
      (((hFs t).sub (hMd t)).const_mul (2 * m))).congr_deriv ?_
    have e := φ_shift μ t hσ
    rw [← hm] at e
    simp only [cdfNormal, hf, Pi.pow_apply]
    push_cast
    linear_combination (-2 * (1 - Φ ((t - μ) / σ)) / σ) * e
  have ha : Tendsto (fun t => Real.exp t * Φ ((t - μ) / σ) ^ 2 - 2 * m * prim f ((t - μ) / σ)) atBot (𝓝 0) := by
    have := (Real.tendsto_exp_atBot.mul ((Φ_atBot.comp hωb).pow 2)).sub
      (((prim_atBot hMi).comp hωb).const_mul (2 * m))
    simpa using this
  have hωs : Tendsto (fun t : ℝ => (t - μ) / σ - σ) atBot atBot :=
    tendsto_atBot_add_const_right _ (-σ) hωb
  have hωst : Tendsto (fun t : ℝ => (t - μ) / σ - σ) atTop atTop :=
    tendsto_atTop_add_const_right _ (-σ) hωt
  have hb0 : Tendsto (fun t => Real.exp t * (1 - Φ ((t - μ) / σ)) ^ 2
      + 2 * m * (Φ ((t - μ) / σ - σ) - prim f ((t - μ) / σ))) atBot (𝓝 0) := by
    have := (Real.tendsto_exp_atBot.mul (((Φ_atBot.comp hωb).const_sub 1).pow 2)).add
      (((Φ_atBot.comp hωs).sub ((prim_atBot hMi).comp hωb)).const_mul (2 * m))
    simpa using this
  have htail : Tendsto (fun t => Real.exp t * (1 - Φ ((t - μ) / σ)) ^ 2) atTop (𝓝 0) := by
    have hφ : Tendsto φ atTop (𝓝 0) := (φ_atBot.comp tendsto_neg_atTop_atBot).congr fun x => φ_neg x
    have h1 : Tendsto (fun t => m * φ ((t - μ) / σ - σ)) atTop (𝓝 0) := by
      simpa using (hφ.comp hωst).const_mul m
    refine tendsto_of_tendsto_of_tendsto_of_le_of_le' tendsto_const_nhds h1
      (Eventually.of_forall fun t => by positivity) ?_
    filter_upwards [hωt.eventually_ge_atTop 1] with t ht
    rw [← φ_shift μ t hσ]
    refine mul_le_mul_of_nonneg_left ?_ (Real.exp_pos t).le
    generalize (t - μ) / σ = x at ht
    have h2 := Φ_tail (x := -x) (by linarith)
    rw [φ_neg, neg_neg, show Φ (-x) = 1 - Φ x by linarith [Φ_add_neg x]] at h2
    nlinarith [Φ_le_one x, Φ_nonneg x]
  have hb : Tendsto (fun t => Real.exp t * (1 - Φ ((t - μ) / σ)) ^ 2
      + 2 * m * (Φ ((t - μ) / σ - σ) - prim f ((t - μ) / σ))) atTop
      (𝓝 (2 * m * (1 - Φ (σ / Real.sqrt 2)))) := by
    have := htail.add
      (((Φ_atTop.comp hωst).sub ((prim_atTop hMi).comp hωt)).const_mul (2 * m))
    rw [zero_add, hM] at this
    exact this
  obtain ⟨hi, hv⟩ := crps_log (F := cdfNormal μ σ) (s := ∅) countable_empty
    (Φ_cont.comp (by fun_prop)).measurable (fun x => Φ_nonneg _) (fun x => Φ_le_one _)
    (continuous_iff_continuousAt.2 fun x => (hA x).continuousAt) (fun x _ => hA x)
    (continuous_iff_continuousAt.2 fun x => (hB x).continuousAt) (fun x _ => hB x) ha hb0 hb y
  refine ⟨hi, hv.trans ?_⟩
  split_ifs with hy
  · ring
  · rw [Real.exp_log (not_le.1 hy)]
    ring

end Verif
