import Verif.Lemmas.Normal
import Mathlib.Probability.Distributions.Gaussian.Real

/-!
# Pairs of normal distributions
-/

noncomputable section

open scoped Classical Topology ENNReal NNReal
open MeasureTheory Filter Set ProbabilityTheory

namespace Verif

open Spec (φ Φ)

/-- Expected positive part of a difference, in two ways. -/
theorem tonelli_pos (α β : Measure ℝ) [IsProbabilityMeasure α] [IsProbabilityMeasure β] :
    ∫⁻ x, α (Iic x) * β (Ioi x) = ∫⁻ t in Ioi (0:ℝ), (β ∗ α.map (fun x => -x)) (Ioi t) := by
  have h1 : ∫⁻ x, α (Iic x) * β (Ioi x) = ∫⁻ q, ∫⁻ p, ENNReal.ofReal (q - p) ∂α ∂β := by
    have e : ∀ x : ℝ, α (Iic x) * β (Ioi x)
        = ∫⁻ q, ∫⁻ p, (if p ≤ x ∧ x < q then 1 else 0) ∂α ∂β := by
      intro x
      have e1 : ∀ q : ℝ, ∫⁻ p, (if p ≤ x ∧ x < q then 1 else 0) ∂α
          = (Ioi x).indicator (fun _ => α (Iic x)) q := by
        intro q
        by_cases hq : x < q
        · rw [indicator_of_mem (show q ∈ Ioi x from hq), ← lintegral_indicator_one measurableSet_Iic]
          refine lintegral_congr fun p => ?_
          by_cases hp : p ≤ x <;> simp [hp, hq, indicator]
        · rw [indicator_of_notMem (show q ∉ Ioi x from hq)]
          simp [hq]
      simp only [e1]
      rw [lintegral_indicator_const measurableSet_Ioi]
    simp only [e]
    have hm : Measurable fun r : (ℝ × ℝ) × ℝ => if r.2 ≤ r.1.1 ∧ r.1.1 < r.1.2 then (1 : ℝ≥0∞) else 0 := by
      refine Measurable.ite ?_ measurable_const measurable_const
      exact (measurableSet_le measurable_snd (measurable_fst.comp measurable_fst)).inter
        (measurableSet_lt (measurable_fst.comp measurable_fst) (measurable_snd.comp measurable_fst))
    rw [lintegral_lintegral_swap]
    · refine lintegral_congr fun q => ?_
      rw [lintegral_lintegral_swap]
      · refine lintegral_congr fun p => ?_
        rw [← Real.volume_Ico, ← lintegral_indicator_one measurableSet_Ico]
        refine lintegral_congr fun x => ?_
        by_cases hx : p ≤ x ∧ x < q <;> simp [hx, indicator, mem_Ico]
      · refine Measurable.aemeasurable ?_
        exact hm.comp ((measurable_fst.prodMk measurable_const).prodMk measurable_snd)
    · exact (Measurable.lintegral_prod_right hm).aemeasurable
  have h2 : ∫⁻ t in Ioi (0:ℝ), (β ∗ α.map (fun x => -x)) (Ioi t)
      = ∫⁻ q, ∫⁻ p, ENNReal.ofReal (q - p) ∂α ∂β := by
    have e : ∀ t : ℝ, (β ∗ α.map (fun x => -x)) (Ioi t)
        = ∫⁻ q, ∫⁻ p, (if t < q - p then 1 else 0) ∂α ∂β := by
      intro t
      rw [← lintegral_indicator_one measurableSet_Ioi, Measure.lintegral_conv]
      · refine lintegral_congr fun q => ?_
        rw [lintegral_map]
        · refine lintegral_congr fun p => ?_
          by_cases h : t < q - p <;> simp [indicator, h, ← sub_eq_add_neg]
        · exact (measurable_const.indicator measurableSet_Ioi).comp (measurable_const.add measurable_id)
        · exact measurable_neg
      · exact measurable_const.indicator measurableSet_Ioi
    simp only [e]
    have hm : Measurable fun r : (ℝ × ℝ) × ℝ => if r.1.1 < r.1.2 - r.2 then (1 : ℝ≥0∞) else 0 := by
      refine Measurable.ite ?_ measurable_const measurable_const
      exact measurableSet_lt (measurable_fst.comp measurable_fst)
        ((measurable_snd.comp measurable_fst).sub measurable_snd)
    rw [lintegral_lintegral_swap]
    · refine lintegral_congr fun q => ?_
      rw [lintegral_lintegral_swap]
      · refine lintegral_congr fun p => ?_
        rw [← sub_zero (q - p), ← Real.volume_Ioo, ← lintegral_indicator_one measurableSet_Ioo,
          ← lintegral_indicator measurableSet_Ioi]
        refine lintegral_congr fun x => ?_
        by_cases hx : 0 < x <;> by_cases hx' : x < q - p <;> simp [hx, hx', indicator, mem_Ioo]
      · refine Measurable.aemeasurable ?_
        exact hm.comp ((measurable_fst.prodMk measurable_const).prodMk measurable_snd)
    · exact (Measurable.lintegral_prod_right hm).aemeasurable
  rw [h1, h2]

/-- The normal distribution of the library. -/
def gauss (m s : ℝ) : Measure ℝ := gaussianReal m (Real.toNNReal (s ^ 2))

instance (m s : ℝ) : IsProbabilityMeasure (gauss m s) := by unfold gauss; infer_instance

theorem gauss_pdf {s : ℝ} (hs : 0 < s) (m x : ℝ) :
    gaussianPDFReal m (Real.toNNReal (s ^ 2)) x = φ ((x - m) / s) / s := by
  unfold gaussianPDFReal φ
  rw [Real.coe_toNNReal _ (sq_nonneg s), Real.sqrt_mul (by positivity), Real.sqrt_sq hs.le, div_div]
  have : -(x - m) ^ 2 / (2 * s ^ 2) = -((x - m) / s) ^ 2 / 2 := by field_simp
  rw [this, ← div_eq_inv_mul]

theorem gauss_Iic {s : ℝ} (hs : 0 < s) (m x : ℝ) :
    gauss m s (Iic x) = ENNReal.ofReal (Φ ((x - m) / s)) := by
  have hv : Real.toNNReal (s ^ 2) ≠ 0 := (Real.toNNReal_pos.2 (by positivity)).ne'
  unfold gauss
  rw [gaussianReal_apply_eq_integral m hv]
  congr 1
  simp only [gauss_pdf hs]
  have h1 : ∀ z : ℝ, HasDerivAt (fun z => Φ ((z - m) / s)) (φ ((z - m) / s) / s) z := fun z => by
    have h : HasDerivAt (fun z : ℝ => (z - m) / s) (1 / s) z := ((hasDerivAt_id z).sub_const m).div_const s
    exact ((Φ_deriv _).comp z h).congr_deriv (by ring)
  have ht : Tendsto (fun z => Φ ((z - m) / s)) atBot (𝓝 0) :=
    Φ_atBot.comp ((tendsto_atBot_add_const_right _ (-m) tendsto_id).atBot_div_const hs)
  have hi : IntegrableOn (fun z => φ ((z - m) / s) / s) (Iic x) :=
    (((φ_integrable.comp_div hs.ne').comp_sub_right m).div_const s).integrableOn
  rw [integral_Iic_of_hasDerivAt_of_tendsto' (fun z _ => h1 z) hi ht, sub_zero]

theorem gauss_Ioi {s : ℝ} (hs : 0 < s) (m x : ℝ) :
    gauss m s (Ioi x) = ENNReal.ofReal (1 - Φ ((x - m) / s)) := by
  rw [← compl_Iic, prob_compl_eq_one_sub measurableSet_Iic, gauss_Iic hs, ENNReal.ofReal_sub _ (Φ_nonneg _),
    ENNReal.ofReal_one]

theorem gauss_diff {s t r : ℝ} (hr : r ^ 2 = s ^ 2 + t ^ 2) (a b : ℝ) :
    gauss b t ∗ (gauss a s).map (fun x => -x) = gauss (b - a) r := by
  unfold gauss
  rw [gaussianReal_map_neg, gaussianReal_conv_gaussianReal]
  congr 1
  rw [hr, Real.toNNReal_add (sq_nonneg s) (sq_nonneg t), add_comm]

/-- Antiderivative of the normal distribution function. -/
def Φ1 (x : ℝ) : ℝ := x * Φ x + φ x

theorem Φ1_deriv (x : ℝ) : HasDerivAt Φ1 (Φ x) x := by
  refine (((hasDerivAt_id x).mul (Φ_deriv x)).add (φ_deriv x)).congr_deriv ?_
  simp

theorem Φ1_atBot : Tendsto Φ1 atBot (𝓝 0) := by
  have := mul_Φ_atBot.add φ_atBot
  rw [add_zero] at this
  exact this

/-- Expected positive part of the difference of two normal variables. -/
theorem normal_cross {s t r : ℝ} (hs : 0 < s) (ht : 0 < t) (hr : 0 < r) (hrst : r ^ 2 = s ^ 2 + t ^ 2)
    (a b : ℝ) :
    Integrable (fun x => Φ ((x - a) / s) * (1 - Φ ((x - b) / t))) ∧
    ∫ x, Φ ((x - a) / s) * (1 - Φ ((x - b) / t)) = r * Φ1 ((b - a) / r) := by
  have h := tonelli_pos (gauss a s) (gauss b t)
  rw [gauss_diff hrst] at h
  simp only [gauss_Iic hs, gauss_Ioi ht, gauss_Ioi hr] at h
  simp only [← ENNReal.ofReal_mul (Φ_nonneg _)] at h
  have hnn : ∀ x, 0 ≤ Φ ((x - a) / s) * (1 - Φ ((x - b) / t)) := fun x =>
    mul_nonneg (Φ_nonneg _) (by linarith [Φ_le_one ((x - b) / t)])
  have hcont : Continuous fun x => Φ ((x - a) / s) * (1 - Φ ((x - b) / t)) :=
    (Φ_cont.comp (by fun_prop)).mul (continuous_const.sub (Φ_cont.comp (by fun_prop)))
  -- the right hand side
  have hd : ∀ x : ℝ, HasDerivAt (fun x => -(r * Φ1 ((b - a - x) / r))) (1 - Φ ((x - (b - a)) / r)) x := by
    intro x
    have h1 : HasDerivAt (fun x : ℝ => (b - a - x) / r) (-1 / r) x := by
      simpa using ((hasDerivAt_const x (b - a)).sub (hasDerivAt_id x)).div_const r
    refine (((Φ1_deriv _).comp x h1).const_mul r).neg.congr_deriv ?_
    have : (b - a - x) / r = -((x - (b - a)) / r) := by ring
    rw [this]
    have := Φ_add_neg ((x - (b - a)) / r)
    field_simp
    linarith
  have htop : Tendsto (fun x => -(r * Φ1 ((b - a - x) / r))) atTop (𝓝 0) := by
    have h1 : Tendsto (fun x : ℝ => (b - a - x) / r) atTop atBot := by
      refine Tendsto.atBot_div_const hr ?_
      exact (tendsto_atBot_add_const_left atTop (b - a) (tendsto_neg_atTop_atBot (G := ℝ))).congr
        fun x => (sub_eq_add_neg _ _).symm
    simpa using ((Φ1_atBot.comp h1).const_mul r).neg
  have hm : Measurable fun x => 1 - Φ ((x - (b - a)) / r) :=
    (continuous_const.sub (Φ_cont.comp (by fun_prop))).measurable
  obtain ⟨i2, e2⟩ := ftc_Ioi (y := 0) (C := 1) (f := fun x => 1 - Φ ((x - (b - a)) / r)) countable_empty hm
    (fun x => by linarith [Φ_le_one ((x - (b - a)) / r)])
    (fun x => by linarith [Φ_nonneg ((x - (b - a)) / r)])
    (fun x _ => (hd x).continuousAt.continuousWithinAt) (fun x _ _ => hd x) htop
  have hR : ∫⁻ x in Ioi (0:ℝ), ENNReal.ofReal (1 - Φ ((x - (b - a)) / r))
      = ENNReal.ofReal (r * Φ1 ((b - a) / r)) := by
    rw [← ofReal_integral_eq_lintegral_ofReal i2
      (ae_of_all _ fun x => by simpa using Φ_le_one ((x - (b - a)) / r)), e2]
    congr 1
    simp
  rw [hR] at h
  have hint : Integrable (fun x => Φ ((x - a) / s) * (1 - Φ ((x - b) / t))) := by
    refine ⟨hcont.aestronglyMeasurable, ?_⟩
    rw [hasFiniteIntegral_iff_ofReal (ae_of_all _ hnn), h]
    exact ENNReal.ofReal_lt_top
  refine ⟨hint, ?_⟩
  have h3 := ofReal_integral_eq_lintegral_ofReal hint (ae_of_all _ hnn)
  rw [h] at h3
  have hp : 0 ≤ r * Φ1 ((b - a) / r) := by
    have : 0 ≤ ∫ x in Ioi (0:ℝ), (1 - Φ ((x - (b - a)) / r)) :=
      integral_nonneg fun x => by simpa using Φ_le_one ((x - (b - a)) / r)
    rw [e2] at this
    simpa using this
  exact (ENNReal.ofReal_eq_ofReal_iff (integral_nonneg hnn) hp).1 h3

end Verif
