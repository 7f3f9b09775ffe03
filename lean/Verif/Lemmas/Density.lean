import Verif.Spec.Dens
import Verif.Lemmas.Gpd
import Verif.Lemmas.Normal
import Mathlib.MeasureTheory.Function.LocallyIntegrable
import Mathlib.Analysis.SpecialFunctions.Log.Deriv

/-!
# Densities of the parametric families
-/

noncomputable section

open scoped Classical Topology
open MeasureTheory Filter Set intervalIntegral

namespace Verif

open Spec

/-- A non-negative derivative of a continuous function, with finitely many exceptional points, is locally
integrable. -/
theorem locallyIntegrable_of_deriv {f P : ℝ → ℝ} {s : Set ℝ} (hs : s.Finite) (h0 : ∀ x, 0 ≤ f x)
    (hc : Continuous P) (hd : ∀ x, x ∉ s → HasDerivAt P (f x) x) : LocallyIntegrable f := by
  intro x
  have hcl : IsClosed (s \ {x}) := (hs.subset diff_subset).isClosed
  have hn : (s \ {x})ᶜ ∈ 𝓝 x := hcl.isOpen_compl.mem_nhds (by simp)
  obtain ⟨ε, hε, hb⟩ := Metric.mem_nhds_iff.1 hn
  have hin : ∀ z, |z - x| < ε → z ≠ x → z ∉ s := by
    intro z hz hne hzs
    exact hb (by rwa [Metric.mem_ball, Real.dist_eq]) ⟨hzs, hne⟩
  have h1 : IntegrableOn f (Ioc (x - ε / 2) x) := by
    refine integrableOn_deriv_of_nonneg hc.continuousOn (fun z hz => hd z (hin z ?_ hz.2.ne))
      (fun z _ => h0 z)
    rw [abs_lt]; constructor <;> linarith [hz.1, hz.2]
  have h2 : IntegrableOn f (Ioc x (x + ε / 2)) := by
    refine integrableOn_deriv_of_nonneg hc.continuousOn (fun z hz => hd z (hin z ?_ hz.1.ne'))
      (fun z _ => h0 z)
    rw [abs_lt]; constructor <;> linarith [hz.1, hz.2]
  refine ⟨Ioc (x - ε / 2) (x + ε / 2), Ioc_mem_nhds (by linarith) (by linarith), ?_⟩
  rw [← Ioc_union_Ioc_eq_Ioc (b := x) (by linarith) (by linarith)]
  exact h1.union h2

/-- A density from the derivative of a continuous distribution function. -/
theorem isDensity_of_deriv {f F : ℝ → ℝ} {s : Set ℝ} (hs : s.Finite) (h0 : ∀ x, 0 ≤ f x)
    (hc : Continuous F) (hd : ∀ x, x ∉ s → HasDerivAt F (f x) x) (hbot : Tendsto F atBot (𝓝 0))
    (htop : Tendsto F atTop (𝓝 1)) : IsDensity f F := by
  have hl := locallyIntegrable_of_deriv hs h0 hc hd
  have hloc : ∀ a b : ℝ, IntervalIntegrable f volume a b := fun a b =>
    (hl.integrableOn_isCompact isCompact_uIcc).intervalIntegrable
  have hval : ∀ a b, a ≤ b → ∫ x in a..b, f x = F b - F a := fun a b hab =>
    integral_eq_of_hasDerivAt_off_countable_of_le F f hab hs.countable hc.continuousOn
      (fun x hx => hd x hx.2) (hloc a b)
  have cdf : ∀ y, IntegrableOn f (Iic y) ∧ ∫ x in Iic y, f x = F y := by
    intro y
    have ht : Tendsto (fun a : ℝ => ∫ x in a..y, f x) atBot (𝓝 (F y)) := by
      have := hbot.const_sub (F y)
      rw [sub_zero] at this
      refine this.congr' ?_
      filter_upwards [eventually_le_atBot y] with a ha
      rw [hval a y ha]
    have hi : IntegrableOn f (Iic y) := by
      refine integrableOn_Iic_of_intervalIntegral_norm_tendsto (l := atBot) (a := id) (F y) y
        (fun a => (hloc a y).1) tendsto_id ?_
      refine ht.congr fun b => ?_
      simp only [id, Real.norm_of_nonneg (h0 _)]
    exact ⟨hi, tendsto_nhds_unique (intervalIntegral_tendsto_integral_Iic y hi tendsto_id) ht⟩
  have hr : IntegrableOn f (Ioi 0) ∧ ∫ x in Ioi (0:ℝ), f x = 1 - F 0 := by
    have ht : Tendsto (fun b : ℝ => ∫ x in (0:ℝ)..b, f x) atTop (𝓝 (1 - F 0)) := by
      refine (htop.sub_const (F 0)).congr' ?_
      filter_upwards [eventually_ge_atTop 0] with b hb
      rw [hval 0 b hb]
    have hi : IntegrableOn f (Ioi 0) := by
      refine integrableOn_Ioi_of_intervalIntegral_norm_tendsto (l := atTop) (b := id) (1 - F 0) 0
        (fun b => (hloc 0 b).1) tendsto_id ?_
      refine ht.congr fun b => ?_
      simp only [id, Real.norm_of_nonneg (h0 _)]
    exact ⟨hi, tendsto_nhds_unique (intervalIntegral_tendsto_integral_Ioi 0 hi tendsto_id) ht⟩
  have hint : Integrable f := by
    rw [← integrableOn_univ, ← Iic_union_Ioi (a := (0:ℝ))]
    exact (cdf 0).1.union hr.1
  refine ⟨h0, hint, ?_, fun y => (cdf y).2⟩
  rw [← integral_Iic_add_Ioi (b := (0:ℝ)) (cdf 0).1 hr.1, (cdf 0).2, hr.2]
  ring

/-- Location and scale. -/
theorem isDensity_scale {f F : ℝ → ℝ} (h : IsDensity f F) (μ : ℝ) {σ : ℝ} (hσ : 0 < σ) :
    IsDensity (fun x => f ((x - μ) / σ) / σ) (fun x => F ((x - μ) / σ)) := by
  have hi : Integrable fun x => f ((x - μ) / σ) / σ := ((h.integrable.comp_div hσ.ne').comp_sub_right μ).div_const σ
  have key : ∀ S : Set ℝ, MeasurableSet S → ∫ x in (fun x => (x - μ) / σ) ⁻¹' S, f ((x - μ) / σ) / σ
      = ∫ x in S, f x := by
    intro S hS
    have hm : Measurable fun x : ℝ => (x - μ) / σ := by fun_prop
    rw [← MeasureTheory.integral_indicator (hm hS), ← MeasureTheory.integral_indicator hS]
    have e : ((fun x => (x - μ) / σ) ⁻¹' S).indicator (fun x => f ((x - μ) / σ) / σ)
        = fun x => S.indicator f ((x - μ) / σ) / σ := by
      funext x
      by_cases hx : (x - μ) / σ ∈ S
      · rw [indicator_of_mem hx, indicator_of_mem (show x ∈ _ from hx)]
      · rw [indicator_of_notMem hx, indicator_of_notMem (show x ∉ _ from hx), zero_div]
    rw [e, MeasureTheory.integral_div, integral_sub_right_eq_self (fun x => S.indicator f (x / σ)) μ,
      Measure.integral_comp_div, abs_of_pos hσ, smul_eq_mul, mul_div_cancel_left₀ _ hσ.ne']
  refine ⟨fun x => div_nonneg (h.nonneg _) hσ.le, hi, ?_, fun y => ?_⟩
  · have := key univ MeasurableSet.univ
    rw [preimage_univ, setIntegral_univ, setIntegral_univ, h.total] at this
    exact this
  · have := key (Iic ((y - μ) / σ)) measurableSet_Iic
    rw [h.cdf] at this
    rw [← this]
    congr 2
    ext x
    simp only [mem_Iic, mem_preimage]
    rw [div_le_div_iff_of_pos_right hσ, sub_le_sub_iff_right]

end Verif
