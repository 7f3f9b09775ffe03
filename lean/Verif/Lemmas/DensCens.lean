import Verif.Lemmas.DensCrps
import Verif.Spec.Gtc

/-!
# CRPS of a distribution with a density, censored from below
-/

noncomputable section

open scoped Classical Topology
open MeasureTheory Filter Set

namespace Verif

open Spec

variable {f : ℝ → ℝ} {s : Set ℝ}

/-- The integral of the squared distribution function up to `l`. -/
theorem dens_sq_Iic (hs : s.Countable) (h0 : ∀ x, 0 ≤ f x) (hi : Integrable f)
    (h1 : ∫ x, f x = 1) (hi1 : Integrable fun x => x * f x) (hc : ∀ x, x ∉ s → ContinuousAt f x) (l : ℝ) :
    IntegrableOn (fun x => prim f x ^ 2) (Iic l) ∧
    ∫ x in Iic l, prim f x ^ 2 = l * prim f l ^ 2 - 2 * prim (fun x => x * f x * prim f x) l := by
  have hF0 := prim_nonneg h0
  have hF1 : ∀ x, prim f x ≤ 1 := fun x => h1 ▸ prim_le hi h0 x
  have hFc := prim_cont hi
  have hiF := (crps_dens hs h0 hi h1 hi1 hc 0).2.1
  have hi2 : Integrable fun x => |x| * f x := by
    refine hi1.abs.congr (ae_of_all _ fun x => ?_)
    simp only [abs_mul, abs_of_nonneg (h0 x)]
  have tb : Tendsto (fun x => x * prim f x) atBot (𝓝 0) := by
    refine squeeze_zero_norm' ?_ (prim_atBot hi2)
    filter_upwards [eventually_le_atBot 0] with x hx
    rw [norm_mul, Real.norm_of_nonneg (hF0 x), Real.norm_eq_abs]
    unfold prim
    rw [← integral_const_mul]
    refine setIntegral_mono_on (hi.integrableOn.const_mul _) hi2.integrableOn measurableSet_Iic fun t ht => ?_
    refine mul_le_mul_of_nonneg_right ?_ (h0 t)
    have ht : t ≤ x := ht
    rw [abs_of_nonpos hx, abs_of_nonpos (ht.trans hx)]; linarith
  have hP : ∀ x, x ∉ s → HasDerivAt (fun x => x * prim f x ^ 2 - 2 * prim (fun x => x * f x * prim f x) x)
      (prim f x ^ 2) x := by
    intro x hx
    have hF := prim_deriv hi (hc x hx)
    have hG := prim_deriv hiF (x := x) ((continuousAt_id.mul (hc x hx)).mul hFc.continuousAt)
    refine (((hasDerivAt_id x).mul (hF.pow 2)).sub (hG.const_mul 2)).congr_deriv ?_
    simp only [id, Pi.pow_apply]; push_cast; ring
  have hp : Tendsto (fun x => x * prim f x ^ 2 - 2 * prim (fun x => x * f x * prim f x) x) atBot (𝓝 0) := by
    have := (tb.mul (prim_atBot hi)).sub ((prim_atBot hiF).const_mul 2)
    simp only [mul_zero, sub_zero] at this
    exact this.congr fun x => by ring
  have hPc : Continuous fun x => x * prim f x ^ 2 - 2 * prim (fun x => x * f x * prim f x) x :=
    (continuous_id.mul (hFc.pow 2)).sub (continuous_const.mul (prim_cont hiF))
  have := ftc_Iic (y := l) (C := 1) hs (hFc.measurable.pow_const 2) (fun x => sq_nonneg _)
    (fun x => pow_le_one₀ (hF0 x) (hF1 x)) hPc.continuousOn (fun x _ hx => hP x hx) hp
  rw [sub_zero] at this
  exact this

/-- Censoring from below: observations in the range. -/
theorem crps_censLo_ge {F : ℝ → ℝ} {l y : ℝ} (h : HasCrps F y) (hly : l ≤ y) :
    HasCrps (cdfCensLo F l) y ∧ Spec.crps (cdfCensLo F l) y = Spec.crps F y - ∫ x in Iic l, F x ^ 2 := by
  have e : (fun z => (cdfCensLo F l z - if y ≤ z then 1 else 0) ^ 2)
      = (Ici l).indicator fun z => (F z - if y ≤ z then 1 else 0) ^ 2 := by
    funext z
    unfold cdfCensLo indicator
    simp only [mem_Ici]
    by_cases hz : z < l
    · rw [if_pos hz, if_neg (not_le.2 hz), if_neg (by linarith)]; ring
    · rw [if_neg hz, if_pos (not_lt.1 hz)]
  refine ⟨?_, ?_⟩
  · unfold HasCrps; rw [e]
    exact Integrable.indicator h measurableSet_Ici
  · unfold Spec.crps
    rw [e, integral_indicator measurableSet_Ici, integral_Ici_eq_integral_Ioi]
    have h2 := intervalIntegral.integral_Iic_add_Ioi (b := l) (Integrable.integrableOn h) (Integrable.integrableOn h)
    have h3 : ∫ z in Iic l, (F z - if y ≤ z then 1 else 0) ^ 2 = ∫ x in Iic l, F x ^ 2 := by
      rw [integral_Iic_eq_integral_Iio, integral_Iic_eq_integral_Iio]
      refine setIntegral_congr_fun measurableSet_Iio fun z hz => ?_
      have : ¬ y ≤ z := not_le.2 (lt_of_lt_of_le hz hly)
      simp only [if_neg this, sub_zero]
    linarith

/-- Censoring from below: observations under the range. -/
theorem crps_censLo_lt {F : ℝ → ℝ} {l y : ℝ} (h : HasCrps (cdfCensLo F l) l) (hly : y ≤ l) :
    HasCrps (cdfCensLo F l) y ∧ Spec.crps (cdfCensLo F l) y = (l - y) + Spec.crps (cdfCensLo F l) l := by
  have e : (fun z => (cdfCensLo F l z - if y ≤ z then 1 else 0) ^ 2)
      = fun z => (Ico y l).indicator (fun _ => (1:ℝ)) z
        + (cdfCensLo F l z - if l ≤ z then 1 else 0) ^ 2 := by
    funext z
    unfold cdfCensLo indicator
    simp only [mem_Ico]
    by_cases hz : z < l
    · simp only [if_pos hz, if_neg (not_le.2 hz), hz, and_true]
      split_ifs <;> norm_num
    · have h1 : ¬ (y ≤ z ∧ z < l) := fun h => hz h.2
      simp only [if_neg hz, if_neg h1, if_pos (not_lt.1 hz), if_pos (hly.trans (not_lt.1 hz)), zero_add]
  have i1 : Integrable ((Ico y l).indicator fun _ => (1:ℝ)) := by
    rw [integrable_indicator_iff measurableSet_Ico]
    exact integrableOn_const (by simp)
  refine ⟨?_, ?_⟩
  · unfold HasCrps; rw [e]
    exact i1.add h
  · unfold Spec.crps
    rw [e, integral_add i1 h, integral_indicator measurableSet_Ico]
    simp [hly]

end Verif
