import Verif.Lemmas.Prim
import Verif.Lemmas.Antideriv
import Verif.Spec.Dist

/-!
# The CRPS of a distribution with a density
-/

noncomputable section

open scoped Classical Topology
open MeasureTheory Filter Set

namespace Verif

open Spec

theorem prim_nonneg {f : ℝ → ℝ} (h : ∀ x, 0 ≤ f x) (x : ℝ) : 0 ≤ prim f x := integral_nonneg h

theorem prim_le {f : ℝ → ℝ} (hi : Integrable f) (h : ∀ x, 0 ≤ f x) (x : ℝ) : prim f x ≤ ∫ t, f t :=
  setIntegral_le_integral hi (ae_of_all _ h)

theorem prim_compl {f : ℝ → ℝ} (hi : Integrable f) (x : ℝ) :
    ∫ t in Ioi x, f t = (∫ t, f t) - prim f x := by
  have := intervalIntegral.integral_Iic_add_Ioi (b := x) hi.integrableOn hi.integrableOn
  unfold prim; linarith

/-- The CRPS of the distribution with density `f`. -/
theorem crps_dens {f : ℝ → ℝ} {s : Set ℝ} (hs : s.Countable) (h0 : ∀ x, 0 ≤ f x) (hi : Integrable f)
    (h1 : ∫ x, f x = 1) (hi1 : Integrable fun x => x * f x) (hc : ∀ x, x ∉ s → ContinuousAt f x) (y : ℝ) :
    HasCrps (prim f) y ∧ Integrable (fun x => x * f x * prim f x) ∧
    Spec.crps (prim f) y = y * (2 * prim f y - 1) - 2 * prim (fun x => x * f x) y
      + 2 * ((∫ x, x * f x) - ∫ x, x * f x * prim f x) := by
  have hF0 := prim_nonneg h0
  have hF1 : ∀ x, prim f x ≤ 1 := fun x => h1 ▸ prim_le hi h0 x
  have hFc := prim_cont hi
  have hiF : Integrable fun x => x * f x * prim f x := by
    refine Integrable.mono hi1 (hi1.aestronglyMeasurable.mul hFc.aestronglyMeasurable)
      (ae_of_all _ fun x => ?_)
    rw [norm_mul]
    refine mul_le_of_le_one_right (norm_nonneg _) ?_
    rw [Real.norm_of_nonneg (hF0 x)]; exact hF1 x
  have hiF' : Integrable fun x => x * f x * (1 - prim f x) := by
    refine (hi1.sub hiF).congr (ae_of_all _ fun x => ?_)
    simp only [Pi.sub_apply]; ring
  have hi2 : Integrable fun x => |x| * f x := by
    refine hi1.abs.congr (ae_of_all _ fun x => ?_)
    simp only [abs_mul, abs_of_nonneg (h0 x)]
  -- tails
  have tb : Tendsto (fun x => x * prim f x) atBot (𝓝 0) := by
    refine squeeze_zero_norm' ?_ (prim_atBot hi2)
    filter_upwards [eventually_le_atBot 0] with x hx
    rw [norm_mul, Real.norm_of_nonneg (hF0 x), Real.norm_eq_abs]
    unfold prim
    rw [← integral_const_mul]
    refine setIntegral_mono_on (hi.integrableOn.const_mul _) hi2.integrableOn measurableSet_Iic fun t ht => ?_
    refine mul_le_mul_of_nonneg_right ?_ (h0 t)
    have ht : t ≤ x := ht
    rw [abs_of_nonpos hx, abs_of_nonpos (ht.trans hx)]; linarith
  have tt : Tendsto (fun x => x * (1 - prim f x)) atTop (𝓝 0) := by
    have h2 : Tendsto (fun x => (∫ t, |t| * f t) - prim (fun t => |t| * f t) x) atTop (𝓝 0) := by
      simpa using (prim_atTop hi2).const_sub (∫ t, |t| * f t)
    refine squeeze_zero_norm' ?_ h2
    filter_upwards [eventually_ge_atTop 0] with x hx
    rw [← prim_compl hi2, norm_mul, Real.norm_of_nonneg (by linarith [hF1 x] : 0 ≤ 1 - prim f x),
      Real.norm_of_nonneg hx, ← h1, ← prim_compl hi, ← integral_const_mul]
    refine setIntegral_mono_on (hi.integrableOn.const_mul _) hi2.integrableOn measurableSet_Ioi fun t ht => ?_
    refine mul_le_mul_of_nonneg_right ?_ (h0 t)
    exact (le_of_lt ht).trans (le_abs_self t)
  have hP : ∀ x, x ∉ s → HasDerivAt (fun x => x * prim f x ^ 2 - 2 * prim (fun x => x * f x * prim f x) x)
      (prim f x ^ 2) x := by
    intro x hx
    have hF := prim_deriv hi (hc x hx)
    have hG := prim_deriv hiF (x := x) ((continuousAt_id.mul (hc x hx)).mul hFc.continuousAt)
    refine (((hasDerivAt_id x).mul (hF.pow 2)).sub (hG.const_mul 2)).congr_deriv ?_
    simp only [id, Pi.pow_apply]; push_cast; ring
  have hQ : ∀ x, x ∉ s → HasDerivAt
      (fun x => x * (1 - prim f x) ^ 2 + 2 * prim (fun x => x * f x * (1 - prim f x)) x)
      ((1 - prim f x) ^ 2) x := by
    intro x hx
    have hF := (prim_deriv hi (hc x hx)).const_sub 1
    have hG := prim_deriv hiF' (x := x)
      ((continuousAt_id.mul (hc x hx)).mul (continuousAt_const.sub hFc.continuousAt))
    refine (((hasDerivAt_id x).mul (hF.pow 2)).add (hG.const_mul 2)).congr_deriv ?_
    simp only [id, Pi.pow_apply]; push_cast; ring
  have hp : Tendsto (fun x => x * prim f x ^ 2 - 2 * prim (fun x => x * f x * prim f x) x) atBot (𝓝 0) := by
    have := (tb.mul (prim_atBot hi)).sub ((prim_atBot hiF).const_mul 2)
    simp only [mul_zero, sub_zero] at this
    exact this.congr fun x => by ring
  have hq : Tendsto (fun x => x * (1 - prim f x) ^ 2 + 2 * prim (fun x => x * f x * (1 - prim f x)) x) atTop
      (𝓝 (2 * ∫ x, x * f x * (1 - prim f x))) := by
    have := (tt.mul ((prim_atTop hi).const_sub 1)).add ((prim_atTop hiF').const_mul 2)
    rw [zero_mul, zero_add] at this
    exact this.congr fun x => by ring
  have hPc : Continuous fun x => x * prim f x ^ 2 - 2 * prim (fun x => x * f x * prim f x) x :=
    (continuous_id.mul (hFc.pow 2)).sub (continuous_const.mul (prim_cont hiF))
  have hQc : Continuous fun x => x * (1 - prim f x) ^ 2 + 2 * prim (fun x => x * f x * (1 - prim f x)) x :=
    (continuous_id.mul ((continuous_const.sub hFc).pow 2)).add (continuous_const.mul (prim_cont hiF'))
  obtain ⟨a, b⟩ := crps_of_antideriv hs hFc.measurable hF0 hF1 hPc hP hQc hQ hp hq y
  refine ⟨a, hiF, b.trans ?_⟩
  have e1 : ∀ x, prim (fun x => x * f x * (1 - prim f x)) x
      = prim (fun x => x * f x) x - prim (fun x => x * f x * prim f x) x := by
    intro x
    change ∫ t in Iic x, t * f t * (1 - prim f t)
      = (∫ t in Iic x, t * f t) - ∫ t in Iic x, t * f t * prim f t
    rw [← integral_sub hi1.integrableOn hiF.integrableOn]
    refine integral_congr_ae (ae_of_all _ fun x => ?_)
    dsimp only; ring
  have e2 : ∫ x, x * f x * (1 - prim f x) = (∫ x, x * f x) - ∫ x, x * f x * prim f x := by
    rw [← integral_sub hi1 hiF]
    refine integral_congr_ae (ae_of_all _ fun x => ?_)
    dsimp only; ring
  rw [e1, e2]
  ring

end Verif
