import Verif.Lemmas.Antideriv
import Verif.Spec.Dist
import Mathlib.Analysis.SpecialFunctions.Gaussian.GaussianIntegral
import Mathlib.MeasureTheory.Integral.IntervalIntegral.FundThmCalculus

/-!
# The standard normal distribution
-/

noncomputable section

open scoped Classical Topology
open MeasureTheory Filter Set

namespace Verif

open Spec (φ Φ)

theorem φ_cont : Continuous φ := by unfold φ; fun_prop

theorem φ_pos (x : ℝ) : 0 < φ x := by
  unfold φ
  exact div_pos (Real.exp_pos _) (Real.sqrt_pos.2 (by positivity))

theorem φ_eq : φ = fun x => (Real.sqrt (2 * Real.pi))⁻¹ * Real.exp (-(1 / 2) * x ^ 2) := by
  funext x; unfold φ; rw [div_eq_inv_mul]; congr 2; ring

theorem φ_neg (x : ℝ) : φ (-x) = φ x := by unfold φ; rw [neg_sq]

theorem φ_integrable : Integrable φ := by
  rw [φ_eq]; exact (integrable_exp_neg_mul_sq (by norm_num)).const_mul _

theorem φ_integral : ∫ x, φ x = 1 := by
  rw [φ_eq, integral_const_mul, integral_gaussian]
  rw [show Real.pi / (1 / 2) = 2 * Real.pi by ring]
  exact inv_mul_cancel₀ (Real.sqrt_pos.2 (by positivity)).ne'

theorem φ_deriv (x : ℝ) : HasDerivAt φ (-x * φ x) x := by
  have h : HasDerivAt (fun z : ℝ => -z ^ 2 / 2) (-x) x := by
    have := (((hasDerivAt_id x).pow 2).neg).div_const 2
    refine this.congr_deriv ?_
    simp; ring
  have := h.exp.div_const (Real.sqrt (2 * Real.pi))
  refine this.congr_deriv ?_
  unfold φ; ring

theorem Φ_eq (x : ℝ) : Φ x = Φ 0 + ∫ t in (0:ℝ)..x, φ t := by
  have := intervalIntegral.integral_Iic_sub_Iic (f := φ) (a := 0) (b := x) φ_integrable.integrableOn
    φ_integrable.integrableOn
  unfold Φ; linarith

theorem Φ_deriv (x : ℝ) : HasDerivAt Φ (φ x) x := by
  have h : Φ = fun z => Φ 0 + ∫ t in (0:ℝ)..z, φ t := funext Φ_eq
  rw [h]
  exact (intervalIntegral.integral_hasDerivAt_right (φ_cont.intervalIntegrable _ _)
    φ_cont.stronglyMeasurable.stronglyMeasurableAtFilter φ_cont.continuousAt).const_add _

theorem Φ_cont : Continuous Φ := continuous_iff_continuousAt.2 fun x => (Φ_deriv x).continuousAt

theorem Φ_nonneg (x : ℝ) : 0 ≤ Φ x := integral_nonneg fun t => (φ_pos t).le

theorem Φ_add_neg (x : ℝ) : Φ x + Φ (-x) = 1 := by
  have h1 : Φ (-x) = ∫ t in Ioi x, φ t := by
    unfold Φ
    rw [← integral_comp_neg_Ioi]
    simp only [φ_neg]
  rw [h1]
  unfold Φ
  rw [intervalIntegral.integral_Iic_add_Ioi φ_integrable.integrableOn φ_integrable.integrableOn,
    φ_integral]

theorem Φ_le_one (x : ℝ) : Φ x ≤ 1 := by linarith [Φ_add_neg x, Φ_nonneg (-x)]

theorem Φ_zero : Φ 0 = 1 / 2 := by have := Φ_add_neg 0; rw [neg_zero] at this; linarith

theorem Φ_atBot : Tendsto Φ atBot (𝓝 0) := by
  have h := intervalIntegral_tendsto_integral_Iic (f := φ) (μ := volume) 0 φ_integrable.integrableOn
    tendsto_id
  have h2 : Tendsto (fun x : ℝ => Φ 0 - ∫ t in x..(0:ℝ), φ t) atBot (𝓝 (Φ 0 - Φ 0)) :=
    Tendsto.const_sub _ h
  rw [sub_self] at h2
  refine h2.congr fun x => ?_
  rw [Φ_eq x, intervalIntegral.integral_symm]; ring

theorem Φ_atTop : Tendsto Φ atTop (𝓝 1) := by
  have h : Tendsto (fun x => 1 - Φ (-x)) atTop (𝓝 (1 - 0)) :=
    (Φ_atBot.comp tendsto_neg_atTop_atBot).const_sub 1
  rw [sub_zero] at h
  exact h.congr fun x => by linarith [Φ_add_neg x]

theorem φ_atBot : Tendsto φ atBot (𝓝 0) := by
  have h : Tendsto (fun x : ℝ => -(1 / 2) * x ^ 2) atBot atBot := by
    refine Tendsto.const_mul_atTop_of_neg (by norm_num) ?_
    have := (tendsto_pow_atTop (α := ℝ) two_ne_zero).comp tendsto_neg_atBot_atTop
    refine this.congr fun x => ?_
    simp
  rw [φ_eq]
  simpa using (Real.tendsto_exp_atBot.comp h).const_mul (Real.sqrt (2 * Real.pi))⁻¹

/-- Mills' bound. -/
theorem Φ_tail {x : ℝ} (hx : x < 0) : -x * Φ x ≤ φ x := by
  have hi : IntegrableOn (fun t => -t * φ t) (Iic x) := by
    have := (integrable_mul_exp_neg_mul_sq (b := 1 / 2) (by norm_num)).const_mul
      (-(Real.sqrt (2 * Real.pi))⁻¹)
    refine (this.congr (ae_of_all _ fun t => ?_)).integrableOn
    rw [φ_eq]; ring
  have h1 : ∫ t in Iic x, -t * φ t = φ x := by
    rw [integral_Iic_of_hasDerivAt_of_tendsto φ_cont.continuousWithinAt (fun t _ => φ_deriv t) hi
      φ_atBot, sub_zero]
  have h2 : -x * Φ x = ∫ t in Iic x, -x * φ t := by unfold Φ; rw [integral_const_mul]
  rw [h2, ← h1]
  refine setIntegral_mono_on (φ_integrable.integrableOn.const_mul _) hi measurableSet_Iic
    fun t ht => ?_
  exact mul_le_mul_of_nonneg_right (neg_le_neg ht) (φ_pos t).le

theorem mul_Φ_atBot : Tendsto (fun x => x * Φ x) atBot (𝓝 0) := by
  have h : Tendsto (fun x => -x * Φ x) atBot (𝓝 0) := by
    refine tendsto_of_tendsto_of_tendsto_of_le_of_le' tendsto_const_nhds φ_atBot ?_ ?_
    · filter_upwards [eventually_lt_atBot 0] with x hx
      exact mul_nonneg (by linarith) (Φ_nonneg x)
    · filter_upwards [eventually_lt_atBot 0] with x hx
      exact Φ_tail hx
  simpa using h.neg

/-- Antiderivative of the squared distribution function. -/
def ΦP (x : ℝ) : ℝ := x * Φ x ^ 2 + 2 * φ x * Φ x - (Real.sqrt Real.pi)⁻¹ * Φ (Real.sqrt 2 * x)

theorem φ_sqrt2 (x : ℝ) :
    (Real.sqrt Real.pi)⁻¹ * (φ (Real.sqrt 2 * x) * Real.sqrt 2) = 2 * φ x ^ 2 := by
  have hp : Real.sqrt Real.pi ^ 2 = Real.pi := Real.sq_sqrt Real.pi_pos.le
  have h2 : Real.sqrt 2 ^ 2 = 2 := Real.sq_sqrt (by norm_num)
  have hp0 : 0 < Real.sqrt Real.pi := Real.sqrt_pos.2 Real.pi_pos
  have h20 : (0:ℝ) < Real.sqrt 2 := Real.sqrt_pos.2 (by norm_num)
  have he : Real.exp (-(Real.sqrt 2 * x) ^ 2 / 2) = Real.exp (-x ^ 2 / 2) ^ 2 := by
    rw [← Real.exp_nat_mul, mul_pow, h2]; congr 1; push_cast; ring
  unfold φ
  rw [he, Real.sqrt_mul (by norm_num), div_pow, mul_pow, hp, h2]
  field_simp
  rw [hp]

theorem ΦP_deriv (x : ℝ) : HasDerivAt ΦP (Φ x ^ 2) x := by
  have h1 := (hasDerivAt_id x).mul ((Φ_deriv x).pow 2)
  have h2 := ((φ_deriv x).const_mul 2).mul (Φ_deriv x)
  have h3 : HasDerivAt (fun z => Φ (Real.sqrt 2 * z)) (φ (Real.sqrt 2 * x) * Real.sqrt 2) x :=
    (Φ_deriv (Real.sqrt 2 * x)).comp x (by simpa using (hasDerivAt_id x).const_mul (Real.sqrt 2))
  refine ((h1.add h2).sub (h3.const_mul (Real.sqrt Real.pi)⁻¹)).congr_deriv ?_
  rw [φ_sqrt2]
  simp
  ring

theorem ΦP_atBot : Tendsto ΦP atBot (𝓝 0) := by
  have h1 : Tendsto (fun x => x * Φ x ^ 2) atBot (𝓝 (0 * 0)) :=
    (mul_Φ_atBot.mul Φ_atBot).congr fun x => by ring
  have h2 : Tendsto (fun x => 2 * φ x * Φ x) atBot (𝓝 (2 * 0 * 0)) := (φ_atBot.const_mul 2).mul Φ_atBot
  have h3 : Tendsto (fun x => (Real.sqrt Real.pi)⁻¹ * Φ (Real.sqrt 2 * x)) atBot
      (𝓝 ((Real.sqrt Real.pi)⁻¹ * 0)) :=
    (Φ_atBot.comp (tendsto_id.const_mul_atBot (Real.sqrt_pos.2 (by norm_num)))).const_mul _
  have := (h1.add h2).sub h3
  simp only [mul_zero, add_zero, sub_zero] at this
  exact this

theorem ΦP_cont : Continuous ΦP := continuous_iff_continuousAt.2 fun x => (ΦP_deriv x).continuousAt

theorem crps_Φ (y : ℝ) :
    Integrable (fun z => (Φ z - if y ≤ z then 1 else 0) ^ 2) ∧
    Spec.crps Φ y = y * (2 * Φ y - 1) + 2 * φ y - 1 / Real.sqrt Real.pi := by
  have hQ : ∀ x, HasDerivAt (fun z => -ΦP (-z)) ((1 - Φ x) ^ 2) x := fun x => by
    have := ((ΦP_deriv (-x)).comp x (hasDerivAt_neg x)).neg
    refine this.congr_deriv ?_
    rw [show 1 - Φ x = Φ (-x) by linarith [Φ_add_neg x]]; ring
  have hQt : Tendsto (fun z => -ΦP (-z)) atTop (𝓝 (-0)) :=
    (ΦP_atBot.comp tendsto_neg_atTop_atBot).neg
  have key := crps_of_antideriv (F := Φ) (s := ∅) countable_empty Φ_cont.measurable Φ_nonneg Φ_le_one
    ΦP_cont (fun x _ => ΦP_deriv x)
    (continuous_iff_continuousAt.2 fun x => (hQ x).continuousAt) (fun x _ => hQ x) ΦP_atBot hQt y
  refine ⟨key.1, key.2.trans ?_⟩
  have e1 : Φ (-y) = 1 - Φ y := by linarith [Φ_add_neg y]
  have e2 : Φ (Real.sqrt 2 * -y) = 1 - Φ (Real.sqrt 2 * y) := by
    rw [mul_neg]; linarith [Φ_add_neg (Real.sqrt 2 * y)]
  simp only [ΦP, e1, e2, φ_neg]
  ring

end Verif
