import Verif.Lemmas.DensCrps
import Mathlib.Analysis.SpecialFunctions.Gamma.Basic
import Mathlib.Analysis.SpecialFunctions.Gamma.BohrMollerup
import Mathlib.MeasureTheory.Integral.DominatedConvergence
import Mathlib.MeasureTheory.Measure.Haar.NormedSpace

/-!
# The gamma kernel and its primitive
-/

noncomputable section

open scoped Classical Topology
open MeasureTheory Filter Set

namespace Verif

open Spec

/-- A primitive vanishing at minus infinity is the integral from minus infinity. -/
theorem prim_unique {h P : ℝ → ℝ} {s : Set ℝ} (hs : s.Countable) (hi : Integrable h) (hc : Continuous P)
    (hd : ∀ x, x ∉ s → HasDerivAt P (h x) x) (h0 : Tendsto P atBot (𝓝 0)) (x : ℝ) : prim h x = P x := by
  have key : ∀ a, a ≤ x → prim h a - P a = prim h x - P x := by
    intro a ha
    have e1 := intervalIntegral.integral_Iic_sub_Iic (f := h) (a := a) (b := x) hi.integrableOn hi.integrableOn
    have e2 := integral_eq_of_hasDerivAt_off_countable P h hs hc.continuousOn
      (fun z hz => hd z hz.2) (hi.intervalIntegrable (a := a) (b := x))
    unfold prim; linarith
  have t : Tendsto (fun a => prim h a - P a) atBot (𝓝 (0 - 0)) := (prim_atBot hi).sub h0
  have t2 : Tendsto (fun a => prim h a - P a) atBot (𝓝 (prim h x - P x)) :=
    tendsto_const_nhds.congr' (by filter_upwards [eventually_le_atBot x] with a ha; exact (key a ha).symm)
  have := tendsto_nhds_unique t t2
  linarith

theorem prim_scale (f : ℝ → ℝ) {c : ℝ} (hc : 0 < c) (x : ℝ) :
    prim (fun t => f (c * t)) x = c⁻¹ * prim f (c * x) := by
  unfold prim
  rw [← integral_indicator measurableSet_Iic, ← integral_indicator measurableSet_Iic]
  have := Measure.integral_comp_mul_left (fun t => (Iic (c * x)).indicator f t) c
  rw [abs_of_pos (inv_pos.2 hc), smul_eq_mul] at this
  rw [← this]
  refine integral_congr_ae (ae_of_all _ fun t => ?_)
  simp only [indicator, mem_Iic, mul_le_mul_iff_right₀ hc]

theorem prim_self {f : ℝ → ℝ} {s : Set ℝ} (hs : s.Countable) (h0 : ∀ x, 0 ≤ f x) (hi : Integrable f)
    (hc : ∀ x, x ∉ s → ContinuousAt f x) :
    Integrable (fun x => f x * prim f x) ∧ ∀ x, prim (fun x => f x * prim f x) x = prim f x ^ 2 / 2 := by
  have hiF : Integrable fun x => f x * prim f x := by
    refine Integrable.mono (hi.mul_const (∫ t, f t)) (hi.aestronglyMeasurable.mul
      (prim_cont hi).aestronglyMeasurable) (ae_of_all _ fun x => ?_)
    rw [norm_mul, norm_mul]
    refine mul_le_mul_of_nonneg_left ?_ (norm_nonneg _)
    rw [Real.norm_of_nonneg (prim_nonneg h0 x), Real.norm_of_nonneg (integral_nonneg h0)]
    exact prim_le hi h0 x
  refine ⟨hiF, prim_unique hs hiF (((prim_cont hi).pow 2).div_const 2) (fun x hx => ?_) ?_⟩
  · have := ((prim_deriv hi (hc x hx)).pow 2).div_const 2
    refine this.congr_deriv ?_
    push_cast; ring
  · have := ((prim_atBot hi).pow 2).div_const 2
    simpa using this

/-! ### the kernel -/

/-- The gamma kernel. -/
def gK (a x : ℝ) : ℝ := if 0 < x then x ^ (a - 1) * Real.exp (-x) else 0

theorem gK_nonneg (a x : ℝ) : 0 ≤ gK a x := by
  unfold gK
  split_ifs with h
  · exact mul_nonneg (Real.rpow_nonneg h.le _) (Real.exp_pos _).le
  · exact le_rfl

theorem gK_pos {x : ℝ} (a : ℝ) (h : 0 < x) : gK a x = x ^ (a - 1) * Real.exp (-x) := if_pos h

theorem gK_neg {x : ℝ} (a : ℝ) (h : x ≤ 0) : gK a x = 0 := if_neg (not_lt.2 h)

theorem gK_eq (a : ℝ) : gK a = (Ioi 0).indicator fun x => Real.exp (-x) * x ^ (a - 1) := by
  funext x
  unfold gK indicator
  simp only [mem_Ioi]
  split_ifs
  · ring
  · rfl

theorem gK_integrable {a : ℝ} (ha : 0 < a) : Integrable (gK a) := by
  rw [gK_eq, integrable_indicator_iff measurableSet_Ioi]
  exact Real.GammaIntegral_convergent ha

theorem gK_integral {a : ℝ} (ha : 0 < a) : ∫ x, gK a x = Real.Gamma a := by
  rw [gK_eq, integral_indicator measurableSet_Ioi, Real.Gamma_eq_integral ha]

theorem gK_cont (a : ℝ) (x : ℝ) (hx : x ∉ ({0} : Set ℝ)) : ContinuousAt (gK a) x := by
  rcases lt_or_gt_of_ne (show x ≠ 0 from hx) with h | h
  · refine (continuousAt_const (y := (0:ℝ))).congr ?_
    filter_upwards [gt_mem_nhds h] with z hz
    exact (gK_neg a (le_of_lt hz)).symm
  · have : ContinuousAt (fun z : ℝ => z ^ (a - 1) * Real.exp (-z)) x :=
      (Real.continuousAt_rpow_const x (a - 1) (Or.inl h.ne')).mul (by fun_prop)
    refine this.congr ?_
    filter_upwards [lt_mem_nhds h] with z hz
    exact (gK_pos a hz).symm

theorem gK_succ (a x : ℝ) : x * gK a x = gK (a + 1) x := by
  by_cases h : 0 < x
  · rw [gK_pos _ h, gK_pos _ h, show a + 1 - 1 = (a - 1) + 1 by ring, Real.rpow_add_one h.ne']; ring
  · rw [gK_neg _ (not_lt.1 h), gK_neg _ (not_lt.1 h), mul_zero]

theorem prim_gK_neg {a x : ℝ} (hx : x ≤ 0) : prim (gK a) x = 0 := by
  unfold prim
  rw [setIntegral_congr_fun (g := fun _ => 0) measurableSet_Iic]
  · simp
  · intro t ht
    exact gK_neg a (le_trans ht hx)

theorem prim_gK {a x : ℝ} (ha : 0 < a) (h0 : 0 ≤ x) :
    prim (gK a) x = ∫ t in (0:ℝ)..x, t ^ (a - 1) * Real.exp (-t) := by
  rw [prim_eq (gK_integrable ha), prim_gK_neg le_rfl, zero_add,
    intervalIntegral.integral_of_le h0, intervalIntegral.integral_of_le h0]
  exact setIntegral_congr_fun measurableSet_Ioc fun t ht => gK_pos a ht.1

/-- The boundary term of the recurrence. -/
def gT (a x : ℝ) : ℝ := if 0 < x then x ^ a * Real.exp (-x) else 0

theorem gT_cont {a : ℝ} (ha : 0 < a) : Continuous (gT a) := by
  have : gT a = fun x => (max x 0) ^ a * Real.exp (-(max x 0)) := by
    funext x
    unfold gT
    split_ifs with h
    · rw [max_eq_left h.le]
    · rw [max_eq_right (not_lt.1 h), Real.zero_rpow ha.ne', zero_mul]
  rw [this]
  have h1 : Continuous fun x : ℝ => (max x 0) ^ a :=
    (continuous_id.max continuous_const).rpow_const fun x => Or.inr ha.le
  exact h1.mul (by fun_prop)

theorem gT_deriv {a : ℝ} (x : ℝ) (hx : x ∉ ({0} : Set ℝ)) :
    HasDerivAt (gT a) (a * gK a x - gK (a + 1) x) x := by
  rcases lt_or_gt_of_ne (show x ≠ 0 from hx) with h | h
  · rw [gK_neg _ h.le, gK_neg _ h.le, mul_zero, sub_zero]
    refine (hasDerivAt_const x (0:ℝ)).congr_of_eventuallyEq ?_
    filter_upwards [gt_mem_nhds h] with z hz
    exact if_neg (not_lt.2 (le_of_lt hz))
  · have h1 := (Real.hasDerivAt_rpow_const (x := x) (p := a) (Or.inl h.ne')).mul ((hasDerivAt_neg x).exp)
    rw [gK_pos _ h, gK_pos _ h]
    refine (h1.congr_deriv ?_).congr_of_eventuallyEq ?_
    · rw [add_sub_cancel_right]; ring
    · filter_upwards [lt_mem_nhds h] with z hz
      exact if_pos hz

theorem gT_atBot (a : ℝ) : Tendsto (gT a) atBot (𝓝 0) := by
  refine tendsto_const_nhds.congr' ?_
  filter_upwards [eventually_le_atBot 0] with x hx
  exact (if_neg (not_lt.2 hx)).symm

theorem prim_gK_succ {a : ℝ} (ha : 0 < a) (x : ℝ) :
    prim (gK (a + 1)) x = a * prim (gK a) x - gT a x := by
  refine prim_unique (countable_singleton 0) (gK_integrable (by linarith))
    ((continuous_const.mul (prim_cont (gK_integrable ha))).sub (gT_cont ha)) (fun x hx => ?_) ?_ x
  · refine (((prim_deriv (gK_integrable ha) (gK_cont a x hx)).const_mul a).sub (gT_deriv x hx)).congr_deriv ?_
    ring
  · have h := ((prim_atBot (gK_integrable ha)).const_mul a).sub (gT_atBot a)
    rw [mul_zero, sub_zero] at h
    exact h

theorem gT_mul {a : ℝ} (x : ℝ) : gK (a + 1) x * gT a x = (2:ℝ) ^ (-(2 * a)) * gK (2 * a + 1) (2 * x) := by
  by_cases h : 0 < x
  · have e : gT a x = x ^ a * Real.exp (-x) := if_pos h
    rw [gK_pos _ h, gK_pos _ (by linarith), e, add_sub_cancel_right, add_sub_cancel_right,
      Real.mul_rpow two_pos.le h.le, two_mul a, Real.rpow_add h, Real.rpow_neg two_pos.le,
      two_mul x, neg_add, Real.exp_add]
    have : (2:ℝ) ^ (a + a) ≠ 0 := (Real.rpow_pos_of_pos two_pos _).ne'
    field_simp
  · rw [gK_neg _ (not_lt.1 h), gK_neg _ (by linarith [not_lt.1 h]), mul_zero, zero_mul]

/-- The partial integrals needed for the CRPS. -/
theorem prim_gK_cross {a : ℝ} (ha : 0 < a) :
    Integrable (fun x => gK (a + 1) x * prim (gK a) x) ∧
    ∀ x, prim (fun x => gK (a + 1) x * prim (gK a) x) x
      = (prim (gK (a + 1)) x ^ 2 / 2 + (2:ℝ) ^ (-(2 * a)) / 2 * prim (gK (2 * a + 1)) (2 * x)) / a := by
  have ha1 : 0 < a + 1 := by linarith
  have ha2 : 0 < 2 * a + 1 := by linarith
  obtain ⟨i1, e1⟩ := prim_self (countable_singleton 0) (gK_nonneg (a + 1)) (gK_integrable ha1)
    (gK_cont (a + 1))
  have i2 : Integrable fun x => (2:ℝ) ^ (-(2 * a)) * gK (2 * a + 1) (2 * x) :=
    ((gK_integrable ha2).comp_mul_left' two_ne_zero).const_mul _
  have e : ∀ x, gK (a + 1) x * prim (gK a) x
      = (gK (a + 1) x * prim (gK (a + 1)) x + (2:ℝ) ^ (-(2 * a)) * gK (2 * a + 1) (2 * x)) / a := by
    intro x
    rw [prim_gK_succ ha, ← gT_mul]
    field_simp
    ring
  have i3 : Integrable fun x => gK (a + 1) x * prim (gK a) x := by
    simp only [e]; exact (i1.add i2).div_const a
  refine ⟨i3, fun x => ?_⟩
  have e2 := prim_scale (gK (2 * a + 1)) two_pos x
  rw [← e1]
  unfold prim at *
  rw [setIntegral_congr_fun measurableSet_Iic (fun t _ => e t), integral_div,
    integral_add i1.integrableOn i2.integrableOn, integral_const_mul, e2]
  ring

theorem gK_cross_integral {a : ℝ} (ha : 0 < a) :
    ∫ x, gK (a + 1) x * prim (gK a) x
      = (Real.Gamma (a + 1) ^ 2 / 2 + (2:ℝ) ^ (-(2 * a)) / 2 * Real.Gamma (2 * a + 1)) / a := by
  have ha1 : 0 < a + 1 := by linarith
  have ha2 : 0 < 2 * a + 1 := by linarith
  obtain ⟨i, e⟩ := prim_gK_cross ha
  refine tendsto_nhds_unique (prim_atTop i) ?_
  have e' : prim (fun x => gK (a + 1) x * prim (gK a) x) = fun x => (prim (gK (a + 1)) x ^ 2 / 2
      + (2:ℝ) ^ (-(2 * a)) / 2 * prim (gK (2 * a + 1)) (2 * x)) / a := funext e
  rw [e', ← gK_integral ha1, ← gK_integral ha2]
  exact ((((prim_atTop (gK_integrable ha1)).pow 2).div_const 2).add
    (((prim_atTop (gK_integrable ha2)).comp (tendsto_id.const_mul_atTop two_pos)).const_mul _)).div_const a

end Verif
