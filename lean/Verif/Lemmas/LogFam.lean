import Verif.Lemmas.BetaInt
import Verif.Lemmas.LogCrps

/-!
# CRPS of the log-logistic and log-Laplace distributions
-/

noncomputable section

open scoped Classical Topology
open MeasureTheory Filter Set

namespace Verif

open Spec

theorem cdfLogistic_pos (μ σ t : ℝ) : 0 < cdfLogistic μ σ t := by
  unfold cdfLogistic; positivity

theorem cdfLogistic_lt (μ σ t : ℝ) : cdfLogistic μ σ t < 1 := by
  unfold cdfLogistic
  rw [div_lt_one (by positivity)]
  linarith [Real.exp_pos (-((t - μ) / σ))]

theorem cdfLogistic_deriv (μ σ t : ℝ) :
    HasDerivAt (cdfLogistic μ σ) (cdfLogistic μ σ t * (1 - cdfLogistic μ σ t) / σ) t := by
  have h1 : HasDerivAt (fun t : ℝ => -((t - μ) / σ)) (-(1 / σ)) t :=
    (((hasDerivAt_id t).sub_const μ).div_const σ).neg
  have h2 := ((h1.exp.const_add 1).inv (by positivity)).const_mul 1
  have e : cdfLogistic μ σ = fun t => 1 * (1 + Real.exp (-((t - μ) / σ)))⁻¹ := by
    funext t; unfold cdfLogistic; rw [div_eq_mul_inv]
  rw [e]
  refine h2.congr_deriv ?_
  have := Real.exp_pos (-((t - μ) / σ))
  field_simp
  ring

theorem cdfLogistic_odds (μ σ t : ℝ) :
    cdfLogistic μ σ t ^ σ * (1 - cdfLogistic μ σ t) ^ (-σ) = Real.exp (σ * ((t - μ) / σ)) := by
  have h0 := cdfLogistic_pos μ σ t
  have h1 := cdfLogistic_lt μ σ t
  rw [Real.rpow_neg (by linarith), ← div_eq_mul_inv, ← Real.div_rpow h0.le (by linarith)]
  have e : cdfLogistic μ σ t / (1 - cdfLogistic μ σ t) = Real.exp ((t - μ) / σ) := by
    have : cdfLogistic μ σ t = 1 / (1 + (Real.exp ((t - μ) / σ))⁻¹) := by
      unfold cdfLogistic; rw [Real.exp_neg]
    rw [this]
    have := Real.exp_pos ((t - μ) / σ)
    field_simp
    ring
  rw [e, ← Real.exp_mul, mul_comm]

/-- The CRPS of the log-logistic distribution. -/
theorem crps_loglogistic (μ : ℝ) {σ : ℝ} (hσ : 0 < σ) (hσ1 : σ < 1) (y : ℝ) :
    HasCrps (cdfLog (cdfLogistic μ σ)) y ∧
    Spec.crps (cdfLog (cdfLogistic μ σ)) y
      = if y ≤ 0 then Real.exp μ * (1 - σ) * betaF (1 + σ) (1 - σ) - y
        else y * (2 * cdfLogistic μ σ (Real.log y) - 1)
          - Real.exp μ * (2 * prim (bK (1 + σ) (1 - σ)) (cdfLogistic μ σ (Real.log y))
            + (σ - 1) * betaF (1 + σ) (1 - σ)) := by
  have p1 : 0 < 1 + σ := by linarith
  have p2 : 0 < 1 - σ := by linarith
  have hi := bK_integrable p1 p2
  have hF := cdfLogistic_deriv μ σ
  have hFc : Continuous (cdfLogistic μ σ) := continuous_iff_continuousAt.2 fun t => (hF t).continuousAt
  have hK : ∀ t, HasDerivAt (fun t => prim (bK (1 + σ) (1 - σ)) (cdfLogistic μ σ t))
      (Real.exp (t - μ) * (cdfLogistic μ σ t * (1 - cdfLogistic μ σ t) / σ)) t := by
    intro t
    refine ((prim_deriv hi (bK_cont (cdfLogistic_pos μ σ t).ne' (cdfLogistic_lt μ σ t).ne)).comp t
      (hF t)).congr_deriv ?_
    rw [bK_of_mem (cdfLogistic_pos μ σ t) (cdfLogistic_lt μ σ t), show 1 + σ - 1 = σ by ring,
      show 1 - σ - 1 = -σ by ring, cdfLogistic_odds, mul_div_cancel₀ _ hσ.ne']
  have hA : ∀ t, HasDerivAt (fun t => Real.exp t * cdfLogistic μ σ t
      - Real.exp μ * (1 + σ) * prim (bK (1 + σ) (1 - σ)) (cdfLogistic μ σ t))
      (cdfLogistic μ σ t ^ 2 * Real.exp t) t := by
    intro t
    refine (((Real.hasDerivAt_exp t).mul (hF t)).sub ((hK t).const_mul _)).congr_deriv ?_
    rw [Real.exp_sub]
    have := (Real.exp_pos μ).ne'
    field_simp
    ring
  have hB : ∀ t, HasDerivAt (fun t => Real.exp t * (1 - cdfLogistic μ σ t)
      + Real.exp μ * (1 - σ) * prim (bK (1 + σ) (1 - σ)) (cdfLogistic μ σ t))
      ((1 - cdfLogistic μ σ t) ^ 2 * Real.exp t) t := by
    intro t
    refine (((Real.hasDerivAt_exp t).mul ((hF t).const_sub 1)).add ((hK t).const_mul _)).congr_deriv ?_
    rw [Real.exp_sub]
    have := (Real.exp_pos μ).ne'
    field_simp
    ring
  have hωb : Tendsto (fun t : ℝ => -((t - μ) / σ)) atBot atTop :=
    tendsto_neg_atBot_atTop.comp ((tendsto_atBot_add_const_right _ (-μ) tendsto_id).atBot_div_const hσ)
  have hωt : Tendsto (fun t : ℝ => -((t - μ) / σ)) atTop atBot :=
    tendsto_neg_atTop_atBot.comp ((tendsto_atTop_add_const_right _ (-μ) tendsto_id).atTop_div_const hσ)
  have hFb : Tendsto (cdfLogistic μ σ) atBot (𝓝 0) := by
    have := (tendsto_atTop_add_const_left _ 1 (Real.tendsto_exp_atTop.comp hωb)).inv_tendsto_atTop
    refine this.congr fun t => ?_
    unfold cdfLogistic; simp
  have hFt : Tendsto (cdfLogistic μ σ) atTop (𝓝 1) := by
    have := ((Real.tendsto_exp_atBot.comp hωt).const_add 1).inv₀ (by norm_num)
    rw [show ((1:ℝ) + 0)⁻¹ = 1 by norm_num] at this
    refine this.congr fun t => ?_
    unfold cdfLogistic; simp
  have hKb : Tendsto (fun t => prim (bK (1 + σ) (1 - σ)) (cdfLogistic μ σ t)) atBot (𝓝 0) := by
    have := ((prim_cont hi).tendsto 0).comp hFb
    rwa [prim_bK_neg le_rfl] at this
  have hKt : Tendsto (fun t => prim (bK (1 + σ) (1 - σ)) (cdfLogistic μ σ t)) atTop
      (𝓝 (betaF (1 + σ) (1 - σ))) := by
    have := ((prim_cont hi).tendsto 1).comp hFt
    rwa [prim_bK_one p1 p2 le_rfl] at this
  have ha : Tendsto (fun t => Real.exp t * cdfLogistic μ σ t
      - Real.exp μ * (1 + σ) * prim (bK (1 + σ) (1 - σ)) (cdfLogistic μ σ t)) atBot (𝓝 0) := by
    simpa using (Real.tendsto_exp_atBot.mul hFb).sub (hKb.const_mul (Real.exp μ * (1 + σ)))
  have hb0 : Tendsto (fun t => Real.exp t * (1 - cdfLogistic μ σ t)
      + Real.exp μ * (1 - σ) * prim (bK (1 + σ) (1 - σ)) (cdfLogistic μ σ t)) atBot (𝓝 0) := by
    simpa using (Real.tendsto_exp_atBot.mul (hFb.const_sub 1)).add (hKb.const_mul (Real.exp μ * (1 - σ)))
  have htail : Tendsto (fun t => Real.exp t * (1 - cdfLogistic μ σ t)) atTop (𝓝 0) := by
    have h1 : Tendsto (fun t : ℝ => Real.exp (t - (t - μ) / σ)) atTop (𝓝 0) := by
      refine Real.tendsto_exp_atBot.comp ?_
      have e : ∀ t : ℝ, t - (t - μ) / σ = (1 - 1 / σ) * t + μ / σ := fun t => by field_simp; ring
      simp only [e]
      refine tendsto_atBot_add_const_right _ _ (Tendsto.const_mul_atTop_of_neg ?_ tendsto_id)
      rw [sub_neg, lt_div_iff₀ hσ]; linarith
    refine tendsto_of_tendsto_of_tendsto_of_le_of_le' tendsto_const_nhds h1
      (Eventually.of_forall fun t =>
        mul_nonneg (Real.exp_pos t).le (by linarith [cdfLogistic_lt μ σ t])) (Eventually.of_forall fun t => ?_)
    rw [sub_eq_add_neg t, Real.exp_add]
    refine mul_le_mul_of_nonneg_left ?_ (Real.exp_pos t).le
    unfold cdfLogistic
    have := Real.exp_pos (-((t - μ) / σ))
    rw [sub_le_iff_le_add, ← sub_le_iff_le_add', le_div_iff₀ (by positivity)]
    nlinarith
  have hb : Tendsto (fun t => Real.exp t * (1 - cdfLogistic μ σ t)
      + Real.exp μ * (1 - σ) * prim (bK (1 + σ) (1 - σ)) (cdfLogistic μ σ t)) atTop
      (𝓝 (Real.exp μ * (1 - σ) * betaF (1 + σ) (1 - σ))) := by
    simpa using htail.add (hKt.const_mul (Real.exp μ * (1 - σ)))
  obtain ⟨h1, h2⟩ := crps_log (F := cdfLogistic μ σ) (s := ∅) countable_empty hFc.measurable
    (fun x => (cdfLogistic_pos μ σ x).le) (fun x => (cdfLogistic_lt μ σ x).le)
    (continuous_iff_continuousAt.2 fun x => (hA x).continuousAt) (fun x _ => hA x)
    (continuous_iff_continuousAt.2 fun x => (hB x).continuousAt) (fun x _ => hB x) ha hb0 hb y
  refine ⟨h1, h2.trans ?_⟩
  split_ifs with hy
  · ring
  · rw [Real.exp_log (not_le.1 hy)]
    ring

/-! ### Log-Laplace -/

theorem exp_lin_deriv (k μ t : ℝ) {σ : ℝ} :
    HasDerivAt (fun t : ℝ => Real.exp (k * ((t - μ) / σ))) (Real.exp (k * ((t - μ) / σ)) * (k / σ)) t := by
  have h : HasDerivAt (fun t : ℝ => k * ((t - μ) / σ)) (k * (1 / σ)) t :=
    (((hasDerivAt_id t).sub_const μ).div_const σ).const_mul k
  exact h.exp.congr_deriv (by ring)

theorem piece_deriv {f g f' g' : ℝ → ℝ} {c t : ℝ} (hf : ∀ t, HasDerivAt f (f' t) t)
    (hg : ∀ t, HasDerivAt g (g' t) t) (h : t ≠ c) :
    HasDerivAt (fun t => if t < c then f t else g t) (if t < c then f' t else g' t) t := by
  rcases lt_or_gt_of_ne h with h | h
  · rw [if_pos h]
    refine (hf t).congr_of_eventuallyEq ?_
    filter_upwards [gt_mem_nhds h] with z hz
    rw [if_pos hz]
  · rw [if_neg (not_lt.2 h.le)]
    refine (hg t).congr_of_eventuallyEq ?_
    filter_upwards [lt_mem_nhds h] with z hz
    rw [if_neg (not_lt.2 (le_of_lt hz))]

theorem piece_cont {f g : ℝ → ℝ} {c : ℝ} (hf : Continuous f) (hg : Continuous g) (h : f c = g c) :
    Continuous fun t => if t < c then f t else g t := by
  have := Continuous.if_le (f := fun _ : ℝ => c) (g := fun t : ℝ => t) (f' := g) (g' := f) hg hf
    continuous_const continuous_id (fun x hx => by rw [← hx, h])
  refine this.congr fun t => ?_
  by_cases ht : t < c
  · rw [if_pos ht, if_neg (not_le.2 ht)]
  · rw [if_neg ht, if_pos (not_lt.1 ht)]

/-- The CRPS of the log-Laplace distribution. -/
theorem crps_loglaplace (μ : ℝ) {σ : ℝ} (hσ : 0 < σ) (hσ1 : σ < 1) (y : ℝ) :
    HasCrps (cdfLog (cdfLaplace μ σ)) y ∧
    Spec.crps (cdfLog (cdfLaplace μ σ)) y
      = if y ≤ 0 then Real.exp μ * (1 / (1 + σ) + σ / (4 - σ ^ 2)) - y
        else
          let x := (Real.log y - μ) / σ
          if y < Real.exp μ then
            y * (Real.exp x - 1)
              + Real.exp μ * (1 / (1 + σ) * (1 - Real.exp ((1 + σ) * x)) + σ / (4 - σ ^ 2))
          else y * (1 - Real.exp (-x))
              + Real.exp μ * (-1 / (1 - σ) * (1 - Real.exp ((σ - 1) * x)) + σ / (4 - σ ^ 2)) := by
  have q1 : (1 + σ) ≠ 0 := by positivity
  have q2 : (1 - σ) ≠ 0 := by linarith
  have q2' : (σ - 1) ≠ 0 := by linarith
  have q3 : (2 + σ) ≠ 0 := by positivity
  have q4 : (σ - 2) ≠ 0 := by linarith
  have q5 : (4 - σ ^ 2) ≠ 0 := by nlinarith
  set E : ℝ → ℝ → ℝ := fun k t => Real.exp (k * ((t - μ) / σ)) with hE
  have hEd : ∀ k t, HasDerivAt (E k) (E k t * (k / σ)) t := fun k t => exp_lin_deriv k μ t
  have hEc : ∀ k, Continuous (E k) := fun k => continuous_iff_continuousAt.2 fun t => (hEd k t).continuousAt
  have hEμ : ∀ k, E k μ = 1 := fun k => by simp [hE]
  have hEb : ∀ k, 0 < k → Tendsto (E k) atBot (𝓝 0) := fun k hk =>
    Real.tendsto_exp_atBot.comp (Tendsto.const_mul_atBot hk
      ((tendsto_atBot_add_const_right _ (-μ) tendsto_id).atBot_div_const hσ))
  have hEt : ∀ k, k < 0 → Tendsto (E k) atTop (𝓝 0) := fun k hk =>
    Real.tendsto_exp_atBot.comp (Tendsto.const_mul_atTop_of_neg hk
      ((tendsto_atTop_add_const_right _ (-μ) tendsto_id).atTop_div_const hσ))
  have hexp : ∀ t, Real.exp t = Real.exp μ * E σ t := fun t => by
    simp only [hE]; rw [← Real.exp_add, mul_div_cancel₀ _ hσ.ne']; congr 1; ring
  have hmul : ∀ j k t, E j t * E k t = E (j + k) t := fun j k t => by
    simp only [hE]; rw [← Real.exp_add]; congr 1; ring
  have hF : ∀ t, cdfLaplace μ σ t = if t < μ then E 1 t / 2 else 1 - E (-1) t / 2 := fun t => by
    simp only [hE, cdfLaplace, one_mul, neg_one_mul]
  -- the antiderivatives
  set A1 : ℝ → ℝ := fun t => Real.exp μ * (σ / (4 * (2 + σ)) * E (2 + σ) t) with hA1
  set cA : ℝ := σ / (4 * (2 + σ)) - (1 - σ / (σ - 1) + σ / (4 * (σ - 2))) with hcA
  set A2 : ℝ → ℝ := fun t => Real.exp μ * (E σ t - σ / (σ - 1) * E (σ - 1) t
    + σ / (4 * (σ - 2)) * E (σ - 2) t + cA) with hA2
  set B1 : ℝ → ℝ := fun t => Real.exp μ * (E σ t - σ / (1 + σ) * E (1 + σ) t
    + σ / (4 * (2 + σ)) * E (2 + σ) t) with hB1
  set cB : ℝ := 1 / (1 + σ) + σ / (4 - σ ^ 2) with hcB
  set B2 : ℝ → ℝ := fun t => Real.exp μ * (σ / (4 * (σ - 2)) * E (σ - 2) t + cB) with hB2
  have dA1 : ∀ t, HasDerivAt A1 ((E 1 t / 2) ^ 2 * Real.exp t) t := fun t => by
    refine (((hEd (2 + σ) t).const_mul _).const_mul _).congr_deriv ?_
    rw [hexp t, show E (2 + σ) t = E 1 t * E 1 t * E σ t by rw [hmul, hmul]; norm_num]
    field_simp
    ring
  have dA2 : ∀ t, HasDerivAt A2 ((1 - E (-1) t / 2) ^ 2 * Real.exp t) t := fun t => by
    refine ((((((hEd σ t).sub ((hEd (σ - 1) t).const_mul _)).add ((hEd (σ - 2) t).const_mul _)).add_const
      cA)).const_mul _).congr_deriv ?_
    rw [hexp t, show E (σ - 2) t = E (-1) t * E (-1) t * E σ t by rw [hmul, hmul]; congr 1; ring,
      show E (σ - 1) t = E (-1) t * E σ t by rw [hmul]; congr 1; ring]
    field_simp
    ring
  have dB1 : ∀ t, HasDerivAt B1 ((1 - E 1 t / 2) ^ 2 * Real.exp t) t := fun t => by
    refine ((((hEd σ t).sub ((hEd (1 + σ) t).const_mul _)).add
      ((hEd (2 + σ) t).const_mul _)).const_mul _).congr_deriv ?_
    rw [hexp t, show E (2 + σ) t = E 1 t * E 1 t * E σ t by rw [hmul, hmul]; norm_num,
      show E (1 + σ) t = E 1 t * E σ t by rw [hmul]]
    field_simp
    ring
  have dB2 : ∀ t, HasDerivAt B2 ((1 - (1 - E (-1) t / 2)) ^ 2 * Real.exp t) t := fun t => by
    refine ((((hEd (σ - 2) t).const_mul _).add_const cB).const_mul _).congr_deriv ?_
    rw [hexp t, show E (σ - 2) t = E (-1) t * E (-1) t * E σ t by rw [hmul, hmul]; congr 1; ring]
    field_simp
    ring
  have hA : ∀ t, t ∉ ({μ} : Set ℝ) → HasDerivAt (fun t => if t < μ then A1 t else A2 t)
      (cdfLaplace μ σ t ^ 2 * Real.exp t) t := fun t ht => by
    refine (piece_deriv dA1 dA2 (by simpa using ht)).congr_deriv ?_
    rw [hF]; split_ifs <;> rfl
  have hB : ∀ t, t ∉ ({μ} : Set ℝ) → HasDerivAt (fun t => if t < μ then B1 t else B2 t)
      ((1 - cdfLaplace μ σ t) ^ 2 * Real.exp t) t := fun t ht => by
    refine (piece_deriv dB1 dB2 (by simpa using ht)).congr_deriv ?_
    rw [hF]; split_ifs <;> rfl
  have hcc : σ / (4 * (σ - 2)) + cB = 1 - σ / (1 + σ) + σ / (4 * (2 + σ)) := by
    rw [hcB, show 4 - σ ^ 2 = -((σ - 2) * (2 + σ)) by ring]
    field_simp
    ring
  have cA' : Continuous fun t => if t < μ then A1 t else A2 t := by
    refine piece_cont (continuous_iff_continuousAt.2 fun t => (dA1 t).continuousAt)
      (continuous_iff_continuousAt.2 fun t => (dA2 t).continuousAt) ?_
    simp only [hA1, hA2, hEμ, hcA]; ring
  have cB' : Continuous fun t => if t < μ then B1 t else B2 t := by
    refine piece_cont (continuous_iff_continuousAt.2 fun t => (dB1 t).continuousAt)
      (continuous_iff_continuousAt.2 fun t => (dB2 t).continuousAt) ?_
    simp only [hB1, hB2, hEμ, mul_one, hcc]
  have ha : Tendsto (fun t => if t < μ then A1 t else A2 t) atBot (𝓝 0) := by
    have : Tendsto A1 atBot (𝓝 0) := by
      simpa using ((hEb (2 + σ) (by positivity)).const_mul (σ / (4 * (2 + σ)))).const_mul (Real.exp μ)
    refine this.congr' ?_
    filter_upwards [eventually_lt_atBot μ] with t ht
    rw [if_pos ht]
  have hb0 : Tendsto (fun t => if t < μ then B1 t else B2 t) atBot (𝓝 0) := by
    have : Tendsto B1 atBot (𝓝 0) := by
      simpa using ((((hEb σ hσ).sub ((hEb (1 + σ) (by positivity)).const_mul (σ / (1 + σ)))).add
        ((hEb (2 + σ) (by positivity)).const_mul (σ / (4 * (2 + σ)))))).const_mul (Real.exp μ)
    refine this.congr' ?_
    filter_upwards [eventually_lt_atBot μ] with t ht
    rw [if_pos ht]
  have hb : Tendsto (fun t => if t < μ then B1 t else B2 t) atTop (𝓝 (Real.exp μ * cB)) := by
    have : Tendsto B2 atTop (𝓝 (Real.exp μ * cB)) := by
      simpa using (((hEt (σ - 2) (by linarith)).const_mul (σ / (4 * (σ - 2)))).add_const cB).const_mul
        (Real.exp μ)
    refine this.congr' ?_
    filter_upwards [eventually_ge_atTop μ] with t ht
    rw [if_neg (not_lt.2 ht)]
  have hm : Measurable (cdfLaplace μ σ) := by
    have : cdfLaplace μ σ = fun t => if t < μ then E 1 t / 2 else 1 - E (-1) t / 2 := funext hF
    rw [this]
    exact Measurable.ite measurableSet_Iio ((hEc 1).div_const 2).measurable
      (continuous_const.sub ((hEc (-1)).div_const 2)).measurable
  have hpos : ∀ k t, 0 < E k t := fun k t => Real.exp_pos _
  have hE1 : ∀ t, t < μ → E 1 t ≤ 1 := fun t ht => by
    simp only [hE]; rw [Real.exp_le_one_iff, one_mul]
    exact div_nonpos_of_nonpos_of_nonneg (by linarith) hσ.le
  have hE2 : ∀ t, ¬ t < μ → E (-1) t ≤ 1 := fun t ht => by
    simp only [hE]; rw [Real.exp_le_one_iff]
    have : 0 ≤ (t - μ) / σ := div_nonneg (by linarith) hσ.le
    linarith
  obtain ⟨h1, h2⟩ := crps_log (F := cdfLaplace μ σ) (countable_singleton μ) hm
    (fun t => by
      rw [hF]; split_ifs with ht
      · exact (div_pos (hpos 1 t) two_pos).le
      · linarith [hE2 t ht])
    (fun t => by
      rw [hF]; split_ifs with ht
      · linarith [hE1 t ht]
      · linarith [hpos (-1) t])
    cA' hA cB' hB ha hb0 hb y
  refine ⟨h1, h2.trans ?_⟩
  by_cases hy : y ≤ 0
  · rw [if_pos hy, if_pos hy, hcB]; ring
  · rw [if_neg hy, if_neg hy]
    have hy := not_le.1 hy
    have hl : Real.log y < μ ↔ y < Real.exp μ := Real.log_lt_iff_lt_exp hy
    have hy' : y = Real.exp μ * E σ (Real.log y) := by rw [← hexp, Real.exp_log hy]
    have e1 : Real.exp ((Real.log y - μ) / σ) = E 1 (Real.log y) := by simp only [hE, one_mul]
    have e2 : Real.exp (-((Real.log y - μ) / σ)) = E (-1) (Real.log y) := by simp only [hE, neg_one_mul]
    have e3 : ∀ k, Real.exp (k * ((Real.log y - μ) / σ)) = E k (Real.log y) := fun k => rfl
    dsimp only
    rw [e1, e2, e3, e3]
    simp only [hl, hA1, hA2, hB1, hB2]
    generalize Real.log y = t at hy' ⊢
    rw [show E (1 + σ) t = E 1 t * E σ t by rw [hmul],
      show E (σ - 1) t = E (-1) t * E σ t by rw [hmul]; congr 1; ring]
    split_ifs with hc
    · rw [hy', hcB]
      field_simp
      ring
    · rw [hy', hcB, hcA, show 4 - σ ^ 2 = -((σ - 2) * (2 + σ)) by ring,
        show 1 - σ = -(σ - 1) by ring]
      field_simp
      ring

end Verif
