import Verif.Lemmas.Parseval
import Verif.Lemmas.DiscreteRec
import Verif.Lemmas.BetaSum
import Mathlib.MeasureTheory.Integral.IntervalIntegral.IntegrationByParts
import Mathlib.Analysis.SpecialFunctions.Gaussian.GaussianIntegral

/-!
# The mean absolute difference of two negative binomial draws as a hypergeometric function
-/

noncomputable section

open scoped Classical ComplexConjugate
open MeasureTheory Complex Set

namespace Verif

open Spec

theorem nb_gen {r p : ℝ} (h0 : 0 < p) (h1 : p ≤ 1) {z : ℂ} (hz : ‖z‖ = 1) :
    HasSum (fun k : ℕ => (pmfNegbinom r p k : ℂ) * z ^ k)
      (((p ^ r : ℝ) : ℂ) * (1 / (1 - ((1 - p : ℝ) : ℂ) * z) ^ (r : ℂ))) := by
  have h1' : 0 ≤ 1 - p := by linarith
  have h := (one_div_one_sub_cpow_hasFPowerSeriesOnBall_zero (r : ℂ)).hasSum (y := ((1 - p : ℝ) : ℂ) * z) (by
    rw [Metric.mem_eball, edist_zero_right, enorm_mul]
    have e1 : ‖z‖ₑ = 1 := by rw [← ofReal_norm, hz]; simp
    have e2 : ‖((1 - p : ℝ) : ℂ)‖ₑ = ENNReal.ofReal (1 - p) := by
      rw [← ofReal_norm, Complex.norm_real, Real.norm_of_nonneg h1']
    rw [e1, e2, mul_one, ENNReal.ofReal_lt_one]
    linarith)
  rw [zero_add] at h
  refine (funext fun k => ?_ : (fun k : ℕ => (pmfNegbinom r p k : ℂ) * z ^ k) = _) ▸
    h.mul_left ((p ^ r : ℝ) : ℂ)
  rw [FormalMultilinearSeries.ofScalars_apply_eq, smul_eq_mul,
    show ((r:ℂ) + k - 1) = ((r + k - 1 : ℝ) : ℂ) by push_cast; ring, ← Complex.ofReal_choose, choose_prod,
    pmfNegbinom, mul_pow]
  push_cast
  ring

/-- `|1 - q e^{iθ}|²`. -/
def nbD (p θ : ℝ) : ℝ := p ^ 2 + 2 * (1 - p) * (1 - Real.cos θ)

theorem nbD_pos {p : ℝ} (h0 : 0 < p) (h1 : p ≤ 1) (θ : ℝ) : 0 < nbD p θ := by
  unfold nbD
  have := Real.cos_le_one θ
  have : 0 ≤ 2 * (1 - p) * (1 - Real.cos θ) := by
    apply mul_nonneg <;> linarith
  positivity

theorem nbD_cont (p : ℝ) : Continuous (nbD p) := by unfold nbD; fun_prop

theorem normSq_u (p θ : ℝ) : normSq (1 - ((1 - p : ℝ) : ℂ) * Complex.exp (θ * I)) = nbD p θ := by
  rw [normSq_apply]
  simp only [sub_re, one_re, mul_re, ofReal_re, exp_ofReal_mul_I_re, ofReal_im, exp_ofReal_mul_I_im, sub_im,
    one_im, mul_im, zero_mul, sub_zero, add_zero, zero_sub]
  unfold nbD
  have := Real.sin_sq_add_cos_sq θ
  linear_combination (1 - p) ^ 2 * this

theorem re_u {p : ℝ} (h0 : 0 < p) (h1 : p ≤ 1) (θ : ℝ) :
    0 < (1 - ((1 - p : ℝ) : ℂ) * Complex.exp (θ * I)).re := by
  simp only [sub_re, one_re, mul_re, ofReal_re, exp_ofReal_mul_I_re, ofReal_im, zero_mul, sub_zero]
  have := Real.cos_le_one θ
  nlinarith

/-- The product of the two generating functions on the circle. -/
theorem nb_integrand {r p : ℝ} (h0 : 0 < p) (h1 : p ≤ 1) (θ : ℝ) :
    (((p ^ (r + 1) : ℝ) : ℂ) * (1 / (1 - ((1 - p : ℝ) : ℂ) * Complex.exp (θ * I)) ^ ((r + 1 : ℝ) : ℂ)))
      * (((p ^ r : ℝ) : ℂ) * (1 / (1 - ((1 - p : ℝ) : ℂ) * Complex.exp (-θ * I)) ^ (r : ℂ)))
    = ((p * (p ^ 2 / nbD p θ) ^ r / nbD p θ : ℝ) : ℂ)
      * conj (1 - ((1 - p : ℝ) : ℂ) * Complex.exp (θ * I)) := by
  set u : ℂ := 1 - ((1 - p : ℝ) : ℂ) * Complex.exp (θ * I) with hu
  have hD := nbD_pos h0 h1 θ
  have hre := re_u h0 h1 θ
  rw [← hu] at hre
  have hu0 : u ≠ 0 := fun h => by rw [h] at hre; simp at hre
  have hconj : 1 - ((1 - p : ℝ) : ℂ) * Complex.exp (-θ * I) = conj u := by
    rw [hu, map_sub, map_one, map_mul, conj_ofReal, ← Complex.exp_conj, map_mul, conj_ofReal, conj_I]
    ring_nf
  have harg : u.arg ≠ Real.pi := by
    intro h
    rw [Complex.arg_eq_pi_iff] at h
    linarith [h.1]
  have hN : normSq u = nbD p θ := normSq_u p θ
  have hcr : (conj u) ^ (r : ℂ) = conj (u ^ (r : ℂ)) := by
    rw [conj_cpow _ _ harg, conj_ofReal]
  have hprod : u ^ (r : ℂ) * conj (u ^ (r : ℂ)) = ((nbD p θ ^ r : ℝ) : ℂ) := by
    rw [mul_conj, normSq_eq_norm_sq, norm_cpow_real, ← hN, normSq_eq_norm_sq, ← Real.rpow_natCast,
      ← Real.rpow_natCast, ← Real.rpow_mul (norm_nonneg u), ← Real.rpow_mul (norm_nonneg u), mul_comm]
  have hur : u ^ (r : ℂ) ≠ 0 := by
    rw [Ne, cpow_eq_zero_iff]; exact fun h => hu0 h.1
  have hcu : conj u ≠ 0 := by rwa [Ne, map_eq_zero]
  have hcur : conj (u ^ (r : ℂ)) ≠ 0 := by rwa [Ne, map_eq_zero]
  have hDr : (0:ℝ) < nbD p θ ^ r := Real.rpow_pos_of_pos hD r
  rw [hconj, hcr, ofReal_add, ofReal_one, cpow_add _ _ hu0, cpow_one]
  have e1 : ((p * (p ^ 2 / nbD p θ) ^ r / nbD p θ : ℝ) : ℂ)
      = ((p ^ (r + 1) * p ^ r : ℝ) : ℂ) / (((nbD p θ ^ r : ℝ) : ℂ) * ((nbD p θ : ℝ) : ℂ)) := by
    rw [← ofReal_mul, ← ofReal_div]
    congr 1
    rw [Real.div_rpow (by positivity) hD.le, Real.rpow_add_one h0.ne', ← Real.rpow_natCast p 2,
      ← Real.rpow_mul h0.le]
    have : p ^ ((2:ℕ) * r) = p ^ r * p ^ r := by rw [← Real.rpow_add h0]; congr 1; push_cast; ring
    rw [this]
    field_simp
  rw [e1, ← hprod, ← hN, ← mul_conj u]
  push_cast
  field_simp

/-- The sum of products of neighbouring masses as a real integral. -/
theorem nb_sum {r p : ℝ} (hr : 0 < r) (h0 : 0 < p) (h1 : p ≤ 1) :
    HasSum (fun k : ℕ => 2 * Real.pi * (pmfNegbinom (r + 1) p k
        * (pmfNegbinom r p k + pmfNegbinom r p (k + 1))))
      (∫ θ in (0:ℝ)..2 * Real.pi, (nbD p θ / p ^ 2) ^ (-(r + 1)) * (1 + Real.cos θ)) := by
  have hP1 := isPmf_negbinom (by linarith : 0 < r + 1) h0 h1
  have hP := isPmf_negbinom hr h0 h1
  set A : ℝ → ℂ := fun θ => ((p ^ (r + 1) : ℝ) : ℂ)
    * (1 / (1 - ((1 - p : ℝ) : ℂ) * Complex.exp (θ * I)) ^ ((r + 1 : ℝ) : ℂ)) with hA
  set B : ℝ → ℂ := fun θ => ((p ^ r : ℝ) : ℂ)
    * (1 / (1 - ((1 - p : ℝ) : ℂ) * Complex.exp (-θ * I)) ^ (r : ℂ)) with hB
  have sA : ∀ θ : ℝ, HasSum (fun k : ℕ => (pmfNegbinom (r + 1) p k : ℂ) * Complex.exp ((k:ℤ) * I * θ)) (A θ) := by
    intro θ
    have h := nb_gen (r := r + 1) h0 h1 (z := Complex.exp (θ * I)) (norm_exp_ofReal_mul_I θ)
    refine (funext fun k => ?_ : (fun k : ℕ => (pmfNegbinom (r + 1) p k : ℂ)
      * Complex.exp ((k:ℤ) * I * θ)) = _) ▸ h
    rw [← Complex.exp_nat_mul]; congr 2; push_cast; ring
  have sB : ∀ θ : ℝ, HasSum (fun k : ℕ => (pmfNegbinom r p k : ℂ)
      * Complex.exp ((-(k:ℤ) : ℤ) * I * θ)) (B θ) := by
    intro θ
    have h := nb_gen (r := r) h0 h1 (z := Complex.exp (-θ * I)) (by
      rw [← ofReal_neg]; exact norm_exp_ofReal_mul_I (-θ))
    refine (funext fun k => ?_ : (fun k : ℕ => (pmfNegbinom r p k : ℂ)
      * Complex.exp ((-(k:ℤ) : ℤ) * I * θ)) = _) ▸ h
    rw [← Complex.exp_nat_mul]; congr 2; push_cast; ring
  have p0 := parseval hP1.total.summable hP.total.summable hP1.nonneg hP.nonneg sA sB 0
  have p1 := parseval hP1.total.summable hP.total.summable hP1.nonneg hP.nonneg sA sB 1
  set K : ℝ → ℂ := fun θ => ((p * (p ^ 2 / nbD p θ) ^ r / nbD p θ : ℝ) : ℂ)
      * conj (1 - ((1 - p : ℝ) : ℂ) * Complex.exp (θ * I)) with hK
  have hAB : ∀ θ, A θ * B θ = K θ := fun θ => nb_integrand h0 h1 θ
  have hDc := nbD_cont p
  have hDn : ∀ θ, nbD p θ ≠ 0 := fun θ => (nbD_pos h0 h1 θ).ne'
  have cK : Continuous K := by
    have c1 : Continuous fun θ => p * (p ^ 2 / nbD p θ) ^ r / nbD p θ := by
      refine Continuous.div ?_ hDc hDn
      refine continuous_const.mul (Continuous.rpow_const (continuous_const.div hDc hDn) fun θ => Or.inl ?_)
      have := hDn θ
      positivity
    have c2 : Continuous fun θ : ℝ => conj (1 - ((1 - p : ℝ) : ℂ) * Complex.exp (θ * I)) :=
      continuous_conj.comp (by fun_prop)
    exact (continuous_ofReal.comp c1).mul c2
  have cE : ∀ m : ℕ, Continuous fun θ : ℝ => K θ * Complex.exp ((m:ℤ) * I * θ) := fun m =>
    cK.mul (by fun_prop)
  simp only [hAB] at p0 p1
  have hs := p0.add p1
  rw [← intervalIntegral.integral_add ((cE 0).intervalIntegrable _ _) ((cE 1).intervalIntegrable _ _)] at hs
  have hre := Complex.hasSum_re hs
  have ic : IntervalIntegrable (fun θ : ℝ => K θ * Complex.exp (((0:ℕ):ℤ) * I * θ)
      + K θ * Complex.exp (((1:ℕ):ℤ) * I * θ)) volume 0 (2 * Real.pi) :=
    ((cE 0).add (cE 1)).intervalIntegrable _ _
  have ecomm := reCLM.intervalIntegral_comp_comm ic
  simp only [reCLM_apply] at ecomm
  rw [← ecomm] at hre
  refine hasSum_of_eq hre (fun k => ?_) ?_
  · rw [add_re, ofReal_re, ofReal_re, add_zero]; ring
  · refine intervalIntegral.integral_congr fun θ _ => ?_
    have hD := nbD_pos h0 h1 θ
    have e : (K θ * Complex.exp (((0:ℕ):ℤ) * I * θ) + K θ * Complex.exp (((1:ℕ):ℤ) * I * θ)).re
        = p * (p ^ 2 / nbD p θ) ^ r / nbD p θ * (p * (1 + Real.cos θ)) := by
      have e0 : Complex.exp (((0:ℕ):ℤ) * I * θ) = 1 := by simp
      have e1 : Complex.exp (((1:ℕ):ℤ) * I * θ) = Complex.exp (θ * I) := by
        congr 1; push_cast; ring
      rw [e0, e1, hK]
      dsimp only
      rw [← mul_add, mul_assoc, re_ofReal_mul]
      congr 1
      simp only [map_sub, map_one, map_mul, conj_ofReal, mul_re, sub_re, one_re, ofReal_re, conj_re,
        exp_ofReal_mul_I_re, ofReal_im, conj_im, exp_ofReal_mul_I_im, add_re, add_im, one_im, sub_im, mul_im]
      have := Real.sin_sq_add_cos_sq θ
      linear_combination (-(1 - p)) * this
    rw [e]
    have e2 : (nbD p θ / p ^ 2) ^ (-(r + 1)) = (p ^ 2 / nbD p θ) ^ r * (p ^ 2 / nbD p θ) := by
      rw [Real.rpow_neg (by positivity), ← Real.inv_rpow (by positivity), inv_div,
        Real.rpow_add_one (by positivity)]
    rw [e2]
    field_simp

/-- Euler's integral after the substitution `t = (1 - cos θ) / 2`. -/
theorem euler_subst {w a : ℝ} (hw : 0 ≤ w) :
    ∫ t in (0:ℝ)..1, t ^ ((1:ℝ) / 2 - 1) * (1 - t) ^ ((2:ℝ) - 1 / 2 - 1) * (1 - -w * t) ^ (-a)
      = ∫ θ in (0:ℝ)..Real.pi, (1 + w * ((1 - Real.cos θ) / 2)) ^ (-a) * ((1 + Real.cos θ) / 2) := by
  set g : ℝ → ℝ := fun t => t ^ ((1:ℝ) / 2 - 1) * (1 - t) ^ ((2:ℝ) - 1 / 2 - 1) * (1 - -w * t) ^ (-a) with hg
  set φ : ℝ → ℝ := fun θ => (1 - Real.cos θ) / 2 with hφ
  have hpi := Real.pi_pos
  have cont2 : Continuous fun θ : ℝ => (1 + w * ((1 - Real.cos θ) / 2)) ^ (-a) * ((1 + Real.cos θ) / 2) := by
    refine Continuous.mul (Continuous.rpow_const (by fun_prop) fun θ => Or.inl ?_) (by fun_prop)
    have : 0 ≤ (1 - Real.cos θ) / 2 := by linarith [Real.cos_le_one θ]
    positivity
  have key : ∀ θ ∈ Ioo 0 Real.pi, (g ∘ φ) θ * (Real.sin θ / 2)
      = (1 + w * ((1 - Real.cos θ) / 2)) ^ (-a) * ((1 + Real.cos θ) / 2) := by
    intro θ hθ
    have hs := Real.sin_pos_of_pos_of_lt_pi hθ.1 hθ.2
    have hsq := Real.sin_sq_add_cos_sq θ
    have hc1 : Real.cos θ < 1 := by nlinarith [Real.cos_le_one θ]
    have hc2 : -1 < Real.cos θ := by nlinarith [Real.neg_one_le_cos θ]
    have hx : 0 < (1 - Real.cos θ) / 2 := by linarith
    have hy : 0 < 1 - (1 - Real.cos θ) / 2 := by linarith
    have e1 : ((1 - Real.cos θ) / 2) ^ ((1:ℝ) / 2 - 1) = Real.sqrt ((1 - Real.cos θ) / 2) / ((1 - Real.cos θ) / 2) := by
      rw [Real.rpow_sub hx, Real.rpow_one, Real.sqrt_eq_rpow]
    have e2 : (1 - (1 - Real.cos θ) / 2) ^ ((2:ℝ) - 1 / 2 - 1) = Real.sqrt (1 - (1 - Real.cos θ) / 2) := by
      rw [Real.sqrt_eq_rpow]; norm_num
    have e3 : Real.sqrt ((1 - Real.cos θ) / 2) * Real.sqrt (1 - (1 - Real.cos θ) / 2) = Real.sin θ / 2 := by
      rw [← Real.sqrt_mul hx.le, Real.sqrt_eq_iff_mul_self_eq (by positivity) (by positivity)]
      linear_combination -hsq / 4
    simp only [Function.comp, hg, hφ]
    rw [e1, e2, show 1 - -w * ((1 - Real.cos θ) / 2) = 1 + w * ((1 - Real.cos θ) / 2) by ring]
    have e4 : Real.sqrt ((1 - Real.cos θ) / 2) / ((1 - Real.cos θ) / 2) * Real.sqrt (1 - (1 - Real.cos θ) / 2)
        * (Real.sin θ / 2) = (1 + Real.cos θ) / 2 := by
      rw [div_mul_eq_mul_div, e3, div_mul_eq_mul_div, div_eq_iff hx.ne']
      linear_combination hsq / 4
    rw [← e4]; ring
  have hsub := intervalIntegral.integral_comp_mul_deriv''' (a := 0) (b := Real.pi) (f := φ)
    (f' := fun θ => Real.sin θ / 2) (g := g) (by rw [hφ]; fun_prop)
    (fun θ _ => by
      have := (((Real.hasDerivAt_cos θ).const_sub 1).div_const 2).hasDerivWithinAt (s := Ioi θ)
      rw [neg_neg] at this
      exact this)
    (by
      rintro t ⟨θ, hθ, rfl⟩
      rw [min_eq_left hpi.le, max_eq_right hpi.le] at hθ
      have hs := Real.sin_pos_of_pos_of_lt_pi hθ.1 hθ.2
      have hsq := Real.sin_sq_add_cos_sq θ
      have hc1 : Real.cos θ < 1 := by nlinarith [Real.cos_le_one θ]
      have hc2 : -1 < Real.cos θ := by nlinarith [Real.neg_one_le_cos θ]
      have hx : 0 < φ θ := by rw [hφ]; dsimp only; linarith
      have hy : 0 < 1 - φ θ := by rw [hφ]; dsimp only; linarith
      refine ContinuousAt.continuousWithinAt ?_
      refine ContinuousAt.mul (ContinuousAt.mul ?_ ?_) ?_
      · exact Real.continuousAt_rpow_const _ _ (Or.inl hx.ne')
      · exact ContinuousAt.rpow_const (by fun_prop) (Or.inl hy.ne')
      · refine ContinuousAt.rpow_const (by fun_prop) (Or.inl ?_)
        have : 0 ≤ w * φ θ := by positivity
        have : 1 - -w * φ θ = 1 + w * φ θ := by ring
        rw [this]; positivity)
    (by
      have him : φ '' uIcc 0 Real.pi ⊆ uIcc 0 1 := by
        rintro t ⟨θ, -, rfl⟩
        rw [uIcc_of_le zero_le_one, hφ]
        exact ⟨by dsimp only; linarith [Real.cos_le_one θ], by dsimp only; linarith [Real.neg_one_le_cos θ]⟩
      refine IntegrableOn.mono_set ?_ him
      rw [uIcc_of_le zero_le_one, ← intervalIntegrable_iff_integrableOn_Icc_of_le zero_le_one]
      have i1 : IntervalIntegrable (fun t : ℝ => t ^ ((1:ℝ) / 2 - 1)) volume 0 1 :=
        intervalIntegral.intervalIntegrable_rpow' (by norm_num)
      have c1 : ContinuousOn (fun t : ℝ => (1 - t) ^ ((2:ℝ) - 1 / 2 - 1) * (1 - -w * t) ^ (-a)) (uIcc 0 1) := by
        rw [uIcc_of_le zero_le_one]
        refine ContinuousOn.mul ?_ ?_
        · exact ContinuousOn.rpow_const (by fun_prop) fun t _ => Or.inr (by norm_num)
        · refine ContinuousOn.rpow_const (by fun_prop) fun t ht => Or.inl ?_
          have : 0 ≤ w * t := mul_nonneg hw ht.1
          have h2 : 1 - -w * t = 1 + w * t := by ring
          rw [h2]; positivity
      have := i1.mul_continuousOn c1
      refine this.congr fun t _ => ?_
      rw [hg]; dsimp only; ring)
    (by
      rw [uIcc_of_le hpi.le, integrableOn_Icc_iff_integrableOn_Ioo]
      have : IntegrableOn (fun θ : ℝ => (1 + w * ((1 - Real.cos θ) / 2)) ^ (-a) * ((1 + Real.cos θ) / 2))
          (Ioo 0 Real.pi) := cont2.integrableOn_Icc.mono_set Ioo_subset_Icc_self
      exact this.congr_fun (fun θ hθ => (key θ hθ).symm) measurableSet_Ioo)
  have f0 : φ 0 = 0 := by simp [hφ]
  have f1 : φ Real.pi = 1 := by simp [hφ]
  rw [f0, f1] at hsub
  rw [← hsub, intervalIntegral.integral_of_le hpi.le, intervalIntegral.integral_of_le hpi.le,
    integral_Ioc_eq_integral_Ioo, integral_Ioc_eq_integral_Ioo]
  exact setIntegral_congr_fun measurableSet_Ioo key

/-- Euler's integral for the arguments used by `crps_negbinom`. -/
def nbH (r p : ℝ) : ℝ := Real.Gamma 2 / (Real.Gamma (1 / 2) * Real.Gamma (2 - 1 / 2))
  * ∫ t in (0:ℝ)..1, t ^ ((1:ℝ) / 2 - 1) * (1 - t) ^ ((2:ℝ) - 1 / 2 - 1)
    * (1 - -4 * (1 - p) / p ^ 2 * t) ^ (-(r + 1))

theorem nbH_eq {r p : ℝ} (h0 : 0 < p) (h1 : p ≤ 1) :
    2 * Real.pi * nbH r p
      = ∫ θ in (0:ℝ)..2 * Real.pi, (nbD p θ / p ^ 2) ^ (-(r + 1)) * (1 + Real.cos θ) := by
  have hpi := Real.pi_pos
  set h : ℝ → ℝ := fun θ => (nbD p θ / p ^ 2) ^ (-(r + 1)) * (1 + Real.cos θ) with hh
  have hD : ∀ θ, 0 < nbD p θ := nbD_pos h0 h1
  have ch : Continuous h := by
    refine Continuous.mul (Continuous.rpow_const ((nbD_cont p).div_const _) fun θ => Or.inl ?_) (by fun_prop)
    have := hD θ
    positivity
  have e1 : ∫ θ in (0:ℝ)..2 * Real.pi, h θ = 2 * ∫ θ in (0:ℝ)..Real.pi, h θ := by
    rw [← intervalIntegral.integral_add_adjacent_intervals (b := Real.pi) (ch.intervalIntegrable _ _)
      (ch.intervalIntegrable _ _)]
    have : ∫ θ in Real.pi..2 * Real.pi, h θ = ∫ θ in (0:ℝ)..Real.pi, h θ := by
      have e := intervalIntegral.integral_comp_sub_left (a := 0) (b := Real.pi) h (2 * Real.pi)
      rw [sub_zero, show 2 * Real.pi - Real.pi = Real.pi by ring] at e
      rw [← e]
      refine intervalIntegral.integral_congr fun θ _ => ?_
      simp only [hh, nbD, Real.cos_two_pi_sub]
    rw [this]; ring
  have e2 : ∫ θ in (0:ℝ)..Real.pi, h θ = 2 * ∫ θ in (0:ℝ)..Real.pi,
      (1 + 4 * (1 - p) / p ^ 2 * ((1 - Real.cos θ) / 2)) ^ (-(r + 1)) * ((1 + Real.cos θ) / 2) := by
    rw [← intervalIntegral.integral_const_mul]
    refine intervalIntegral.integral_congr fun θ _ => ?_
    have : nbD p θ / p ^ 2 = 1 + 4 * (1 - p) / p ^ 2 * ((1 - Real.cos θ) / 2) := by
      unfold nbD; field_simp; ring
    simp only [hh, this]; ring
  have hw : 0 ≤ 4 * (1 - p) / p ^ 2 := by
    have : 0 ≤ 1 - p := by linarith
    positivity
  rw [e1, e2, ← euler_subst hw]
  unfold nbH
  have hG : Real.Gamma (2 - 1 / 2) = Real.sqrt Real.pi / 2 := by
    rw [show (2:ℝ) - 1 / 2 = 1 / 2 + 1 by norm_num, Real.Gamma_add_one (by norm_num), Real.Gamma_one_half_eq]
    ring
  have hs : Real.sqrt Real.pi ^ 2 = Real.pi := Real.sq_sqrt hpi.le
  have hs0 : Real.sqrt Real.pi ≠ 0 := by positivity
  rw [hG, Real.Gamma_one_half_eq, Real.Gamma_two]
  have e3 : ∀ t : ℝ, 1 - -4 * (1 - p) / p ^ 2 * t = 1 - -(4 * (1 - p) / p ^ 2) * t := by intro t; ring
  simp only [e3]
  have e4 : 2 * Real.pi * (1 / (Real.sqrt Real.pi * (Real.sqrt Real.pi / 2))) = 4 := by
    rw [show Real.sqrt Real.pi * (Real.sqrt Real.pi / 2) = Real.sqrt Real.pi ^ 2 / 2 by ring, hs]
    field_simp; norm_num
  rw [← mul_assoc, e4]; ring

theorem pmfNegbinom_succ_size {r p : ℝ} (h0 : 0 < p) (k : ℕ) :
    (r + k) * pmfNegbinom r p k = r / p * pmfNegbinom (r + 1) p k := by
  have e : (r + k) * ∏ i ∈ Finset.range k, (r + i) = r * ∏ i ∈ Finset.range k, (r + 1 + i) := by
    rw [mul_comm, ← Finset.prod_range_succ (fun i : ℕ => r + (i:ℝ)), Finset.prod_range_succ', Nat.cast_zero,
      add_zero, mul_comm]
    congr 1
    refine Finset.prod_congr rfl fun i _ => ?_
    push_cast; ring
  unfold pmfNegbinom
  rw [Real.rpow_add_one h0.ne']
  field_simp
  linear_combination (1 - p) ^ k * e

theorem pmfNegbinom_rec (r p : ℝ) (i : ℕ) :
    ((i:ℝ) + 1) * pmfNegbinom r p (i + 1) = ((1 - p) * r + (1 - p) * i) * pmfNegbinom r p i := by
  unfold pmfNegbinom
  have h1 : (i.factorial : ℝ) ≠ 0 := by exact_mod_cast i.factorial_ne_zero
  rw [Nat.factorial_succ, Finset.prod_range_succ]
  push_cast
  field_simp
  ring

theorem pmfNegbinom_mean {r p : ℝ} (hr : 0 < r) (h0 : 0 < p) (h1 : p ≤ 1) :
    HasSum (fun k : ℕ => (k:ℝ) * pmfNegbinom r p k) (r * (1 - p) / p) := by
  have h := (hasSum_nat_add_iff (f := fun k : ℕ => (k:ℝ) * pmfNegbinom r p k) 1 (g := r * (1 - p) / p)).1
  simp only [Finset.range_one, Finset.sum_singleton, Nat.cast_zero, zero_mul, add_zero] at h
  refine h (hasSum_of_eq ((isPmf_negbinom (by linarith : 0 < r + 1) h0 h1).total.mul_left (r * (1 - p) / p))
    (fun i => ?_) (mul_one _).symm)
  push_cast
  rw [pmfNegbinom_rec, ← mul_add, mul_assoc, pmfNegbinom_succ_size h0]
  ring

/-- Half the mean absolute difference of two draws. -/
theorem nb_pair {r p : ℝ} (hr : 0 < r) (h0 : 0 < p) (h1 : p ≤ 1) :
    (∑' q : ℕ × ℕ, pmfNegbinom r p q.1 * pmfNegbinom r p q.2 * |(q.1:ℝ) - q.2|) / 2
      = r * (1 - p) / p ^ 2 * nbH r p := by
  have hpi := Real.pi_pos
  have h2 := pair_recur (isPmf_negbinom hr h0 h1) (pmfNegbinom_mean hr h0 h1).summable (pmfNegbinom_rec r p)
  have h3 := nb_sum hr h0 h1
  rw [← nbH_eq h0 h1] at h3
  have h4 := hasSum_of_eq (h3.mul_left ((1 - p) * r / p / (2 * Real.pi)))
    (g := fun i : ℕ => ((1 - p) * r + (1 - p) * i) * pmfNegbinom r p i
      * (pmfNegbinom r p i + pmfNegbinom r p (i + 1))) (fun i => by
        rw [← mul_add, mul_assoc (1 - p), pmfNegbinom_succ_size h0]
        field_simp) rfl
  have := h2.unique h4
  rw [sub_sub_cancel] at this
  field_simp at this ⊢
  linarith

/-- The negative binomial distribution function. -/
theorem bF_negbinom {r p : ℝ} (hr : 0 < r) (h0 : 0 < p) (h1 : p ≤ 1) (k : ℕ) :
    bF r ((k:ℝ) + 1) p = ∑ j ∈ Finset.range (k + 1), pmfNegbinom r p j := by
  induction k with
  | zero =>
    rw [Nat.cast_zero, zero_add, bF_one_right hr h0.le h1]
    simp [pmfNegbinom]
  | succ k ih =>
    rw [Finset.sum_range_succ, ← ih, Nat.cast_succ, bF_succ_right hr (by positivity)]
    congr 1
    have hg := (Real.Gamma_pos_of_pos hr).ne'
    have hg2 := (Real.Gamma_pos_of_pos (by positivity : 0 < r + ((k + 1 : ℕ) : ℝ))).ne'
    have hp : (∏ i ∈ Finset.range (k + 1), (r + i)) ≠ 0 :=
      Finset.prod_ne_zero_iff.2 fun i _ => by positivity
    have hf : ((k + 1).factorial : ℝ) ≠ 0 := by exact_mod_cast (k + 1).factorial_ne_zero
    have hf2 : (k.factorial : ℝ) ≠ 0 := by exact_mod_cast k.factorial_ne_zero
    have e : ((k:ℝ) + 1) * betaF r ((k:ℝ) + 1) = (k + 1).factorial / ∏ i ∈ Finset.range (k + 1), (r + i) := by
      rw [show betaF r ((k:ℝ) + 1) = Real.Gamma r * Real.Gamma ((k:ℝ) + 1) / Real.Gamma (r + ((k:ℝ) + 1)) from rfl,
        show r + ((k:ℝ) + 1) = r + ((k + 1 : ℕ) : ℝ) by push_cast; ring, gamma_prod hr,
        Real.Gamma_nat_eq_factorial, Nat.factorial_succ]
      push_cast
      field_simp
    have e2 : bT r ((k:ℝ) + 1) p = p ^ r * (1 - p) ^ (k + 1) := by
      unfold bT
      split_ifs with h
      · rw [show (k:ℝ) + 1 = ((k + 1 : ℕ) : ℝ) by push_cast; ring, Real.rpow_natCast]
      · have : p = 1 := le_antisymm h1 (not_lt.1 fun h2 => h ⟨h0, h2⟩)
        rw [this, sub_self, zero_pow (by omega), mul_zero]
    rw [e, e2]
    unfold pmfNegbinom
    field_simp

end Verif
