import Verif.Lemmas.GtcFin
import Verif.Props.Closed
import Verif.Props.Logs

/-!
# C52: nested families coincide; C59: alternative parameters
-/

noncomputable section

open scoped Classical

namespace Verif

open XF Spec

/-- `crps_2pexponential` with equal scales is `crps_laplace`. -/
theorem C52_2pexponential_laplace {σ : ℝ} (hσ : 0 < σ) (μ y : ℝ) :
    Closed.twopexponential (fin y) (fin σ) (fin σ) (fin μ) = Closed.laplace (fin y) (fin μ) (fin σ) := by
  rw [(C47_2pexponential hσ hσ μ y).2, (C46_laplace hσ μ y).2]
  congr 2
  funext z
  unfold cdf2pexp cdfLaplace
  have : σ / (σ + σ) = 1 / 2 := by field_simp; norm_num
  simp only [this]
  split_ifs <;> ring

example : (0 : ℝ) < 2 := by norm_num

/-- `crps_exponentialM` without a point mass, at location zero, is `crps_exponential`. -/
theorem C52_exponentialM_exponential {r : ℝ} (hr : 0 < r) (y : ℝ) :
    Closed.exponentialM (fin y) 0 0 (1 / fin r) = Closed.exponential (fin y) (fin r) := by
  rw [XF.one_def, fin_div hr.ne', XF.zero_def,
    (C45_exponentialM (by positivity) le_rfl zero_le_one y).2, (C44_exponential hr y).2]
  congr 2
  funext z
  unfold cdfExpM cdfExp
  have : (z - 0) / (1 / r) = r * z := by field_simp; ring
  simp only [this]
  split_ifs <;> ring

example : (0 : ℝ) < 3 := by norm_num

/-- `crps_gpd` with zero shape, location zero and no point mass is `crps_exponential`. -/
theorem C52_gpd_exponential {r : ℝ} (hr : 0 < r) (y : ℝ) :
    Closed.gpd (fin y) 0 0 (1 / fin r) 0 = Closed.exponential (fin y) (fin r) := by
  rw [XF.one_def, fin_div hr.ne', XF.zero_def,
    (C49_gpd (by positivity) zero_lt_one le_rfl zero_le_one 0 y).2, (C44_exponential hr y).2]
  congr 2
  funext z
  unfold cdfGpd cdfGpd0 cdfExp
  have : (z - 0) / (1 / r) = r * z := by field_simp; ring
  have h : r * z < 0 ↔ z < 0 := by
    constructor
    · intro h; by_contra h2; exact absurd (mul_nonneg hr.le (not_lt.1 h2)) (not_le.2 h)
    · intro h; exact mul_neg_of_pos_of_neg hr h
  simp only [this, h, if_true]
  split_ifs <;> simp

example : (0 : ℝ) < 3 := by norm_num

/-- `crps_gtcnormal`, `crps_tnormal` and `crps_cnormal` without bounds are `crps_normal`. -/
theorem C52_gtcnormal_normal {σ : ℝ} (hσ : 0 < σ) (μ y : ℝ) :
    Closed.gtcnormal (fin y) (fin μ) (fin σ) ninf pinf 0 0 = Closed.normal (fin y) (fin μ) (fin σ) ∧
    Closed.tnormal (fin y) (fin μ) (fin σ) ninf pinf = Closed.normal (fin y) (fin μ) (fin σ) ∧
    Closed.cnormal (fin y) (fin μ) (fin σ) ninf pinf = Closed.normal (fin y) (fin μ) (fin σ) := by
  have h : Closed.gtcnormal (fin y) (fin μ) (fin σ) ninf pinf 0 0
      = Closed.normal (fin y) (fin μ) (fin σ) := by
    rw [XF.zero_def, gtcnormal_none hσ]
    unfold Closed.normal
    simp only [fin_sub, fin_div hσ.ne', normCdf_fin, normPdf_fin, XF.one_def, XF.ofNat_def, fin_mul, fin_add,
      sqrt_pi_fin, fin_div (Real.sqrt_pos.2 Real.pi_pos).ne']
  refine ⟨h, h, ?_⟩
  unfold Closed.cnormal
  simp only [pinf_sub_fin, ninf_sub_fin, pinf_div_pos hσ, ninf_div_pos hσ, normCdf_pinf, normCdf_ninf,
    XF.one_def, fin_sub, sub_self]
  exact h

example : (0 : ℝ) < 2 := by norm_num

theorem logis_neg (x : ℝ) : logis (-x) = logis x * Real.exp (-x) := by
  unfold logis
  have h := Real.exp_pos x
  have h1 : (1 + Real.exp x) ≠ 0 := by positivity
  rw [neg_neg, Real.exp_neg]
  field_simp
  ring

/-- `crps_gtclogistic` without bounds, which also is `crps_tlogistic`, is `crps_logistic`. -/
theorem C52_gtclogistic_logistic {σ : ℝ} (hσ : 0 < σ) (μ y : ℝ) :
    Closed.gtclogistic (fin y) (fin μ) (fin σ) ninf pinf 0 0
      = Closed.logistic (fin y) (fin μ) (fin σ) ∧
    Closed.tlogistic (fin y) (fin μ) (fin σ) ninf pinf = Closed.logistic (fin y) (fin μ) (fin σ) ∧
    Closed.clogistic (fin y) (fin μ) (fin σ) ninf pinf = Closed.logistic (fin y) (fin μ) (fin σ) := by
  have h : Closed.gtclogistic (fin y) (fin μ) (fin σ) ninf pinf 0 0
      = Closed.logistic (fin y) (fin μ) (fin σ) := by
    unfold Closed.gtclogistic Closed.logistic
    simp only [pinf_sub_fin, ninf_sub_fin, pinf_div_pos hσ, ninf_div_pos hσ, fin_sub, fin_div hσ.ne',
      max_fin_ninf, min_fin_pinf, fin_neg, logisCdf_fin, logisCdf_pinf, logisCdf_ninf, feq_pinf_pinf,
      feq_ninf_ninf, if_true, true_and, XF.zero_def, fin_feq, XF.one_def, XF.ofNat_def, fin_mul, fin_add,
      fin_abs, sub_zero, fin_div one_ne_zero, fin_log (logis_pos _), fin_pow]
    congr 1
    rw [logis_neg, Real.log_mul (logis_pos _).ne' (Real.exp_pos _).ne', Real.log_exp]
    simp only [sub_self, abs_zero]
    ring
  refine ⟨h, h, ?_⟩
  unfold Closed.clogistic
  simp only [pinf_sub_fin, ninf_sub_fin, pinf_div_pos hσ, ninf_div_pos hσ, logisCdf_pinf, logisCdf_ninf,
    XF.one_def, fin_sub, sub_self]
  exact h

example : (0 : ℝ) < 2 := by norm_num

/-- `crps_mixnorm` with one component of weight one is `crps_normal`. -/
theorem C52_mixnorm_normal {σ : ℝ} (hσ : 0 < σ) (μ y : ℝ) :
    Closed.mixnorm (fin y) [fin μ] [fin σ] [1] = Closed.normal (fin y) (fin μ) (fin σ) := by
  unfold Closed.mixnorm Closed.normal
  have hs : σ ^ 2 + σ ^ 2 = (Real.sqrt 2 * σ) ^ 2 := by
    rw [mul_pow, Real.sq_sqrt (by norm_num)]; ring
  have h2 : (0:ℝ) < Real.sqrt 2 := Real.sqrt_pos.2 two_pos
  have hss : 0 < Real.sqrt 2 * σ := by positivity
  have h0 : φ 0 = 1 / (Real.sqrt 2 * Real.sqrt Real.pi) := by
    unfold φ
    rw [Real.sqrt_mul (by norm_num)]
    simp
  have hp := Real.sqrt_pos.2 Real.pi_pos
  simp only [List.length_cons, List.length_nil, zero_add, List.range_one, List.map_cons, List.map_nil,
    List.sum_cons, List.sum_nil, Py.idx, List.getD_cons_zero, XF.one_def, XF.zero_def, fin_sub,
    fin_div hσ.ne', normCdf_fin, normPdf_fin, XF.ofNat_def, fin_mul, fin_add, fin_pow, hs,
    fin_sqrt (sq_nonneg _), Real.sqrt_sq hss.le, fin_div hss.ne', sqrt_pi_fin,
    fin_div hp.ne']
  rw [sub_self, zero_div, h0]
  congr 1
  field_simp
  ring

example : (0 : ℝ) < 2 := by norm_num

/-- `crps_2pnormal` with equal scales is `crps_normal`. -/
theorem C52_2pnormal_normal {σ : ℝ} (hσ : 0 < σ) (μ y : ℝ) :
    Closed.twopnormal (fin y) (fin σ) (fin σ) (fin μ) = Closed.normal (fin y) (fin μ) (fin σ) := by
  have hh : σ / (σ + σ) = 1 / 2 := by field_simp; norm_num
  have hss : σ + σ ≠ 0 := by positivity
  have hp := Real.sqrt_pos.2 Real.pi_pos
  unfold Closed.twopnormal Closed.normal
  simp only [XF.zero_def, XF.one_def, fin_sub, fin_min, fin_max, fin_add, fin_div hss, fin_div hσ.ne', hh]
  rw [gtcnormal_up one_pos (by norm_num), gtcnormal_lo one_pos (by norm_num)]
  simp only [XF.ofNat_def, normCdf_fin, normPdf_fin, fin_mul, fin_sub, fin_add, sqrt_pi_fin, fin_div hp.ne',
    sub_zero, div_one, zero_mul, Φ_zero]
  congr 1
  rcases le_or_gt 0 (y - μ) with h | h
  · have h1 : 0 ≤ (y - μ) / σ := by positivity
    rw [min_eq_left h, max_eq_right h, zero_div, min_eq_left le_rfl, max_eq_left h1, Φ_zero]
    simp only [sub_self, abs_zero]
    field_simp
    ring
  · have h1 : (y - μ) / σ < 0 := div_neg_of_neg_of_pos h hσ
    rw [min_eq_right h.le, max_eq_left h.le, zero_div, min_eq_left h1.le, max_eq_left le_rfl, Φ_zero]
    simp only [sub_self, abs_zero]
    field_simp
    ring

/-- A concrete case: the standard normal at zero. -/
example : Closed.twopnormal (fin 0) (fin 1) (fin 1) (fin 0)
    = fin (2 * φ 0 - 1 / Real.sqrt Real.pi) := by
  rw [C52_2pnormal_normal one_pos, (C50_normal one_pos 0 0).2]
  have h := (crps_Φ 0).2
  have e : crps (cdfNormal 0 1) 0 = crps Φ 0 := by
    congr 1; funext z; unfold cdfNormal; rw [sub_zero, div_one]
  rw [e, h]
  simp

/-! ### C59 -/

/-- Exactly one of `rate` and `scale`, of `prob` and `mu`; otherwise `ValueError`. -/
theorem C59_exclusive (obs a b : XF) (p q : Option XF) :
    (Api.crpsGamma obs a p q = .error .valueError ↔ (p.isSome ↔ q.isSome)) ∧
    (Api.crpsCsg0 obs a p q b = .error .valueError ↔ (p.isSome ↔ q.isSome)) ∧
    (Api.crpsNegbinom obs a p q = .error .valueError ↔ (p.isSome ↔ q.isSome)) ∧
    (Api.logsGamma obs a p q = .error .valueError ↔ (p.isSome ↔ q.isSome)) ∧
    (Api.logsNegbinom obs a p q = .error .valueError ↔ (p.isSome ↔ q.isSome)) := by
  cases p <;> cases q <;>
    simp [Api.crpsGamma, Api.crpsCsg0, Api.crpsNegbinom, Api.logsGamma, Api.logsNegbinom]

/-- Any given pair of arguments with exactly one present gives a score. -/
theorem C59_accepts (obs a b : XF) (p q : Option XF) (h : ¬ (p.isSome ↔ q.isSome)) :
    (∃ s, Api.crpsGamma obs a p q = .ok s) ∧ (∃ s, Api.crpsCsg0 obs a p q b = .ok s) ∧
    (∃ s, Api.crpsNegbinom obs a p q = .ok s) ∧ (∃ s, Api.logsGamma obs a p q = .ok s) ∧
    (∃ s, Api.logsNegbinom obs a p q = .ok s) := by
  cases p <;> cases q <;>
    simp [Api.crpsGamma, Api.crpsCsg0, Api.crpsNegbinom, Api.logsGamma, Api.logsNegbinom] at h ⊢

example : ¬ ((none : Option XF).isSome ↔ (some (fin 3)).isSome) := by simp

/-- The two parameterisations agree: `rate = 1 / scale`, `prob = n / (n + mu)`. -/
theorem C59_agree (obs a b θ : XF) :
    Api.crpsGamma obs a (some (1 / θ)) none = Api.crpsGamma obs a none (some θ) ∧
    Api.crpsCsg0 obs a (some (1 / θ)) none b = Api.crpsCsg0 obs a none (some θ) b ∧
    Api.logsGamma obs a (some (1 / θ)) none = Api.logsGamma obs a none (some θ) ∧
    Api.crpsNegbinom obs a (some (a / (a + θ))) none = Api.crpsNegbinom obs a none (some θ) ∧
    Api.logsNegbinom obs a (some (a / (a + θ))) none = Api.logsNegbinom obs a none (some θ) :=
  ⟨rfl, rfl, rfl, rfl, rfl⟩

/-- A score rather than an error. -/
example : ∃ s, Api.crpsGamma (fin 1) (fin 2) none (some (fin 3)) = .ok s ∧
    Api.crpsGamma (fin 1) (fin 2) (some (1 / fin 3)) none = .ok s := ⟨_, rfl, rfl⟩

end Verif
