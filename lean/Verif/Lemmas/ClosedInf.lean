import Verif.Props.ClosedNan
import Verif.Props.NanCases
import Verif.Props.Binomial
import Verif.Props.Gev
import Verif.Props.TGtc
import Verif.Props.MixCrps
import Verif.Props.Negbinom
import Verif.Lemmas.Scale
import Verif.Lemmas.Iid
import Verif.Lemmas.Discrete

/-!
What the closed forms return for an infinite observation.
-/

noncomputable section

open scoped Classical

open MeasureTheory Filter

namespace Verif

open XF Stats Spec

/-! ### arithmetic with infinities -/

theorem ninf_add_fin (a : ℝ) : (ninf : XF) + fin a = ninf := rfl
theorem pinf_add_fin (a : ℝ) : (pinf : XF) + fin a = pinf := rfl
theorem fin_add_pinf (a : ℝ) : fin a + (pinf : XF) = pinf := rfl
theorem fin_add_ninf (a : ℝ) : fin a + (ninf : XF) = ninf := rfl
theorem fin_sub_pinf (a : ℝ) : fin a - (pinf : XF) = ninf := rfl
theorem fin_sub_ninf (a : ℝ) : fin a - (ninf : XF) = pinf := rfl
theorem neg_pinf : -(pinf : XF) = ninf := rfl
theorem neg_ninf : -(ninf : XF) = pinf := rfl
theorem abs_pinf : XF.abs pinf = pinf := rfl
theorem abs_ninf : XF.abs ninf = pinf := rfl
theorem exp_pinf : XF.exp pinf = pinf := rfl
theorem exp_ninf : XF.exp ninf = fin 0 := rfl
theorem log_pinf : XF.log pinf = pinf := rfl
theorem log_ninf : XF.log ninf = nan := rfl
theorem max_ninf_fin (a : ℝ) : XF.max ninf (fin a) = fin a := by
  show (if (ninf : XF) ≤ fin a then fin a else ninf) = fin a
  rw [if_pos (ninf_le_fin a)]
theorem max_pinf_fin (a : ℝ) : XF.max pinf (fin a) = pinf := by
  show (if (pinf : XF) ≤ fin a then fin a else pinf) = pinf
  rw [if_neg (not_pinf_le_fin a)]
theorem max_fin_pinf (a : ℝ) : XF.max (fin a) pinf = pinf := by
  show (if fin a ≤ (pinf : XF) then pinf else fin a) = pinf
  rw [if_pos (fin_le_pinf a)]
theorem min_pinf_fin (a : ℝ) : XF.min pinf (fin a) = fin a := by
  show (if (pinf : XF) ≤ fin a then pinf else fin a) = fin a
  rw [if_neg (not_pinf_le_fin a)]
theorem min_ninf_fin (a : ℝ) : XF.min ninf (fin a) = ninf := by
  show (if (ninf : XF) ≤ fin a then ninf else fin a) = ninf
  rw [if_pos (ninf_le_fin a)]
theorem min_fin_ninf (a : ℝ) : XF.min (fin a) ninf = ninf := by
  show (if fin a ≤ (ninf : XF) then fin a else ninf) = ninf
  rw [if_neg (not_fin_le_ninf a)]
theorem pinf_mul_pos {c : ℝ} (h : 0 < c) : pinf * fin c = pinf := by
  rw [mul_comm', mul_pinf_pos h]
theorem ninf_mul_pos {c : ℝ} (h : 0 < c) : ninf * fin c = ninf := by
  rw [mul_comm', mul_ninf_pos h]
theorem pinf_mul_neg {c : ℝ} (h : c < 0) : pinf * fin c = ninf := by
  rw [pinf_mul_fin, infMul_eq, if_neg h.ne, if_neg h.not_gt]; simp
theorem ninf_mul_neg {c : ℝ} (h : c < 0) : ninf * fin c = pinf := by
  rw [ninf_mul_fin, infMul_eq, if_neg h.ne, if_neg h.not_gt]; simp
theorem neg_mul_pinf {c : ℝ} (h : c < 0) : fin c * pinf = ninf := by rw [mul_comm', pinf_mul_neg h]
theorem neg_mul_ninf {c : ℝ} (h : c < 0) : fin c * ninf = pinf := by rw [mul_comm', ninf_mul_neg h]
theorem pinf_mul_one : pinf * fin 1 = pinf := pinf_mul_pos one_pos
theorem ninf_mul_neg_one : ninf * fin (-1) = pinf := ninf_mul_neg (by norm_num)
theorem pinf_mul_zero : pinf * fin 0 = nan := by rw [pinf_mul_fin, infMul_eq, if_pos rfl]
theorem zero_mul_pinf : fin 0 * pinf = nan := by rw [mul_comm', pinf_mul_zero]
theorem std_pinf {σ : ℝ} (h : 0 < σ) (μ : ℝ) : (pinf - fin μ) / fin σ = pinf := by
  rw [pinf_sub_fin, pinf_div_pos h]
theorem std_ninf {σ : ℝ} (h : 0 < σ) (μ : ℝ) : (ninf - fin μ) / fin σ = ninf := by
  rw [ninf_sub_fin, ninf_div_pos h]
theorem feq_pinf_fin (a : ℝ) : XF.feq pinf (fin a) ↔ False := ⟨fun h => by simp [XF.feq] at h, False.elim⟩
theorem feq_ninf_fin (a : ℝ) : XF.feq ninf (fin a) ↔ False := ⟨fun h => by simp [XF.feq] at h, False.elim⟩

theorem expCdf_pinf {r : ℝ} (h : 0 < r) : expCdf pinf (fin r) = fin 1 := by
  unfold expCdf
  rw [fin_neg, neg_mul_pinf (by linarith), exp_ninf, one_def, zero_def, fin_sub, fin_max]
  simp

theorem expCdf_ninf {r : ℝ} (h : 0 < r) : expCdf ninf (fin r) = fin 0 := by
  unfold expCdf
  rw [fin_neg, neg_mul_ninf (by linarith), exp_pinf, one_def, zero_def, fin_sub_pinf, max_ninf_fin]

/-! ### elementary families -/

theorem inf_exponential {r : ℝ} (h : 0 < r) :
    Closed.exponential pinf (fin r) = pinf ∧ Closed.exponential ninf (fin r) = pinf := by
  unfold Closed.exponential
  have hr : (2 * r) ≠ 0 := by positivity
  rw [expCdf_pinf h, expCdf_ninf h]
  simp only [abs_pinf, abs_ninf, ofNat_def, one_def, fin_mul, fin_div h.ne', fin_div hr, pinf_sub_fin, pinf_add_fin,
    and_self]

theorem inf_exponentialM (m l : ℝ) {s : ℝ} (h : 0 < s) :
    Closed.exponentialM pinf (fin m) (fin l) (fin s) = pinf ∧
      Closed.exponentialM ninf (fin m) (fin l) (fin s) = pinf := by
  have e1 : (if ¬ XF.feq (fin l) 0 then pinf - fin l else pinf) = pinf := by split_ifs <;> rfl
  have e2 : (if ¬ XF.feq (fin l) 0 then ninf - fin l else ninf) = ninf := by split_ifs <;> rfl
  have e3 : ∃ a : ℝ, (if XF.feq (fin m) 0 then (1 : XF) else 1 - fin m) = fin a := by
    split_ifs
    · exact ⟨1, rfl⟩
    · exact ⟨1 - m, fin_sub _ _⟩
  obtain ⟨a, ha⟩ := e3
  unfold Closed.exponentialM
  simp only [e1, e2, ha]
  simp only [one_def, fin_div h.ne']
  rw [expCdf_pinf one_pos, expCdf_ninf one_pos, expCdf_pinf (r := 1 / s) (by positivity),
    expCdf_ninf (r := 1 / s) (by positivity)]
  constructor <;> split_ifs <;>
    simp only [abs_pinf, abs_ninf, ofNat_def, fin_mul, fin_sub, pinf_sub_fin]

theorem inf_twopexponential {a b : ℝ} (l : ℝ) (ha : 0 < a) (hb : 0 < b) :
    Closed.twopexponential pinf (fin a) (fin b) (fin l) = pinf ∧
      Closed.twopexponential ninf (fin a) (fin b) (fin l) = pinf := by
  have h1 : a + b ≠ 0 := by positivity
  have h2 : 2 * (a + b) ^ 2 ≠ 0 := by positivity
  unfold Closed.twopexponential
  simp only [pinf_sub_fin, ninf_sub_fin, abs_pinf, abs_ninf, neg_pinf, ninf_div_pos ha, ninf_div_pos hb, exp_ninf,
    ofNat_def, fin_pow, fin_mul, fin_add, fin_div h1, fin_div h2, pinf_add_fin]
  constructor <;> split_ifs <;> rfl

theorem inf_laplace (l : ℝ) {s : ℝ} (h : 0 < s) :
    Closed.laplace pinf (fin l) (fin s) = pinf ∧ Closed.laplace ninf (fin l) (fin s) = pinf := by
  unfold Closed.laplace
  simp only [pinf_sub_fin, ninf_sub_fin, pinf_div_pos h, ninf_div_pos h,
    abs_pinf, abs_ninf, neg_pinf, exp_ninf, pinf_add_fin, ofNat_def,
    fin_div four_ne_zero, pinf_sub_fin, mul_pinf_pos h, and_self]

theorem inf_normal (μ : ℝ) {σ : ℝ} (h : 0 < σ) :
    Closed.normal pinf (fin μ) (fin σ) = pinf ∧ Closed.normal ninf (fin μ) (fin σ) = pinf := by
  have hp : Real.sqrt Real.pi ≠ 0 := (Real.sqrt_pos.2 Real.pi_pos).ne'
  unfold Closed.normal
  simp only [pinf_sub_fin, ninf_sub_fin, pinf_div_pos h, ninf_div_pos h,
    normCdf_pinf, normCdf_ninf, normPdf_pinf, normPdf_ninf, sqrt_pi_fin, ofNat_def,
    one_def, fin_mul, fin_sub, fin_div hp]
  norm_num only [pinf_mul_one, ninf_mul_neg_one]
  simp only [pinf_mul_one, ninf_mul_neg_one, pinf_add_fin, pinf_sub_fin, mul_pinf_pos h, and_self]

theorem inf_logistic (μ : ℝ) {σ : ℝ} (h : 0 < σ) :
    Closed.logistic pinf (fin μ) (fin σ) = pinf ∧ Closed.logistic ninf (fin μ) (fin σ) = nan := by
  have e : XF.log (fin 0) = ninf := by simp [XF.log]
  unfold Closed.logistic
  simp only [pinf_sub_fin, ninf_sub_fin, pinf_div_pos h, ninf_div_pos h,
    logisCdf_pinf, logisCdf_ninf, fin_log one_pos, e, ofNat_def, one_def, fin_mul,
    mul_pinf_pos h, mul_ninf_pos two_pos]
  refine ⟨trivial, ?_⟩
  have : (ninf : XF) - ninf = nan := rfl
  rw [this, nan_sub, mul_nan]

theorem inf_uniform {a b : ℝ} (L U : ℝ) (h : a < b) :
    Closed.uniform pinf (fin a) (fin b) (fin L) (fin U) = pinf ∧
      Closed.uniform ninf (fin a) (fin b) (fin L) (fin U) = pinf := by
  have h' : 0 < b - a := by linarith
  unfold Closed.uniform
  simp only [fin_sub, pinf_sub_fin, ninf_sub_fin, pinf_div_pos h', ninf_div_pos h',
    zero_def, one_def, max_pinf_fin, max_ninf_fin, min_pinf_fin, fin_min,
    pinf_sub_fin, ninf_sub_fin, abs_pinf, abs_ninf, fin_pow, fin_mul, ofNat_def, fin_div three_ne_zero, pinf_add_fin,
    mul_pinf_pos h', and_self]

/-! ### generalised Pareto and extreme value -/

theorem pow_pinf_neg {b : ℝ} (h : b < 0) : XF.pow pinf (fin b) = fin 0 := by
  unfold XF.pow
  simp [zero_def, one_def, h.ne, not_lt.2 h.le]

theorem pow_pinf_pos {b : ℝ} (h : 0 < b) : XF.pow pinf (fin b) = pinf := by
  unfold XF.pow
  simp [zero_def, one_def, h.ne', h]

theorem gpdCdf_pinf (ξ : ℝ) : gpdCdf pinf (fin ξ) = fin 1 := by
  unfold gpdCdf
  rcases lt_trichotomy ξ 0 with h | rfl | h
  · simp [zero_def, one_def, h.ne, h.not_gt, fin_div h.ne]
  · simp [zero_def, one_def, neg_pinf, exp_ninf]
  · simp [zero_def, one_def, h.ne', h, fin_div h.ne', mul_pinf_pos h, fin_add_pinf,
      pow_pinf_neg (b := -1 / ξ) (div_neg_of_neg_of_pos (by norm_num) h)]

theorem gpdCdf_ninf (ξ : ℝ) : gpdCdf ninf (fin ξ) = fin 0 := by
  have h0 : ¬ (fin 0 : XF) ≤ ninf := not_fin_le_ninf 0
  unfold gpdCdf
  rcases lt_trichotomy ξ 0 with h | rfl | h
  · simp [zero_def, one_def, h.ne, h.not_gt, fin_div h.ne]
  · simp [zero_def, one_def]
  · simp [zero_def, one_def, h.ne', h, fin_div h.ne']

theorem inf_gpd {ξ σ m : ℝ} (μ : ℝ) (hξ : ξ < 1) (hσ : 0 < σ) (h0 : 0 ≤ m) (h1 : m ≤ 1) :
    Closed.gpd pinf (fin ξ) (fin μ) (fin σ) (fin m) = pinf ∧
      Closed.gpd ninf (fin ξ) (fin μ) (fin σ) (fin m) = pinf := by
  have h1ξ : 1 - ξ ≠ 0 := by linarith
  have h2ξ : 2 - ξ ≠ 0 := by linarith
  have e0 : XF.pow (fin (1 - 0)) (fin (1 - ξ)) = fin 1 := by
    rw [pow_fin_pos (by norm_num)]; simp
  have e1 : XF.pow (fin (1 - 1)) (fin (1 - ξ)) = fin 0 := by
    rw [sub_self, pow_fin_zero (by linarith)]
  unfold Closed.gpd
  simp only [one_def, zero_def, fin_lt, fin_le, hξ, h0, h1, and_self, if_true, pinf_sub_fin, ninf_sub_fin,
    pinf_div_pos hσ, ninf_div_pos hσ, gpdCdf_pinf, gpdCdf_ninf, abs_pinf, abs_ninf, fin_sub, e0, e1, ofNat_def,
    fin_mul, fin_pow, fin_div h1ξ, fin_div h2ξ, pinf_add_fin, mul_pinf_pos hσ]

theorem gev_zero_pinf (μ : ℝ) {σ : ℝ} (hσ : 0 < σ) : Closed.gev pinf (fin 0) (fin μ) (fin σ) = nan := by
  have e : gevCdf pinf (fin 0) = fin 1 := by
    unfold gevCdf
    simp [zero_def, neg_pinf, exp_ninf]
  have e2 : XF.expi (fin 0) = ninf := by simp [XF.expi]
  have e3 : (ninf : XF) - ninf = nan := rfl
  unfold Closed.gev
  simp only [pinf_sub_fin, pinf_div_pos hσ, zero_def, fin_feq, if_true, e, fin_log one_pos, Real.log_one, e2, neg_pinf,
    ofNat_def, mul_ninf_pos two_pos, e3, nan_add, nan_sub, nan_mul]

theorem gev_zero_ninf (μ : ℝ) {σ : ℝ} (hσ : 0 < σ) : Closed.gev ninf (fin 0) (fin μ) (fin σ) = pinf := by
  have e : gevCdf ninf (fin 0) = fin 0 := by
    unfold gevCdf
    simp [zero_def, neg_ninf, neg_pinf, exp_ninf, exp_pinf]
  have e1 : XF.log (fin 0) = ninf := by simp [XF.log]
  have e2 : XF.expi ninf = fin 0 := rfl
  unfold Closed.gev
  simp only [ninf_sub_fin, ninf_div_pos hσ, zero_def, fin_feq, if_true, e, e1, e2, neg_ninf, ofNat_def, fin_mul,
    pinf_sub_fin, Closed.eulerMascheroni, pinf_add_fin, fin_log two_pos, pinf_mul_pos hσ]

theorem gammauinc_top {a : ℝ} (h : 0 < a) : XF.gammauinc (fin a) pinf = fin 0 := by
  unfold XF.gammauinc
  rw [gamma_fin_pos h]
  simp [XF.gammainc, h, one_def]

theorem inf_gev {ξ σ : ℝ} (μ : ℝ) (h0 : ξ ≠ 0) (h1 : ξ < 1) (hσ : 0 < σ) :
    Closed.gev pinf (fin ξ) (fin μ) (fin σ) = pinf ∧ Closed.gev ninf (fin ξ) (fin μ) (fin σ) = pinf := by
  have hp : 0 < 1 - ξ := by linarith
  have hlog0 : XF.log (fin 0) = ninf := by simp [XF.log]
  rcases lt_or_gt_of_ne h0 with h | h
  · have hp2 : 0 < -1 / ξ := div_pos_of_neg_of_neg (by norm_num) h
    have e1 : gevCdf pinf (fin ξ) = fin 1 := by
      have : fin 1 / fin |ξ| ≤ (pinf : XF) := by rw [fin_div (by positivity)]; exact fin_le_pinf _
      unfold gevCdf
      simp [zero_def, one_def, h, h0, this]
    have e2 : gevCdf ninf (fin ξ) = fin 0 := by
      have : ¬ fin 1 / fin |ξ| ≤ (ninf : XF) := by rw [fin_div (by positivity)]; exact not_fin_le_ninf _
      unfold gevCdf
      simp [zero_def, one_def, h, h0, this, h.not_gt, neg_mul_ninf h, fin_add_pinf, fin_div h0, pow_pinf_pos hp2,
        neg_pinf, exp_ninf]
    have g1 : ∃ v, Closed.gevAdjust pinf (fin ξ) (fin 1) = fin v := by
      unfold Closed.gevAdjust
      refine ⟨-1 / ξ + Real.Gamma (1 - ξ) / ξ, ?_⟩
      simp [zero_def, one_def, h, fin_div h0, gamma_fin_pos hp]
    have g2 : ∃ v, Closed.gevAdjust ninf (fin ξ) (fin 0) = fin v := by
      unfold Closed.gevAdjust
      refine ⟨0, ?_⟩
      simp [zero_def, one_def, h, h.not_gt, fin_div h0, hlog0, neg_ninf, gammauinc_top hp]
    obtain ⟨v1, g1⟩ := g1
    obtain ⟨v2, g2⟩ := g2
    have hpow : XF.pow (fin 2) (fin ξ) = fin (2 ^ ξ) := pow_fin_pos two_pos ξ
    unfold Closed.gev
    simp only [pinf_sub_fin, ninf_sub_fin, pinf_div_pos hσ, ninf_div_pos hσ, zero_def, fin_feq, h0, if_false, e1, e2,
      g1, g2, ofNat_def, one_def, fin_mul, fin_sub, hpow, gamma_fin_pos hp, fin_div h0]
    norm_num only
    simp only [pinf_mul_one, ninf_mul_neg_one, pinf_sub_fin, pinf_mul_pos hσ, and_self]
  · have hp2 : -1 / ξ < 0 := div_neg_of_neg_of_pos (by norm_num) h
    have e1 : gevCdf pinf (fin ξ) = fin 1 := by
      unfold gevCdf
      simp [zero_def, one_def, h, h0, h.not_gt, mul_pinf_pos h, fin_add_pinf, fin_div h0, pow_pinf_neg hp2]
    have e2 : gevCdf ninf (fin ξ) = fin 0 := by
      unfold gevCdf
      simp [zero_def, one_def, h, h0, h.not_gt, fin_div h0]
    have g1 : ∃ v, Closed.gevAdjust pinf (fin ξ) (fin 1) = fin v := by
      unfold Closed.gevAdjust
      refine ⟨-1 / ξ + gevU ξ 0 / ξ, ?_⟩
      simp [zero_def, one_def, h, h.not_gt, fin_div h0, fin_log one_pos, gammauinc_fin h1 le_rfl]
    have g2 : ∃ v, Closed.gevAdjust ninf (fin ξ) (fin 0) = fin v := by
      unfold Closed.gevAdjust
      refine ⟨0, ?_⟩
      simp [zero_def, one_def, h, h.not_gt, fin_div h0]
    obtain ⟨v1, g1⟩ := g1
    obtain ⟨v2, g2⟩ := g2
    have hpow : XF.pow (fin 2) (fin ξ) = fin (2 ^ ξ) := pow_fin_pos two_pos ξ
    unfold Closed.gev
    simp only [pinf_sub_fin, ninf_sub_fin, pinf_div_pos hσ, ninf_div_pos hσ, zero_def, fin_feq, h0, if_false, e1, e2,
      g1, g2, ofNat_def, one_def, fin_mul, fin_sub, hpow, gamma_fin_pos hp, fin_div h0]
    norm_num only
    simp only [pinf_mul_one, ninf_mul_neg_one, pinf_sub_fin, pinf_mul_pos hσ, and_self]

/-! ### gamma, censored gamma, log-normal, log-logistic -/

theorem gammaCdf_pinf {a r : ℝ} (ha : 0 < a) (hr : 0 < r) : gammaCdf pinf (fin a) (fin r) = fin 1 := by
  unfold gammaCdf
  rw [zero_def, max_pinf_fin, mul_pinf_pos hr]
  simp [XF.gammainc, ha]

theorem gammaCdf_ninf {a r : ℝ} (ha : 0 < a) (hr : 0 < r) : gammaCdf ninf (fin a) (fin r) = fin 0 := by
  have e : gammaCdf ninf (fin a) (fin r) = gammaCdf (fin 0) (fin a) (fin r) := by
    unfold gammaCdf
    rw [zero_def, max_ninf_fin, fin_max, max_self]
  rw [e, gammaCdf_fin ha hr, mul_zero, gF, prim_gK_neg le_rfl, zero_div]

theorem inf_gamma {a r : ℝ} (ha : 0 < a) (hr : 0 < r) :
    Closed.gamma pinf (fin a) (fin r) = pinf ∧ Closed.gamma ninf (fin a) (fin r) = pinf := by
  have ha1 : 0 < a + 1 := by linarith
  have hb : r * betaF (1 / 2) a ≠ 0 := (mul_pos hr (betaF_pos (by norm_num) ha)).ne'
  unfold Closed.gamma
  simp only [one_def, fin_add, gammaCdf_pinf ha hr, gammaCdf_ninf ha hr, gammaCdf_pinf ha1 hr, gammaCdf_ninf ha1 hr,
    ofNat_def, fin_mul, fin_sub, fin_div hr.ne', beta_fin (show (0:ℝ) < 1 / 2 by norm_num) ha, fin_div hb]
  norm_num only
  simp only [pinf_mul_one, ninf_mul_neg_one, pinf_sub_fin, and_self]

theorem inf_csg0 {a r : ℝ} (d : ℝ) (ha : 0 < a) (hr : 0 < r) :
    Closed.csg0 pinf (fin a) (fin r) (fin d) = pinf ∧ Closed.csg0 ninf (fin a) (fin r) (fin d) = pinf := by
  have ha1 : 0 < a + 1 := by linarith
  have ha2 : 0 < 2 * a := by linarith
  have hh : 0 < a + 1 / 2 := by linarith
  have hpi : r * Real.pi ≠ 0 := (mul_pos hr Real.pi_pos).ne'
  unfold Closed.csg0 XF.pi
  simp only [pinf_add_fin, ninf_add_fin, one_def, fin_add, gammaCdf_pinf ha hr, gammaCdf_ninf ha hr,
    gammaCdf_pinf ha1 hr, gammaCdf_ninf ha1 hr, ofNat_def, fin_mul, gammaCdf_fin ha hr, gammaCdf_fin ha1 hr,
    gammaCdf_fin ha2 hr, fin_sub, fin_pow, fin_div hr.ne', fin_div hpi, beta_fin (show (0:ℝ) < 1 / 2 by norm_num) hh]
  norm_num only
  simp only [pinf_mul_one, ninf_mul_neg_one, pinf_sub_fin, pinf_add_fin, and_self]

theorem inf_lognormal (μ : ℝ) {σ : ℝ} (h : 0 < σ) :
    Closed.lognormal pinf (fin μ) (fin σ) = pinf ∧ Closed.lognormal ninf (fin μ) (fin σ) = nan := by
  have hs : Real.sqrt 2 ≠ 0 := (Real.sqrt_pos.2 two_pos).ne'
  unfold Closed.lognormal
  constructor
  · simp only [log_pinf, pinf_sub_fin, pinf_div_pos h, normCdf_pinf, ofNat_def, one_def, fin_mul, fin_sub, fin_pow,
      fin_div two_ne_zero, fin_add, fin_exp, sqrt2_fin', fin_div hs, normCdf_fin]
    norm_num only
    simp only [pinf_mul_one, pinf_sub_fin]
  · have e : normCdf nan = nan := by unfold normCdf; simp [XF.erf]
    simp only [log_ninf, nan_sub, nan_div, e, mul_nan]

theorem inf_loglogistic (μ : ℝ) {σ : ℝ} (h : 0 < σ) (h1 : σ < 1) :
    Closed.loglogistic pinf (fin μ) (fin σ) = pinf ∧ Closed.loglogistic ninf (fin μ) (fin σ) = nan := by
  have hp : 0 < 1 + σ := by linarith
  have hm : 0 < 1 - σ := by linarith
  unfold Closed.loglogistic
  constructor
  · have h11 : (1:ℝ) + 0 ≠ 0 := by norm_num
    simp only [log_pinf, pinf_sub_fin, neg_pinf, ninf_div_pos h, exp_ninf, one_def, fin_add, fin_sub, fin_div h11,
      beta_fin hp hm, ofNat_def, fin_mul, fin_exp]
    norm_num only
    rw [betainc_fin hp hm zero_le_one le_rfl]
    simp only [pinf_mul_one, fin_mul, fin_add, fin_sub, pinf_sub_fin]
  · simp only [log_ninf, nan_sub, neg_nan, nan_div, exp_nan, add_nan, div_nan, mul_nan, nan_sub]

theorem inf_loglaplace (μ : ℝ) {σ : ℝ} (h : 0 < σ) :
    Closed.loglaplace pinf (fin μ) (fin σ) = nan ∧ Closed.loglaplace ninf (fin μ) (fin σ) = nan := by
  unfold Closed.loglaplace
  constructor
  · have c : ¬ ((pinf : XF) < fin (Real.exp μ)) := not_pinf_lt _
    simp only [log_pinf, pinf_sub_fin, pinf_div_pos h, exp_pinf, fin_exp, c, and_false, ind_false, not_false_eq_true,
      mul_pinf_pos (show (0:ℝ) < 1 / 2 by norm_num), zero_mul_pinf, add_nan, nan_add, mul_nan, nan_sub]
  · simp only [log_ninf, nan_sub, nan_div, exp_nan, mul_nan, add_nan, nan_add, neg_nan, sub_nan]

/-! ### Student's t, Poisson, two-piece normal and the families with bounds -/

theorem inf_t (μ : ℝ) {ν σ : ℝ} (hν : 1 < ν) (h : 0 < σ) :
    Closed.t pinf (fin ν) (fin μ) (fin σ) = nan ∧ Closed.t ninf (fin ν) (fin μ) (fin σ) = nan := by
  have hf : tPdf pinf (fin ν) = fin 0 := by unfold tPdf; simp [XF.feq, abs_pinf, zero_def]
  have hf' : tPdf ninf (fin ν) = fin 0 := by unfold tPdf; simp [XF.feq, abs_ninf, zero_def]
  have e1 : (pinf : XF) ^ 2 = pinf := by rw [pow_two]; rfl
  have e2 : (ninf : XF) ^ 2 = pinf := by rw [pow_two]; rfl
  have h1 : 0 < ν - 1 := by linarith
  unfold Closed.t
  simp only [pinf_sub_fin, ninf_sub_fin, pinf_div_pos h, ninf_div_pos h,
    hf, hf', e1, e2, fin_add_pinf, one_def, fin_sub,
    pinf_div_pos h1, ofNat_def, fin_mul, mul_zero, zero_mul_pinf, add_nan, nan_sub, mul_nan, and_self]

theorem inf_poisson {m : ℝ} (hm : 0 ≤ m) :
    Closed.poisson pinf (fin m) = nan ∧ Closed.poisson ninf (fin m) = pinf := by
  constructor
  · have e : poisCdf pinf (fin m) = nan := by
      unfold poisCdf XF.gammauinc
      have : ¬ (pinf : XF) < 0 := not_pinf_lt _
      simp only [if_neg this, abs_pinf, one_def, pinf_add_fin, XF.floor, XF.gammainc, sub_nan, nan_mul, nan_div]
    unfold Closed.poisson
    simp only [e, mul_nan, nan_sub, nan_add]
  · have h0 : (ninf : XF) < fin 0 := ninf_lt_fin 0
    have e : poisCdf ninf (fin m) = fin 0 := by
      unfold poisCdf
      simp only [zero_def, if_pos h0]
    have e2 : poisPdf (XF.floor ninf) (fin m) = fin 0 := by
      unfold poisPdf
      have hf : XF.floor ninf = ninf := rfl
      dsimp only
      rw [hf, zero_def, if_pos h0, if_neg (by rw [fin_lt]; exact not_lt.2 hm)]
    unfold Closed.poisson
    simp only [e, e2, ninf_sub_fin, ofNat_def, one_def, fin_mul, fin_sub, fin_neg, fin_exp, XF.bessel0, XF.bessel1,
      fin_add]
    norm_num only
    simp only [ninf_mul_neg_one, pinf_add_fin, pinf_sub_fin]

theorem pinf_sub_pinf : (pinf : XF) - pinf = nan := rfl
theorem ninf_sub_ninf : (ninf : XF) - ninf = nan := rfl

/-- without the bound on the side of the observation, whatever the other arguments -/
theorem inf_unbounded (μ : ℝ) {σ : ℝ} (h : 0 < σ) (df l u L U : XF) (hl : l ≠ nan) (hu : u ≠ nan) :
    (Closed.gtcnormal pinf (fin μ) (fin σ) l pinf L U = nan ∧ Closed.gtcnormal ninf (fin μ) (fin σ) ninf u L U = nan) ∧
    (Closed.gtclogistic pinf (fin μ) (fin σ) l pinf L U = nan ∧
      Closed.gtclogistic ninf (fin μ) (fin σ) ninf u L U = nan) ∧
    Closed.gtct pinf df (fin μ) (fin σ) l pinf L U = nan ∧ Closed.gtct ninf df (fin μ) (fin σ) ninf u L U = nan := by
  have e1 : XF.min (XF.max pinf ((l - fin μ) / fin σ)) pinf = pinf := by
    cases l with
    | nan => exact absurd rfl hl
    | ninf => rw [std_ninf h]; simp [XF.max, XF.min]
    | pinf => rw [std_pinf h]; simp [XF.max, XF.min]
    | fin l => rw [fin_sub, fin_div h.ne', max_pinf_fin]; simp [XF.min]
  have e2 : XF.min (XF.max ninf ninf) ((u - fin μ) / fin σ) = ninf := by
    have : XF.max ninf ninf = ninf := by simp [XF.max]
    rw [this]
    cases u with
    | nan => exact absurd rfl hu
    | ninf => rw [std_ninf h]; simp [XF.min]
    | pinf => rw [std_pinf h]; simp [XF.min]
    | fin u => rw [fin_sub, fin_div h.ne', min_ninf_fin]
  unfold Closed.gtcnormal Closed.gtclogistic Closed.gtct
  dsimp only
  rw [std_pinf h, std_ninf h, e1, e2]
  simp only [pinf_sub_pinf, ninf_sub_ninf, abs_nan, nan_add, nan_sub, mul_nan, and_self]

theorem inf_twopnormal (μ : ℝ) {a b : ℝ} (ha : 0 < a) (hb : 0 < b) :
    Closed.twopnormal pinf (fin a) (fin b) (fin μ) = nan ∧ Closed.twopnormal ninf (fin a) (fin b) (fin μ) = nan := by
  have z0 : (0 : XF) ≠ nan := by rw [zero_def]; exact fun h => nomatch h
  have hn := fun L U => inf_unbounded 0 one_pos nan 0 0 L U z0 z0
  unfold Closed.twopnormal
  simp only [pinf_sub_fin, ninf_sub_fin, zero_def, max_fin_pinf, min_fin_ninf, pinf_div_pos hb, ninf_div_pos ha]
  constructor
  · have := (hn (fin a / (fin a + fin b)) (fin 0)).1.1
    simp only [zero_def] at this
    rw [one_def, this, mul_nan, add_nan]
  · have := (hn (fin 0) (fin b / (fin a + fin b))).1.2
    simp only [zero_def] at this
    rw [one_def, this, mul_nan, nan_add]

/-! ### finite bounds on both sides -/

theorem fin_of_add {x y : XF} {v : ℝ} (h : x + y = fin v) : (∃ a, x = fin a) ∧ ∃ b, y = fin b := by
  cases x <;> cases y <;> first | exact ⟨⟨_, rfl⟩, _, rfl⟩ | exact nomatch h

theorem fin_of_sub {x y : XF} {v : ℝ} (h : x - y = fin v) : (∃ a, x = fin a) ∧ ∃ b, y = fin b := by
  cases x <;> cases y <;> first | exact ⟨⟨_, rfl⟩, _, rfl⟩ | exact nomatch h

theorem fin_of_mul {c : ℝ} (hc : 0 < c) {x : XF} {v : ℝ} (h : fin c * x = fin v) : ∃ a, x = fin a := by
  cases x with
  | nan => exact nomatch h
  | pinf => rw [mul_pinf_pos hc] at h; exact nomatch h
  | ninf => rw [mul_ninf_pos hc] at h; exact nomatch h
  | fin a => exact ⟨a, rfl⟩

theorem bound_hi {σ l u : ℝ} (hσ : 0 < σ) (hlu : l < u) (μ : ℝ) :
    XF.min (XF.max pinf ((fin l - fin μ) / fin σ)) ((fin u - fin μ) / fin σ)
      = XF.min (XF.max ((fin u - fin μ) / fin σ) ((fin l - fin μ) / fin σ)) ((fin u - fin μ) / fin σ) ∧
    XF.min (XF.max ((fin u - fin μ) / fin σ) ((fin l - fin μ) / fin σ)) ((fin u - fin μ) / fin σ)
      = fin ((u - μ) / σ) := by
  have h : (l - μ) / σ ≤ (u - μ) / σ := by rw [div_le_div_iff_of_pos_right hσ]; linarith
  simp only [fin_sub, fin_div hσ.ne', max_pinf_fin, min_pinf_fin, fin_max, fin_min, max_eq_left h, min_self, and_self]

theorem bound_lo {σ l u : ℝ} (hσ : 0 < σ) (hlu : l < u) (μ : ℝ) :
    XF.min (XF.max ninf ((fin l - fin μ) / fin σ)) ((fin u - fin μ) / fin σ)
      = XF.min (XF.max ((fin l - fin μ) / fin σ) ((fin l - fin μ) / fin σ)) ((fin u - fin μ) / fin σ) ∧
    XF.min (XF.max ((fin l - fin μ) / fin σ) ((fin l - fin μ) / fin σ)) ((fin u - fin μ) / fin σ)
      = fin ((l - μ) / σ) := by
  have h : (l - μ) / σ ≤ (u - μ) / σ := by rw [div_le_div_iff_of_pos_right hσ]; linarith
  simp only [fin_sub, fin_div hσ.ne', max_ninf_fin, fin_max, fin_min, max_self, min_eq_left h, and_self]

theorem inf_gtcnormal {σ l u L U : ℝ} (hσ : 0 < σ) (hlu : l < u) (hLU : L + U ≠ 1) (μ : ℝ) :
    Closed.gtcnormal pinf (fin μ) (fin σ) (fin l) (fin u) (fin L) (fin U) = pinf ∧
      Closed.gtcnormal ninf (fin μ) (fin σ) (fin l) (fin u) (fin L) (fin U) = pinf := by
  have hu := gtcnormal_fin (μ := μ) (y := u) hσ hlu hLU
  have hl := gtcnormal_fin (μ := μ) (y := l) hσ hlu hLU
  unfold Closed.gtcnormal at hu hl ⊢
  dsimp only at hu hl ⊢
  rw [std_pinf hσ, std_ninf hσ, (bound_hi hσ hlu μ).1, (bound_lo hσ hlu μ).1]
  constructor
  · obtain ⟨_, h⟩ := fin_of_mul hσ hu
    obtain ⟨⟨_, h⟩, v4, e4⟩ := fin_of_sub h
    obtain ⟨⟨_, h⟩, v3, e3⟩ := fin_of_add h
    obtain ⟨⟨_, h⟩, v2, e2⟩ := fin_of_add h
    obtain ⟨⟨_, h⟩, vl, el⟩ := fin_of_sub h
    obtain ⟨-, vu, eu⟩ := fin_of_add h
    rw [e4, e3, e2, el, eu, (bound_hi hσ hlu μ).2]
    simp only [pinf_sub_fin, abs_pinf, pinf_add_fin, mul_pinf_pos hσ]
  · obtain ⟨_, h⟩ := fin_of_mul hσ hl
    obtain ⟨⟨_, h⟩, v4, e4⟩ := fin_of_sub h
    obtain ⟨⟨_, h⟩, v3, e3⟩ := fin_of_add h
    obtain ⟨⟨_, h⟩, v2, e2⟩ := fin_of_add h
    obtain ⟨⟨_, h⟩, vl, el⟩ := fin_of_sub h
    obtain ⟨-, vu, eu⟩ := fin_of_add h
    rw [e4, e3, e2, el, eu, (bound_lo hσ hlu μ).2]
    simp only [pinf_sub_fin, ninf_sub_fin, abs_ninf, pinf_add_fin, mul_pinf_pos hσ]

theorem inf_gtclogistic {σ l u L U : ℝ} (hσ : 0 < σ) (hlu : l < u) (hLU : L + U ≠ 1) (μ : ℝ) :
    Closed.gtclogistic pinf (fin μ) (fin σ) (fin l) (fin u) (fin L) (fin U) = pinf ∧
      Closed.gtclogistic ninf (fin μ) (fin σ) (fin l) (fin u) (fin L) (fin U) = pinf := by
  obtain ⟨_, hu⟩ := (C53_partial hσ hlu hLU μ u).1
  obtain ⟨_, hl⟩ := (C53_partial hσ hlu hLU μ l).1
  unfold Closed.gtclogistic at hu hl ⊢
  dsimp only at hu hl ⊢
  rw [std_pinf hσ, std_ninf hσ, (bound_hi hσ hlu μ).1, (bound_lo hσ hlu μ).1]
  constructor
  · obtain ⟨_, h⟩ := fin_of_mul hσ hu
    obtain ⟨⟨_, h⟩, v4, e4⟩ := fin_of_sub h
    obtain ⟨⟨_, h⟩, v3, e3⟩ := fin_of_sub h
    obtain ⟨⟨_, h⟩, v2, e2⟩ := fin_of_sub h
    obtain ⟨⟨_, h⟩, vl, el⟩ := fin_of_sub h
    obtain ⟨-, vu, eu⟩ := fin_of_add h
    rw [e4, e3, e2, el, eu, (bound_hi hσ hlu μ).2]
    simp only [pinf_sub_fin, abs_pinf, pinf_add_fin, mul_pinf_pos hσ]
  · obtain ⟨_, h⟩ := fin_of_mul hσ hl
    obtain ⟨⟨_, h⟩, v4, e4⟩ := fin_of_sub h
    obtain ⟨⟨_, h⟩, v3, e3⟩ := fin_of_sub h
    obtain ⟨⟨_, h⟩, v2, e2⟩ := fin_of_sub h
    obtain ⟨⟨_, h⟩, vl, el⟩ := fin_of_sub h
    obtain ⟨-, vu, eu⟩ := fin_of_add h
    rw [e4, e3, e2, el, eu, (bound_lo hσ hlu μ).2]
    simp only [pinf_sub_fin, ninf_sub_fin, abs_ninf, pinf_add_fin, mul_pinf_pos hσ]

theorem inf_gtct {ν μ σ l u L U : ℝ} (hν : 1 < ν) (hσ : 0 < σ) (hlu : l < u) (hLU : L + U ≠ 1) (hl0 : l ≠ μ)
    (hu0 : u ≠ μ) :
    Closed.gtct pinf (fin ν) (fin μ) (fin σ) (fin l) (fin u) (fin L) (fin U) = pinf ∧
      Closed.gtct ninf (fin ν) (fin μ) (fin σ) (fin l) (fin u) (fin L) (fin U) = pinf := by
  have hu := gtct_fin (y := u) hν hσ hlu hLU hl0 hu0
  have hl := gtct_fin (y := l) hν hσ hlu hLU hl0 hu0
  unfold Closed.gtct at hu hl ⊢
  dsimp only at hu hl ⊢
  rw [std_pinf hσ, std_ninf hσ, (bound_hi hσ hlu μ).1, (bound_lo hσ hlu μ).1]
  constructor
  · obtain ⟨_, h⟩ := fin_of_mul hσ hu
    obtain ⟨⟨_, h⟩, v4, e4⟩ := fin_of_sub h
    obtain ⟨⟨_, h⟩, v3, e3⟩ := fin_of_sub h
    obtain ⟨⟨_, h⟩, v2, e2⟩ := fin_of_add h
    obtain ⟨⟨_, h⟩, vl, el⟩ := fin_of_sub h
    obtain ⟨-, vu, eu⟩ := fin_of_add h
    rw [e4, e3, e2, el, eu, (bound_hi hσ hlu μ).2]
    simp only [pinf_sub_fin, abs_pinf, pinf_add_fin, mul_pinf_pos hσ]
  · obtain ⟨_, h⟩ := fin_of_mul hσ hl
    obtain ⟨⟨_, h⟩, v4, e4⟩ := fin_of_sub h
    obtain ⟨⟨_, h⟩, v3, e3⟩ := fin_of_sub h
    obtain ⟨⟨_, h⟩, v2, e2⟩ := fin_of_add h
    obtain ⟨⟨_, h⟩, vl, el⟩ := fin_of_sub h
    obtain ⟨-, vu, eu⟩ := fin_of_add h
    rw [e4, e3, e2, el, eu, (bound_lo hσ hlu μ).2]
    simp only [pinf_sub_fin, ninf_sub_fin, abs_ninf, pinf_add_fin, mul_pinf_pos hσ]

/-! ### normal mixtures, binomial, beta, hypergeometric -/

theorem sum_pinf {α : Type} {l : List α} {f : α → XF} (h0 : l ≠ []) (h : ∀ a ∈ l, f a = pinf) :
    (l.map f).sum = pinf := by
  induction l with
  | nil => exact absurd rfl h0
  | cons a l ih =>
    rw [List.map_cons, List.sum_cons, h a (by simp)]
    rcases eq_or_ne l [] with rfl | hl
    · rw [List.map_nil, List.sum_nil, zero_def, pinf_add_fin]
    · rw [ih hl fun b hb => h b (by simp [hb])]
      rfl

theorem inf_mixnorm (l : List (ℝ × ℝ × ℝ)) (hl : l ≠ []) (hs : ∀ p ∈ l, 0 < p.2.1) (hw : ∀ p ∈ l, 0 < p.2.2)
    (h1 : (l.map fun p => p.2.2).sum = 1) :
    Closed.mixnorm pinf (l.map fun p => fin p.1) (l.map fun p => fin p.2.1) (l.map fun p => fin p.2.2) = pinf ∧
    Closed.mixnorm ninf (l.map fun p => fin p.1) (l.map fun p => fin p.2.1) (l.map fun p => fin p.2.2) = pinf := by
  have h := (C72_mixnorm l hs (fun p hp => (hw p hp).le) h1 0).2
  unfold Closed.mixnorm at h ⊢
  dsimp only at h ⊢
  obtain ⟨-, v, e⟩ := fin_of_sub h
  rw [e]
  have hne : List.range (l.map fun p => fin p.1).length ≠ [] := by
    rw [List.length_map, Ne, List.range_eq_nil, List.length_eq_zero_iff]
    exact hl
  have key : ∀ o : XF, (o = pinf ∨ o = ninf) → ∀ i ∈ List.range (l.map fun p => fin p.1).length,
      Py.idx (l.map fun p => fin p.2.2) i * ((o - Py.idx (l.map fun p => fin p.1) i)
        * (2 * normCdf ((o - Py.idx (l.map fun p => fin p.1) i) / Py.idx (l.map fun p => fin p.2.1) i) - 1)
        + 2 * Py.idx (l.map fun p => fin p.2.1) i
          * normPdf ((o - Py.idx (l.map fun p => fin p.1) i) / Py.idx (l.map fun p => fin p.2.1) i)) = pinf := by
    intro o ho i hi
    have hi' : i < l.length := by simpa using hi
    rw [idx_get l (fun p => p.1) ⟨i, hi'⟩, idx_get l (fun p => p.2.1) ⟨i, hi'⟩, idx_get l (fun p => p.2.2) ⟨i, hi'⟩]
    have hs' := hs _ (List.getElem_mem hi')
    have hw' := hw _ (List.getElem_mem hi')
    rcases ho with rfl | rfl
    · simp only [pinf_sub_fin, pinf_div_pos hs', normCdf_pinf, normPdf_pinf, ofNat_def, one_def, fin_mul, fin_sub]
      norm_num only
      simp only [pinf_mul_one, pinf_add_fin, mul_pinf_pos hw']
    · simp only [ninf_sub_fin, ninf_div_pos hs', normCdf_ninf, normPdf_ninf, ofNat_def, one_def, fin_mul, fin_sub]
      norm_num only
      simp only [ninf_mul_neg_one, pinf_add_fin, mul_pinf_pos hw']
  rw [sum_pinf hne (key pinf (.inl rfl)), sum_pinf hne (key ninf (.inr rfl))]
  exact ⟨rfl, rfl⟩

theorem pmfBinom_pos {n k : ℕ} (hk : k ≤ n) {p : ℝ} (h0 : 0 < p) (h1 : p < 1) : 0 < pmfBinom n p k := by
  have : (0:ℝ) < n.choose k := by exact_mod_cast Nat.choose_pos hk
  have : 0 < 1 - p := by linarith
  unfold pmfBinom
  positivity

theorem inf_binomial (n : ℕ) {p : ℝ} (h0 : 0 < p) (h1 : p ≤ 1 - 1 / 10 ^ 30) :
    Closed.binomial pinf n (fin p) = pinf ∧ Closed.binomial ninf n (fin p) = pinf := by
  have h1' : p < 1 := by
    have : (0:ℝ) < 1 / 10 ^ 30 := by positivity
    linarith
  have hn : (0:ℝ) < (n:ℝ) + 1 := by positivity
  -- the distribution function the code uses, less half the mass, is in the open unit interval
  have key : ∀ i ∈ List.range (n + 1), ∃ w a : ℝ, binomPdf (fin (i:ℝ)) (fin (n:ℝ)) (fin p) = fin w ∧ 0 < w ∧
      binomCdf (fin (i:ℝ)) (fin (n:ℝ)) (fin p) - fin (1 / 2) * fin w = fin a ∧ 0 < a ∧ a < 1 := by
    intro i hi
    have hin : i ≤ n := by simpa [Nat.lt_succ_iff] using hi
    obtain ⟨-, hs⟩ := sum_pmfBinom n h0.le h1'.le
    have hpos : ∀ j ∈ Finset.range (n + 1), 0 ≤ pmfBinom n p j := fun j hj =>
      (pmfBinom_pos (by simpa [Nat.lt_succ_iff] using hj) h0 h1').le
    have hw := pmfBinom_pos hin h0 h1'
    have hw1 : pmfBinom n p i ≤ 1 := by
      rw [← hs]; exact Finset.single_le_sum hpos (Finset.mem_range.2 (by omega))
    have hf := binomPdf_nat hin h0.le h1'.le
    rcases lt_or_eq_of_le hin with h | rfl
    · refine ⟨pmfBinom n p i, _, hf, hw, by rw [binomCdf_lt h h0.le h1'.le, fin_mul, fin_sub], ?_, ?_⟩
      · have : pmfBinom n p i ≤ ∑ j ∈ Finset.range (i + 1), pmfBinom n p j :=
          Finset.single_le_sum (fun j hj => hpos j (Finset.mem_range.2 (by have := Finset.mem_range.1 hj; omega)))
            (Finset.self_mem_range_succ i)
        linarith
      · have : ∑ j ∈ Finset.range (i + 1), pmfBinom n p j ≤ 1 := by
          rw [← hs]
          exact Finset.sum_le_sum_of_subset_of_nonneg (Finset.range_subset_range.2 (by omega)) fun j hj _ => hpos j hj
        linarith
    · have ha : (0:ℝ) < 1 / 10 ^ 36 := by positivity
      have hl := bF_le ha hn (1 - p)
      have hm := one_sub_bF_le ha hn (x := 1 - p) (by linarith)
      have hq : (1:ℝ) / 10 ^ 36 / (1 / 10 ^ 36 + ((i:ℝ) + 1)) / (1 - p) ≤ 1 / 10 ^ 6 := by
        have c1 : (1:ℝ) / 10 ^ 36 / (1 / 10 ^ 36 + ((i:ℝ) + 1)) ≤ 1 / 10 ^ 36 :=
          div_le_self ha.le (by linarith [Nat.cast_nonneg (α := ℝ) i])
        have c2 : (1:ℝ) / 10 ^ 30 ≤ 1 - p := by linarith
        rw [div_le_iff₀ (by linarith)]
        refine c1.trans ?_
        have : (1:ℝ) / 10 ^ 36 = 1 / 10 ^ 6 * (1 / 10 ^ 30) := by norm_num
        rw [this]
        exact mul_le_mul_of_nonneg_left c2 (by positivity)
      refine ⟨pmfBinom i p i, _, hf, hw, by rw [binomCdf_top i h0.le h1'.le, fin_mul, fin_sub], ?_, by linarith⟩
      have : (1:ℝ) / 10 ^ 6 < 1 / 2 := by norm_num
      linarith
  have hne : List.range (n + 1) ≠ [] := by simp
  unfold Closed.binomial
  dsimp only
  constructor
  · rw [sum_pinf hne, ofNat_def, mul_pinf_pos two_pos]
    intro i hi
    obtain ⟨w, a, e1, hw, e2, ha, -⟩ := key i hi
    have c : ¬ (pinf : XF) < fin (i:ℝ) := not_pinf_lt _
    rw [e1, e2, XF.ind, if_neg c, zero_def, fin_sub, fin_mul, fin_sub_pinf,
      XF.mul_comm', ninf_mul_neg (by nlinarith [mul_pos hw ha])]
  · rw [sum_pinf hne, ofNat_def, mul_pinf_pos two_pos]
    intro i hi
    obtain ⟨w, a, e1, hw, e2, -, ha⟩ := key i hi
    rw [e1, e2, XF.ind, if_pos (ninf_lt_fin _), one_def, fin_sub, fin_mul, fin_sub_ninf,
      mul_pinf_pos (mul_pos hw (by linarith))]

theorem pmfHypergeo_pos {m n k : ℕ} (h : n ≤ m) (hk : k ≤ n) : 0 < pmfHypergeo m n n k := by
  have h1 : (0:ℝ) < m.choose k := by exact_mod_cast Nat.choose_pos (by omega)
  have h2 : (0:ℝ) < n.choose (n - k) := by exact_mod_cast Nat.choose_pos (by omega)
  have h3 : (0:ℝ) < (m + n).choose n := by exact_mod_cast Nat.choose_pos (by omega)
  rw [pmfHypergeo, if_pos hk]
  positivity

theorem hypergeometric_term_eq {m n K : ℕ} (h : K ≤ m + n) (y : XF) (i : ℕ) :
    hypergeoPdf (fin (i : ℝ)) (fin (m : ℝ) + fin (n : ℝ)) (fin (m : ℝ)) (fin (K : ℝ))
      * (XF.ind (y < fin (i : ℝ)) - hypergeoCdf i (fin (m : ℝ) + fin (n : ℝ)) (fin (m : ℝ)) (fin (K : ℝ))
        + hypergeoPdf (fin (i : ℝ)) (fin (m : ℝ) + fin (n : ℝ)) (fin (m : ℝ)) (fin (K : ℝ)) / 2)
      * (fin (i : ℝ) - y)
      = fin (pmfHypergeo m n K i * ((if y < fin (i : ℝ) then 1 else 0)
        - ∑ j ∈ Finset.range (i + 1), pmfHypergeo m n K j + pmfHypergeo m n K i / 2)) * (fin (i:ℝ) - y) := by
  unfold hypergeoCdf
  simp only [hypergeoPdf_nat h, range_map_sum_fin]
  simp only [XF.ind_def, XF.ofNat_def, fin_div two_ne_zero, fin_sub, fin_add, fin_mul]

theorem inf_hypergeometric_zero {m n K i : ℕ} (h : K ≤ m + n) (hi : i ≤ n) (h0 : pmfHypergeo m n K i = 0) :
    Closed.hypergeometric pinf m n K = nan ∧ Closed.hypergeometric ninf m n K = nan := by
  unfold Closed.hypergeometric
  simp only [hypergeometric_term_eq h]
  constructor
  · rw [sum_range_nan (i := i) (by omega), mul_nan]
    rw [h0, zero_mul, fin_sub_pinf, XF.mul_comm', ninf_mul_fin, infMul_eq, if_pos rfl]
  · rw [sum_range_nan (i := i) (by omega), mul_nan]
    rw [h0, zero_mul, fin_sub_ninf, zero_mul_pinf]

theorem inf_hypergeometric {m n : ℕ} (h : n ≤ m) :
    Closed.hypergeometric pinf m n n = pinf ∧ Closed.hypergeometric ninf m n n = pinf := by
  have hn : n ≤ m + n := by omega
  have key : ∀ i ∈ List.range (n + 1), 0 < pmfHypergeo m n n i ∧
      pmfHypergeo m n n i ≤ ∑ j ∈ Finset.range (i + 1), pmfHypergeo m n n j ∧
      ∑ j ∈ Finset.range (i + 1), pmfHypergeo m n n j ≤ 1 := by
    intro i hi
    have hin : i ≤ n := by simpa [Nat.lt_succ_iff] using hi
    have hpos : ∀ j ∈ Finset.range (i + 1), 0 ≤ pmfHypergeo m n n j := fun j hj =>
      (pmfHypergeo_pos h (by have := Finset.mem_range.1 hj; omega)).le
    have hP := isPmf_hypergeo hn
    exact ⟨pmfHypergeo_pos h hin, Finset.single_le_sum hpos (Finset.self_mem_range_succ i),
      hP.total.tsum_eq ▸ hP.total.summable.sum_le_tsum _ fun j _ => hP.nonneg j⟩
  have hne : List.range (n + 1) ≠ [] := by simp
  unfold Closed.hypergeometric
  simp only [hypergeometric_term_eq hn]
  constructor
  · rw [sum_pinf hne, ofNat_def, mul_pinf_pos two_pos]
    intro i hi
    obtain ⟨h1, h2, h3⟩ := key i hi
    rw [if_neg (not_pinf_lt _), fin_sub_pinf, XF.mul_comm', ninf_mul_neg]
    exact mul_neg_of_pos_of_neg h1 (by linarith)
  · rw [sum_pinf hne, ofNat_def, mul_pinf_pos two_pos]
    intro i hi
    obtain ⟨h1, h2, h3⟩ := key i hi
    rw [if_pos (ninf_lt_fin _), fin_sub_ninf, mul_pinf_pos]
    exact mul_pos h1 (by linarith)

theorem inf_beta {l u : ℝ} (h : l < u) (a b : XF) :
    Closed.beta pinf a b (fin l) (fin u) = .ok nan ∧ Closed.beta ninf a b (fin l) (fin u) = .ok nan := by
  have h' : 0 < u - l := by linarith
  have e1 : ∀ a b : XF, XF.betainc a b pinf = nan := by intro a b; cases a <;> cases b <;> rfl
  have e2 : ∀ a b : XF, XF.betainc a b ninf = nan := by intro a b; cases a <;> cases b <;> rfl
  have c : ¬ (¬ (XF.feq (fin l) 0 ∧ XF.feq (fin u) 1) ∧ fin u ≤ fin l) := fun h2 => by
    have := h2.2
    rw [fin_le] at this
    linarith
  have z : XF.min (XF.max nan 0) 1 = nan := by simp [XF.max, XF.min]
  unfold Closed.beta
  dsimp only
  rw [if_neg c, if_neg c]
  simp only [pinf_sub_fin, ninf_sub_fin, fin_sub, pinf_div_pos h', ninf_div_pos h', ite_self, e1, e2, z, mul_nan, nan_sub,
    nan_add, nan_mul, sub_nan, and_self]

theorem inf_negbinom {r p : ℝ} (hr : 0 < r) (h0 : 0 < p) (h1 : p ≤ 1) :
    Closed.negbinom ninf (fin r) (fin p) = pinf := by
  have h := (C81_negbinom hr h0 h1 (-1)).2.2
  have h' : Closed.negbinom (fin (-1)) (fin r) (fin p) = fin (crps (cdfPmf (pmfNegbinom r p)) (-1)) := by
    simpa [Api.crpsNegbinom] using h
  have e : ∀ n p : XF, negbinomCdf ninf n p = 0 := fun n p => by
    unfold negbinomCdf; rw [zero_def, if_pos (ninf_lt_fin 0)]
  have e' : ∀ (x : ℝ) (n p : XF), x < 0 → negbinomCdf (fin x) n p = 0 := fun x n p hx => by
    unfold negbinomCdf; rw [zero_def, if_pos (by rw [fin_lt]; exact hx)]
  unfold Closed.negbinom at h' ⊢
  dsimp only at h' ⊢
  rw [show (fin (-1) : XF) - 1 = fin (-2) by rw [one_def, fin_sub]; norm_num, e' _ _ _ (by norm_num),
    e' _ _ _ (by norm_num)] at h'
  rw [show (ninf : XF) - 1 = ninf from rfl, e, e]
  obtain ⟨-, v, hv⟩ := fin_of_sub h'
  rw [hv]
  simp only [zero_def, ofNat_def, one_def, fin_mul, fin_sub]
  norm_num only
  rw [ninf_mul_neg_one, pinf_sub_fin]

end Verif
