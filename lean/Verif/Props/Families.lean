import Verif.Lemmas.Scale
import Verif.Props.Closed
import Verif.Props.Logs

/-!
# C51: location-scale equivariance of the closed forms

`c > 0`; the observation and the bounds are any floats, including infinities and NaN, where the code
standardises them, and any reals in the other families.
-/

noncomputable section

open scoped Classical

namespace Verif

open XF Spec

variable (a μ : ℝ) {c σ : ℝ} (hc : 0 < c) (hσ : 0 < σ)

include hc hσ

/-- `crps_normal`. -/
theorem C51_normal (y : XF) :
    Closed.normal (fin a + fin c * y) (fin (a + c * μ)) (fin (c * σ))
      = fin c * Closed.normal y (fin μ) (fin σ) := by
  unfold Closed.normal
  simp only [std_inv a hc hσ, mul_mul_pos hc hσ]

/-- `crps_logistic`. -/
theorem C51_logistic (y : XF) :
    Closed.logistic (fin a + fin c * y) (fin (a + c * μ)) (fin (c * σ))
      = fin c * Closed.logistic y (fin μ) (fin σ) := by
  unfold Closed.logistic
  simp only [std_inv a hc hσ, mul_mul_pos hc hσ]

/-- `crps_laplace`. -/
theorem C51_laplace (y : XF) :
    Closed.laplace (fin a + fin c * y) (fin (a + c * μ)) (fin (c * σ))
      = fin c * Closed.laplace y (fin μ) (fin σ) := by
  unfold Closed.laplace
  simp only [std_inv a hc hσ, mul_mul_pos hc hσ]

/-- `crps_t`. -/
theorem C51_t (y df : XF) :
    Closed.t (fin a + fin c * y) df (fin (a + c * μ)) (fin (c * σ))
      = fin c * Closed.t y df (fin μ) (fin σ) := by
  unfold Closed.t
  simp only [std_inv a hc hσ, mul_mul_pos hc hσ]

/-- `crps_gpd`. -/
theorem C51_gpd (y shape mass : XF) :
    Closed.gpd (fin a + fin c * y) shape (fin (a + c * μ)) (fin (c * σ)) mass
      = fin c * Closed.gpd y shape (fin μ) (fin σ) mass := by
  unfold Closed.gpd
  simp only [std_inv a hc hσ, mul_mul_pos hc hσ]

/-- `crps_gev`. -/
theorem C51_gev (y shape : XF) :
    Closed.gev (fin a + fin c * y) shape (fin (a + c * μ)) (fin (c * σ))
      = fin c * Closed.gev y shape (fin μ) (fin σ) := by
  unfold Closed.gev
  simp only [std_inv a hc hσ]
  rw [XF.mul_comm' _ (fin (c * σ)), mul_mul_pos hc hσ, XF.mul_comm' (fin σ)]

/-- `crps_gtclogistic`. -/
theorem C51_gtclogistic (y l u L U : XF) :
    Closed.gtclogistic (fin a + fin c * y) (fin (a + c * μ)) (fin (c * σ)) (fin a + fin c * l)
      (fin a + fin c * u) L U = fin c * Closed.gtclogistic y (fin μ) (fin σ) l u L U := by
  unfold Closed.gtclogistic
  simp only [std_inv a hc hσ, mul_mul_pos hc hσ]

/-- `crps_gtcnormal`. -/
theorem C51_gtcnormal (y l u L U : XF) :
    Closed.gtcnormal (fin a + fin c * y) (fin (a + c * μ)) (fin (c * σ)) (fin a + fin c * l)
      (fin a + fin c * u) L U = fin c * Closed.gtcnormal y (fin μ) (fin σ) l u L U := by
  unfold Closed.gtcnormal
  simp only [std_inv a hc hσ, mul_mul_pos hc hσ]

/-- `crps_gtct`. -/
theorem C51_gtct (y df l u L U : XF) :
    Closed.gtct (fin a + fin c * y) df (fin (a + c * μ)) (fin (c * σ)) (fin a + fin c * l)
      (fin a + fin c * u) L U = fin c * Closed.gtct y df (fin μ) (fin σ) l u L U := by
  unfold Closed.gtct
  simp only [std_inv a hc hσ, mul_mul_pos hc hσ]

/-- `crps_tnormal`, `crps_cnormal`, `crps_tlogistic`, `crps_clogistic`, `crps_tt`, `crps_ct`. -/
theorem C51_truncated_censored (y df l u : XF) :
    Closed.tnormal (fin a + fin c * y) (fin (a + c * μ)) (fin (c * σ)) (fin a + fin c * l)
      (fin a + fin c * u) = fin c * Closed.tnormal y (fin μ) (fin σ) l u ∧
    Closed.cnormal (fin a + fin c * y) (fin (a + c * μ)) (fin (c * σ)) (fin a + fin c * l)
      (fin a + fin c * u) = fin c * Closed.cnormal y (fin μ) (fin σ) l u ∧
    Closed.tlogistic (fin a + fin c * y) (fin (a + c * μ)) (fin (c * σ)) (fin a + fin c * l)
      (fin a + fin c * u) = fin c * Closed.tlogistic y (fin μ) (fin σ) l u ∧
    Closed.clogistic (fin a + fin c * y) (fin (a + c * μ)) (fin (c * σ)) (fin a + fin c * l)
      (fin a + fin c * u) = fin c * Closed.clogistic y (fin μ) (fin σ) l u ∧
    Closed.tt (fin a + fin c * y) df (fin (a + c * μ)) (fin (c * σ)) (fin a + fin c * l)
      (fin a + fin c * u) = fin c * Closed.tt y df (fin μ) (fin σ) l u ∧
    Closed.ct (fin a + fin c * y) df (fin (a + c * μ)) (fin (c * σ)) (fin a + fin c * l)
      (fin a + fin c * u) = fin c * Closed.ct y df (fin μ) (fin σ) l u := by
  unfold Closed.tnormal Closed.cnormal Closed.tlogistic Closed.clogistic Closed.tt Closed.ct
  simp only [std_inv a hc hσ, C51_gtcnormal a μ hc hσ, C51_gtclogistic a μ hc hσ, C51_gtct a μ hc hσ,
    and_self]

/-- `crps_exponentialM`. -/
theorem C51_exponentialM {M : ℝ} (h0 : 0 ≤ M) (h1 : M ≤ 1) (y : ℝ) :
    Closed.exponentialM (fin (a + c * y)) (fin M) (fin (a + c * μ)) (fin (c * σ))
      = fin c * Closed.exponentialM (fin y) (fin M) (fin μ) (fin σ) := by
  rw [(C45_exponentialM (mul_pos hc hσ) h0 h1 _).2, (C45_exponentialM hσ h0 h1 _).2, fin_mul,
    ← affine_crps a hc]
  congr 2
  funext z
  unfold cdfExpM
  have e1 : z < a + c * μ ↔ (z - a) / c < μ := by rw [div_lt_iff₀ hc]; constructor <;> intro h <;> linarith
  have e2 : (z - (a + c * μ)) / (c * σ) = ((z - a) / c - μ) / σ := by field_simp; ring
  simp only [e1, e2]

example : (0 : ℝ) ≤ 1 / 4 ∧ (1 / 4 : ℝ) ≤ 1 ∧ (0 : ℝ) < 2 := by norm_num

/-- `logs_logistic`. -/
theorem C51_logs_logistic (y : XF) :
    Logs.logistic (fin a + fin c * y) (fin (a + c * μ)) (fin (c * σ))
      = Logs.logistic y (fin μ) (fin σ) + fin (Real.log c) := by
  unfold Logs.logistic
  simp only [std_inv a hc hσ, neg_log_scale hc hσ]

/-- `logs_laplace`. -/
theorem C51_logs_laplace (y : XF) :
    Logs.laplace (fin a + fin c * y) (fin (a + c * μ)) (fin (c * σ))
      = Logs.laplace y (fin μ) (fin σ) + fin (Real.log c) := by
  unfold Logs.laplace
  simp only [std_inv a hc hσ, neg_log_scale hc hσ]

/-- `logs_t`. -/
theorem C51_logs_t (y df : XF) :
    Logs.t (fin a + fin c * y) df (fin (a + c * μ)) (fin (c * σ))
      = Logs.t y df (fin μ) (fin σ) + fin (Real.log c) := by
  unfold Logs.t
  simp only [std_inv a hc hσ, neg_log_scale hc hσ]

/-- `logs_gpd`. -/
theorem C51_logs_gpd (y shape : XF) :
    Logs.gpd (fin a + fin c * y) shape (fin (a + c * μ)) (fin (c * σ))
      = Logs.gpd y shape (fin μ) (fin σ) + fin (Real.log c) := by
  unfold Logs.gpd
  simp only [std_inv a hc hσ]
  split_ifs with h
  · rfl
  · rw [neg_log_scale hc hσ]

/-- `logs_gev`. -/
theorem C51_logs_gev (y shape : XF) :
    Logs.gev (fin a + fin c * y) shape (fin (a + c * μ)) (fin (c * σ))
      = Logs.gev y shape (fin μ) (fin σ) + fin (Real.log c) := by
  unfold Logs.gev
  simp only [std_inv a hc hσ]
  split_ifs with h
  · rfl
  · rw [neg_log_scale hc hσ]

/-- `logs_tlogistic`. -/
theorem C51_logs_tlogistic (y l u : XF) :
    Logs.tlogistic (fin a + fin c * y) (fin (a + c * μ)) (fin (c * σ)) (fin a + fin c * l)
      (fin a + fin c * u) = Logs.tlogistic y (fin μ) (fin σ) l u + fin (Real.log c) := by
  unfold Logs.tlogistic
  simp only [std_inv a hc hσ]
  split_ifs with h
  · rfl
  · rw [neg_log_scale2 hc hσ]

/-- `logs_tnormal`. -/
theorem C51_logs_tnormal (y l u : XF) :
    Logs.tnormal (fin a + fin c * y) (fin (a + c * μ)) (fin (c * σ)) (fin a + fin c * l)
      (fin a + fin c * u) = Logs.tnormal y (fin μ) (fin σ) l u + fin (Real.log c) := by
  unfold Logs.tnormal
  simp only [std_inv a hc hσ]
  split_ifs with h
  · rfl
  · rw [neg_log_scale2 hc hσ]

/-- `logs_normal`. -/
theorem C51_logs_normal (y : XF) :
    Logs.normal (fin a + fin c * y) (fin (a + c * μ)) (fin (c * σ)) true
      = Logs.normal y (fin μ) (fin σ) true + fin (Real.log c) := by
  have e : ∀ x : XF, (-1 : XF) * x = -x := by
    intro x
    show fin (-1) * x = -x
    cases x with
    | nan => rfl
    | ninf => show XF.mul _ _ = XF.neg _; norm_num [XF.mul, XF.infMul, XF.neg]
    | pinf => show XF.mul _ _ = XF.neg _; norm_num [XF.mul, XF.infMul, XF.neg]
    | fin x => rw [fin_mul, fin_neg]; congr 1; ring
  unfold Logs.normal
  simp only [std_inv a hc hσ, if_true, e, neg_log_scale hc hσ]

/-- `logs_exponential2`. -/
theorem C51_logs_exponential2 (y : ℝ) :
    Logs.exponential2 (fin (a + c * y)) (fin (a + c * μ)) (fin (c * σ))
      = Logs.exponential2 (fin y) (fin μ) (fin σ) + fin (Real.log c) := by
  rw [(C57_exponential2 _ (mul_pos hc hσ)).2, (C57_exponential2 _ hσ).2, ← negLog_div hc]
  congr 1
  unfold densExp2
  have e2 : (a + c * y - (a + c * μ)) / (c * σ) = (y - μ) / σ := by field_simp; ring
  have e1 : a + c * y < a + c * μ ↔ y < μ := by simp [hc]
  simp only [e1, e2]
  split_ifs
  · simp
  · rw [div_div, mul_comm]

omit hσ

/-- `crps_2pexponential`. -/
theorem C51_2pexponential {σ1 σ2 : ℝ} (h1 : 0 < σ1) (h2 : 0 < σ2) (y : ℝ) :
    Closed.twopexponential (fin (a + c * y)) (fin (c * σ1)) (fin (c * σ2)) (fin (a + c * μ))
      = fin c * Closed.twopexponential (fin y) (fin σ1) (fin σ2) (fin μ) := by
  rw [(C47_2pexponential (mul_pos hc h1) (mul_pos hc h2) _ _).2, (C47_2pexponential h1 h2 _ _).2, fin_mul,
    ← affine_crps a hc]
  congr 2
  funext z
  unfold cdf2pexp
  have e1 : z < a + c * μ ↔ (z - a) / c < μ := by rw [div_lt_iff₀ hc]; constructor <;> intro h <;> linarith
  have e2 : ∀ σ : ℝ, 0 < σ → (z - (a + c * μ)) / (c * σ) = ((z - a) / c - μ) / σ := by
    intro σ hσ; field_simp; ring
  have e3 : ∀ σ : ℝ, c * σ / (c * σ1 + c * σ2) = σ / (σ1 + σ2) := by intro σ; field_simp
  simp only [e1, e2 _ h1, e2 _ h2, e3]

example : (0 : ℝ) < 1 ∧ (0 : ℝ) < 3 := by norm_num

/-- `crps_uniform`. -/
theorem C51_uniform {l u L U : ℝ} (hlu : l < u) (hL : 0 ≤ L) (hU : 0 ≤ U) (hLU : L + U < 1) (y : ℝ) :
    Closed.uniform (fin (a + c * y)) (fin (a + c * l)) (fin (a + c * u)) (fin L) (fin U)
      = fin c * Closed.uniform (fin y) (fin l) (fin u) (fin L) (fin U) := by
  have h' : a + c * l < a + c * u := by simpa using mul_lt_mul_of_pos_left hlu hc
  rw [(C43_uniform h' hL hU hLU _).2, (C43_uniform hlu hL hU hLU _).2, fin_mul, ← affine_crps a hc]
  congr 2
  funext z
  unfold cdfUniform
  have e1 : ∀ b : ℝ, z < a + c * b ↔ (z - a) / c < b := by
    intro b; rw [div_lt_iff₀ hc]; constructor <;> intro h <;> linarith
  have e2 : (z - (a + c * l)) / (a + c * u - (a + c * l)) = ((z - a) / c - l) / (u - l) := by
    rw [show a + c * u - (a + c * l) = c * (u - l) by ring]
    have : u - l ≠ 0 := (sub_pos.2 hlu).ne'
    field_simp; ring
  simp only [e1, e2]

example : (1 : ℝ) < 2 ∧ (0 : ℝ) ≤ 1 / 4 ∧ (0 : ℝ) ≤ 1 / 2 ∧ (1 / 4 + 1 / 2 : ℝ) < 1 := by norm_num

/-- `logs_2pexponential`. -/
theorem C51_logs_2pexponential {σ1 σ2 : ℝ} (h1 : 0 < σ1) (h2 : 0 < σ2) (y : ℝ) :
    Logs.twopexponential (fin (a + c * y)) (fin (c * σ1)) (fin (c * σ2)) (fin (a + c * μ))
      = Logs.twopexponential (fin y) (fin σ1) (fin σ2) (fin μ) + fin (Real.log c) := by
  rw [(C57_2pexponential _ (mul_pos hc h1) (mul_pos hc h2)).2, (C57_2pexponential _ h1 h2).2,
    ← negLog_div hc]
  congr 1
  unfold dens2pexp
  have e2 : ∀ σ : ℝ, 0 < σ → (a + c * y - (a + c * μ)) / (c * σ) = (y - μ) / σ := by
    intro σ hσ; field_simp; ring
  have e1 : a + c * y < a + c * μ ↔ y < μ := by simp [hc]
  simp only [e1, e2 _ h1, e2 _ h2, ← mul_add]
  split_ifs <;> rw [div_div, mul_comm c]

example : (0 : ℝ) < 1 ∧ (0 : ℝ) < 3 := by norm_num

/-- `logs_2pnormal`. -/
theorem C51_logs_2pnormal {σ1 σ2 : ℝ} (h1 : 0 < σ1) (h2 : 0 < σ2) (y : ℝ) :
    Logs.twopnormal (fin (a + c * y)) (fin (c * σ1)) (fin (c * σ2)) (fin (a + c * μ))
      = Logs.twopnormal (fin y) (fin σ1) (fin σ2) (fin μ) + fin (Real.log c) := by
  rw [(C57_2pnormal _ (mul_pos hc h1) (mul_pos hc h2)).2, (C57_2pnormal _ h1 h2).2, ← negLog_div hc]
  congr 1
  unfold dens2pnormal
  have e2 : ∀ σ : ℝ, 0 < σ → (a + c * y - (a + c * μ)) / (c * σ) = (y - μ) / σ := by
    intro σ hσ; field_simp; ring
  have e1 : a + c * y < a + c * μ ↔ y < μ := by simp [hc]
  simp only [e1, e2 _ h1, e2 _ h2, ← mul_add]
  split_ifs <;> field_simp

example : (0 : ℝ) < 1 ∧ (0 : ℝ) < 3 := by norm_num

/-- `logs_uniform`. -/
theorem C51_logs_uniform {l u : ℝ} (hlu : l < u) (y : ℝ) :
    Logs.uniform (fin (a + c * y)) (fin (a + c * l)) (fin (a + c * u))
      = Logs.uniform (fin y) (fin l) (fin u) + fin (Real.log c) := by
  have h' : a + c * l < a + c * u := by simpa using mul_lt_mul_of_pos_left hlu hc
  rw [(C57_uniform h').2, (C57_uniform hlu).2, ← negLog_div hc]
  congr 1
  unfold densUniform
  have e1 : ∀ p q : ℝ, a + c * p ≤ a + c * q ↔ p ≤ q := by
    intro p q; simp [hc]
  simp only [e1, show a + c * u - (a + c * l) = (u - l) * c by ring]
  split_ifs
  · rw [div_div]
  · simp

omit hc

/-- The theorems are not about NaN only. -/
example : Closed.laplace (fin 1 + fin 2 * fin 3) (fin (1 + 2 * 3)) (fin (2 * 1)) = fin (1 / 2) := by
  rw [C51_laplace 1 3 two_pos one_pos, (C46_laplace one_pos _ _).2]
  have h := (C46_laplace one_pos 3 3).2
  have e : Closed.laplace (fin 3) (fin 3) (fin 1) = fin (1 / 4) := by
    unfold Closed.laplace
    simp only [fin_sub, fin_div one_ne_zero, XF.ofNat_def, fin_abs, fin_neg, fin_exp, fin_add, fin_mul,
      fin_div (show (4:ℝ) ≠ 0 by norm_num)]
    norm_num
  rw [← h, e, fin_mul]
  norm_num

end Verif
