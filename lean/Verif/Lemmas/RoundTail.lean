import Verif.Model.RoundTail
import Verif.Model.Logs
import Verif.Model.Closed
import Verif.Lemmas.RoundingEns

/-!
# Lemmas on rounded Pareto and extreme value scores
-/

noncomputable section

open scoped Classical

namespace Verif

open XF

theorem tail_pow_one (y : XF) : XF.pow (fin 1) y = fin 1 := by
  unfold XF.pow
  have h1 : (1 : XF) = fin 1 := rfl
  simp [h1]

section
variable {r : ℝ → XF} (hr : Binary64 r)
include hr

omit hr in
theorem tail_std {y : ℝ} (hy : r y = fin y) : Rnd.std r (fin y) (fin 0) (fin 1) = fin y := by
  unfold Rnd.std
  rw [fin_sub, sub_zero]
  show Rnd.rd r (r y / fin 1) = fin y
  rw [hy, fin_div one_ne_zero, div_one]
  exact hy

theorem tail_rd_one : Rnd.rd r (fin 1) = fin 1 := by
  have := hr.nat 1 (by norm_num)
  simpa [Rnd.rd] using this

/-- One plus a small shape times the observation is one. -/
theorem tail_base {ξ y : ℝ} (h0 : |ξ| ≤ 1 / 2 ^ 60) (hy : |y| ≤ 32) :
    Rnd.rd r (fin 1 + Rnd.rd r (fin ξ * fin y)) = fin 1 := by
  have hm : |ξ * y| ≤ 1 / 2 ^ 55 := by
    rw [abs_mul]
    calc |ξ| * |y| ≤ 1 / 2 ^ 60 * 32 := mul_le_mul h0 hy (abs_nonneg _) (by positivity)
      _ = 1 / 2 ^ 55 := by norm_num
  have hlt : |ξ * y| < 2 ^ 1023 :=
    (hm.trans (by norm_num : (1:ℝ) / 2 ^ 55 ≤ 1)).trans_lt (one_lt_pow₀ (by norm_num) (by norm_num))
  obtain ⟨δ, η, hδ, hη, e⟩ := hr.acc hlt
  have hη' : |η| ≤ 1 / 2 ^ 60 :=
    hη.trans (one_div_le_one_div_of_le (by positivity) (pow_le_pow_right₀ (by norm_num) (by norm_num)))
  have hδ' : |1 + δ| ≤ 3 / 2 := by
    have : |δ| ≤ 1 / 2 := hδ.trans (by norm_num)
    rw [abs_le] at *; constructor <;> linarith [this.1, this.2]
  rw [fin_mul]
  show Rnd.rd r (fin 1 + r (ξ * y)) = fin 1
  rw [e, fin_add]
  refine hr.one ?_
  have : |ξ * y * (1 + δ)| ≤ 1 / 2 ^ 55 * (3 / 2) := by
    rw [abs_mul]; exact mul_le_mul hm hδ' (abs_nonneg _) (by positivity)
  have h2 := abs_add_le (ξ * y * (1 + δ)) η
  rw [add_sub_cancel_left]
  refine h2.trans ((add_le_add this hη').trans ?_)
  norm_num

theorem tail_gpdPdf {ξ y : ℝ} (h0 : 0 < ξ) (h1 : ξ ≤ 1 / 2 ^ 60) (hy0 : 0 ≤ y) (hy : y ≤ 32) :
    Rnd.gpdPdf r (fin y) (fin ξ) = fin 1 := by
  have hb := tail_base hr (ξ := ξ) (y := y) (by rwa [abs_of_pos h0]) (by rwa [abs_of_nonneg hy0])
  unfold Rnd.gpdPdf
  simp only [XF.zero_def, XF.one_def, fin_feq, fin_le, h0.ne', h0.le, hy0, and_self, true_or, if_true, if_false, hb,
    tail_pow_one, tail_rd_one hr]

theorem tail_gpdCdf {ξ y : ℝ} (h0 : 0 < ξ) (h1 : ξ ≤ 1 / 2 ^ 60) (hy0 : 0 ≤ y) (hy : y ≤ 32) :
    Rnd.gpdCdf r (fin y) (fin ξ) = fin 0 := by
  have hb := tail_base hr (ξ := ξ) (y := y) (by rwa [abs_of_pos h0]) (by rwa [abs_of_nonneg hy0])
  have hz : Rnd.rd r (fin 0) = fin 0 := by
    have := hr.nat 0 (by norm_num)
    simpa [Rnd.rd] using this
  unfold Rnd.gpdCdf
  simp only [XF.zero_def, XF.one_def, fin_feq, fin_le, fin_lt, h0.ne', h0, hy0, or_true, not_true, false_and,
    if_true, if_false, and_self, hb, tail_pow_one, tail_rd_one hr, fin_sub, sub_self, hz]

theorem tail_gevPdf {ξ y : ℝ} (h0 : 0 < |ξ|) (h1 : |ξ| ≤ 1 / 2 ^ 60) (hy : |y| ≤ 32) :
    Rnd.gevPdf r (fin y) (fin ξ) = Rnd.rd r (fin 1 * Rnd.rd r (XF.exp (-fin 1))) := by
  have hb := tail_base hr h1 hy
  have hne : ξ ≠ 0 := abs_pos.1 h0
  have hm : |y * ξ| ≤ 1 / 2 := by
    rw [abs_mul]
    calc |y| * |ξ| ≤ 32 * (1 / 2 ^ 60) := mul_le_mul hy h1 (abs_nonneg _) (by positivity)
      _ ≤ 1 / 2 := by norm_num
  have hsupp : fin (-1) < Rnd.rd r (fin (y * ξ)) := by
    have hlt : |y * ξ| < 2 ^ 1023 := (hm.trans (by norm_num : (1:ℝ) / 2 ≤ 1)).trans_lt (one_lt_pow₀ (by norm_num) (by norm_num))
    obtain ⟨δ, η, hδ, hη, e⟩ := hr.acc hlt
    have hη' : |η| ≤ 1 / 8 := hη.trans (by
      have : (8:ℝ) = 2 ^ 3 := by norm_num
      rw [this]
      exact one_div_le_one_div_of_le (by positivity) (pow_le_pow_right₀ (by norm_num) (by norm_num)))
    have h3 : |y * ξ * δ| ≤ 1 / 2 * (1 / 8) := by
      rw [abs_mul]; exact mul_le_mul hm (hδ.trans (by norm_num)) (abs_nonneg _) (by positivity)
    show fin (-1) < r (y * ξ)
    rw [e, fin_lt]
    rw [abs_le] at hm hη' h3
    linarith [hm.1, hη'.1, h3.1]
  have hb' : Rnd.rd r (fin 1 + Rnd.rd r (fin (y * ξ))) = fin 1 := by
    rw [fin_mul, mul_comm] at hb; exact hb
  unfold Rnd.gevPdf
  simp only [XF.zero_def, XF.one_def, fin_feq, hne, not_false_eq_true, true_and, or_false, if_false, fin_mul, fin_neg,
    hsupp, if_true, hb', tail_pow_one, tail_rd_one hr]

end

/-- `n ^ x` with small positive shape: `(1 + ξ y) ^ (1 / ξ) ≥ 1 + y`. -/
theorem tail_bernoulli {ξ y : ℝ} (h0 : 0 < ξ) (h1 : ξ ≤ 1) (hy : 0 ≤ y) : 1 + y ≤ (1 + ξ * y) ^ (1 / ξ) := by
  have h := one_add_mul_self_le_rpow_one_add (s := ξ * y) (by nlinarith) (p := 1 / ξ) (by rw [le_div_iff₀ h0]; linarith)
  rwa [← mul_assoc, one_div_mul_cancel h0.ne', one_mul] at h

theorem tail_log {ξ y : ℝ} (h0 : 0 < ξ) (hy : 0 ≤ y) (h : ξ * y ≤ 1) :
    y / 2 ≤ (ξ + 1) / ξ * Real.log (1 + ξ * y) := by
  have hp : 0 < 1 + ξ * y := by positivity
  have h1 := Real.one_sub_inv_le_log_of_pos hp
  have h2 : 1 - (1 + ξ * y)⁻¹ = ξ * y / (1 + ξ * y) := by field_simp; ring
  rw [h2] at h1
  calc y / 2 ≤ y / (1 + ξ * y) := div_le_div_of_nonneg_left hy hp (by linarith)
    _ ≤ (ξ + 1) * (y / (1 + ξ * y)) := le_mul_of_one_le_left (by positivity) (by linarith)
    _ = (ξ + 1) / ξ * (ξ * y / (1 + ξ * y)) := by field_simp
    _ ≤ _ := mul_le_mul_of_nonneg_left h1 (by positivity)

theorem tail_log_rel {a b : ℝ} {k : ℕ} (ha : 0 < a) (hk : k ≤ 1000) (h : |b - a| ≤ k / 2 ^ 53 * |a|) :
    0 < b ∧ |Real.log b - Real.log a| ≤ 2 * k / 2 ^ 53 := by
  have hk' : (k : ℝ) ≤ 1000 := by exact_mod_cast hk
  have hs : (k : ℝ) / 2 ^ 53 ≤ 1 / 2 := by rw [div_le_iff₀ (by positivity)]; exact hk'.trans (by norm_num)
  have hs0 : (0 : ℝ) ≤ k / 2 ^ 53 := by positivity
  have e2 : (2:ℝ) * k / 2 ^ 53 = 2 * (k / 2 ^ 53) := by ring
  rw [e2]
  generalize (k : ℝ) / 2 ^ 53 = d at *
  rw [abs_of_pos ha] at h
  obtain ⟨h1, h2⟩ := abs_le.1 h
  have hb : 0 < b := by nlinarith
  refine ⟨hb, ?_⟩
  have hq : 0 < b / a := div_pos hb ha
  rw [← Real.log_div hb.ne' ha.ne']
  have hl : 1 - d ≤ b / a := by rw [le_div_iff₀ ha]; linarith
  have hu : b / a ≤ 1 + d := by rw [div_le_iff₀ ha]; linarith
  rw [abs_le]
  constructor
  · refine le_trans ?_ (Real.one_sub_inv_le_log_of_pos hq)
    have : (b / a)⁻¹ ≤ (1 - d)⁻¹ := inv_anti₀ (by linarith) hl
    have h3 : (1 - d)⁻¹ ≤ 1 + 2 * d := by
      rw [inv_le_iff_one_le_mul₀ (by linarith)]; nlinarith
    linarith
  · have := Real.log_le_sub_one_of_pos hq
    linarith

theorem tail_exp_rel {a b e : ℝ} (he : e ≤ 1) (h : |b - a| ≤ e) :
    |Real.exp (-b) - Real.exp (-a)| ≤ 2 * e * Real.exp (-a) := by
  have h1 : Real.exp (-b) = Real.exp (-a) * Real.exp (a - b) := by rw [← Real.exp_add]; congr 1; ring
  have h2 : Real.exp (-b) - Real.exp (-a) = Real.exp (-a) * (Real.exp (a - b) - 1) := by rw [h1]; ring
  have h3 : |a - b| ≤ e := by rwa [abs_sub_comm]
  have h4 := Real.abs_exp_sub_one_le (h3.trans he)
  rw [h2, abs_mul, abs_of_pos (Real.exp_pos _), mul_comm]
  exact mul_le_mul_of_nonneg_right (h4.trans (by linarith)) (Real.exp_pos _).le

theorem tail_pow_self (b : ℝ) : XF.pow (fin b) (fin 1) = fin b := by
  have h0 : ¬ (fin 1 = (0 : XF)) := by rw [XF.zero_def]; intro h; exact one_ne_zero (XF.fin.inj h)
  have h1 : ∃ n : ℤ, (n : ℝ) = 1 := ⟨1, by norm_num⟩
  unfold XF.pow
  simp only [h0, if_false, Real.rpow_one, h1, if_true, zero_lt_one]
  split_ifs with h2 h3 h4
  · rw [h2, XF.one_def]
  · rfl
  · rw [h4]
  · rfl

end Verif
