import Verif.Lemmas.BetaCrps
import Verif.Lemmas.LogsFin
import Verif.Model.Logs

/-!
# C57 (beta), C77: beta distribution
-/

noncomputable section

open scoped Classical Topology
open MeasureTheory Filter Set

namespace Verif

open XF Spec

theorem special_fin (l u : ℝ) : (¬ (XF.feq (fin l) 0 ∧ XF.feq (fin u) 1)) ↔ ¬ (l = 0 ∧ u = 1) := by
  simp only [XF.zero_def, XF.one_def, fin_feq]

/-- C77 fails: outside the interval `crps_beta` is NaN, where the CRPS is a number. -/
theorem C77_false_outside {a b l u y : ℝ} (ha : 0 < a) (hb : 0 < b) (hlu : l < u) (hy : y < l ∨ u < y) :
    HasCrps (cdfBeta a b l u) y ∧ Closed.beta (fin y) (fin a) (fin b) (fin l) (fin u) = .ok nan := by
  refine ⟨(crps_beta ha hb hlu y).1, ?_⟩
  have h : 0 < u - l := sub_pos.2 hlu
  have hz : ¬ (0 ≤ (y - l) / (u - l) ∧ (y - l) / (u - l) ≤ 1) := by
    rw [le_div_iff₀ h, div_le_one h]
    rintro ⟨h1, h2⟩
    rcases hy with hy | hy <;> linarith
  have hn : ∀ a' b' : XF, XF.betainc a' b' (fin ((y - l) / (u - l))) = nan := by
    intro a' b'
    unfold XF.betainc
    split
    · rename_i heq
      rw [fin_inj] at heq
      rw [if_neg]
      rintro ⟨-, -, h3, h4⟩
      rw [← heq] at h3 h4
      exact hz ⟨h3, h4⟩
    · rfl
  have hmx : XF.min (XF.max nan 0) 1 = nan := rfl
  unfold Closed.beta
  simp only [special_fin, fin_le, not_le.2 hlu, and_false, if_false]
  by_cases hs : ¬ (l = 0 ∧ u = 1)
  · simp only [if_pos hs, fin_sub, fin_div h.ne', hn, hmx, mul_nan, nan_sub, sub_nan, nan_add, add_nan, nan_mul]
  · simp only [if_neg hs]
    obtain ⟨rfl, rfl⟩ := not_not.1 hs
    simp only [sub_zero, div_one] at hn
    simp only [hn, hmx, mul_nan, nan_sub, sub_nan, nan_add, add_nan, nan_mul]

/-- What holds: `crps_beta` is the CRPS of the beta distribution at observations in the interval.  Missing:
the others, where it is false. -/
theorem C77_partial {a b l u y : ℝ} (ha : 0 < a) (hb : 0 < b) (hlu : l < u) (hy : l ≤ y ∧ y ≤ u) :
    HasCrps (cdfBeta a b l u) y ∧
    Closed.beta (fin y) (fin a) (fin b) (fin l) (fin u) = .ok (fin (Spec.crps (cdfBeta a b l u) y)) := by
  obtain ⟨h1, h2⟩ := crps_beta ha hb hlu y
  refine ⟨h1, ?_⟩
  rw [h2]
  have h : 0 < u - l := sub_pos.2 hlu
  have ha1 : 0 < a + 1 := by linarith
  have hab : a + b ≠ 0 := by positivity
  have hB := betaF_pos ha hb
  have hBB : a * betaF a b ^ 2 ≠ 0 := by positivity
  have z0 : 0 ≤ (y - l) / (u - l) := div_nonneg (by linarith) h.le
  have z1 : (y - l) / (u - l) ≤ 1 := by rw [div_le_one h]; linarith
  have e1 : fin a + 1 = fin (a + 1) := by rw [XF.one_def, fin_add]
  have e2 : ∀ c : ℝ, (2 : XF) * fin c = fin (2 * c) := fun c => by rw [XF.ofNat_def, fin_mul]
  have clip : ∀ c : ℝ, 0 ≤ c → c ≤ 1 → XF.min (XF.max (fin c) 0) 1 = fin c := by
    intro c h0 h1
    rw [XF.zero_def, XF.one_def, fin_max, max_eq_left h0, fin_min, min_eq_left h1]
  have main : ∀ z : ℝ, 0 ≤ z → z ≤ 1 →
      fin z * (2 * XF.min (XF.max (XF.betainc (fin a) (fin b) (fin z)) 0) 1 - 1)
        + fin a / (fin a + fin b) * (1 - 2 * XF.min (XF.max (XF.betainc (fin a + 1) (fin b) (fin z)) 0) 1
          - 2 * XF.beta (2 * fin a) (2 * fin b) / (fin a * XF.beta (fin a) (fin b) ^ 2))
      = fin (z * (2 * bF a b z - 1) + a / (a + b) * (1 - 2 * bF (a + 1) b z
          - 2 * betaF (2 * a) (2 * b) / (a * betaF a b ^ 2))) := by
    intro z h0 h1
    rw [e1, betainc_fin ha hb h0 h1, betainc_fin ha1 hb h0 h1, clip _ (bF_nonneg ha hb z) (bF_le ha hb z),
      clip _ (bF_nonneg ha1 hb z) (bF_le ha1 hb z), beta_fin ha hb, e2 a, e2 b,
      beta_fin (show 0 < 2 * a by linarith) (show 0 < 2 * b by linarith)]
    simp only [e2, XF.one_def, fin_sub, fin_mul, fin_add, fin_pow, fin_div hab, fin_div hBB]
  unfold Closed.beta
  simp only [special_fin, fin_le, not_le.2 hlu, and_false, if_false]
  by_cases hs : ¬ (l = 0 ∧ u = 1)
  · simp only [if_pos hs, fin_sub, fin_div h.ne']
    rw [main _ z0 z1, fin_mul, mul_comm]
  · simp only [if_neg hs]
    obtain ⟨rfl, rfl⟩ := not_not.1 hs
    rw [main y hy.1 hy.2]
    norm_num

example : HasCrps (cdfBeta 2 3 0 1) (1 / 2) :=
  (C77_partial two_pos three_pos one_pos ⟨by norm_num, by norm_num⟩).1

example : Closed.beta (fin 2) (fin 2) (fin 3) (fin 0) (fin 1) = .ok nan :=
  (C77_false_outside two_pos three_pos one_pos (Or.inr (by norm_num))).2

/-- The distribution function is not degenerate: the uniform distribution is a case. -/
example (y : ℝ) (h0 : 0 ≤ y) (h1 : y ≤ 1) : cdfBeta 1 1 0 1 y = y := by
  rw [cdfBeta_eq one_pos]
  simp only [sub_zero, div_one]
  rw [bF, prim_bK one_pos one_pos h0 h1]
  norm_num [betaF, Real.Gamma_two]

/-! ### C57: logarithmic score -/

theorem densBeta_nonneg {a b l u : ℝ} (ha : 0 < a) (hb : 0 < b) (hlu : l < u) (x : ℝ) :
    0 ≤ densBeta a b l u x := by
  rw [bF_scale hlu]
  exact mul_nonneg (inv_nonneg.2 (sub_pos.2 hlu).le) (div_nonneg (bK_nonneg _ _ _) (betaF_pos ha hb).le)

theorem dist_beta {a b l u : ℝ} (ha : 0 < a) (hb : 0 < b) (hlu : l < u) :
    IsDensity (densBeta a b l u) (cdfBeta a b l u) := by
  have h : 0 < u - l := sub_pos.2 hlu
  have hB := betaF_pos ha hb
  have e : densBeta a b l u = fun x => (u - l)⁻¹ * (bK a b ((x - l) / (u - l)) / betaF a b) :=
    funext (bF_scale hlu)
  refine ⟨densBeta_nonneg ha hb hlu, ?_, ?_, fun y => rfl⟩
  · rw [e]
    exact ((((bK_integrable ha hb).comp_div h.ne').comp_sub_right l).div_const _).const_mul _
  · rw [e, integral_const_mul, integral_div,
      integral_sub_right_eq_self (fun x => bK a b (x / (u - l))) l,
      Measure.integral_comp_div, bK_integral ha hb, abs_of_pos h, smul_eq_mul]
    field_simp

/-- `logs_beta`, at observations other than the two ends of the interval. -/
theorem C57_beta {a b l u : ℝ} (ha : 0 < a) (hb : 0 < b) (hlu : l < u) :
    IsDensity (densBeta a b l u) (cdfBeta a b l u) ∧
    ∀ y, y ≠ l → y ≠ u → Logs.beta (fin y) (fin a) (fin b) (fin l) (fin u) = negLog (densBeta a b l u y) := by
  refine ⟨dist_beta ha hb hlu, fun y hl hu => ?_⟩
  have h : 0 < u - l := sub_pos.2 hlu
  have hB := betaF_pos ha hb
  unfold Logs.beta
  simp only [fin_sub, fin_div h.ne', XF.zero_def, XF.one_def, fin_lt, beta_fin ha hb]
  by_cases hin : l < y ∧ y < u
  · have z0 : 0 < (y - l) / (u - l) := div_pos (by linarith) h
    have z1 : (y - l) / (u - l) < 1 := by rw [div_lt_one h]; linarith
    have hn : ¬ ((y - l) / (u - l) < 0 ∨ 1 < (y - l) / (u - l)) := by
      rintro (h | h) <;> linarith
    simp only [if_neg hn, fin_sub, pow_fin_pos z0, pow_fin_pos (sub_pos.2 z1), fin_mul, fin_div hB.ne',
      fin_div h.ne']
    rw [log_fin_nonneg (by positivity [sub_pos.2 z1]), densBeta, if_pos hin]
    rfl
  · have hout : (y - l) / (u - l) < 0 ∨ 1 < (y - l) / (u - l) := by
      rw [div_lt_iff₀ h, lt_div_iff₀ h]
      by_cases h1 : l < y
      · right
        have : u < y := lt_of_le_of_ne (not_lt.1 fun h2 => hin ⟨h1, h2⟩) (Ne.symm hu)
        linarith
      · left
        have : y < l := lt_of_le_of_ne (not_lt.1 h1) hl
        linarith
    simp only [if_pos hout]
    rw [densBeta, if_neg hin, negLog, if_pos rfl]

example : Logs.beta (fin (1 / 2)) (fin 1) (fin 1) (fin 0) (fin 1) = fin 0 := by
  rw [(C57_beta one_pos one_pos one_pos).2 _ (by norm_num) (by norm_num)]
  norm_num [densBeta, negLog, Real.Gamma_two]

end Verif
