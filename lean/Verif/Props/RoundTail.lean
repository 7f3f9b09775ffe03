import Verif.Lemmas.RoundTail
import Verif.Lemmas.Nearest64
import Verif.Props.Closed
import Verif.Props.Logs
import Verif.Props.Gev

/-!
# Generalised Pareto and extreme value scores in binary64

The claim would be that the computed scores are close to the exact ones for every shape.  It fails for small shapes
other than zero, since `1 + shape * x` is rounded to one before it is raised to a power of the order of `1 / shape`.
-/

noncomputable section

open scoped Classical

namespace Verif

open XF Spec

/-- Without rounding the functions below are the functions of the exact model. -/
theorem C147_exact :
    Rnd.crpsGpd fin = Closed.gpd ∧ Rnd.logsGpd fin = Logs.gpd ∧ Rnd.logsGev fin = Logs.gev := by
  have h : ∀ x : XF, Rnd.rd fin x = x := by intro x; cases x <;> rfl
  refine ⟨?_, ?_, ?_⟩
  · funext y s l c m
    simp only [Rnd.crpsGpd, Rnd.gpdCdf, Rnd.std, Closed.gpd, Stats.gpdCdf, h]
  · funext y s l c
    simp only [Rnd.logsGpd, Rnd.gpdPdf, Rnd.std, Logs.gpd, Stats.gpdPdf, h]
    congr!
  · funext y s l c
    simp only [Rnd.logsGev, Rnd.gevPdf, Rnd.std, Logs.gev, Stats.gevPdf, h]
    congr!

example : Rnd.logsGpd fin (fin 1) (fin 0) (fin 0) (fin 1) = Logs.gpd (fin 1) (fin 0) (fin 0) (fin 1) := by
  rw [C147_exact.2.1]

/-- For positive shapes up to `2 ^ -60` the computed logarithmic score of the generalised Pareto law is zero at every
observation from 0 to 32, while the exact score is half the observation or more. -/
theorem C147_logs_gpd_false {r : ℝ → XF} (hr : Binary64 r) {ξ y : ℝ} (h0 : 0 < ξ) (h1 : ξ ≤ 1 / 2 ^ 60)
    (hy : r y = fin y) (hy0 : 0 ≤ y) (hy1 : y ≤ 32) :
    Rnd.logsGpd r (fin y) (fin ξ) (fin 0) (fin 1) = fin 0 ∧
    ∃ s, negLog (densGpd ξ 0 1 y) = fin s ∧ Logs.gpd (fin y) (fin ξ) (fin 0) (fin 1) = fin s ∧ y / 2 ≤ s := by
  constructor
  · have hz : Rnd.rd r (fin 0) = fin 0 := by
      have := hr.nat 0 (by norm_num)
      simpa [Rnd.rd] using this
    unfold Rnd.logsGpd
    simp only [tail_std hy, tail_gpdPdf hr h0 h1 hy0 hy1, XF.zero_def, fin_feq, one_ne_zero, if_false, fin_div one_ne_zero, div_one, tail_rd_one hr]
    have : XF.log (fin 1) = fin 0 := by simp [XF.log]
    rw [this, hz, fin_neg, neg_zero]
  · have hm : ξ * y ≤ 1 := by
      calc ξ * y ≤ 1 / 2 ^ 60 * 32 := mul_le_mul h1 hy1 hy0 (by positivity)
        _ ≤ 1 := by norm_num
    have hp : 0 < 1 + ξ * y := by positivity
    have hd : densGpd ξ 0 1 y = (1 + ξ * y) ^ (-(ξ + 1) / ξ) := by
      simp only [densGpd, sub_zero, div_one, not_lt.2 hy0, h0.ne', not_lt.2 h0.le, false_and, if_false]
    have e : negLog (densGpd ξ 0 1 y) = fin ((ξ + 1) / ξ * Real.log (1 + ξ * y)) := by
      rw [hd, negLog, if_neg (Real.rpow_pos_of_pos hp _).ne', Real.log_rpow hp]
      congr 1; ring
    refine ⟨_, e, ?_, tail_log h0 hy0 hm⟩
    rw [(C57_gpd ξ 0 one_pos).2 y (fun h => by linarith [h.1]), e]

example : ∃ s, Logs.gpd (fin 20) (fin (1 / 2 ^ 60)) (fin 0) (fin 1) = fin s ∧ (10 : ℝ) ≤ s ∧
    Rnd.logsGpd rn64 (fin 20) (fin (1 / 2 ^ 60)) (fin 0) (fin 1) = fin 0 := by
  have hr := rn64_nearest.toBinary64
  obtain ⟨h1, s, _, h2, h3⟩ := C147_logs_gpd_false hr (ξ := 1 / 2 ^ 60) (y := 20) (by positivity) le_rfl
    (by have := hr.nat 20 (by norm_num); simpa using this) (by norm_num) (by norm_num)
  exact ⟨s, h2, by linarith, h1⟩

/-- For shapes of either sign up to `2 ^ -60` the computed logarithmic score of the generalised extreme value law is
one number below 2 for all observations from -32 to 32; the exact score is half the observation or more for positive
shapes and observations. -/
theorem C147_logs_gev_false {r : ℝ → XF} (hr : Binary64 r) :
    ∃ c : ℝ, c ≤ 2 ∧
      (∀ ξ y : ℝ, 0 < |ξ| → |ξ| ≤ 1 / 2 ^ 60 → r y = fin y → |y| ≤ 32 →
        Rnd.logsGev r (fin y) (fin ξ) (fin 0) (fin 1) = fin c) ∧
      ∀ ξ y : ℝ, 0 < ξ → ξ ≤ 1 / 2 ^ 60 → 0 ≤ y → y ≤ 32 →
        ∃ s, negLog (densGev ξ 0 1 y) = fin s ∧ Logs.gev (fin y) (fin ξ) (fin 0) (fin 1) = fin s ∧ y / 2 ≤ s := by
  have hmid : Mid |Real.exp (-1)| := by
    rw [abs_of_pos (Real.exp_pos _)]
    have h1 : Real.exp (-1) ≤ 1 := Real.exp_le_one_iff.2 (by norm_num)
    have h2 : (1:ℝ) / 4 ≤ Real.exp (-1) := by
      have := Real.exp_neg_one_gt_d9
      exact le_trans (by norm_num) this.le
    refine ⟨le_trans ?_ h2, h1.trans (one_le_pow₀ (by norm_num))⟩
    have : (4:ℝ) = 2 ^ 2 := by norm_num
    rw [this]
    exact one_div_le_one_div_of_le (by positivity) (pow_le_pow_right₀ (by norm_num) (by norm_num))
  have R1 := rd_rel hr hmid
  have R2 := ((Rel.mul (Rel.fin 1) R1 (by norm_num) (by norm_num)).rd hr (by norm_num) (by rwa [one_mul]))
  rw [one_mul] at R2
  obtain ⟨b, hb, hb2⟩ := R2
  obtain ⟨hbp, _⟩ := tail_log_rel (Real.exp_pos _) (by norm_num) hb2
  have R3 : Rel (Rnd.rd r (fin b / fin 1)) (Real.exp (-1)) 13 := by
    rw [fin_div one_ne_zero, div_one]
    exact Rel.rd hr ⟨b, rfl, hb2⟩ (by norm_num) hmid
  obtain ⟨d, hd, hd2⟩ := R3
  obtain ⟨hdp, hdl⟩ := tail_log_rel (Real.exp_pos _) (by norm_num) hd2
  rw [Real.log_exp] at hdl
  have R4 : Near (Rnd.rd r (fin (Real.log d))) (-1) (2 * (13 : ℕ) / 2 ^ 53 + 1 * (1 / 2 ^ 51)) :=
    Near.rd hr ⟨_, rfl, hdl⟩ ⟨by rw [div_le_one (by positivity)]; exact one_le_pow₀ (by norm_num),
      one_le_pow₀ (by norm_num)⟩ (by norm_num) (by norm_num)
  obtain ⟨c, hc, hc2⟩ := R4
  refine ⟨-c, ?_, ?_, ?_⟩
  · have : |c - -1| ≤ 1 := hc2.trans (by norm_num)
    linarith [(abs_le.1 this).1]
  · intro ξ y h0 h1 hy hy1
    have hlog : XF.log (fin d) = fin (Real.log d) := by simp [XF.log, hdp]
    have hx : XF.exp (fin (-1)) = fin (Real.exp (-1)) := rfl
    unfold Rnd.logsGev
    simp only [tail_std hy, tail_gevPdf hr h0 h1 hy1, hx, hb, XF.zero_def, fin_feq, hbp.ne', if_false, hd, hlog, hc, fin_neg]
  · intro ξ y h0 h1 hy0 hy1
    have hm : ξ * y ≤ 1 := by
      calc ξ * y ≤ 1 / 2 ^ 60 * 32 := mul_le_mul h1 hy1 hy0 (by positivity)
        _ ≤ 1 := by norm_num
    have hp : 0 < 1 + ξ * y := by positivity
    have hd : densGev ξ 0 1 y = (1 + ξ * y) ^ (-1 / ξ - 1) * Real.exp (-(1 + ξ * y) ^ (-1 / ξ)) := by
      simp only [densGev, densGev0, sub_zero, div_one, h0.ne', hp, if_true, if_false]
    have hpp := Real.rpow_pos_of_pos hp (-1 / ξ - 1)
    have e : negLog (densGev ξ 0 1 y) =
        fin ((ξ + 1) / ξ * Real.log (1 + ξ * y) + (1 + ξ * y) ^ (-1 / ξ)) := by
      rw [hd, negLog, if_neg (mul_pos hpp (Real.exp_pos _)).ne', Real.log_mul hpp.ne' (Real.exp_pos _).ne',
        Real.log_rpow hp, Real.log_exp]
      congr 1; field_simp; ring
    refine ⟨_, e, ?_, (tail_log h0 hy0 hm).trans (le_add_of_nonneg_right (Real.rpow_pos_of_pos hp _).le)⟩
    rw [(C57_gev ξ 0 one_pos).2 y, e]

example : ∃ c s : ℝ, Rnd.logsGev rn64 (fin 20) (fin (1 / 2 ^ 60)) (fin 0) (fin 1) = fin c ∧
    Logs.gev (fin 20) (fin (1 / 2 ^ 60)) (fin 0) (fin 1) = fin s ∧ c ≤ 2 ∧ 10 ≤ s := by
  have hr := rn64_nearest.toBinary64
  obtain ⟨c, h1, h2, h3⟩ := C147_logs_gev_false hr
  obtain ⟨s, _, h4, h5⟩ := h3 (1 / 2 ^ 60) 20 (by positivity) le_rfl (by norm_num) (by norm_num)
  refine ⟨c, s, h2 _ _ (by positivity) (by rw [abs_of_pos (by positivity)]) ?_ (by norm_num), h4, h1, by linarith⟩
  have := hr.nat 20 (by norm_num); simpa using this

/-- For positive shapes up to `2 ^ -60` the computed CRPS of the generalised Pareto law is the observation or more,
for every observation from 8 to 32, while the exact score is smaller than the observation by at least 3/4. -/
theorem C147_crps_gpd_false {r : ℝ → XF} (hr : Binary64 r) {ξ y : ℝ} (h0 : 0 < ξ) (h1 : ξ ≤ 1 / 2 ^ 60)
    (hy : r y = fin y) (hy0 : 8 ≤ y) (hy1 : y ≤ 32) :
    (∃ v, Rnd.crpsGpd r (fin y) (fin ξ) (fin 0) (fin 1) (fin 0) = fin v ∧ y ≤ v) ∧
    Closed.gpd (fin y) (fin ξ) (fin 0) (fin 1) (fin 0) = fin (crps (cdfGpd 0 ξ 0 1) y) ∧
    crps (cdfGpd 0 ξ 0 1) y ≤ y - 3 / 4 := by
  have hyn : 0 ≤ y := by linarith
  have hx1 : ξ < 1 := lt_of_le_of_lt h1 (by norm_num)
  have hz : Rnd.rd r (fin 0) = fin 0 := by
    have := hr.nat 0 (by norm_num)
    simpa [Rnd.rd] using this
  have h1r := tail_rd_one hr
  have h2r : Rnd.rd r (fin 2) = fin 2 := by
    have := hr.nat 2 (by norm_num)
    simpa [Rnd.rd] using this
  have hξ : Rnd.rd r (fin (1 - ξ)) = fin 1 := by
    refine hr.one ?_
    rw [sub_sub_cancel_left, abs_neg, abs_of_pos h0]
    exact h1.trans (by norm_num)
  refine ⟨?_, (C49_gpd one_pos hx1 le_rfl zero_le_one 0 y).2, ?_⟩
  · have hmid : ∀ B : ℝ, 1 ≤ B → B ≤ 64 → Mid B := by
      intro B hB hB'
      refine ⟨le_trans ?_ hB, hB'.trans ?_⟩
      · rw [div_le_one (by positivity)]; exact one_le_pow₀ (by norm_num)
      · have : (64:ℝ) = 2 ^ 6 := by norm_num
        rw [this]; exact pow_le_pow_right₀ (by norm_num) (by norm_num)
    have N2 := Near.rd hr (near_fin (2 - ξ)) (hmid 2 (by norm_num) (by norm_num))
      (by rw [abs_le]; constructor <;> linarith) (by norm_num)
    obtain ⟨d, hd, hd2⟩ := N2
    have hd' : |d - (2 - ξ)| ≤ 1 / 2 := hd2.trans (by norm_num)
    rw [abs_le] at hd'
    have hd1 : 1 / 2 ≤ d := by linarith [hd'.1]
    have N3 := Near.rd hr (near_fin (1 / d)) (hmid 2 (by norm_num) (by norm_num))
      (by rw [abs_of_nonneg (by positivity), div_le_iff₀ (by linarith)]; linarith) (by norm_num)
    obtain ⟨q, hq, hq2⟩ := N3
    have hq0 : 0 ≤ q := by
      have hm := hr.mono (show (0:ℝ) ≤ 1 / d by positivity)
      have e0 : r 0 = fin 0 := hz
      have eq : r (1 / d) = fin q := hq
      rw [e0, eq, fin_le] at hm
      exact hm
    have hq4 : q ≤ 4 := by
      have h3 : |q - 1 / d| ≤ 2 := hq2.trans (by norm_num)
      have h4 : 1 / d ≤ 2 := by rw [div_le_iff₀ (by linarith)]; linarith
      linarith [(abs_le.1 h3).2]
    have step : ∀ a : ℝ, y ≤ a → a ≤ 64 → ∃ v, r a = fin v ∧ y ≤ v ∧ v ≤ a + 1 := by
      intro a ha ha'
      obtain ⟨v, hv, hv2⟩ := Near.rd hr (near_fin a) (hmid 64 (by norm_num) le_rfl)
        (by rw [abs_le]; constructor <;> linarith) (by norm_num)
      have hm := hr.mono ha
      have ev : r a = fin v := hv
      rw [hy, ev, fin_le] at hm
      have : |v - a| ≤ 1 := hv2.trans (by norm_num)
      exact ⟨v, ev, hm, by linarith [(abs_le.1 this).2]⟩
    obtain ⟨v, hv, hv1, hv2⟩ := step (y + q) (by linarith) (by linarith)
    obtain ⟨w, hw, hw1, _⟩ := step v hv1 (by linarith)
    refine ⟨w, ?_, hw1⟩
    unfold Rnd.crpsGpd
    have sq : (fin 1 : XF) ^ 2 = fin 1 := by rw [pow_two, fin_mul, one_mul]
    have hdne : d ≠ 0 := by linarith
    have e2 : (2 : XF) = fin 2 := rfl
    have hyr : Rnd.rd r (fin y) = fin y := hy
    have hvr : Rnd.rd r (fin (y + q)) = fin v := hv
    have hwr : Rnd.rd r (fin v) = fin w := hw
    simp only [XF.zero_def, XF.one_def, fin_lt, fin_le, hx1, if_true, zero_le_one, le_refl, and_self, tail_std hy,
      tail_gpdCdf hr h0 h1 hyn hy1, fin_sub, sub_zero, h1r, hξ, tail_pow_one, sub_self, hz, e2, fin_mul, mul_one, h2r,
      mul_zero, fin_div one_ne_zero, div_one, XF.abs, abs_of_nonneg hyn, hyr, sq, hd, fin_div hdne, hq, fin_add, hvr,
      one_mul, hwr]
  · have e : cdfGpd 0 ξ 0 1 = cdfGpd0 0 ξ := by funext x; simp [cdfGpd]
    rw [e, (crps_gpd0 le_rfl zero_le_one hx1 y).2, abs_of_nonneg hyn]
    have hb : gpdB ξ y = 1 + ξ * y := by
      unfold gpdB; exact max_eq_left (by positivity)
    have hp : 0 < 1 + ξ * y := by positivity
    have hB := tail_bernoulli h0 hx1.le hyn
    have hV : gpdV ξ y ≤ 1 / 3 := by
      simp only [gpdV, h0.ne', if_false, max_eq_left hyn, hb]
      have hexp : 1 - 1 / ξ ≤ (1 / ξ) * (-(1 / 2)) := by
        have : 2 ≤ 1 / ξ := by rw [le_div_iff₀ h0]; linarith [h1.trans (by norm_num : (1:ℝ) / 2 ^ 60 ≤ 1 / 2)]
        linarith
      calc (1 + ξ * y) ^ (1 - 1 / ξ) ≤ (1 + ξ * y) ^ ((1 / ξ) * (-(1 / 2))) :=
            Real.rpow_le_rpow_of_exponent_le (by nlinarith) hexp
        _ = ((1 + ξ * y) ^ (1 / ξ)) ^ (-(1 / 2) : ℝ) := Real.rpow_mul hp.le _ _
        _ ≤ (9 : ℝ) ^ (-(1 / 2) : ℝ) := Real.rpow_le_rpow_of_nonpos (by norm_num) (by linarith) (by norm_num)
        _ = 1 / 3 := by
            rw [Real.rpow_neg (by norm_num), ← Real.sqrt_eq_rpow]
            have : (9:ℝ) = 3 ^ 2 := by norm_num
            rw [this, Real.sqrt_sq (by norm_num)]; norm_num
    have h3 : 4 / 3 ≤ 2 * (1 - 0) * (1 - gpdV ξ y) / (1 - ξ) := by
      rw [le_div_iff₀ (by linarith)]
      nlinarith
    have h4 : (1 - 0) ^ 2 / (2 - ξ) ≤ 7 / 12 := by
      rw [div_le_iff₀ (by linarith)]
      have : ξ ≤ 1 / 7 := h1.trans (by norm_num)
      linarith
    linarith

example : ∃ v s : ℝ, Rnd.crpsGpd rn64 (fin 20) (fin (1 / 2 ^ 60)) (fin 0) (fin 1) (fin 0) = fin v ∧
    Closed.gpd (fin 20) (fin (1 / 2 ^ 60)) (fin 0) (fin 1) (fin 0) = fin s ∧ 20 ≤ v ∧ s ≤ 20 - 3 / 4 := by
  have hr := rn64_nearest.toBinary64
  obtain ⟨⟨v, h1, h2⟩, h3, h4⟩ := C147_crps_gpd_false hr (ξ := 1 / 2 ^ 60) (y := 20) (by positivity) le_rfl
    (by have := hr.nat 20 (by norm_num); simpa using this) (by norm_num) (by norm_num)
  exact ⟨v, _, h1, h3, h2, h4⟩

/-- What holds: with shape zero the logarithmic score of the generalised Pareto law has a small error, at every
observation from 0 to 600.  Missing are the other shapes, where the claim fails. -/
theorem C147_logs_gpd_partial {r : ℝ → XF} (hr : Binary64 r) {y : ℝ} (hy : r y = fin y) (hy0 : 0 ≤ y)
    (hy1 : y ≤ 600) :
    ∃ v, Rnd.logsGpd r (fin y) (fin 0) (fin 0) (fin 1) = fin v ∧ negLog (densGpd 0 0 1 y) = fin y ∧
      |v - y| ≤ (y + 1) / 2 ^ 48 := by
  have hex : Real.exp (-y) ≤ 1 := Real.exp_le_one_iff.2 (by linarith)
  have hmid : Mid |Real.exp (-y)| := by
    rw [abs_of_pos (Real.exp_pos _)]
    refine ⟨?_, hex.trans (one_le_pow₀ (by norm_num))⟩
    have h1 : Real.exp y ≤ 2 ^ 1000 := by
      have h2 : Real.exp y ≤ Real.exp 600 := Real.exp_le_exp.2 hy1
      have h3 : Real.exp 600 = (Real.exp 1 ^ 3) ^ 200 := by rw [← pow_mul, ← Real.exp_nat_mul]; norm_num
      have h4 : Real.exp 1 ^ 3 ≤ 2 ^ 5 := by
        have := Real.exp_one_lt_d9
        calc Real.exp 1 ^ 3 ≤ 2.7182818286 ^ 3 := pow_le_pow_left₀ (Real.exp_pos _).le this.le 3
          _ ≤ 2 ^ 5 := by norm_num
      refine h2.trans ?_
      rw [h3]
      calc (Real.exp 1 ^ 3) ^ 200 ≤ ((2:ℝ) ^ 5) ^ 200 := pow_le_pow_left₀ (by positivity) h4 200
        _ = 2 ^ 1000 := by rw [← pow_mul]
    rw [Real.exp_neg, one_div]
    exact inv_anti₀ (Real.exp_pos _) h1
  have R1 := rd_rel hr hmid
  obtain ⟨b, hb, hb2⟩ := R1
  obtain ⟨hbp, _⟩ := tail_log_rel (Real.exp_pos _) (by norm_num) hb2
  have R3 : Rel (Rnd.rd r (fin b / fin 1)) (Real.exp (-y)) 8 := by
    rw [fin_div one_ne_zero, div_one]
    exact Rel.rd hr ⟨b, rfl, hb2⟩ (by norm_num) hmid
  obtain ⟨d, hd, hd2⟩ := R3
  obtain ⟨hdp, hdl⟩ := tail_log_rel (Real.exp_pos _) (by norm_num) hd2
  rw [Real.log_exp] at hdl
  have hB : Mid (y + 1) := by
    refine ⟨le_trans ?_ (by linarith : (1:ℝ) ≤ y + 1), ?_⟩
    · rw [div_le_one (by positivity)]; exact one_le_pow₀ (by norm_num)
    · refine le_trans (by linarith : y + 1 ≤ 2 ^ 10) (pow_le_pow_right₀ (by norm_num) (by norm_num))
  have R4 : Near (Rnd.rd r (fin (Real.log d))) (-y) (2 * (8 : ℕ) / 2 ^ 53 + (y + 1) * (1 / 2 ^ 51)) :=
    Near.rd hr ⟨_, rfl, hdl⟩ hB (by rw [abs_neg, abs_of_nonneg hy0]; linarith)
      ((by norm_num : (2:ℝ) * (8:ℕ) / 2 ^ 53 ≤ 1).trans (by linarith))
  obtain ⟨c, hc, hc2⟩ := R4
  refine ⟨-c, ?_, ?_, ?_⟩
  · have hlog : XF.log (fin d) = fin (Real.log d) := by simp [XF.log, hdp]
    have hp : Rnd.gpdPdf r (fin y) (fin 0) = fin b := by
      unfold Rnd.gpdPdf
      simp only [XF.zero_def, fin_feq, fin_le, le_refl, hy0, and_self, true_or, if_true, fin_neg]
      exact hb
    unfold Rnd.logsGpd
    simp only [tail_std hy, hp, XF.zero_def, fin_feq, hbp.ne', if_false, hd, hlog, hc, fin_neg]
  · have : densGpd 0 0 1 y = Real.exp (-y) := by simp [densGpd, not_lt.2 hy0]
    rw [this, negLog, if_neg (Real.exp_pos _).ne', Real.log_exp, neg_neg]
  · rw [show -c - y = -(c - -y) by ring, abs_neg]
    refine hc2.trans ?_
    push_cast
    rw [le_div_iff₀ (by positivity)]
    norm_num
    linarith

example : ∃ v, Rnd.logsGpd rn64 (fin 20) (fin 0) (fin 0) (fin 1) = fin v ∧ |v - 20| ≤ 21 / 2 ^ 48 := by
  have hr := rn64_nearest.toBinary64
  obtain ⟨v, h1, _, h3⟩ := C147_logs_gpd_partial hr (y := 20)
    (by have := hr.nat 20 (by norm_num); simpa using this) (by norm_num) (by norm_num)
  exact ⟨v, h1, h3.trans (by norm_num)⟩

/-- With shape zero the CRPS of the generalised Pareto law has a small error, at every observation from 0 to 600.
Missing are the other shapes, where the claim fails. -/
theorem C147_crps_gpd_partial {r : ℝ → XF} (hr : Binary64 r) {y : ℝ} (hy : r y = fin y) (hy0 : 0 ≤ y)
    (hy1 : y ≤ 600) :
    ∃ v, Rnd.crpsGpd r (fin y) (fin 0) (fin 0) (fin 1) (fin 0) = fin v ∧
      |v - crps (cdfGpd 0 0 0 1) y| ≤ (y + 1) / 2 ^ 46 := by
  have e : cdfGpd 0 0 0 1 = cdfGpd0 0 0 := by funext x; simp [cdfGpd]
  have hS : crps (cdfGpd 0 0 0 1) y = y - 2 * (1 - Real.exp (-y)) + 1 / 2 := by
    rw [e, (crps_gpd0 le_rfl zero_le_one zero_lt_one y).2, abs_of_nonneg hy0]
    simp [gpdV, max_eq_left hy0]
  rw [hS]
  have hex : Real.exp (-y) ≤ 1 := Real.exp_le_one_iff.2 (by linarith)
  have hep := Real.exp_pos (-y)
  have hz : Rnd.rd r (fin 0) = fin 0 := by
    have := hr.nat 0 (by norm_num)
    simpa [Rnd.rd] using this
  have h1r := tail_rd_one hr
  have h2r : Rnd.rd r (fin 2) = fin 2 := by
    have := hr.nat 2 (by norm_num)
    simpa [Rnd.rd] using this
  have hmid : ∀ B : ℝ, 1 ≤ B → B ≤ 1000 → Mid B := by
    intro B hB hB'
    refine ⟨le_trans ?_ hB, hB'.trans ?_⟩
    · rw [div_le_one (by positivity)]; exact one_le_pow₀ (by norm_num)
    · refine le_trans (by norm_num : (1000:ℝ) ≤ 2 ^ 10) (pow_le_pow_right₀ (by norm_num) (by norm_num))
  have m1 := hmid 1 (by norm_num) (by norm_num)
  have m2 := hmid 2 (by norm_num) (by norm_num)
  have u1 : |Real.exp (-y)| ≤ 1 := by rw [abs_of_pos hep]; exact hex
  have u2 : |1 - Real.exp (-y)| ≤ 1 := by rw [abs_le]; constructor <;> linarith
  have N1 := Near.rd hr (near_fin (Real.exp (-y))) m1 u1 (by norm_num)
  have N2 := Near.rd hr (Near.sub (near_fin 1) N1) m1 u2 (by norm_num)
  obtain ⟨F, hF, hF2⟩ := N2
  have N3 := Near.rd hr (Near.sub (near_fin 1) ⟨F, rfl, hF2⟩) m1 (by rw [sub_sub_cancel]; exact u1) (by norm_num)
  rw [sub_sub_cancel] at N3
  obtain ⟨G, hG, hG2⟩ := N3
  have N4 := Near.rd hr (⟨G, rfl, hG2⟩ : Near (fin G) _ _) m1 u1 (by norm_num)
  have N5 := Near.rd hr (Near.sub (near_fin 1) N4) m1 u2 (by norm_num)
  have N6 := Near.rd hr (Near.smul 2 N5) m2 (by rw [abs_mul, abs_of_pos (by norm_num : (0:ℝ) < 2)]; linarith) (by norm_num)
  have N7 := Near.rd hr (Near.div one_pos N6) m2
    (by rw [div_one, abs_mul, abs_of_pos (by norm_num : (0:ℝ) < 2)]; linarith) (by norm_num)
  rw [div_one] at N7
  have N8 := Near.rd hr (Near.sub (near_fin y) N7) (hmid (y + 2) (by linarith) (by linarith))
    (by rw [abs_le]; constructor <;> linarith)
    (le_trans (by norm_num [abs_of_pos]) (by linarith : (1:ℝ) ≤ y + 2))
  have N9 := Near.rd hr (near_fin (1 / 2)) m1 (by norm_num [abs_of_pos]) (by norm_num)
  have N10 := Near.rd hr (Near.add N8 N9) (hmid (y + 3) (by linarith) (by linarith))
    (by rw [abs_le]; constructor <;> linarith) (by norm_num [abs_of_pos]; linarith)
  have N11 := Near.rd hr (Near.smul 1 N10) (hmid (y + 3) (by linarith) (by linarith))
    (by rw [one_mul, abs_le]; constructor <;> linarith) (by norm_num [abs_of_pos]; linarith)
  obtain ⟨v, hv, hv2⟩ := N11
  refine ⟨v, ?_, ?_⟩
  · have e2 : (2 : XF) = fin 2 := rfl
    have sq : (fin 1 : XF) ^ 2 = fin 1 := by rw [pow_two, fin_mul, one_mul]
    have hx : XF.exp (fin (-y)) = fin (Real.exp (-y)) := rfl
    have hcdf : Rnd.gpdCdf r (fin y) (fin 0) = fin F := by
      have e3 : ¬ (fin 0 < nan) := fun h => h
      unfold Rnd.gpdCdf
      simp only [XF.zero_def, XF.one_def, fin_feq, fin_le, hy0, if_true, e3, or_false, not_true, false_and, if_false,
        and_self, fin_neg, hx, hF]
    rw [← hv]
    unfold Rnd.crpsGpd
    simp only [XF.zero_def, XF.one_def, fin_lt, fin_le, zero_lt_one, if_true, zero_le_one, le_refl, and_self,
      tail_std hy, hcdf, fin_sub (1:ℝ) 0, fin_sub (2:ℝ) 0, sub_zero, h1r, e2, fin_mul (2:ℝ) 1, mul_one, h2r, sq,
      fin_div (two_ne_zero : (2:ℝ) ≠ 0), XF.abs, abs_of_nonneg hy0, hG, tail_pow_self]
  · rw [one_mul] at hv2
    refine hv2.trans ?_
    rw [le_div_iff₀ (by positivity)]
    norm_num [abs_of_pos]
    linarith

example : ∃ v, Rnd.crpsGpd rn64 (fin 20) (fin 0) (fin 0) (fin 1) (fin 0) = fin v ∧
    |v - crps (cdfGpd 0 0 0 1) 20| ≤ 21 / 2 ^ 46 := by
  have hr := rn64_nearest.toBinary64
  obtain ⟨v, h1, h3⟩ := C147_crps_gpd_partial hr (y := 20)
    (by have := hr.nat 20 (by norm_num); simpa using this) (by norm_num) (by norm_num)
  exact ⟨v, h1, h3.trans (by norm_num)⟩

end Verif
