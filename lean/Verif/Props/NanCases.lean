import Verif.Lemmas.GtcFin
import Verif.Props.Nested

/-!
# C53, C54, C56: three closed forms that return NaN on valid input
-/

noncomputable section

open scoped Classical

namespace Verif

open XF Spec

/-! ### C53: truncated and censored logistic with one finite bound -/

/-- C53 fails: a finite lower bound and no upper bound give NaN, whatever the masses and the
observation; likewise the other way round. -/
theorem C53_false {σ : ℝ} (hσ : 0 < σ) (μ b : ℝ) (y L U : XF) :
    Closed.gtclogistic y (fin μ) (fin σ) (fin b) pinf L U = nan ∧
    Closed.gtclogistic y (fin μ) (fin σ) ninf (fin b) L U = nan := by
  constructor
  · unfold Closed.gtclogistic
    simp only [pinf_sub_fin, pinf_div_pos hσ, feq_pinf_pinf, fin_sub, fin_div hσ.ne', feq_fin_ninf, true_or,
      if_true, log_nan, add_nan, if_false, nan_mul, mul_nan, sub_nan, nan_sub]
  · unfold Closed.gtclogistic
    simp only [ninf_sub_fin, ninf_div_pos hσ, feq_ninf_ninf, fin_sub, fin_div hσ.ne', feq_fin_pinf, or_true,
      if_true, log_nan, add_nan, if_false, nan_mul, mul_nan, sub_nan, nan_sub]

example : (0 : ℝ) < 2 / 5 := by norm_num

/-- C53 fails for `crps_tlogistic` and `crps_clogistic` as well. -/
theorem C53_false_truncated {σ : ℝ} (hσ : 0 < σ) (μ b : ℝ) (y : XF) :
    Closed.tlogistic y (fin μ) (fin σ) (fin b) pinf = nan ∧
    Closed.tlogistic y (fin μ) (fin σ) ninf (fin b) = nan ∧
    Closed.clogistic y (fin μ) (fin σ) (fin b) pinf = nan ∧
    Closed.clogistic y (fin μ) (fin σ) ninf (fin b) = nan :=
  ⟨(C53_false hσ μ b y _ _).1, (C53_false hσ μ b y _ _).2, (C53_false hσ μ b y _ _).1,
    (C53_false hσ μ b y _ _).2⟩

/-- What holds: with both bounds finite, and with none, the score is a number.  Missing: one bound, where
it is false. -/
theorem C53_partial {σ l u L U : ℝ} (hσ : 0 < σ) (hlu : l < u) (hLU : L + U ≠ 1) (μ y : ℝ) :
    (∃ s : ℝ, Closed.gtclogistic (fin y) (fin μ) (fin σ) (fin l) (fin u) (fin L) (fin U) = fin s) ∧
    (∃ s : ℝ, Closed.gtclogistic (fin y) (fin μ) (fin σ) ninf pinf 0 0 = fin s) := by
  constructor
  · unfold Closed.gtclogistic
    have h1 : (l - μ) / σ < (u - μ) / σ := by
      rw [div_lt_div_iff_of_pos_right hσ]; linarith
    have h2 : logis ((u - μ) / σ) - logis ((l - μ) / σ) ≠ 0 := (sub_pos.2 (logis_strictMono h1)).ne'
    have h3 : 1 - L - U ≠ 0 := fun h => hLU (by linarith)
    simp only [fin_sub, fin_div hσ.ne', fin_max, fin_min, fin_neg, logisCdf_fin, feq_fin_pinf, feq_fin_ninf,
      false_or, false_and, if_false, fin_log (logis_pos _), fin_mul, fin_add, fin_pow, XF.one_def,
      XF.ofNat_def, fin_div h2, fin_div h3, fin_abs]
    exact ⟨_, rfl⟩
  · rw [(C52_gtclogistic_logistic hσ μ y).1, (C48_logistic hσ μ y).2]
    exact ⟨_, rfl⟩

/-- The documented use `crps_tlogistic(0.0, 0.1, 0.4, lower=-1.0)` is among the failing inputs. -/
example : Closed.tlogistic (fin 0) (fin (1 / 10)) (fin (4 / 10)) (fin (-1)) pinf = nan :=
  (C53_false_truncated (by norm_num) _ _ _).1

example : ∃ s : ℝ, Closed.tlogistic (fin 0) (fin (1 / 10)) (fin (4 / 10)) (fin (-1)) (fin 1) = fin s :=
  (C53_partial (L := 0) (U := 0) (by norm_num) (by norm_num) (by norm_num) (1 / 10) 0).1

/-! ### C54: truncated and censored t with a bound at the location -/

/-- C54 fails: a bound equal to the location gives NaN. -/
theorem C54_false {σ : ℝ} (hσ : 0 < σ) (μ : ℝ) (y df b L U : XF) :
    Closed.gtct y df (fin μ) (fin σ) (fin μ) b L U = nan ∧
    Closed.gtct y df (fin μ) (fin σ) b (fin μ) L U = nan := by
  constructor
  · unfold Closed.gtct
    simp only [fin_sub, sub_self, fin_div hσ.ne', zero_div, feq_fin_ninf, if_false, fin_abs, abs_zero,
      fin_zero_div_zero, nan_mul, nan_add, nan_div, mul_nan, sub_nan]
  · unfold Closed.gtct
    simp only [fin_sub, sub_self, fin_div hσ.ne', zero_div, feq_fin_pinf, if_false, fin_abs, abs_zero,
      fin_zero_div_zero, nan_mul, nan_add, nan_div, nan_sub, mul_nan, sub_nan]

example : (0 : ℝ) < 2 / 5 := by norm_num

/-- C54 fails for `crps_tt` and `crps_ct` as well: for instance truncation of a t distribution to its
positive half. -/
theorem C54_false_truncated {σ : ℝ} (hσ : 0 < σ) (μ : ℝ) (y df b : XF) :
    Closed.tt y df (fin μ) (fin σ) (fin μ) b = nan ∧ Closed.tt y df (fin μ) (fin σ) b (fin μ) = nan ∧
    Closed.ct y df (fin μ) (fin σ) (fin μ) b = nan ∧ Closed.ct y df (fin μ) (fin σ) b (fin μ) = nan :=
  ⟨(C54_false hσ μ y df b _ _).1, (C54_false hσ μ y df b _ _).2, (C54_false hσ μ y df b _ _).1,
    (C54_false hσ μ y df b _ _).2⟩

theorem tCdf_pinf {ν : ℝ} (hν : 0 < ν) : Stats.tCdf pinf (fin ν) = fin 1 := by
  unfold Stats.tCdf
  have e : (fin ν : XF) / (pinf ^ 2 + fin ν) = fin 0 := by rw [pow_two]; rfl
  have c : (0 : XF) ≤ pinf := trivial
  have c2 : 0 < ν / 2 ∧ (0:ℝ) < 1 / 2 ∧ (0:ℝ) ≤ 0 ∧ (0:ℝ) ≤ 1 := by
    refine ⟨by positivity, by norm_num, le_rfl, by norm_num⟩
  simp only [e, if_pos c, XF.ofNat_def, fin_div two_ne_zero, XF.betainc, if_pos c2,
    intervalIntegral.integral_same, zero_div, fin_mul, mul_zero, XF.one_def, fin_sub, sub_zero]

theorem tCdf_ninf {ν : ℝ} (hν : 0 < ν) : Stats.tCdf ninf (fin ν) = fin 0 := by
  unfold Stats.tCdf
  have e : (fin ν : XF) / (ninf ^ 2 + fin ν) = fin 0 := by rw [pow_two]; rfl
  have c : ¬ (0 : XF) ≤ ninf := fun h => h
  have c2 : 0 < ν / 2 ∧ (0:ℝ) < 1 / 2 ∧ (0:ℝ) ≤ 0 ∧ (0:ℝ) ≤ 1 := by
    refine ⟨by positivity, by norm_num, le_rfl, by norm_num⟩
  simp only [e, if_neg c, XF.ofNat_def, fin_div two_ne_zero, XF.betainc, if_pos c2,
    intervalIntegral.integral_same, zero_div, fin_mul, mul_zero]

theorem tCdf_fin {ν : ℝ} (hν : 0 < ν) (x : ℝ) : ∃ F : ℝ, Stats.tCdf (fin x) (fin ν) = fin F := by
  unfold Stats.tCdf
  have d : x ^ 2 + ν ≠ 0 := by positivity
  have c2 : 0 < ν / 2 ∧ (0:ℝ) < 1 / 2 ∧ (0:ℝ) ≤ ν / (x ^ 2 + ν) ∧ ν / (x ^ 2 + ν) ≤ 1 := by
    refine ⟨by positivity, by norm_num, by positivity, ?_⟩
    rw [div_le_one (by positivity)]
    linarith [sq_nonneg x]
  simp only [fin_pow, fin_add, fin_div d, XF.ofNat_def, fin_div two_ne_zero, XF.betainc, if_pos c2,
    XF.zero_def, XF.one_def, fin_mul, fin_sub, fin_le]
  split_ifs <;> exact ⟨_, rfl⟩

theorem tPdf_fin {ν : ℝ} (hν : 0 < ν) (x : ℝ) : ∃ f : ℝ, Stats.tPdf (fin x) (fin ν) = fin f := by
  have d1 : 1 + x ^ 2 / ν > 0 := by positivity
  have c : 0 < (1:ℝ) / 2 ∧ 0 < ν / 2 := ⟨by norm_num, by positivity⟩
  have hB : 0 < Real.Gamma (1 / 2) * Real.Gamma (ν / 2) / Real.Gamma (1 / 2 + ν / 2) := by
    have := Real.Gamma_pos_of_pos c.1
    have := Real.Gamma_pos_of_pos c.2
    have := Real.Gamma_pos_of_pos (add_pos c.1 c.2)
    positivity
  have d2 : Real.sqrt ν * (Real.Gamma (1 / 2) * Real.Gamma (ν / 2) / Real.Gamma (1 / 2 + ν / 2)) ≠ 0 :=
    (mul_pos (Real.sqrt_pos.2 hν) hB).ne'
  unfold Stats.tPdf
  simp only [fin_abs, feq_fin_pinf, if_false, XF.one_def, XF.ofNat_def, fin_pow, fin_div hν.ne', fin_add,
    fin_neg, fin_div two_ne_zero, pow_fin_pos d1, fin_sqrt hν.le, XF.beta, if_pos c, fin_mul, fin_div d2]
  exact ⟨_, rfl⟩

/-- Nested family, part of C52: `crps_gtct`, `crps_tt` and `crps_ct` without bounds are `crps_t`. -/
theorem C52_gtct_t {σ ν : ℝ} (hσ : 0 < σ) (hν : 1 < ν) (μ y : ℝ) :
    Closed.gtct (fin y) (fin ν) (fin μ) (fin σ) ninf pinf 0 0
      = Closed.t (fin y) (fin ν) (fin μ) (fin σ) ∧
    Closed.tt (fin y) (fin ν) (fin μ) (fin σ) ninf pinf = Closed.t (fin y) (fin ν) (fin μ) (fin σ) ∧
    Closed.ct (fin y) (fin ν) (fin μ) (fin σ) ninf pinf = Closed.t (fin y) (fin ν) (fin μ) (fin σ) := by
  have hν0 : 0 < ν := by linarith
  have h : Closed.gtct (fin y) (fin ν) (fin μ) (fin σ) ninf pinf 0 0
      = Closed.t (fin y) (fin ν) (fin μ) (fin σ) := by
    obtain ⟨F, hF⟩ := tCdf_fin hν0 ((y - μ) / σ)
    obtain ⟨f, hf⟩ := tPdf_fin hν0 ((y - μ) / σ)
    have c1 : 0 < (1:ℝ) / 2 ∧ 0 < ν - 1 / 2 := ⟨by norm_num, by linarith⟩
    have c2 : 0 < (1:ℝ) / 2 ∧ 0 < ν / 2 := ⟨by norm_num, by positivity⟩
    have hB : 0 < Real.Gamma (1 / 2) * Real.Gamma (ν / 2) / Real.Gamma (1 / 2 + ν / 2) := by
      have := Real.Gamma_pos_of_pos c2.1
      have := Real.Gamma_pos_of_pos c2.2
      have := Real.Gamma_pos_of_pos (add_pos c2.1 c2.2)
      positivity
    unfold Closed.gtct Closed.t
    simp only [pinf_sub_fin, ninf_sub_fin, pinf_div_pos hσ, ninf_div_pos hσ, fin_sub, fin_div hσ.ne',
      max_fin_ninf, min_fin_pinf, hF, hf, tCdf_pinf hν0, tCdf_ninf hν0, feq_pinf_pinf, feq_ninf_ninf,
      if_true, true_and, XF.zero_def, fin_feq, XF.one_def, XF.ofNat_def, fin_mul, fin_add, fin_neg,
      fin_abs, fin_pow, sub_zero, fin_div one_ne_zero, fin_div (show ν - 1 ≠ 0 by linarith),
      fin_div two_ne_zero, fin_sqrt hν0.le, XF.beta, if_pos c1, if_pos c2, fin_div (pow_pos hB 2).ne']
    congr 1
    simp only [sub_self, abs_zero]
    ring
  refine ⟨h, h, ?_⟩
  unfold Closed.ct
  simp only [pinf_sub_fin, ninf_sub_fin, pinf_div_pos hσ, ninf_div_pos hσ, tCdf_pinf hν0, tCdf_ninf hν0,
    XF.one_def, fin_sub, sub_self]
  exact h

example : (0 : ℝ) < 2 / 5 ∧ (1 : ℝ) < 5 / 2 := by norm_num

/-- What is proved of C54 so far: without bounds the score is a number.  Missing: bounds other than the
location; with a bound at the location it is false. -/
theorem C54_partial {σ ν : ℝ} (hσ : 0 < σ) (hν : 1 < ν) (μ y : ℝ) :
    ∃ s : ℝ, Closed.gtct (fin y) (fin ν) (fin μ) (fin σ) ninf pinf 0 0 = fin s := by
  have hν0 : 0 < ν := by linarith
  rw [(C52_gtct_t hσ hν μ y).1]
  obtain ⟨F, hF⟩ := tCdf_fin hν0 ((y - μ) / σ)
  obtain ⟨f, hf⟩ := tPdf_fin hν0 ((y - μ) / σ)
  have c1 : 0 < (1:ℝ) / 2 ∧ 0 < ν - 1 / 2 := ⟨by norm_num, by linarith⟩
  have c2 : 0 < (1:ℝ) / 2 ∧ 0 < ν / 2 := ⟨by norm_num, by positivity⟩
  have hB : 0 < Real.Gamma (1 / 2) * Real.Gamma (ν / 2) / Real.Gamma (1 / 2 + ν / 2) := by
    have := Real.Gamma_pos_of_pos c2.1
    have := Real.Gamma_pos_of_pos c2.2
    have := Real.Gamma_pos_of_pos (add_pos c2.1 c2.2)
    positivity
  unfold Closed.t
  simp only [fin_sub, fin_div hσ.ne', hF, hf, XF.one_def, XF.ofNat_def, fin_mul, fin_add, fin_pow,
    fin_div (show ν - 1 ≠ 0 by linarith), fin_div two_ne_zero, fin_sqrt hν0.le, XF.beta, if_pos c1,
    if_pos c2, fin_div (pow_pos hB 2).ne']
  exact ⟨_, rfl⟩

example : Closed.tt (fin 1) (fin 5) (fin 0) (fin 1) (fin 0) pinf = nan :=
  (C54_false_truncated one_pos 0 _ _ _).1

/-! ### C56: log-Laplace at non-positive observations -/

/-- C56 fails: `crps_loglaplace` is NaN at every observation which is not positive. -/
theorem C56_false {σ : ℝ} (hσ : 0 < σ) (μ : ℝ) {y : ℝ} (hy : y ≤ 0) :
    Closed.loglaplace (fin y) (fin μ) (fin σ) = nan := by
  rcases hy.lt_or_eq with h | h
  · have e : XF.log (fin y) = nan := by simp [XF.log, h.le, h.ne, not_lt.2 h.le]
    unfold Closed.loglaplace
    simp only [e, nan_sub, nan_div, exp_nan, mul_nan, add_nan, neg_nan, sub_nan, nan_add, nan_sub, nan_mul]
  · subst h
    have e : XF.log (fin 0) = ninf := by simp [XF.log]
    have c : (fin 0 : XF) < XF.exp (fin μ) := by rw [fin_exp, fin_lt]; exact Real.exp_pos _
    unfold Closed.loglaplace
    have e2 : ((ninf : XF) - fin μ) / fin σ = ninf := by rw [ninf_sub_fin, ninf_div_pos hσ]
    have e3 : (1 : XF) - fin (1 / 2) * XF.exp (-ninf) = ninf := by
      have : (fin (1 / 2) : XF) * XF.exp (-ninf) = pinf := by
        show fin (1 / 2) * pinf = pinf
        rw [fin_mul_pinf]
        norm_num [XF.infMul]
      rw [this]; rfl
    have e4 : XF.ind (¬ fin 0 < XF.exp (fin μ)) = fin 0 := XF.ind_false (not_not.2 c)
    have e5 : (fin 0 : XF) * ninf = nan := by rw [fin_mul_ninf]; simp [XF.infMul]
    simp only [e, e2, e3, e4, e5, add_nan, mul_nan, nan_sub, nan_add]

theorem loglaplace_fin {σ y : ℝ} (hσ : 0 < σ) (hσ1 : σ < 1) (μ : ℝ) (hy : 0 < y) :
    Closed.loglaplace (fin y) (fin μ) (fin σ)
      = fin (let x := (Real.log y - μ) / σ
          if y < Real.exp μ then
            y * (2 * (1 / 2 * Real.exp x) - 1) + Real.exp μ *
              (1 / (1 + σ) * (1 - (2 * (1 / 2 * Real.exp x)) ^ (1 + σ)) + σ / (4 - σ ^ 2))
          else y * (2 * (1 - 1 / 2 * Real.exp (-x)) - 1) + Real.exp μ *
            ((-1) / (1 - σ) * (1 - (2 * (1 - (1 - 1 / 2 * Real.exp (-x)))) ^ (1 - σ)) + σ / (4 - σ ^ 2))) := by
  have d1 : 1 + σ ≠ 0 := by positivity
  have d2 : 1 - σ ≠ 0 := by linarith
  have d3 : 4 - σ ^ 2 ≠ 0 := by nlinarith
  have hx : y < Real.exp μ → (Real.log y - μ) / σ < 0 := fun h =>
    div_neg_of_neg_of_pos (by rw [sub_neg]; exact (Real.log_lt_iff_lt_exp hy).2 h) hσ
  have e0 : XF.ind (fin y ≤ (0 : XF)) = fin 0 := XF.ind_false (by rw [XF.zero_def, fin_le]; linarith)
  unfold Closed.loglaplace
  by_cases hc : y < Real.exp μ
  · have e1 : XF.ind (fin y < XF.exp (fin μ)) = fin 1 := XF.ind_true (by simpa using hc)
    have e2 : XF.ind (¬ fin y < XF.exp (fin μ)) = fin 0 := XF.ind_false (by simpa using hc)
    have e3 : XF.ind (¬ fin y ≤ (0 : XF) ∧ fin y < XF.exp (fin μ)) = fin 1 :=
      XF.ind_true ⟨by rw [XF.zero_def, fin_le]; linarith, by simpa using hc⟩
    simp only [e0, e1, e2, e3]
    have p1 : 0 < Real.exp ((Real.log y - μ) / σ) := Real.exp_pos _
    have p2 : Real.exp ((Real.log y - μ) / σ) < 1 := by
      rw [← Real.exp_zero]; exact Real.exp_lt_exp.2 (hx hc)
    simp only [XF.zero_def, XF.one_def, XF.ofNat_def, fin_log hy, fin_sub, fin_div hσ.ne', fin_exp, fin_neg,
      fin_mul, fin_add, fin_pow, zero_mul, mul_zero, one_mul, zero_add, add_zero, fin_div d1, fin_div d2,
      fin_div d3]
    rw [pow_fin_pos (by linarith), pow_fin_pos (by linarith)]
    simp only [fin_sub, fin_mul, fin_add, if_pos hc, zero_div, zero_mul, add_zero]
  · have e1 : XF.ind (fin y < XF.exp (fin μ)) = fin 0 := XF.ind_false (by simpa using hc)
    have e2 : XF.ind (¬ fin y < XF.exp (fin μ)) = fin 1 := XF.ind_true (by simpa using hc)
    have e3 : XF.ind (¬ fin y ≤ (0 : XF) ∧ fin y < XF.exp (fin μ)) = fin 0 :=
      XF.ind_false (fun h => hc (by simpa using h.2))
    simp only [e0, e1, e2, e3]
    have hx' : 0 ≤ (Real.log y - μ) / σ :=
      div_nonneg (sub_nonneg.2 ((Real.le_log_iff_exp_le hy).2 (not_lt.1 hc))) hσ.le
    have p1 : 0 < Real.exp (-((Real.log y - μ) / σ)) := Real.exp_pos _
    have p2 : Real.exp (-((Real.log y - μ) / σ)) ≤ 1 := Real.exp_le_one_iff.2 (by linarith)
    simp only [XF.zero_def, XF.one_def, XF.ofNat_def, fin_log hy, fin_sub, fin_div hσ.ne', fin_exp, fin_neg,
      fin_mul, fin_add, fin_pow, zero_mul, mul_zero, one_mul, zero_add, add_zero, fin_div d1, fin_div d2,
      fin_div d3]
    rw [pow_fin_pos (by linarith), pow_fin_pos (by linarith)]
    simp only [fin_sub, fin_mul, fin_add, if_neg hc, zero_div, zero_mul, zero_add]

/-- What holds: the score is a number at positive observations.  Missing: the others, where it is
false. -/
theorem C56_partial {σ y : ℝ} (hσ : 0 < σ) (hσ1 : σ < 1) (μ : ℝ) (hy : 0 < y) :
    ∃ s : ℝ, Closed.loglaplace (fin y) (fin μ) (fin σ) = fin s := ⟨_, loglaplace_fin hσ hσ1 μ hy⟩

example : Closed.loglaplace (fin 0) (fin (1 / 10)) (fin (9 / 10)) = nan := C56_false (by norm_num) _ le_rfl

example : ∃ s : ℝ, Closed.loglaplace (fin 3) (fin (1 / 10)) (fin (9 / 10)) = fin s :=
  C56_partial (by norm_num) (by norm_num) _ (by norm_num)

end Verif
