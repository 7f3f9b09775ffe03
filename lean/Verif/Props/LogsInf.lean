import Verif.Lemmas.ClosedInf
import Verif.Props.Logs

/-!
# C127: the log score of an infinite observation

No density of the library is positive at infinity, and the log score of an event of density zero is plus
infinity.  The theorems say for which closed forms the code returns that, and where it returns NaN because the
density is computed as infinity times zero or infinity divided by infinity.
-/

noncomputable section

open scoped Classical

namespace Verif

open XF Stats Spec

/-- `f` gives plus infinity at both infinities. -/
def Spec.InfBoth (f : XF → XF) : Prop := f pinf = pinf ∧ f ninf = pinf

theorem neg_log_zero : -XF.log (fin 0) = pinf := by simp [XF.log, neg_ninf]
theorem fin_div_pinf (a : ℝ) : fin a / pinf = fin 0 := rfl

theorem normPdf_inf {y : XF} (h : y = pinf ∨ y = ninf) : normPdf y = fin 0 := by
  rcases h with rfl | rfl
  · exact normPdf_pinf
  · exact normPdf_ninf

theorem laplacePdf_inf {y : XF} (h : y = pinf ∨ y = ninf) : laplacePdf y = fin 0 := by
  rcases h with rfl | rfl <;>
    simp [laplacePdf, abs_pinf, abs_ninf, neg_pinf, exp_ninf, ofNat_def, fin_div]

theorem logisPdf_pinf : logisPdf pinf = fin 0 := by
  unfold logisPdf
  rw [neg_pinf, exp_ninf, one_def, fin_add, pow_two, fin_mul, fin_div (by norm_num)]
  norm_num

theorem logisPdf_ninf : logisPdf ninf = nan := by
  unfold logisPdf
  rw [neg_ninf, exp_pinf, pow_two]
  rfl

theorem expPdf_pinf {r : ℝ} (h : 0 < r) : expPdf pinf (fin r) = fin 0 := by
  unfold expPdf
  rw [if_neg (by simp), fin_neg, neg_mul_pinf (by linarith), exp_ninf, fin_mul, mul_zero]

theorem tPdf_inf {y : XF} (h : y = pinf ∨ y = ninf) (df : XF) : tPdf y df = fin 0 := by
  rcases h with rfl | rfl <;> simp [tPdf, abs_pinf, abs_ninf, XF.feq, zero_def]

theorem zero_fin_div {b : ℝ} (h : b ≠ 0) : fin 0 / fin b = fin 0 := by rw [fin_div h, zero_div]

/-! ### the families of the whole line -/

/-- C127 for the normal, Laplace, t, two-piece normal and two-piece exponential laws. -/
theorem C127_line (μ : ℝ) {σ σ' : ℝ} (h : 0 < σ) (h' : 0 < σ') (df : XF) :
    Spec.InfBoth (fun y => Logs.normal y (fin μ) (fin σ) true) ∧
    Spec.InfBoth (fun y => Logs.laplace y (fin μ) (fin σ)) ∧
    Spec.InfBoth (fun y => Logs.t y df (fin μ) (fin σ)) ∧
    Spec.InfBoth (fun y => Logs.twopnormal y (fin σ) (fin σ') (fin μ)) ∧
    Spec.InfBoth (fun y => Logs.twopexponential y (fin σ) (fin σ') (fin μ)) := by
  have hp : (pinf : XF) = pinf ∨ (pinf : XF) = ninf := Or.inl rfl
  have hn : (ninf : XF) = pinf ∨ (ninf : XF) = ninf := Or.inr rfl
  have hs : σ + σ' ≠ 0 := by positivity
  have one_div_pos : 0 < 1 / σ := by positivity
  have one_div_pos' : 0 < 1 / σ' := by positivity
  refine ⟨⟨?_, ?_⟩, ⟨?_, ?_⟩, ⟨?_, ?_⟩, ⟨?_, ?_⟩, ⟨?_, ?_⟩⟩
  · simp [Logs.normal, std_pinf h, normPdf_inf hp, zero_fin_div h.ne', XF.log, one_def, neg_mul_ninf]
  · simp [Logs.normal, std_ninf h, normPdf_inf hn, zero_fin_div h.ne', XF.log, one_def, neg_mul_ninf]
  · simp only [Logs.laplace, std_pinf h, laplacePdf_inf hp, zero_fin_div h.ne', neg_log_zero]
  · simp only [Logs.laplace, std_ninf h, laplacePdf_inf hn, zero_fin_div h.ne', neg_log_zero]
  · simp only [Logs.t, std_pinf h, tPdf_inf hp, zero_fin_div h.ne', neg_log_zero]
  · simp only [Logs.t, std_ninf h, tPdf_inf hn, zero_fin_div h.ne', neg_log_zero]
  · simp only [Logs.twopnormal, pinf_sub_fin, zero_def, not_pinf_lt, if_false, pinf_div_pos h', normPdf_inf hp, ofNat_def,
      fin_mul, fin_add, fin_div hs, zero_mul, zero_fin_div h'.ne', neg_log_zero]
  · simp only [Logs.twopnormal, ninf_sub_fin, zero_def, ninf_lt_fin, if_true, ninf_div_pos h, normPdf_inf hn, ofNat_def,
      fin_mul, fin_add, fin_div hs, zero_mul, zero_fin_div h.ne', neg_log_zero]
  · simp only [Logs.twopexponential, pinf_sub_fin, zero_def, not_pinf_lt, if_false, abs_pinf, one_def, fin_div h'.ne',
      expPdf_pinf one_div_pos', fin_add, fin_div hs, fin_mul, zero_mul, neg_log_zero]
  · simp only [Logs.twopexponential, ninf_sub_fin, zero_def, ninf_lt_fin, if_true, abs_ninf, one_def, fin_div h.ne',
      expPdf_pinf one_div_pos, fin_add, fin_div hs, fin_mul, zero_mul, neg_log_zero]

example : Logs.t ninf (fin 3) (fin 1) (fin 2) = pinf := ((C127_line 1 two_pos one_pos (fin 3)).2.2.1).2

/-- C127 for the half line: exponential, log-normal, log-logistic and log-Laplace laws. -/
theorem C127_half_line (μ : ℝ) {σ : ℝ} (h : 0 < σ) :
    Spec.InfBoth (fun y => Logs.exponential y (fin σ)) ∧
    Spec.InfBoth (fun y => Logs.exponential2 y (fin μ) (fin σ)) ∧
    Spec.InfBoth (fun y => Logs.lognormal y (fin μ) (fin σ)) ∧
    Spec.InfBoth (fun y => Logs.loglogistic y (fin μ) (fin σ)) ∧
    Spec.InfBoth (fun y => Logs.loglaplace y (fin μ) (fin σ)) := by
  have hp : (pinf : XF) = pinf ∨ (pinf : XF) = ninf := Or.inl rfl
  have one_div_pos : 0 < 1 / σ := by positivity
  refine ⟨⟨?_, ?_⟩, ⟨?_, ?_⟩, ⟨?_, ?_⟩, ⟨?_, ?_⟩, ⟨?_, ?_⟩⟩
  · simp only [Logs.exponential, zero_def, not_pinf_lt, if_false, expPdf_pinf h, neg_log_zero]
  · simp only [Logs.exponential, zero_def, ninf_lt_fin, if_true]
  · simp only [Logs.exponential2, pinf_sub_fin, zero_def, not_pinf_lt, if_false, one_def, fin_div h.ne',
      expPdf_pinf one_div_pos, neg_log_zero]
  · simp only [Logs.exponential2, ninf_sub_fin, zero_def, ninf_lt_fin, if_true]
  · simp only [Logs.lognormal, zero_def, not_pinf_le_fin, if_false, log_pinf, std_pinf h, normPdf_inf hp,
      zero_fin_div h.ne', fin_div_pinf, neg_log_zero]
  · simp only [Logs.lognormal, zero_def, ninf_le_fin, if_true]
  · simp only [Logs.loglogistic, zero_def, not_pinf_le_fin, if_false, log_pinf, std_pinf h, logisPdf_pinf,
      zero_fin_div h.ne', fin_div_pinf, neg_log_zero]
  · simp only [Logs.loglogistic, zero_def, ninf_le_fin, if_true]
  · simp only [Logs.loglaplace, zero_def, not_pinf_le_fin, if_false, log_pinf, std_pinf h, laplacePdf_inf hp,
      zero_fin_div h.ne', fin_div_pinf, neg_log_zero]
  · simp only [Logs.loglaplace, zero_def, ninf_le_fin, if_true]

example : Logs.lognormal pinf (fin 1) (fin 2) = pinf := ((C127_half_line 1 two_pos).2.2.1).1

/-- C127 for laws with two finite ends: uniform, beta, truncated normal, logistic and t. -/
theorem C127_bounded (μ : ℝ) {σ l u : ℝ} (h : 0 < σ) (hlu : l < u) (df a b : XF) :
    Spec.InfBoth (fun y => Logs.uniform y (fin l) (fin u)) ∧
    Spec.InfBoth (fun y => Logs.beta y a b (fin l) (fin u)) ∧
    Spec.InfBoth (fun y => Logs.tnormal y (fin μ) (fin σ) (fin l) (fin u)) ∧
    Spec.InfBoth (fun y => Logs.tlogistic y (fin μ) (fin σ) (fin l) (fin u)) ∧
    Spec.InfBoth (fun y => Logs.tt y df (fin μ) (fin σ) (fin l) (fin u)) := by
  have hd : 0 < u - l := sub_pos.2 hlu
  refine ⟨⟨?_, ?_⟩, ⟨?_, ?_⟩, ⟨?_, ?_⟩, ⟨?_, ?_⟩, ⟨?_, ?_⟩⟩
  · simp only [Logs.uniform, fin_lt_pinf, true_or, if_true, zero_def, neg_log_zero]
  · simp only [Logs.uniform, ninf_lt_fin, or_true, if_true, zero_def, neg_log_zero]
  · simp only [Logs.beta, pinf_sub_fin, fin_sub, pinf_div_pos hd, one_def, fin_lt_pinf, or_true, if_true]
  · simp only [Logs.beta, ninf_sub_fin, fin_sub, ninf_div_pos hd, zero_def, ninf_lt_fin, true_or, if_true]
  · simp only [Logs.tnormal, std_pinf h, fin_sub, fin_div h.ne', fin_lt_pinf, or_true, if_true]
  · simp only [Logs.tnormal, std_ninf h, fin_sub, fin_div h.ne', ninf_lt_fin, true_or, if_true]
  · simp only [Logs.tlogistic, std_pinf h, fin_sub, fin_div h.ne', fin_lt_pinf, or_true, if_true]
  · simp only [Logs.tlogistic, std_ninf h, fin_sub, fin_div h.ne', ninf_lt_fin, true_or, if_true]
  · simp only [Logs.tt, std_pinf h, fin_sub, fin_div h.ne', fin_lt_pinf, or_true, if_true]
  · simp only [Logs.tt, std_ninf h, fin_sub, fin_div h.ne', ninf_lt_fin, true_or, if_true]

example : Logs.beta ninf (fin 2) (fin 3) (fin 0) (fin 1) = pinf :=
  ((C127_bounded 0 one_pos one_pos nan (fin 2) (fin 3)).2.1).2

/-- C127 for the truncated normal law with its default bounds, which are the infinities themselves. -/
theorem C127_tnormal_default (μ : ℝ) {σ : ℝ} (h : 0 < σ) :
    Spec.InfBoth (fun y => Logs.tnormal y (fin μ) (fin σ) ninf pinf) := by
  have hp : (pinf : XF) = pinf ∨ (pinf : XF) = ninf := Or.inl rfl
  have hn : (ninf : XF) = pinf ∨ (ninf : XF) = ninf := Or.inr rfl
  constructor
  · simp only [Logs.tnormal, std_pinf h, std_ninf h, not_pinf_lt, or_self, if_false, normCdf_pinf, normCdf_ninf,
      normPdf_inf hp, fin_sub, zero_fin_div h.ne', fin_div (show (1:ℝ) - 0 ≠ 0 by norm_num), zero_div, neg_log_zero]
  · simp only [Logs.tnormal, std_pinf h, std_ninf h, not_ninf_lt_ninf, not_pinf_lt, or_self, if_false, normCdf_pinf,
      normCdf_ninf, normPdf_inf hn, fin_sub, zero_fin_div h.ne', fin_div (show (1:ℝ) - 0 ≠ 0 by norm_num), zero_div,
      neg_log_zero]

example : Logs.tnormal ninf (fin 1) (fin 2) ninf pinf = pinf := (C127_tnormal_default 1 two_pos).2

/-- C127 for the truncated t law with its default bounds. -/
theorem C127_tt_default (μ : ℝ) {ν σ : ℝ} (hν : 0 < ν) (h : 0 < σ) :
    Spec.InfBoth (fun y => Logs.tt y (fin ν) (fin μ) (fin σ) ninf pinf) := by
  have hp : (pinf : XF) = pinf ∨ (pinf : XF) = ninf := Or.inl rfl
  have hn : (ninf : XF) = pinf ∨ (ninf : XF) = ninf := Or.inr rfl
  constructor
  · simp only [Logs.tt, std_pinf h, std_ninf h, not_pinf_lt, or_self, if_false, tCdf_pinf hν, tCdf_ninf hν,
      tPdf_inf hp, fin_sub, zero_fin_div h.ne', fin_div (show (1:ℝ) - 0 ≠ 0 by norm_num), zero_div, neg_log_zero]
  · simp only [Logs.tt, std_pinf h, std_ninf h, not_ninf_lt_ninf, not_pinf_lt, or_self, if_false, tCdf_pinf hν,
      tCdf_ninf hν, tPdf_inf hn, fin_sub, zero_fin_div h.ne', fin_div (show (1:ℝ) - 0 ≠ 0 by norm_num), zero_div,
      neg_log_zero]

example : Logs.tt pinf (fin 3) (fin 1) (fin 2) ninf pinf = pinf := (C127_tt_default 1 (by norm_num) two_pos).1

/-- C127 for the generalised Pareto law, every shape. -/
theorem C127_gpd (ξ μ : ℝ) {σ : ℝ} (h : 0 < σ) :
    Spec.InfBoth (fun y => Logs.gpd y (fin ξ) (fin μ) (fin σ)) := by
  have e1 : gpdPdf pinf (fin ξ) = fin 0 := by
    unfold gpdPdf
    rcases lt_trichotomy ξ 0 with hx | rfl | hx
    · have h2 : ¬ (pinf : XF) ≤ -1 / fin ξ := by
        rw [one_def, fin_neg, fin_div hx.ne]; exact not_pinf_le_fin _
      simp [XF.feq, zero_def, hx.ne, hx.not_ge, h2]
    · simp [XF.feq, zero_def, neg_pinf, exp_ninf]
    · have hpow : -(ξ + 1) / ξ < 0 := by
        rw [neg_div, neg_lt_zero]; positivity
      simp only [XF.feq, zero_def, fin_inj, hx.ne', if_false, fin_le, hx.le, fin_le_pinf, and_self, true_or, if_true,
        fin_add, one_def, fin_neg, fin_div hx.ne', mul_pinf_pos hx, fin_add_pinf, pow_pinf_neg hpow]
  have e2 : gpdPdf ninf (fin ξ) = fin 0 := by
    simp [gpdPdf, zero_def]
  constructor
  · simp only [Logs.gpd, std_pinf h, e1, zero_def, XF.feq, if_true]
  · simp only [Logs.gpd, std_ninf h, e2, zero_def, XF.feq, if_true]

example : Logs.gpd pinf (fin (-1 / 3)) (fin 0) (fin 2) = pinf := (C127_gpd _ 0 two_pos).1

/-- C127 for the hypergeometric law. -/
theorem C127_hypergeometric {m n k : ℕ} (hk : k ≤ m + n) :
    Spec.InfBoth (fun y => Logs.hypergeometric y (m : XF) (n : XF) (k : XF)) := by
  have hc : ∃ c : ℝ, c ≠ 0 ∧ XF.comb (fin ((m : ℝ) + n)) (fin k) = fin c := by
    refine ⟨_, ?_, if_pos ⟨by positivity, by exact_mod_cast hk⟩⟩
    have h1 : (0:ℝ) < (m:ℝ) + n + 1 := by positivity
    have h2 : (0:ℝ) < (k:ℝ) + 1 := by positivity
    have h3 : (0:ℝ) < (m:ℝ) + n - k + 1 := by
      have : (k:ℝ) ≤ m + n := by exact_mod_cast hk
      linarith
    have := Real.Gamma_pos_of_pos h1
    have := Real.Gamma_pos_of_pos h2
    have := Real.Gamma_pos_of_pos h3
    positivity
  obtain ⟨c, hc0, hc⟩ := hc
  have hcb : ∀ a b : XF, b = pinf ∨ b = ninf → a ≠ pinf → XF.comb a b = fin 0 := by
    rintro a b (rfl | rfl) ha <;> cases a <;> simp_all [XF.comb]
  have hi : ∀ p : Prop, ∃ i : ℝ, ind p = fin i := fun p => ⟨_, ind_def p⟩
  constructor
  · simp only [Logs.hypergeometric, hypergeoPdf]
    obtain ⟨i, hi⟩ := hi (XF.max 0 ((k : XF) - ((m : XF) + (n : XF)) + (m : XF)) ≤ pinf ∧
      pinf ≤ XF.min (m : XF) (k : XF))
    rw [hi]
    simp only [natCast_def, fin_add, fin_sub, fin_sub_pinf, hc]
    rw [hcb (fin m) pinf (Or.inl rfl) (by simp), hcb _ ninf (Or.inr rfl) (by simp), fin_mul, fin_mul, mul_zero,
      zero_fin_div hc0, neg_log_zero]
  · simp only [Logs.hypergeometric, hypergeoPdf]
    obtain ⟨i, hi⟩ := hi (XF.max 0 ((k : XF) - ((m : XF) + (n : XF)) + (m : XF)) ≤ ninf ∧
      ninf ≤ XF.min (m : XF) (k : XF))
    rw [hi]
    simp only [natCast_def, fin_add, fin_sub, fin_sub_ninf, hc]
    rw [hcb (fin m) ninf (Or.inr rfl) (by simp), hcb _ pinf (Or.inl rfl) (by simp), fin_mul, fin_mul, mul_zero,
      zero_fin_div hc0, neg_log_zero]

example : Logs.hypergeometric pinf (3 : ℕ) (4 : ℕ) (5 : ℕ) = pinf := (C127_hypergeometric (by norm_num)).1

/-! ### the logistic laws -/

/-- C127 for the logistic law and the truncated logistic law with its default bounds holds at plus infinity.
Missing: minus infinity, where it is false (`C127_logistic_false`). -/
theorem C127_logistic_partial (μ : ℝ) {σ : ℝ} (h : 0 < σ) :
    Logs.logistic pinf (fin μ) (fin σ) = pinf ∧ Logs.tlogistic pinf (fin μ) (fin σ) ninf pinf = pinf := by
  constructor
  · simp only [Logs.logistic, std_pinf h, logisPdf_pinf, zero_fin_div h.ne', neg_log_zero]
  · simp only [Logs.tlogistic, std_pinf h, std_ninf h, not_pinf_lt, or_self, if_false, logisCdf_pinf, logisCdf_ninf,
      logisPdf_pinf, fin_sub, zero_fin_div h.ne', fin_div (show (1:ℝ) - 0 ≠ 0 by norm_num), zero_div, neg_log_zero]

example : Logs.logistic pinf (fin 3) (fin 2) = pinf := (C127_logistic_partial 3 two_pos).1

/-- C127 is false for the logistic laws: at minus infinity the density is infinity divided by infinity. -/
theorem C127_logistic_false (μ : ℝ) {σ : ℝ} (h : 0 < σ) :
    Logs.logistic ninf (fin μ) (fin σ) = nan ∧ Logs.tlogistic ninf (fin μ) (fin σ) ninf pinf = nan := by
  constructor
  · simp only [Logs.logistic, std_ninf h, logisPdf_ninf, nan_div, log_nan, neg_nan]
  · simp only [Logs.tlogistic, std_pinf h, std_ninf h, not_ninf_lt_ninf, not_pinf_lt, or_self, if_false,
      logisPdf_ninf, nan_div, log_nan, neg_nan]

example : Logs.logistic ninf (fin 3) (fin 2) = nan := (C127_logistic_false 3 two_pos).1

/-! ### gamma and extreme value laws -/

/-- C127 for the gamma law holds at minus infinity, and at plus infinity for shapes up to one.  Missing: larger
shapes, where it is false (`C127_gamma_false`). -/
theorem C127_gamma_partial {a r : ℝ} (ha : 0 < a) (hr : 0 < r) :
    Logs.gamma ninf (fin a) (fin r) = pinf ∧ (a ≤ 1 → Logs.gamma pinf (fin a) (fin r) = pinf) := by
  have hg : XF.gamma (fin a) = fin (Real.Gamma a) := gamma_fin_pos ha
  have hG := Real.Gamma_pos_of_pos ha
  constructor
  · simp only [Logs.gamma, gammaPdf, zero_def, ninf_le_fin, if_true, neg_log_zero]
  · intro h1
    have hp : ∃ v : ℝ, XF.pow pinf (fin a - 1) = fin v := by
      rw [one_def, fin_sub]
      rcases h1.eq_or_lt with rfl | h1
      · exact ⟨1, by simp [XF.pow, zero_def, one_def]⟩
      · exact ⟨0, pow_pinf_neg (by linarith)⟩
    have hp' : ∃ v : ℝ, XF.pow (fin r) (fin a) = fin v := ⟨_, pow_fin_pos hr a⟩
    obtain ⟨v, hv⟩ := hp
    obtain ⟨w, hw⟩ := hp'
    simp only [Logs.gamma, gammaPdf, hv, hw, zero_def, not_pinf_le_fin, if_false, fin_neg, hg]
    rw [neg_mul_pinf (by linarith), exp_ninf, fin_mul, fin_mul, mul_zero, zero_fin_div hG.ne', neg_log_zero]

example : Logs.gamma pinf (fin (1 / 2)) (fin 3) = pinf :=
  (C127_gamma_partial (by norm_num) (by norm_num)).2 (by norm_num)

/-- C127 is false for gamma laws of shape above one: the density at plus infinity is infinity times zero. -/
theorem C127_gamma_false {a r : ℝ} (ha : 1 < a) (hr : 0 < r) : Logs.gamma pinf (fin a) (fin r) = nan := by
  have hw : XF.pow (fin r) (fin a) = fin (r ^ a) := pow_fin_pos hr a
  simp only [Logs.gamma, gammaPdf, hw, zero_def, not_pinf_le_fin, if_false, fin_neg, one_def, fin_sub]
  rw [pow_pinf_pos (by linarith), mul_pinf_pos (Real.rpow_pos_of_pos hr a), neg_mul_pinf (by linarith), exp_ninf,
    pinf_mul_zero, nan_div, log_nan, neg_nan]

example : Logs.gamma pinf (fin 2) (fin 1) = nan := C127_gamma_false one_lt_two one_pos

/-- C127 for the generalised extreme value law holds at plus infinity for every shape, and at minus infinity for
positive shapes and shapes up to minus one.  Missing: shapes in `(-1, 0]` at minus infinity, where it is false
(`C127_gev_false`). -/
theorem C127_gev_partial (ξ μ : ℝ) {σ : ℝ} (h : 0 < σ) :
    Logs.gev pinf (fin ξ) (fin μ) (fin σ) = pinf ∧
      ((0 < ξ ∨ ξ ≤ -1) → Logs.gev ninf (fin ξ) (fin μ) (fin σ) = pinf) := by
  have e1 : gevPdf pinf (fin ξ) = fin 0 := by
    unfold gevPdf
    rcases lt_trichotomy ξ 0 with hx | rfl | hx
    · have h2 : ¬ (-1 : XF) < pinf * fin ξ := by rw [pinf_mul_neg hx]; simp
      simp only [XF.feq, zero_def, fin_inj, hx.ne, h2, and_false, or_self, if_false]
    · simp [XF.feq, zero_def, neg_pinf, exp_ninf]
    · have hpow : -(ξ + 1) / ξ < 0 := by
        rw [neg_div, neg_lt_zero]; positivity
      have hpow' : -1 / ξ < 0 := by
        rw [neg_div, neg_lt_zero]; positivity
      simp only [XF.feq, zero_def, fin_inj, hx.ne', if_false, pinf_mul_pos hx, fin_lt_pinf, or_false, not_false_iff, and_self, true_or,
        if_true, fin_add, one_def, fin_neg, fin_div hx.ne', fin_add_pinf, pow_pinf_neg hpow, pow_pinf_neg hpow',
        fin_exp, fin_mul, zero_mul, neg_zero]
  refine ⟨by simp only [Logs.gev, std_pinf h, e1, zero_def, XF.feq, if_true], fun hx => ?_⟩
  have e2 : gevPdf ninf (fin ξ) = fin 0 := by
    unfold gevPdf
    rcases hx with hx | hx
    · have h2 : ¬ (-1 : XF) < ninf * fin ξ := by rw [ninf_mul_pos hx]; simp
      simp only [XF.feq, zero_def, fin_inj, hx.ne', h2, and_false, or_self, if_false]
    · have hx0 : ξ < 0 := by linarith
      have hpow' : 0 < -1 / ξ := div_pos_of_neg_of_neg (by norm_num) hx0
      have hq : ∃ v : ℝ, XF.pow pinf (fin (-(ξ + 1) / ξ)) = fin v := by
        rcases hx.eq_or_lt with rfl | hx
        · exact ⟨1, by rw [show -((-1:ℝ) + 1) / -1 = 0 by norm_num]; simp [XF.pow, zero_def, one_def]⟩
        · exact ⟨0, pow_pinf_neg (div_neg_of_pos_of_neg (by linarith) hx0)⟩
      obtain ⟨v, hv⟩ := hq
      simp only [XF.feq, zero_def, fin_inj, hx0.ne, if_false, ninf_mul_neg hx0, fin_lt_pinf, or_false, not_false_iff, and_self, true_or,
        if_true, fin_add, one_def, fin_neg, fin_div hx0.ne, fin_add_pinf, hv, pow_pinf_pos hpow',
        neg_pinf, exp_ninf, fin_mul, mul_zero]
  simp only [Logs.gev, std_ninf h, e2, zero_def, XF.feq, if_true]

example : Logs.gev ninf (fin (1 / 3)) (fin 1) (fin 2) = pinf := (C127_gev_partial _ 1 two_pos).2 (by norm_num)

/-- C127 is false for the extreme value laws of shape in `(-1, 0]` at minus infinity. -/
theorem C127_gev_false {ξ : ℝ} (h1 : -1 < ξ) (h0 : ξ ≤ 0) (μ : ℝ) {σ : ℝ} (h : 0 < σ) :
    Logs.gev ninf (fin ξ) (fin μ) (fin σ) = nan := by
  have e2 : gevPdf ninf (fin ξ) = nan := by
    unfold gevPdf
    rcases h0.eq_or_lt with rfl | hx
    · simp [XF.feq, zero_def, neg_ninf, exp_pinf, neg_pinf, exp_ninf, pinf_mul_zero]
    · have hpow : 0 < -(ξ + 1) / ξ := div_pos_of_neg_of_neg (by linarith) hx
      have hpow' : 0 < -1 / ξ := div_pos_of_neg_of_neg (by norm_num) hx
      simp only [XF.feq, zero_def, fin_inj, hx.ne, if_false, ninf_mul_neg hx, fin_lt_pinf, or_false, not_false_iff, and_self, true_or,
        if_true, fin_add, one_def, fin_neg, fin_div hx.ne, fin_add_pinf, pow_pinf_pos hpow, pow_pinf_pos hpow',
        neg_pinf, exp_ninf, pinf_mul_zero]
  simp only [Logs.gev, std_ninf h, e2, zero_def, XF.feq, if_false, nan_div, log_nan, neg_nan]

example : Logs.gev ninf (fin 0) (fin 1) (fin 2) = nan := C127_gev_false (by norm_num) le_rfl 1 two_pos

/-! ### counts -/

/-- C127 for counts holds at minus infinity, and at plus infinity for Poisson means up to one.  Missing: plus
infinity otherwise, where it is false (`C127_counts_false`). -/
theorem C127_counts_partial {m : ℝ} (hm : 0 ≤ m) (n p : XF) :
    Logs.poisson ninf (fin m) = pinf ∧ Logs.binomial ninf n p = pinf ∧ Logs.negbinom ninf n p = pinf ∧
      (m ≤ 1 → Logs.poisson pinf (fin m) = pinf) := by
  refine ⟨?_, ?_, ?_, fun h1 => ?_⟩
  · simp only [Logs.poisson, poisPdf, zero_def, fin_lt, hm.not_gt, if_false, ninf_lt_fin, if_true, neg_log_zero]
  · simp only [Logs.binomial, zero_def, ninf_lt_fin, if_true]
  · simp only [Logs.negbinom, zero_def, ninf_lt_fin, true_or, if_true]
  · have hv : ∃ v : ℝ, XF.pow (fin m) pinf = fin v := by
      rcases h1.eq_or_lt with rfl | h1
      · exact ⟨1, by simp [XF.pow, zero_def, one_def]⟩
      · refine ⟨0, ?_⟩
        have : |m| < 1 := by rw [abs_of_nonneg hm]; exact h1
        simp [XF.pow, zero_def, one_def, this.not_gt, this.ne, h1.ne]
    obtain ⟨v, hv⟩ := hv
    simp only [Logs.poisson, poisPdf, zero_def, fin_lt, hm.not_gt, if_false, not_pinf_lt, abs_pinf, XF.floor, hv,
      fin_neg, fin_exp, fin_mul, XF.factorial, fin_div_pinf, neg_log_zero]

example : Logs.poisson pinf (fin (1 / 2)) = pinf :=
  (C127_counts_partial (by norm_num) nan nan).2.2.2 (by norm_num)

/-- C127 is false for counts at plus infinity: Poisson means above one, and every binomial and negative binomial
law of probability strictly between zero and one. -/
theorem C127_counts_false {m p : ℝ} (hm : 1 < m) (h0 : 0 < p) (h1 : p < 1) (n : ℕ) (r : ℝ) :
    Logs.poisson pinf (fin m) = nan ∧ Logs.binomial pinf (n : XF) (fin p) = nan ∧
      Logs.negbinom pinf (fin r) (fin p) = nan := by
  have hm0 : 0 < m := by linarith
  have hp1 : 0 < 1 - p := by linarith
  refine ⟨?_, ?_, ?_⟩
  · have hv : XF.pow (fin m) pinf = pinf := by
      have : 1 < |m| := by rw [abs_of_pos hm0]; exact hm
      simp [XF.pow, zero_def, one_def, this, hm.ne']
    simp only [Logs.poisson, poisPdf, zero_def, fin_lt, hm0.le.not_gt, if_false, not_pinf_lt, abs_pinf, XF.floor, hv,
      fin_neg, fin_exp, XF.factorial, pinf_mul_pos (Real.exp_pos _)]
    rfl
  · have e1 : XF.comb (fin n) pinf = fin 0 := rfl
    have e2 : XF.pow (fin p) pinf = fin 0 := by
      have : |p| < 1 := by rw [abs_of_pos h0]; exact h1
      simp [XF.pow, zero_def, one_def, this.not_gt, this.ne, h1.ne]
    have e3 : XF.pow (fin (1 - p)) ninf = pinf := by
      have : |1 - p| < 1 := by rw [abs_of_pos hp1]; linarith
      have h2 : 1 - p ≠ 1 := by linarith
      simp [XF.pow, zero_def, one_def, this.not_gt, this.ne, h0.ne']
    simp only [Logs.binomial, zero_def, not_pinf_lt, if_false, binomPdf, natCast_def, one_def, fin_sub, fin_sub_pinf,
      e1, e2, e3, fin_mul, mul_zero, zero_mul_pinf, log_nan, neg_nan]
  · have e : ¬ ((pinf : XF) < 0 ∨ ¬ XF.feq (XF.floor pinf) pinf) := by simp [XF.floor, XF.feq]
    have e1 : fin r + pinf - 1 = pinf := rfl
    unfold Logs.negbinom
    simp only [if_neg e]
    simp only [negbinomPdf, abs_pinf, XF.floor, not_pinf_lt, if_false, e1, XF.comb, nan_mul,
      log_nan, neg_nan]

example : Logs.poisson pinf (fin 2) = nan :=
  (C127_counts_false (p := 1 / 2) one_lt_two (by norm_num) (by norm_num) 3 2).1

/-! ### mixtures -/

/-- C127 for mixtures of normal laws, any number of components and any finite weights. -/
theorem C127_mixnorm (l : List (ℝ × ℝ × ℝ)) (hs : ∀ p ∈ l, 0 < p.2.1) :
    Spec.InfBoth (fun y => Logs.mixnorm y (l.map fun p => fin p.1) (l.map fun p => fin p.2.1)
      (l.map fun p => fin p.2.2)) := by
  have key : ∀ y : XF, y = pinf ∨ y = ninf → Logs.mixnorm y (l.map fun p => fin p.1) (l.map fun p => fin p.2.1)
      (l.map fun p => fin p.2.2) = pinf := by
    intro y hy
    unfold Logs.mixnorm
    have e : ∀ l : List (ℝ × ℝ × ℝ), (∀ p ∈ l, 0 < p.2.1) →
        (Py.zip2 (· * ·) (l.map fun p => fin p.2.2)
        (Py.zip2 (fun zi si => normPdf zi / si)
          (Py.zip2 (fun mi si => (y - mi) / si) (l.map fun p => fin p.1) (l.map fun p => fin p.2.1))
          (l.map fun p => fin p.2.1))).sum = fin 0 := by
      intro l hs
      induction l with
      | nil => rfl
      | cons p l ih =>
        have hp := hs p (by simp)
        have ih := ih fun q hq => hs q (by simp [hq])
        simp only [Py.zip2, List.map_cons, List.zipWith_cons_cons, List.sum_cons] at ih ⊢
        rw [ih]
        have : normPdf ((y - fin p.1) / fin p.2.1) = fin 0 := by
          rcases hy with rfl | rfl
          · rw [std_pinf hp]; exact normPdf_pinf
          · rw [std_ninf hp]; exact normPdf_ninf
        rw [this, zero_fin_div hp.ne', fin_mul, fin_add]
        simp
    simp only [e l hs, neg_log_zero]
  exact ⟨key _ (Or.inl rfl), key _ (Or.inr rfl)⟩

example : ∀ p ∈ ([(0, 1, 1 / 3), (2, 3, 2 / 3)] : List (ℝ × ℝ × ℝ)), 0 < p.2.1 := by norm_num

end Verif
