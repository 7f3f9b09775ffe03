import Verif.Model.Closed2
import Verif.Model.Logs
import Verif.Lemmas.KsNan

/-!
# Property C106: closed-form scores of a missing observation
-/

noncomputable section

open scoped Classical

namespace Verif

open XF Stats

theorem min_nan_l (a : XF) : XF.min nan a = nan := rfl
theorem min_nan_r (a : XF) : XF.min a nan = nan := by cases a <;> rfl
theorem max_nan_l (a : XF) : XF.max nan a = nan := rfl
theorem max_nan_r (a : XF) : XF.max a nan = nan := by cases a <;> rfl

/-- C106: the closed-form CRPS of a missing observation is NaN, whatever the parameters. -/
theorem C106_crps_elementary :
    (∀ r, Closed.exponential nan r = nan) ∧
    (∀ m l s, Closed.exponentialM nan m l s = nan) ∧
    (∀ a b l, Closed.twopexponential nan a b l = nan) ∧
    (∀ x l s m, Closed.gpd nan x l s m = nan) ∧
    (∀ l s, Closed.laplace nan l s = nan) ∧
    (∀ l s, Closed.logistic nan l s = nan) ∧
    (∀ l s, Closed.normal nan l s = nan) ∧
    (∀ a b l u, Closed.uniform nan a b l u = nan) := by
  refine ⟨?_, ?_, ?_, ?_, ?_, ?_, ?_, ?_⟩
  · intro r; simp [Closed.exponential]
  · intro m l s; simp [Closed.exponentialM]
  · intro a b l; simp [Closed.twopexponential]
  · intro x l s m; simp [Closed.gpd]
  · intro l s; simp [Closed.laplace]
  · intro l s; simp [Closed.logistic]
  · intro l s; simp [Closed.normal]
  · intro a b l u; simp [Closed.uniform, min_nan_l, max_nan_l]

/-- C106, continued: the other families.  `crps_beta` raises for an empty interval, and `crps_mixnorm` is
given at least one component. -/
theorem C106_crps_other :
    (∀ a b l u, Closed.beta nan a b l u = .ok nan ∨ Closed.beta nan a b l u = .error .valueError) ∧
    (∀ n p, Closed.binomial nan n p = nan) ∧
    (∀ a r, Closed.gamma nan a r = nan) ∧
    (∀ a r s, Closed.csg0 nan a r s = nan) ∧
    (∀ x l s, Closed.gev nan x l s = nan) ∧
    (∀ l s a b lm um, Closed.gtclogistic nan l s a b lm um = nan) ∧
    (∀ l s a b lm um, Closed.gtcnormal nan l s a b lm um = nan) ∧
    (∀ d l s a b lm um, Closed.gtct nan d l s a b lm um = nan) ∧
    (∀ m n k, Closed.hypergeometric nan m n k = nan) ∧
    (∀ l s, Closed.loglaplace nan l s = nan) ∧
    (∀ l s, Closed.loglogistic nan l s = nan) ∧
    (∀ l s, Closed.lognormal nan l s = nan) ∧
    (∀ m s w, m ≠ [] → Closed.mixnorm nan m s w = nan) ∧
    (∀ n p, Closed.negbinom nan n p = nan) ∧
    (∀ a b l, Closed.twopnormal nan a b l = nan) ∧
    (∀ m, Closed.poisson nan m = nan) ∧
    (∀ d l s, Closed.t nan d l s = nan) := by
  have hl : ∀ l s a b lm um, Closed.gtclogistic nan l s a b lm um = nan := by
    intro l s a b lm um
    unfold Closed.gtclogistic
    simp [min_nan_l, max_nan_l]
  have hn : ∀ l s a b lm um, Closed.gtcnormal nan l s a b lm um = nan := by
    intro l s a b lm um
    unfold Closed.gtcnormal
    simp [min_nan_l, max_nan_l]
  refine ⟨?_, ?_, ?_, ?_, ?_, hl, hn, ?_, ?_, ?_, ?_, ?_, ?_, ?_, ?_, ?_, ?_⟩
  · intro a b l u
    unfold Closed.beta
    dsimp only
    split_ifs with h1 h2 h2
    · exact .inr rfl
    · left; simp
    · left; simp
  · intro n p
    unfold Closed.binomial
    rw [sum_range_nan (Nat.succ_pos n) (by simp), mul_nan]
  · intro a r; simp [Closed.gamma]
  · intro a r s; simp [Closed.csg0]
  · intro x l s
    unfold Closed.gev
    dsimp only
    split_ifs <;> simp
  · intro d l s a b lm um
    unfold Closed.gtct
    simp [min_nan_l, max_nan_l]
  · intro m n k
    unfold Closed.hypergeometric
    dsimp only
    rw [sum_range_nan (Nat.succ_pos n) (by simp), mul_nan]
  · intro l s; simp [Closed.loglaplace]
  · intro l s; simp [Closed.loglogistic]
  · intro l s; simp [Closed.lognormal]
  · intro m s w hm
    unfold Closed.mixnorm
    dsimp only
    rw [sum_range_nan (List.length_pos_iff.2 hm) (by simp), nan_sub]
  · intro n p; simp [Closed.negbinom]
  · intro a b l
    unfold Closed.twopnormal
    simp [min_nan_r, max_nan_r, hn]
  · intro m; simp [Closed.poisson]
  · intro d l s; simp [Closed.t]

/-- The hypothesis of the mixture clause is met by a one-component mixture. -/
example : Closed.mixnorm nan [fin 1] [fin 2] [fin 1] = nan :=
  C106_crps_other.2.2.2.2.2.2.2.2.2.2.2.2.1 _ _ _ (by simp)

theorem feq_zero_zero : XF.feq 0 0 := rfl

theorem pow_nan_r {x : XF} (h : x ≠ 1) : XF.pow x nan = nan := by
  unfold XF.pow
  rw [if_neg (by rw [zero_def]; exact fun h => nomatch h), if_neg h]
  cases x <;> rfl

theorem pow_nan_l {y : XF} (h : y ≠ 0) : XF.pow nan y = nan := by
  unfold XF.pow
  rw [if_neg h, if_neg (by rw [one_def]; exact fun h => nomatch h)]

theorem binomPdf_nan (n p : XF) : binomPdf nan n p = nan := by
  unfold binomPdf
  by_cases h : p = 1
  · rw [h, sub_nan, pow_nan_r (x := 1 - 1) (by rw [one_def, fin_sub]; simp [fin_inj]), mul_nan]
  · rw [pow_nan_r h, mul_nan, nan_mul]

theorem tPdf_nan (df : XF) : tPdf nan df = nan := by
  have hx : ¬ XF.feq (XF.abs nan) pinf := fun h => h
  unfold tPdf
  simp only [if_neg hx]
  by_cases h : -(df + 1) / 2 = 0
  · have hs : XF.sqrt df = nan := by
      cases df with
      | nan => rfl
      | ninf => rfl
      | pinf =>
        exfalso
        have h2 : -(pinf + 1) / 2 = ninf := by
          have h3 : -(pinf + 1) = ninf := rfl
          rw [h3, ofNat_def]
          show XF.div ninf (fin 2) = ninf
          simp [XF.div, infMul]
        rw [h2] at h
        exact nomatch h
      | fin d =>
        rw [one_def, fin_add, fin_neg, ofNat_def, zero_def, fin_div (by norm_num), fin_inj] at h
        have : d = -1 := by
          have := h
          norm_num at this
          linarith
        rw [this]
        simp [XF.sqrt]
    rw [hs, nan_mul, div_nan]
  · have : (1 : XF) + nan ^ 2 / df = nan := by simp
    rw [this, pow_nan_l h, nan_div]

/-- C106, log scores: these are NaN for a missing observation, whatever the parameters.  The full claim, for
every log score of the library, is false: see the witnesses below. -/
theorem C106_logs_partial :
    (∀ n p, Logs.binomial nan n p = nan) ∧
    (∀ r, Logs.exponential nan r = nan) ∧
    (∀ l s, Logs.exponential2 nan l s = nan) ∧
    (∀ a b l, Logs.twopexponential nan a b l = nan) ∧
    (∀ l s, Logs.laplace nan l s = nan) ∧
    (∀ l s, Logs.loglaplace nan l s = nan) ∧
    (∀ l s, Logs.logistic nan l s = nan) ∧
    (∀ l s, Logs.loglogistic nan l s = nan) ∧
    (∀ l s, Logs.lognormal nan l s = nan) ∧
    (∀ m s c, Logs.normal nan m s c = nan) ∧
    (∀ a b l, Logs.twopnormal nan a b l = nan) ∧
    (∀ d l s, Logs.t nan d l s = nan) ∧
    (∀ l s a b, Logs.tlogistic nan l s a b = nan) ∧
    (∀ l s a b, Logs.tnormal nan l s a b = nan) ∧
    (∀ d l s a b, Logs.tt nan d l s a b = nan) ∧
    (∀ l s, Logs.gev nan 0 l s = nan) ∧
    (∀ a r, Logs.gamma nan a r = nan) ∧
    (∀ m, Logs.poisson nan m = nan) ∧
    (∀ a s w m s' w', Logs.mixnorm nan (a :: m) (s :: s') (w :: w') = nan) := by
  refine ⟨?_, ?_, ?_, ?_, ?_, ?_, ?_, ?_, ?_, ?_, ?_, ?_, ?_, ?_, ?_, ?_, ?_, ?_, ?_⟩
  · intro n p
    simp [Logs.binomial, binomPdf_nan]
  · intro r; simp [Logs.exponential, expPdf]
  · intro l s; simp [Logs.exponential2, expPdf]
  · intro a b l; simp [Logs.twopexponential, expPdf]
  · intro l s; simp [Logs.laplace, laplacePdf]
  · intro l s; simp [Logs.loglaplace, laplacePdf]
  · intro l s; simp [Logs.logistic, logisPdf]
  · intro l s; simp [Logs.loglogistic, logisPdf]
  · intro l s; simp [Logs.lognormal, normPdf]
  · intro m s c; simp [Logs.normal, normPdf]
  · intro a b l; simp [Logs.twopnormal, normPdf]
  · intro d l s; simp [Logs.t, tPdf_nan]
  · intro l s a b; simp [Logs.tlogistic, logisPdf]
  · intro l s a b; simp [Logs.tnormal, normPdf]
  · intro d l s a b; simp [Logs.tt, tPdf_nan]
  · intro l s
    have h : XF.feq 0 0 := feq_zero_zero
    have h' : ¬ XF.feq nan 0 := fun h => h
    simp [Logs.gev, gevPdf, h, h']
  · intro a r; simp [Logs.gamma, gammaPdf]
  · intro m; simp [Logs.poisson, poisPdf, XF.factorial]
  · intro a s w m s' w'
    simp [Logs.mixnorm, Py.zip2, normPdf]

/-- Non-trivial parameters for the clause with a hypothesis: a two-component mixture. -/
example : Logs.mixnorm nan [fin 0, fin 1] [fin 1, fin 2] [fin (1 / 2), fin (1 / 2)] = nan :=
  C106_logs_partial.2.2.2.2.2.2.2.2.2.2.2.2.2.2.2.2.2.2 _ _ _ _ _ _

/-- C106 is false for `logs_uniform`: a missing observation scores like one inside the interval. -/
theorem C106_logs_uniform_false (a b : ℝ) (h : a < b) :
    Logs.uniform nan (fin a) (fin b) = fin (Real.log (b - a)) := by
  have hb : 0 < b - a := by linarith
  have h1 : ¬ (fin b < nan ∨ nan < fin a) := by simp
  simp only [Logs.uniform, if_neg h1, one_def, fin_sub, fin_div hb.ne']
  rw [XF.log, if_pos (by positivity), fin_neg, one_div, Real.log_inv, neg_neg]

example : ((0 : ℝ) < 2) := by norm_num

/-- C106 is false for `logs_negbinom`: `floor(nan) != nan` holds, so the score is `+inf`. -/
theorem C106_logs_negbinom_false (n p : XF) : Logs.negbinom nan n p = pinf := by
  have h1 : nan < 0 ∨ ¬ XF.feq (XF.floor nan) nan := .inr fun h => h
  simp only [Logs.negbinom, if_pos h1]

/-- C106 is false for `logs_gpd`: a missing observation fails the test of the support. -/
theorem C106_logs_gpd_false (x l s : XF) : Logs.gpd nan x l s = pinf := by
  have h : gpdPdf nan x = 0 := by
    unfold gpdPdf
    dsimp only
    rw [if_neg (by simp)]
  have h0 : XF.feq 0 0 := feq_zero_zero
  simp [Logs.gpd, h, h0]

/-- C106 is false for `logs_gev` with a shape other than zero. -/
theorem C106_logs_gev_false (x l s : XF) (hx : ¬ XF.feq x 0) : Logs.gev nan x l s = pinf := by
  have h : gevPdf nan x = 0 := by
    unfold gevPdf
    dsimp only
    rw [if_neg (by simp [hx])]
  have h0 : XF.feq 0 0 := feq_zero_zero
  simp [Logs.gev, h, h0]

example : ¬ XF.feq (fin (1 / 2)) 0 := by
  rw [zero_def]
  show ¬ fin (1 / 2) = fin 0
  rw [fin_inj]
  norm_num

/-- C106 is false for `logs_hypergeometric`: with `m = n = 2` and `k = 1` the score is `+inf`. -/
theorem C106_logs_hypergeometric_false :
    Logs.hypergeometric nan (fin 2) (fin 2) (fin 1) = pinf := by
  have h : hypergeoPdf nan (fin (2 + 2)) (fin 2) (fin 1) = 0 := by
    have hn : ¬ (XF.max 0 (fin 1 - fin (2 + 2) + fin 2) ≤ nan ∧ nan ≤ XF.min (fin 2) (fin 1)) := by simp
    have hG : (0 : ℝ) < Real.Gamma (2 + 2 + 1) / (Real.Gamma (1 + 1) * Real.Gamma (2 + 2 - 1 + 1)) :=
      div_pos (Real.Gamma_pos_of_pos (by norm_num))
        (mul_pos (Real.Gamma_pos_of_pos (by norm_num)) (Real.Gamma_pos_of_pos (by norm_num)))
    simp only [hypergeoPdf, XF.ind, if_neg hn, fin_sub, sub_nan]
    simp only [XF.comb, if_pos (show (0 : ℝ) ≤ 1 ∧ (1 : ℝ) ≤ 2 + 2 by norm_num), zero_def, fin_mul,
      fin_div hG.ne']
    norm_num
    rw [fin_div (by norm_num)]
    simp
  simp only [Logs.hypergeometric, fin_add, h, zero_def, XF.log]
  simp
  rfl

/-- C106 is false for `logs_beta` with both shapes one (the uniform law): `nan ** 0` is one. -/
theorem C106_logs_beta_false : Logs.beta nan 1 1 0 1 = 0 := by
  have h1 : ∀ x : XF, XF.pow x (1 - 1) = 1 := by
    intro x
    unfold XF.pow
    rw [if_pos (by rw [one_def, fin_sub, zero_def, fin_inj]; norm_num)]
  have hb : XF.beta 1 1 = 1 := by
    simp only [one_def, XF.beta]
    rw [if_pos (by norm_num)]
    norm_num
  simp only [Logs.beta, nan_sub, nan_div, h1, hb]
  rw [if_neg (by simp)]
  simp only [one_def, zero_def, fin_sub, fin_mul]
  rw [fin_div (by norm_num), fin_div (by norm_num)]
  simp [XF.log]

/-- C106 for `logs_beta` unless both exponents are zero. -/
theorem C106_logs_beta_partial (a b l u : XF) (h : a - 1 ≠ 0 ∨ b - 1 ≠ 0) :
    Logs.beta nan a b l u = nan := by
  unfold Logs.beta
  rcases h with h | h
  · simp [pow_nan_l h]
  · simp [pow_nan_l h]

example : (2 : XF) - 1 ≠ 0 ∨ (1 : XF) - 1 ≠ 0 := by
  left
  rw [ofNat_def, one_def, fin_sub, zero_def, Ne, fin_inj]
  norm_num

end Verif
