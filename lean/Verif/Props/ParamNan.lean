import Verif.Props.ClosedNan

/-!
# C128: closed-form scores with a missing parameter
-/

noncomputable section

open scoped Classical

namespace Verif

open XF Stats

theorem not_feq_nan (a : XF) : ¬ XF.feq nan a := fun h => h

theorem betainc_nan_1 (a b : XF) : XF.betainc nan a b = nan := rfl
theorem betainc_nan_2 (a b : XF) : XF.betainc a nan b = nan := by cases a <;> rfl
theorem betainc_nan_3 (a b : XF) : XF.betainc a b nan = nan := by cases a <;> cases b <;> rfl
theorem gammainc_nan_1 (a : XF) : XF.gammainc nan a = nan := rfl
theorem gammainc_nan_2 (a : XF) : XF.gammainc a nan = nan := by cases a <;> rfl
theorem beta_nan_1 (a : XF) : XF.beta nan a = nan := rfl
theorem beta_nan_2 (a : XF) : XF.beta a nan = nan := by cases a <;> rfl
theorem hyp2f1_nan (a b c : XF) : XF.hyp2f1 a b c nan = nan := by cases a <;> cases b <;> cases c <;> rfl

theorem comb_nan_l (a : XF) : XF.comb nan a = fin 0 := by cases a <;> rfl
theorem comb_nan_r (a : XF) : XF.comb a nan = fin 0 := by cases a <;> rfl
theorem comb_cases (a b : XF) : XF.comb a b = nan ∨ ∃ c, XF.comb a b = fin c := by
  cases a <;> cases b <;> simp only [XF.comb] <;> (try split_ifs) <;> simp
theorem pinf_sub_fin' (a : ℝ) : (pinf : XF) - fin a = pinf := rfl
theorem pinf_div_pos' {a : ℝ} (h : 0 < a) : (pinf : XF) / fin a = pinf := by
  show XF.div _ _ = _
  simp [XF.div, h.le]
theorem normCdf_nan' : normCdf nan = nan := by simp [normCdf, XF.erf]
theorem logisCdf_nan' : logisCdf nan = nan := by simp [logisCdf]

/-- C128: the elementary closed-form CRPS is NaN when a parameter is missing, whatever the observation and the
other parameters. -/
theorem C128_crps_elementary (y : XF) :
    (∀ r, r = nan → Closed.exponential y r = nan) ∧
    (∀ m l s, m = nan ∨ l = nan ∨ s = nan → Closed.exponentialM y m l s = nan) ∧
    (∀ a b l, a = nan ∨ b = nan ∨ l = nan → Closed.twopexponential y a b l = nan) ∧
    (∀ x l s m, x = nan ∨ l = nan ∨ s = nan ∨ m = nan → Closed.gpd y x l s m = nan) ∧
    (∀ l s, l = nan ∨ s = nan → Closed.laplace y l s = nan) ∧
    (∀ l s, l = nan ∨ s = nan → Closed.logistic y l s = nan) ∧
    (∀ l s, l = nan ∨ s = nan → Closed.normal y l s = nan) ∧
    (∀ a b l u, a = nan ∨ b = nan ∨ l = nan ∨ u = nan → Closed.uniform y a b l u = nan) := by
  refine ⟨?_, ?_, ?_, ?_, ?_, ?_, ?_, ?_⟩
  · rintro r rfl; simp [Closed.exponential]
  · rintro m l s (rfl | rfl | rfl) <;> simp [Closed.exponentialM, not_feq_nan]
  · rintro a b l (rfl | rfl | rfl) <;> simp [Closed.twopexponential]
  · rintro x l s m (rfl | rfl | rfl | rfl) <;> simp [Closed.gpd]
  · rintro l s (rfl | rfl) <;> simp [Closed.laplace]
  · rintro l s (rfl | rfl) <;> simp [Closed.logistic]
  · rintro l s (rfl | rfl) <;> simp [Closed.normal]
  · rintro a b l u (rfl | rfl | rfl | rfl) <;> simp [Closed.uniform]

example : Closed.gpd (fin 1) (fin (1 / 2)) (fin 0) nan (fin 0) = nan :=
  (C128_crps_elementary _).2.2.2.1 _ _ _ _ (by simp)

theorem gtclogistic_nan (y l s a b lm um : XF)
    (h : l = nan ∨ s = nan ∨ a = nan ∨ b = nan ∨ lm = nan ∨ um = nan) :
    Closed.gtclogistic y l s a b lm um = nan := by
  unfold Closed.gtclogistic
  rcases h with rfl | rfl | rfl | rfl | rfl | rfl <;> simp

theorem gtcnormal_nan (y l s a b lm um : XF)
    (h : l = nan ∨ s = nan ∨ a = nan ∨ b = nan ∨ lm = nan ∨ um = nan) :
    Closed.gtcnormal y l s a b lm um = nan := by
  unfold Closed.gtcnormal
  rcases h with rfl | rfl | rfl | rfl | rfl | rfl <;> simp

theorem tCdf_nan_df (x : XF) : tCdf x nan = nan := by
  unfold tCdf; simp [betainc_nan_1]

theorem gtct_nan (y d l s a b lm um : XF)
    (h : d = nan ∨ l = nan ∨ s = nan ∨ a = nan ∨ b = nan ∨ lm = nan ∨ um = nan) :
    Closed.gtct y d l s a b lm um = nan := by
  unfold Closed.gtct
  rcases h with rfl | rfl | rfl | rfl | rfl | rfl | rfl <;> simp [tCdf_nan_df]

/-- C128, continued: the other continuous families.  `crps_beta` cannot raise here unless both ends are numbers. -/
theorem C128_crps_other (y : XF) :
    (∀ a b l u, a = nan ∨ b = nan ∨ l = nan ∨ u = nan →
      Closed.beta y a b l u = .ok nan ∨ Closed.beta y a b l u = .error .valueError ∧ u ≤ l) ∧
    (∀ a r, a = nan ∨ r = nan → Closed.gamma y a r = nan) ∧
    (∀ a r s, a = nan ∨ r = nan ∨ s = nan → Closed.csg0 y a r s = nan) ∧
    (∀ x l s, x = nan ∨ l = nan ∨ s = nan → Closed.gev y x l s = nan) ∧
    (∀ l s a b lm um, l = nan ∨ s = nan ∨ a = nan ∨ b = nan ∨ lm = nan ∨ um = nan →
      Closed.gtclogistic y l s a b lm um = nan ∧ Closed.gtcnormal y l s a b lm um = nan) ∧
    (∀ l s a b, l = nan ∨ s = nan ∨ a = nan ∨ b = nan →
      Closed.tlogistic y l s a b = nan ∧ Closed.clogistic y l s a b = nan ∧
      Closed.tnormal y l s a b = nan ∧ Closed.cnormal y l s a b = nan) ∧
    (∀ d l s a b lm um, d = nan ∨ l = nan ∨ s = nan ∨ a = nan ∨ b = nan ∨ lm = nan ∨ um = nan →
      Closed.gtct y d l s a b lm um = nan) ∧
    (∀ d l s a b, d = nan ∨ l = nan ∨ s = nan ∨ a = nan ∨ b = nan →
      Closed.tt y d l s a b = nan ∧ Closed.ct y d l s a b = nan) ∧
    (∀ l s, l = nan ∨ s = nan → Closed.loglaplace y l s = nan ∧ Closed.loglogistic y l s = nan ∧
      Closed.lognormal y l s = nan) ∧
    (∀ a b l, a = nan ∨ b = nan ∨ l = nan → Closed.twopnormal y a b l = nan) ∧
    (∀ d l s, d = nan ∨ l = nan ∨ s = nan → Closed.t y d l s = nan) := by
  refine ⟨?_, ?_, ?_, ?_, fun l s a b lm um h => ⟨gtclogistic_nan y l s a b lm um h, gtcnormal_nan y l s a b lm um h⟩,
    fun l s a b h => ⟨gtclogistic_nan _ _ _ _ _ _ _ (by tauto), gtclogistic_nan _ _ _ _ _ _ _ (by tauto),
      gtcnormal_nan _ _ _ _ _ _ _ (by tauto), gtcnormal_nan _ _ _ _ _ _ _ (by tauto)⟩,
    fun d l s a b lm um h => gtct_nan y d l s a b lm um h,
    fun d l s a b h => ⟨gtct_nan _ _ _ _ _ _ _ _ (by tauto), gtct_nan _ _ _ _ _ _ _ _ (by tauto)⟩, ?_, ?_, ?_⟩
  · intro a b l u h
    unfold Closed.beta
    dsimp only
    by_cases h1 : ¬ (XF.feq l 0 ∧ XF.feq u 1)
    · by_cases h2 : u ≤ l
      · right
        rw [if_pos ⟨h1, h2⟩]
        exact ⟨rfl, h2⟩
      · left
        rw [if_neg (by tauto)]
        rcases h with rfl | rfl | rfl | rfl <;>
          simp [betainc_nan_1, betainc_nan_2, betainc_nan_3, beta_nan_1, beta_nan_2, not_feq_nan]
    · left
      rw [if_neg (by tauto)]
      rcases h with rfl | rfl | rfl | rfl
      · simp [betainc_nan_1, h1]
      · simp [betainc_nan_2, h1]
      · exact absurd (not_not.1 h1).1 (not_feq_nan _)
      · exact absurd (not_not.1 h1).2 (not_feq_nan _)
  · rintro a r (rfl | rfl) <;> simp [Closed.gamma]
  · rintro a r s (rfl | rfl | rfl) <;> simp [Closed.csg0]
  · rintro x l s (rfl | rfl | rfl)
    · simp [Closed.gev, not_feq_nan]
    · unfold Closed.gev; dsimp only; split_ifs <;> simp
    · simp [Closed.gev]
  · rintro l s (rfl | rfl) <;> refine ⟨?_, ?_, ?_⟩ <;> simp [Closed.loglaplace, Closed.loglogistic, Closed.lognormal]
  · rintro a b l (rfl | rfl | rfl)
    · simp [Closed.twopnormal]
    · simp [Closed.twopnormal]
    · simp only [Closed.twopnormal, sub_nan, min_nan, max_nan, nan_div]
      rw [C106_crps_other.2.2.2.2.2.2.1]
      simp
  · rintro d l s (rfl | rfl | rfl) <;> simp [Closed.t]

example : Closed.cnormal (fin 1) (fin 0) (fin 2) nan pinf = nan :=
  ((C128_crps_other (fin 1)).2.2.2.2.2.1 _ _ _ _ (by simp)).2.2.2

/-- C128, counts and mixtures. -/
theorem C128_crps_counts (y : XF) :
    (∀ n : ℕ, Closed.binomial y n nan = nan) ∧
    (∀ n p, n = nan ∨ p = nan → Closed.negbinom y n p = nan) ∧
    (∀ m, m = nan → Closed.poisson y m = nan) ∧
    (∀ m s w : List XF, (∃ i < m.length, Py.idx m i = nan ∨ Py.idx s i = nan ∨ Py.idx w i = nan) →
      Closed.mixnorm y m s w = nan) := by
  refine ⟨?_, ?_, ?_, ?_⟩
  · intro n
    unfold Closed.binomial
    have h0 : ¬ (fin ((0 : ℕ) : ℝ) < 0) := by rw [zero_def, fin_lt]; simp
    rw [sum_range_nan (Nat.succ_pos n) (by simp only [binomCdf, if_neg h0, sub_nan, betainc_nan_3, nan_sub, mul_nan, nan_mul]),
      mul_nan]
  · rintro n p (rfl | rfl)
    · simp [Closed.negbinom]
    · simp [Closed.negbinom]
  · rintro m rfl; simp [Closed.poisson]
  · rintro m s w ⟨i, hi, h⟩
    unfold Closed.mixnorm
    dsimp only
    rw [sum_range_nan hi, nan_sub]
    rcases h with h | h | h <;> simp [h, normCdf, normPdf]

example : Closed.mixnorm (fin 1) [fin 0, fin 1] [fin 1, nan] [fin (1 / 2), fin (1 / 2)] = nan :=
  (C128_crps_counts _).2.2.2 _ _ _ ⟨1, by simp, by simp [Py.idx]⟩

/-! ### log scores -/

/-- C128, log scores: NaN for a missing parameter.  The scores with a support carry the hypothesis that the
observation is not outside it.  Missing: observations outside the support, and the generalised Pareto and extreme
value laws, where the claim is false (`C128_outside_false`, `C128_gpd_false`, `C128_gev_false`). -/
theorem C128_logs_partial (y : XF) :
    (∀ a b l, a = nan ∨ b = nan ∨ l = nan → Logs.twopexponential y a b l = nan ∧ Logs.twopnormal y a b l = nan) ∧
    (∀ l s, l = nan ∨ s = nan → Logs.laplace y l s = nan ∧ Logs.logistic y l s = nan) ∧
    (∀ l s c, l = nan ∨ s = nan → Logs.normal y l s c = nan) ∧
    (∀ d l s, l = nan ∨ s = nan → Logs.t y d l s = nan) ∧
    (∀ l s a b, l = nan ∨ s = nan → Logs.tlogistic y l s a b = nan ∧ Logs.tnormal y l s a b = nan) ∧
    (∀ d l s a b, l = nan ∨ s = nan → Logs.tt y d l s a b = nan) ∧
    (∀ m n k, m = nan ∨ n = nan ∨ k = nan → Logs.hypergeometric y m n k = nan) ∧
    (∀ r, ¬ y < 0 → r = nan → Logs.exponential y r = nan) ∧
    (∀ l s, ¬ y - l < 0 → l = nan ∨ s = nan → Logs.exponential2 y l s = nan) ∧
    (∀ l s, ¬ y ≤ 0 → l = nan ∨ s = nan → Logs.loglaplace y l s = nan ∧ Logs.loglogistic y l s = nan ∧
      Logs.lognormal y l s = nan) ∧
    (∀ a r, ¬ y ≤ 0 → a = nan ∨ r = nan → Logs.gamma y a r = nan) ∧
    (∀ a b, ¬ b < y → ¬ y < a → a = nan ∨ b = nan → Logs.uniform y a b = nan) ∧
    (∀ m s w : List XF, (∃ i, i < m.length ∧ i < s.length ∧ i < w.length ∧
      (Py.idx m i = nan ∨ Py.idx s i = nan ∨ Py.idx w i = nan)) → Logs.mixnorm y m s w = nan) := by
  refine ⟨?_, ?_, ?_, ?_, ?_, ?_, ?_, ?_, ?_, ?_, ?_, ?_, ?_⟩
  · rintro a b l (rfl | rfl | rfl)
    · simp [Logs.twopexponential, Logs.twopnormal]
    · simp [Logs.twopexponential, Logs.twopnormal]
    · simp [Logs.twopexponential, Logs.twopnormal, expPdf, normPdf]
  · rintro l s (rfl | rfl) <;> simp [Logs.laplace, Logs.logistic, laplacePdf, logisPdf]
  · rintro l s c (rfl | rfl) <;> simp [Logs.normal, normPdf]
  · rintro d l s (rfl | rfl) <;> simp [Logs.t, tPdf_nan]
  · rintro l s a b (rfl | rfl) <;> simp [Logs.tlogistic, Logs.tnormal, logisPdf, normPdf]
  · rintro d l s a b (rfl | rfl) <;> simp [Logs.tt, tPdf_nan]
  · intro m n k h
    have e : XF.comb (m + n) k = fin 0 ∧ XF.comb (m + n - m) (k - y) = fin 0 := by
      rcases h with rfl | rfl | rfl <;> simp [comb_nan_l, comb_nan_r]
    obtain ⟨i, hi⟩ : ∃ i : ℝ, XF.ind (XF.max 0 (k - (m + n) + m) ≤ y ∧ y ≤ XF.min m k) = fin i := ⟨_, ind_def _⟩
    simp only [Logs.hypergeometric, hypergeoPdf, e.1, e.2, hi]
    rcases comb_cases m y with hc | ⟨c, hc⟩
    · simp [hc]
    · simp [hc]
  · rintro r hy rfl; simp [Logs.exponential, expPdf, hy]
  · rintro l s hy (rfl | rfl)
    · simp [Logs.exponential2, expPdf]
    · simp [Logs.exponential2, expPdf, hy]
  · rintro l s hy (rfl | rfl) <;>
      simp [Logs.loglaplace, Logs.loglogistic, Logs.lognormal, hy, laplacePdf, logisPdf, normPdf]
  · rintro a r hy (rfl | rfl) <;> simp [Logs.gamma, gammaPdf, hy, XF.gamma]
  · rintro a b h1 h2 (rfl | rfl) <;> simp [Logs.uniform, h1, h2]
  · rintro m s w ⟨i, h1, h2, h3, h⟩
    unfold Logs.mixnorm
    dsimp only
    have : (Py.zip2 (· * ·) w (Py.zip2 (fun zi si => normPdf zi / si)
        (Py.zip2 (fun mi si => (y - mi) / si) m s) s)).sum = nan := by
      apply sum_eq_nan_of_mem
      rw [List.mem_iff_getElem]
      refine ⟨i, by simp [Py.zip2, h1, h2, h3], ?_⟩
      unfold Py.idx at h
      simp only [Py.zip2, List.getElem_zipWith]
      simp only [List.getD_eq_getElem?_getD, List.getElem?_eq_getElem h1, List.getElem?_eq_getElem h2,
        List.getElem?_eq_getElem h3, Option.getD_some] at h
      rcases h with h | h | h <;> simp [h, normPdf]
    rw [this]
    rfl

example : Logs.gamma (fin 2) nan (fin 1) = nan ∧ Logs.tnormal (fin 2) (fin 1) nan (fin 0) pinf = nan :=
  ⟨(C128_logs_partial _).2.2.2.2.2.2.2.2.2.2.1 _ _ (by simp [zero_def]) (by simp),
    ((C128_logs_partial _).2.2.2.2.1 _ _ _ _ (by simp)).2⟩

/-- C128, log scores, continued: a missing bound, shape or number of degrees of freedom, for a finite observation
that no known bound excludes. -/
theorem C128_logs_bounds_partial (y μ : ℝ) {σ : ℝ} (h : 0 < σ) :
    Logs.t (fin y) nan (fin μ) (fin σ) = nan ∧
    (∀ u, ¬ u < fin y → ¬ u = nan → Logs.tnormal (fin y) (fin μ) (fin σ) nan u = nan ∧
      Logs.tlogistic (fin y) (fin μ) (fin σ) nan u = nan) := by
  refine ⟨?_, ?_⟩
  · have hx : ¬ XF.feq (XF.abs (fin ((y - μ) / σ))) pinf := by simp [XF.feq]
    simp only [Logs.t, fin_sub, fin_div h.ne', tPdf, if_neg hx, sqrt_nan, nan_mul, div_nan, nan_div, log_nan, neg_nan]
  · intro u hu hn
    have e : ¬ ((u - fin μ) / fin σ < fin ((y - μ) / σ)) := by
      cases u with
      | nan => exact absurd rfl hn
      | ninf => exact absurd (ninf_lt_fin y) hu
      | pinf => rw [pinf_sub_fin', pinf_div_pos' h]; simp
      | fin b =>
        rw [fin_lt, not_lt] at hu
        rw [fin_sub, fin_div h.ne', fin_lt, not_lt]
        exact div_le_div_of_nonneg_right (by linarith) h.le
    constructor
    · simp only [Logs.tnormal, fin_sub, fin_div h.ne', nan_sub, nan_div, not_lt_nan, e, or_self, if_false, normCdf_nan',
        sub_nan, div_nan, log_nan, neg_nan]
    · simp only [Logs.tlogistic, fin_sub, fin_div h.ne', nan_sub, nan_div, not_lt_nan, e, or_self, if_false,
        logisCdf_nan', sub_nan, div_nan, log_nan, neg_nan]

example : Logs.tnormal (fin 2) (fin 1) (fin 3) nan pinf = nan :=
  ((C128_logs_bounds_partial 2 1 (by norm_num)).2 pinf (by simp) (by simp)).1

/-- C128 is false for the generalised Pareto log score: a missing shape, location or scale gives plus infinity for
every observation, because a missing value fails the test of the support. -/
theorem C128_gpd_false (y : XF) :
    (∀ l s, Logs.gpd y nan l s = pinf) ∧ (∀ x s, Logs.gpd y x nan s = pinf) ∧
      (∀ x l, Logs.gpd y x l nan = pinf) := by
  have h1 : ∀ x, gpdPdf nan x = 0 := by
    intro x
    unfold gpdPdf
    dsimp only
    rw [if_neg (by simp)]
  have h2 : ∀ x, gpdPdf x nan = 0 := by
    intro x
    unfold gpdPdf
    dsimp only
    rw [if_neg (by simp [not_feq_nan])]
  have h0 : XF.feq 0 0 := feq_zero_zero
  refine ⟨fun l s => ?_, fun x s => ?_, fun x l => ?_⟩ <;> simp [Logs.gpd, h1, h2, h0]

example : Logs.gpd (fin 1) nan (fin 0) (fin 1) = pinf := (C128_gpd_false _).1 _ _

/-- C128 is false for the extreme value log score: a missing shape gives plus infinity for every observation, and
so does a missing location or scale unless the shape is zero. -/
theorem C128_gev_false (y : XF) :
    (∀ l s, Logs.gev y nan l s = pinf) ∧
      (∀ x, ¬ XF.feq x 0 → (∀ s, Logs.gev y x nan s = pinf) ∧ ∀ l, Logs.gev y x l nan = pinf) := by
  have h1 : ∀ x, ¬ XF.feq x 0 → gevPdf nan x = 0 := by
    intro x hx
    unfold gevPdf
    dsimp only
    rw [if_neg (by simp [hx])]
  have h2 : ∀ x, gevPdf x nan = 0 := by
    intro x
    unfold gevPdf
    dsimp only
    rw [if_neg (by simp [not_feq_nan])]
  have h0 : XF.feq 0 0 := feq_zero_zero
  refine ⟨fun l s => by simp [Logs.gev, h2, h0], fun x hx => ⟨fun s => ?_, fun l => ?_⟩⟩ <;>
    simp [Logs.gev, h1 x hx, h0]

example : Logs.gev (fin 1) (fin 1) nan (fin 1) = pinf :=
  ((C128_gev_false (fin 1)).2 (fin 1) (by simp [XF.feq, zero_def])).1 _

/-- C128 is false for observations outside the support: there the score is plus infinity whatever the parameters. -/
theorem C128_outside_false (y : ℝ) (hy : y < 0) :
    Logs.exponential (fin y) nan = pinf ∧ (∀ s, Logs.lognormal (fin y) nan s = pinf) ∧
      (∀ r, Logs.gamma (fin y) nan r = pinf) ∧ Logs.uniform (fin y) (fin 0) nan = pinf := by
  have h1 : fin y < 0 := hy
  have h2 : fin y ≤ 0 := hy.le
  refine ⟨?_, fun s => ?_, fun r => ?_, ?_⟩
  · simp [Logs.exponential, h1]
  · simp [Logs.lognormal, h2]
  · simp [Logs.gamma, gammaPdf, XF.log, zero_def, hy.le]; rfl
  · have h3 : fin y < fin 0 := hy
    simp only [Logs.uniform, h3, or_true, if_true, zero_def]
    simp [XF.log]; rfl

example : Logs.exponential (fin (-1)) nan = pinf := (C128_outside_false (-1) (by norm_num)).1

end Verif
