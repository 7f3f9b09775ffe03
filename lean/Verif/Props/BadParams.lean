import Verif.Props.Closed
import Verif.Props.Logs
import Verif.Props.Gev
import Verif.Props.TDist
import Verif.Lemmas.TGtc

/-!
# C126: parameters outside their range

The documentation asks for positive scales.  The functions do not check them.  The log scores come out as NaN or
plus infinity, the CRPS as minus the CRPS of the distribution with the sign corrected.
-/

noncomputable section

open scoped Classical
open MeasureTheory

namespace Verif

open XF Spec Stats

/-- A forecast that cannot win: its score is NaN or plus infinity. -/
def Spec.Rejected (s : XF) : Prop := s = nan ∨ s = pinf

theorem crps_pos_of {F : ℝ → ℝ} {y : ℝ} (h : HasCrps F y) (h0 : ∀ z, 0 < F z) (h1 : ∀ z, F z < 1) :
    0 < Spec.crps F y := by
  unfold Spec.crps
  rw [integral_pos_iff_support_of_nonneg (fun z => sq_nonneg _) h]
  have : Function.support (fun z => (F z - if y ≤ z then 1 else 0) ^ 2) = Set.univ := by
    ext z
    simp only [Function.mem_support, ne_eq, Set.mem_univ, iff_true]
    apply pow_ne_zero
    split_ifs
    · linarith [h1 z]
    · linarith [h0 z]
  rw [this]
  simp

theorem normal_val {σ : ℝ} (hσ : σ ≠ 0) (μ y : ℝ) : Closed.normal (fin y) (fin μ) (fin σ)
    = fin (σ * ((y - μ) / σ * (2 * Φ ((y - μ) / σ) - 1) + 2 * φ ((y - μ) / σ) - 1 / Real.sqrt Real.pi)) := by
  unfold Closed.normal XF.pi
  rw [fin_sqrt Real.pi_pos.le]
  simp only [XF.one_def, XF.ofNat_def, fin_sub, fin_div hσ, normCdf_fin, normPdf_fin, fin_mul, fin_add]
  rw [fin_div (Real.sqrt_pos.2 Real.pi_pos).ne', fin_sub, fin_mul]

theorem laplace_val {σ : ℝ} (hσ : σ ≠ 0) (μ y : ℝ) : Closed.laplace (fin y) (fin μ) (fin σ)
    = fin (σ * (|(y - μ) / σ| + Real.exp (-|(y - μ) / σ|) - 3 / 4)) := by
  unfold Closed.laplace
  simp only [XF.ofNat_def, fin_sub, fin_div hσ, fin_abs, fin_neg, fin_exp, fin_add]
  rw [fin_div (by norm_num), fin_sub, fin_mul]

theorem logistic_val {σ : ℝ} (hσ : σ ≠ 0) (μ y : ℝ) : Closed.logistic (fin y) (fin μ) (fin σ)
    = fin (σ * ((y - μ) / σ - 2 * Real.log (logis ((y - μ) / σ)) - 1)) := by
  unfold Closed.logistic
  simp only [XF.one_def, XF.ofNat_def, fin_sub, fin_div hσ, logisCdf_fin, fin_log (logis_pos _), fin_mul]

theorem log_logis_neg (x : ℝ) : Real.log (logis (-x)) = Real.log (logis x) - x := by
  have e : logis (-x) = logis x * Real.exp (-x) := by
    unfold logis
    rw [neg_neg, Real.exp_neg]
    have := Real.exp_pos x
    field_simp
    ring
  rw [e, Real.log_mul (logis_pos x).ne' (Real.exp_pos _).ne', Real.log_exp]
  ring

theorem t_val {ν σ : ℝ} (hν : 1 < ν) (hσ : σ ≠ 0) (μ y : ℝ) : Closed.t (fin y) (fin ν) (fin μ) (fin σ)
    = fin (let z := (y - μ) / σ
       σ * (z * (2 * tF ((ν + 1) / 2) (z / Real.sqrt ν) - 1)
        + 2 * densT ν 0 1 z * ((ν + z ^ 2) / (ν - 1))
        - 2 * Real.sqrt ν / (ν - 1) * betaF (1 / 2) (ν - 1 / 2) / betaF (1 / 2) (ν / 2) ^ 2)) := by
  have hν0 : 0 < ν := by linarith
  have hν1 : ν - 1 ≠ 0 := by linarith
  have hb := betaF_pos (show (0:ℝ) < 1 / 2 by norm_num) (show 0 < ν / 2 by linarith)
  unfold Closed.t
  simp only [fin_sub, fin_div hσ, tCdf_tF hν0, tPdf_dens hν0, XF.ofNat_def, XF.one_def, fin_div (two_ne_zero' ℝ),
    beta_fin (show (0:ℝ) < 1 / 2 by norm_num) (show 0 < ν / 2 by linarith),
    beta_fin (show (0:ℝ) < 1 / 2 by norm_num) (show 0 < ν - 1 / 2 by linarith), fin_sqrt hν0.le, fin_mul,
    fin_pow, fin_add, fin_div hν1, fin_div (pow_ne_zero 2 hb.ne')]

theorem densT_even (ν x : ℝ) : densT ν 0 1 (-x) = densT ν 0 1 x := by
  simp only [densT, sub_zero, div_one, neg_sq]

/-- The full claim would be: a negative scale gives NaN or plus infinity.  It is false of the CRPS functions: for
every observation the normal, logistic, Laplace and t CRPS with scale `-σ` is minus the CRPS with scale `σ`, a
negative number, so the invalid forecast beats every valid one. -/
theorem C126_crps_false {σ ν : ℝ} (hσ : 0 < σ) (hν : 1 < ν) (μ y : ℝ) :
    (∃ r, 0 < r ∧ Closed.normal (fin y) (fin μ) (fin σ) = fin r ∧
      Closed.normal (fin y) (fin μ) (fin (-σ)) = fin (-r)) ∧
    (∃ r, 0 < r ∧ Closed.logistic (fin y) (fin μ) (fin σ) = fin r ∧
      Closed.logistic (fin y) (fin μ) (fin (-σ)) = fin (-r)) ∧
    (∃ r, 0 < r ∧ Closed.laplace (fin y) (fin μ) (fin σ) = fin r ∧
      Closed.laplace (fin y) (fin μ) (fin (-σ)) = fin (-r)) ∧
    (∃ r, 0 < r ∧ Closed.t (fin y) (fin ν) (fin μ) (fin σ) = fin r ∧
      Closed.t (fin y) (fin ν) (fin μ) (fin (-σ)) = fin (-r)) := by
  have hn : -σ ≠ 0 := neg_ne_zero.2 hσ.ne'
  refine ⟨⟨_, crps_pos_of (C50_normal hσ μ y).1 (fun z => Φ_pos _) (fun z => Φ_lt_one _), (C50_normal hσ μ y).2, ?_⟩,
    ⟨_, crps_pos_of (C48_logistic hσ μ y).1 (fun z => logis_pos _) (fun z => logis_lt_one _), (C48_logistic hσ μ y).2, ?_⟩,
    ⟨_, crps_pos_of (C46_laplace hσ μ y).1 (fun z => ?_) (fun z => ?_), (C46_laplace hσ μ y).2, ?_⟩,
    ⟨_, crps_pos_of (C78_t hν hσ μ y).1 (fun z => cdfT_pos (by linarith) hσ μ z)
      (fun z => cdfT_lt_one (by linarith) hσ μ z), (C78_t hν hσ μ y).2, ?_⟩⟩
  · have h := (C50_normal hσ μ y).2
    rw [normal_val hσ.ne'] at h
    rw [normal_val hn, ← fin.inj h, div_neg]
    have := Φ_add_neg ((y - μ) / σ)
    have e : Φ (-((y - μ) / σ)) = 1 - Φ ((y - μ) / σ) := by linarith
    have e2 : φ (-((y - μ) / σ)) = φ ((y - μ) / σ) := by simp only [φ, neg_sq]
    rw [e, e2]
    congr 1; ring
  · have h := (C48_logistic hσ μ y).2
    rw [logistic_val hσ.ne'] at h
    rw [logistic_val hn, ← fin.inj h, div_neg, log_logis_neg]
    congr 1; ring
  · unfold cdfLaplace
    split_ifs with hz
    · positivity
    · have : Real.exp (-((z - μ) / σ)) ≤ 1 := Real.exp_le_one_iff.2 (by
        have := div_nonneg (by linarith : 0 ≤ z - μ) hσ.le; linarith)
      linarith
  · unfold cdfLaplace
    split_ifs with hz
    · have : Real.exp ((z - μ) / σ) ≤ 1 := Real.exp_le_one_iff.2 (div_nonpos_of_nonpos_of_nonneg (by linarith) hσ.le)
      linarith
    · have := Real.exp_pos (-((z - μ) / σ))
      linarith
  · have h := (C46_laplace hσ μ y).2
    rw [laplace_val hσ.ne'] at h
    rw [laplace_val hn, ← fin.inj h, div_neg, abs_neg]
    congr 1; ring
  · have h := (C78_t hν hσ μ y).2
    rw [t_val hν hσ.ne'] at h
    rw [t_val hν hn, ← fin.inj h]
    dsimp only
    rw [div_neg, neg_div, tF_neg (by linarith), densT_even]
    congr 1; ring

example : Closed.laplace (fin 0) (fin 0) (fin (-1)) = fin (-1 / 4) := by
  rw [laplace_val (by norm_num)]
  norm_num

/-- The uniform CRPS with the two ends interchanged is minus the CRPS, and the exponential CRPS of a negative rate
`-r` is `y - 1 / (2 r)` at a non-negative observation. -/
theorem C126_ends_false {a b r y z : ℝ} (hab : a < b) (hr : 0 < r) (hz : 0 ≤ z) :
    (∃ s, 0 < s ∧ Closed.uniform (fin y) (fin a) (fin b) (fin 0) (fin 0) = fin s ∧
      Closed.uniform (fin y) (fin b) (fin a) (fin 0) (fin 0) = fin (-s)) ∧
    Closed.exponential (fin z) (fin (-r)) = fin (z - 1 / (2 * r)) := by
  have uval : ∀ c d : ℝ, d - c ≠ 0 → Closed.uniform (fin y) (fin c) (fin d) (fin 0) (fin 0)
      = fin (let ω := (y - c) / (d - c); let F := min (max ω 0) 1
          (d - c) * (|ω - F| + F ^ 2 - F + 1 / 3)) := by
    intro c d h
    unfold Closed.uniform
    simp only [fin_sub, fin_div h]
    simp only [XF.one_def, XF.zero_def, XF.ofNat_def, fin_sub, fin_max, fin_min, fin_abs, fin_mul, fin_pow, fin_add]
    rw [fin_div (by norm_num)]
    simp
  refine ⟨⟨_, ?_, uval a b (by linarith), ?_⟩, ?_⟩
  · dsimp only
    have h : 0 < b - a := by linarith
    refine mul_pos h ?_
    have := abs_nonneg ((y - a) / (b - a) - min (max ((y - a) / (b - a)) 0) 1)
    nlinarith [sq_nonneg (min (max ((y - a) / (b - a)) 0) 1 - 1 / 2)]
  · rw [uval b a (by linarith)]
    dsimp only
    have h : b - a ≠ 0 := by linarith
    have h' : a - b ≠ 0 := by linarith
    have e : (y - b) / (a - b) = 1 - (y - a) / (b - a) := by field_simp; ring
    rw [e]
    generalize (y - a) / (b - a) = ω
    have eF : min (max (1 - ω) 0) 1 = 1 - min (max ω 0) 1 := by
      rcases le_total ω 0 with h0 | h0 <;> rcases le_total ω 1 with h1 | h1 <;>
        simp [h0, h1, max_eq_left, max_eq_right, min_eq_left, min_eq_right]
      · linarith
    rw [eF, show 1 - ω - (1 - min (max ω 0) 1) = -(ω - min (max ω 0) 1) by ring, abs_neg]
    congr 1; ring
  · unfold Closed.exponential expCdf
    simp only [XF.zero_def, XF.one_def, XF.ofNat_def, fin_neg, fin_mul, fin_exp, fin_sub, fin_max, neg_neg]
    have : max (1 - Real.exp (r * z)) 0 = 0 := max_eq_right (by
      have := Real.one_le_exp (mul_nonneg hr.le hz); linarith)
    rw [this, fin_div (neg_ne_zero.2 hr.ne'), fin_div (by nlinarith), fin_abs, fin_sub, fin_add, abs_of_nonneg hz]
    congr 1
    rw [mul_zero, zero_div, mul_neg, div_neg]; ring

example : (0:ℝ) < 1 ∧ (0:ℝ) < 2 ∧ (0:ℝ) ≤ 0 := by norm_num

theorem log_of_neg {a : ℝ} (h : a < 0) : -XF.log (fin a) = nan := by
  simp [XF.log, h.not_gt, h.ne]

/-- The log scores do reject a negative scale: the result is NaN or plus infinity for every observation. -/
theorem C126_logs_partial {σ : ℝ} (hσ : σ < 0) (μ y : ℝ) :
    Logs.normal (fin y) (fin μ) (fin σ) true = nan ∧
    Logs.laplace (fin y) (fin μ) (fin σ) = nan ∧
    Logs.logistic (fin y) (fin μ) (fin σ) = nan ∧
    (∀ ν, 0 < ν → Logs.t (fin y) (fin ν) (fin μ) (fin σ) = nan) ∧
    Rejected (Logs.lognormal (fin y) (fin μ) (fin σ)) ∧
    Rejected (Logs.loglaplace (fin y) (fin μ) (fin σ)) ∧
    Rejected (Logs.loglogistic (fin y) (fin μ) (fin σ)) ∧
    Rejected (Logs.exponential (fin y) (fin σ)) ∧
    Rejected (Logs.exponential2 (fin y) (fin μ) (fin σ)) ∧
    (∀ ξ, Rejected (Logs.gev (fin y) (fin ξ) (fin μ) (fin σ))) ∧
    (∀ ξ, ¬ (ξ < -1 ∧ (y - μ) / σ = -1 / ξ) → Rejected (Logs.gpd (fin y) (fin ξ) (fin μ) (fin σ))) := by
  have hφ : ∀ x, 0 < φ x := fun x => by unfold φ; positivity
  refine ⟨?_, ?_, ?_, fun ν hν => ?_, ?_, ?_, ?_, ?_, ?_, fun ξ => ?_, fun ξ h => ?_⟩
  · unfold Logs.normal
    simp only [fin_sub, fin_div hσ.ne, normPdf_fin, if_true]
    have := div_neg_of_pos_of_neg (hφ ((y - μ) / σ)) hσ
    simp [XF.log, this.not_gt, this.ne]
  · unfold Logs.laplace
    simp only [fin_sub, fin_div hσ.ne, laplacePdf_fin]
    exact log_of_neg (div_neg_of_pos_of_neg (by positivity) hσ)
  · unfold Logs.logistic
    simp only [fin_sub, fin_div hσ.ne, logisPdf_fin]
    exact log_of_neg (div_neg_of_pos_of_neg (by positivity) hσ)
  · unfold Logs.t
    simp only [fin_sub, fin_div hσ.ne, tPdf_dens hν]
    exact log_of_neg (div_neg_of_pos_of_neg (densT_pos hν one_pos 0 _) hσ)
  · unfold Logs.lognormal
    simp only [XF.zero_def, fin_le]
    split_ifs with h
    · exact Or.inr rfl
    · have hy := not_le.1 h
      rw [fin_log hy, fin_sub, fin_div hσ.ne, normPdf_fin, fin_div hσ.ne, fin_div hy.ne']
      exact Or.inl (log_of_neg (div_neg_of_neg_of_pos (div_neg_of_pos_of_neg (hφ _) hσ) hy))
  · unfold Logs.loglaplace
    simp only [XF.zero_def, fin_le]
    split_ifs with h
    · exact Or.inr rfl
    · have hy := not_le.1 h
      rw [fin_log hy, fin_sub, fin_div hσ.ne, laplacePdf_fin, fin_div hσ.ne, fin_div hy.ne']
      exact Or.inl (log_of_neg (div_neg_of_neg_of_pos (div_neg_of_pos_of_neg (by positivity) hσ) hy))
  · unfold Logs.loglogistic
    simp only [XF.zero_def, fin_le]
    split_ifs with h
    · exact Or.inr rfl
    · have hy := not_le.1 h
      rw [fin_log hy, fin_sub, fin_div hσ.ne, logisPdf_fin, fin_div hσ.ne, fin_div hy.ne']
      exact Or.inl (log_of_neg (div_neg_of_neg_of_pos (div_neg_of_pos_of_neg (by positivity) hσ) hy))
  · unfold Logs.exponential
    simp only [XF.zero_def, fin_lt]
    split_ifs with h
    · exact Or.inr rfl
    · rw [expPdf_fin, densExp, if_neg h]
      exact Or.inl (log_of_neg (mul_neg_of_neg_of_pos hσ (Real.exp_pos _)))
  · unfold Logs.exponential2
    simp only [XF.zero_def, XF.one_def, fin_sub, fin_lt, fin_div hσ.ne]
    split_ifs with h
    · exact Or.inr rfl
    · rw [expPdf_fin, densExp, if_neg h]
      exact Or.inl (log_of_neg (mul_neg_of_neg_of_pos (div_neg_of_pos_of_neg one_pos hσ) (Real.exp_pos _)))
  · unfold Logs.gev
    simp only [fin_sub, fin_div hσ.ne, gevPdf_fin, XF.zero_def, fin_feq]
    split_ifs with h
    · exact Or.inr rfl
    · exact Or.inl (log_of_neg (div_neg_of_pos_of_neg (lt_of_le_of_ne (densGev0_nonneg _ _) (Ne.symm h)) hσ))
  · unfold Logs.gpd
    simp only [fin_sub, fin_div hσ.ne, gpdPdf_fin h, XF.zero_def, fin_feq]
    split_ifs with h0
    · exact Or.inr rfl
    · exact Or.inl (log_of_neg (div_neg_of_pos_of_neg
        (lt_of_le_of_ne ((dist_gpd ξ 0 one_pos).nonneg _) (Ne.symm h0)) hσ))

example : (-1:ℝ) < 0 ∧ ¬ ((1:ℝ) < -1 ∧ ((0:ℝ) - 0) / (-1) = -1 / 1) := by norm_num

/-- The two-piece log scores do not: with scales `-1` and `3` the two-piece normal log score is an ordinary
number at every observation. -/
theorem C126_logs_false (μ y : ℝ) : ∃ r, Logs.twopnormal (fin y) (fin (-1)) (fin 3) (fin μ) = fin r := by
  unfold Logs.twopnormal
  have hφ : ∀ x, 0 < φ x := fun x => by unfold φ; positivity
  simp only [XF.zero_def, XF.ofNat_def, fin_sub, fin_lt, fin_add, fin_mul]
  split_ifs with h
  · rw [fin_div (by norm_num), normPdf_fin, fin_mul, fin_div (by norm_num), fin_mul, fin_div (by norm_num),
      fin_log (by have := hφ ((y - μ) / (-1)); linarith [this]), fin_neg]
    exact ⟨_, rfl⟩
  · rw [fin_div (by norm_num), normPdf_fin, fin_mul, fin_div (by norm_num), fin_mul, fin_div (by norm_num),
      fin_log (by have := hφ ((y - μ) / 3); linarith [this]), fin_neg]
    exact ⟨_, rfl⟩

example : ∃ r, Logs.twopnormal (fin 5) (fin (-1)) (fin 3) (fin 0) = fin r := C126_logs_false 0 5

/-- Parameters that are caught: a generalised Pareto shape of one or more (or NaN) or mass outside `[0, 1]`, a
negative gamma shape, a negative Poisson mean, a binomial probability outside `[0, 1]` and negative degrees
of freedom all give NaN. -/
theorem C126_caught_partial (y : XF) (μ σ : XF) :
    (∀ shape mass, ¬ shape < 1 → Closed.gpd y shape μ σ mass = nan) ∧
    (∀ shape mass, ¬ (0 ≤ mass ∧ mass ≤ 1) → Closed.gpd y shape μ σ mass = nan) ∧
    (∀ a : ℝ, ∀ rate, a < 0 → Closed.gamma y (fin a) rate = nan) ∧
    (∀ m : ℝ, m < 0 → Closed.poisson y (fin m) = nan ∧ Logs.poisson y (fin m) = nan) ∧
    (∀ (n : ℕ) (p : ℝ), ¬ (0 ≤ p ∧ p ≤ 1) → Closed.binomial y n (fin p) = nan) ∧
    (∀ ν : ℝ, ν < 0 → Closed.t y (fin ν) μ σ = nan) := by
  have sn : ∀ a : XF, a - nan = nan := fun a => by cases a <;> rfl
  have ns : ∀ a : XF, nan - a = nan := fun a => by cases a <;> rfl
  have dn : ∀ a : XF, a / nan = nan := fun a => by cases a <;> rfl
  refine ⟨fun shape mass h => ?_, fun shape mass h => ?_, fun a rate h => ?_, fun m h => ⟨?_, ?_⟩,
    fun n p h => ?_, fun ν h => ?_⟩
  · unfold Closed.gpd
    rw [if_neg h]
    simp [sn, ns, dn]
  · unfold Closed.gpd
    simp only
    rw [if_neg h]
    simp [sn, ns, dn]
  · unfold Closed.gamma gammaCdf
    have : ∀ x, XF.gammainc (fin a) x = nan := fun x => by
      cases x <;> simp [XF.gammainc, h.le.not_gt]
    simp [this, sn, ns]
  · unfold Closed.poisson poisPdf
    have : fin m < (0 : XF) := by rw [XF.zero_def, fin_lt]; exact h
    simp [this, sn, ns]
  · unfold Logs.poisson poisPdf
    have : fin m < (0 : XF) := by rw [XF.zero_def, fin_lt]; exact h
    simp [this]
  · unfold Closed.binomial
    rw [List.range_succ_eq_map]
    simp only [List.map_cons, List.sum_cons]
    have : binomCdf (fin ((0:ℕ):ℝ)) (fin (n:ℝ)) (fin p) = nan := by
      unfold binomCdf
      rw [if_neg (by rw [XF.zero_def, fin_lt]; simp)]
      have hb : ∀ c, XF.betainc c (fin ((0:ℕ):ℝ) + 1) (1 - fin p) = nan := by
        intro c
        rw [XF.one_def, fin_sub, fin_add]
        cases c <;> simp only [XF.betainc]
        rw [if_neg]
        rintro ⟨-, -, h1, h2⟩
        exact h ⟨by linarith, by linarith⟩
      exact hb _
    rw [this]
    simp [sn, ns]
  · unfold Closed.t
    have : ∀ z, tCdf z (fin ν) = nan := fun z => by
      have hb : ∀ x, XF.betainc (fin ν / 2) (fin (1 / 2)) x = nan := fun x => by
        rw [XF.ofNat_def, fin_div (two_ne_zero' ℝ)]
        cases x <;> simp only [XF.betainc]
        rw [if_neg]
        rintro ⟨h1, -⟩
        linarith
      unfold tCdf
      simp only [hb]
      simp [sn]
    simp [this, ns]

example : ¬ (fin 2 : XF) < 1 ∧ ¬ ((0 : XF) ≤ fin 2 ∧ (fin 2 : XF) ≤ 1) := by
  rw [XF.one_def, fin_lt, fin_le]; norm_num

end Verif
