import Verif.Lemmas.Nearest32
import Verif.Props.RoundingPoisson
import Verif.Props.Backends

/-!
# C137: scores in binary32, the default of torch and jax

The failures of C129 and C130, much closer to the centre of the distribution: torch and jax compute in single
precision unless told otherwise.  The theorems hold for every rounding function with the properties `Binary32`.
-/

noncomputable section

open scoped Classical

namespace Verif

open XF Stats Spec

variable {r : ℝ → XF}

/-- Without rounding the functions of the torch and jax backends are those of the exact model. -/
theorem C137_exact (y m : ℝ) :
    Rnd.crpsPoissonT fin (fin y) (fin m) = Closed.poisson (fin y) (fin m) ∧
    Rnd.logsPoissonT fin (fin y) (fin m) = Logs.poisson (fin y) (fin m) ∧
    Rnd.crpsPoisson fin (fin y) (fin m) = Closed.poisson (fin y) (fin m) := by
  have hf : ∀ x : ℝ, Rnd.factorialT fin (XF.abs (fin x)) = XF.factorial (XF.abs (fin x)) := by
    intro x
    have h0 : (0:ℝ) ≤ |x| := abs_nonneg x
    unfold Rnd.factorialT Rnd.gammaT
    simp only [rd_exact, fin_abs, one_def, fin_add, XF.factorial]
    rw [exp_lgamma (by linarith), if_neg h0.not_gt]
  have hp : ∀ x : ℝ, Rnd.poisPdfT fin (fin x) (fin m) = poisPdf (fin x) (fin m) := by
    intro x
    unfold Rnd.poisPdfT
    simp only [hf, rd_exact]
    rfl
  have hk : ∀ x : ℝ, (0:ℝ) < (⌊|x| + 1⌋ : ℝ) := by
    intro x
    have : (1:ℤ) ≤ ⌊|x| + 1⌋ := Int.le_floor.2 (by push_cast; linarith [abs_nonneg x])
    exact_mod_cast this
  have hc : Rnd.poisCdfT fin (fin y) (fin m) = poisCdf (fin y) (fin m) := by
    unfold Rnd.poisCdfT Rnd.gammauincT Rnd.gammaT poisCdf
    simp only [rd_exact, fin_abs, one_def, fin_add, XF.floor]
    unfold XF.gammauinc
    rw [exp_lgamma (hk y), gamma_pos_eq (hk y)]
    rfl
  have e2 : -((2 : XF) * fin m) = -2 * fin m := by
    rw [ofNat_def, fin_mul, fin_neg, fin_neg, fin_mul, neg_mul]
  refine ⟨?_, ?_, ?_⟩
  · unfold Rnd.crpsPoissonT Closed.poisson
    simp only [hc, rd_exact, XF.floor, hp, e2]
  · unfold Rnd.logsPoissonT Logs.poisson
    rw [hp, rd_exact]
  · unfold Rnd.crpsPoisson Closed.poisson Rnd.poisCdf Rnd.poisPdf Rnd.gammauinc
    simp only [rd_exact, e2]
    rfl

/-- one event when two are expected -/
example : Rnd.logsPoissonT fin (fin 1) (fin 2) = Logs.poisson (fin 1) (fin 2) := (C137_exact 1 2).2.1

/-! ### densities that underflow -/

/-- the factor of the normal density is between zero and one -/
theorem Binary32.normFactor (hr : Binary32 r) :
    ∃ c : ℝ, Rnd.rd r (1 / Rnd.rd r (XF.sqrt (Rnd.rd r (2 * Rnd.rd r XF.pi)))) = fin c ∧ 1 / 6 ≤ c ∧ c ≤ 1 := by
  obtain ⟨p, hp, p1, p2⟩ := hr.between (m := 3) (n := 4) (by norm_num) (a := Real.pi)
    (by have := Real.pi_gt_three; push_cast; linarith) (by have := Real.pi_lt_d2; push_cast; linarith)
  obtain ⟨q, hq, q1, q2⟩ := hr.between (m := 6) (n := 8) (by norm_num) (a := 2 * p)
    (by push_cast at *; linarith) (by push_cast at *; linarith)
  push_cast at q1 q2
  obtain ⟨t, ht, t1, t2⟩ := hr.between (m := 2) (n := 3) (by norm_num) (a := Real.sqrt q)
    (by push_cast; apply Real.le_sqrt_of_sq_le; linarith)
    (by push_cast; rw [Real.sqrt_le_left (by norm_num)]; linarith)
  push_cast at t1 t2
  have ht0 : 0 < t := by linarith
  have s1 : (1:ℝ) / 3 ≤ 1 / t := one_div_le_one_div_of_le ht0 t2
  have s2 : 1 / t ≤ (1:ℝ) := by rw [div_le_one ht0]; linarith
  obtain ⟨c, hc, c1, c2⟩ := hr.half (a := 1 / t)
    ((one_div_le_one_div_of_le (by norm_num) (by
      calc (3:ℝ) ≤ 2 ^ 2 := by norm_num
        _ ≤ 2 ^ 124 := pow_le_pow_right₀ (by norm_num) (by norm_num))).trans s1)
    (lt_of_le_of_lt s2 (one_lt_pow₀ (by norm_num) (by norm_num)))
  have hc1 := hr.le_nat (n := 1) (by norm_num) (a := 1 / t) (by simpa using s2)
  refine ⟨c, ?_, by linarith, ?_⟩
  · change Rnd.rd r (fin 1 / Rnd.rd r (XF.sqrt (Rnd.rd r (fin 2 * r Real.pi)))) = fin c
    rw [hp, fin_mul]
    change Rnd.rd r (fin 1 / Rnd.rd r (XF.sqrt (r (2 * p)))) = fin c
    rw [hq, fin_sqrt (by linarith)]
    change Rnd.rd r (fin 1 / r (Real.sqrt q)) = fin c
    rw [ht, fin_div ht0.ne']
    exact hc
  · rw [hc] at hc1; simpa using hc1

/-- the normal density underflows 15 standard deviations from the mean -/
theorem Binary32.normPdf_under (hr : Binary32 r) {x : XF} (h : fin 15 ≤ x ∨ x ≤ fin (-15)) :
    Rnd.normPdf r x = fin 0 := by
  have hx : fin 225 ≤ x ^ 2 := by
    rcases h with h | h
    · rcases ge_cases h with rfl | ⟨a, rfl, ha⟩
      · rw [pow_two]; exact trivial
      · rw [fin_pow, fin_le]; nlinarith
    · rcases le_cases h with rfl | ⟨a, rfl, ha⟩
      · rw [pow_two]; exact trivial
      · rw [fin_pow, fin_le]; nlinarith
  have h1 : fin 225 ≤ Rnd.rd r (x ^ 2) := by
    have := hr.rd_ge (n := 225) (by norm_num) (x := x ^ 2) (by exact_mod_cast hx)
    exact_mod_cast this
  have h2 : Rnd.rd r (-(Rnd.rd r (x ^ 2)) / 2) ≤ fin (-104) := by
    have := hr.rd_le_neg (n := 104) (by norm_num) (x := -(Rnd.rd r (x ^ 2)) / 2) (by
      rcases ge_cases h1 with e | ⟨a, e, ha⟩
      · rw [e, neg_pinf, ofNat_def, ninf_div_pos (by norm_num)]; simp
      · rw [e, fin_neg, ofNat_def, fin_div (by norm_num), fin_le]; push_cast; linarith)
    exact_mod_cast this
  obtain ⟨c, hc, -, -⟩ := hr.normFactor
  unfold Rnd.normPdf
  rw [hr.exp_under h2, hc, fin_zero_mul_fin, hr.rd_zero]

/-- the standardised observation is far out -/
theorem Binary32.far (hr : Binary32 r) {n : ℕ} (hn : n ≤ 2 ^ 20) {y μ σ : ℝ} (h1 : 1 / 2 ^ 104 ≤ σ)
    (h2 : σ ≤ 2 ^ 104) (h : (n + 1) * σ ≤ |y - μ|) :
    fin n ≤ Rnd.std r (fin y) (fin μ) (fin σ) ∨ Rnd.std r (fin y) (fin μ) (fin σ) ≤ fin (-n) := by
  rcases le_abs.1 h with h | h
  · exact Or.inl (hr.std_ge hn h1 h2 h)
  · exact Or.inr (hr.std_le_neg hn h1 h2 (by linarith))

/-- C137 is false of `logs_normal`: the density is positive, but from 16 standard deviations on the computed score
is infinite. -/
theorem C137_normal_false (hr : Binary32 r) {y μ σ : ℝ} (h1 : 1 / 2 ^ 104 ≤ σ) (h2 : σ ≤ 2 ^ 104)
    (h : 16 * σ ≤ |y - μ|) :
    0 < densNormal μ σ y ∧ Rnd.logsNormal r (fin y) (fin μ) (fin σ) = pinf := by
  have h0 : (0:ℝ) < σ := lt_of_lt_of_le (by positivity) h1
  refine ⟨div_pos (φ_pos _) h0, ?_⟩
  have := hr.far (n := 15) (by norm_num) h1 h2 (by push_cast; linarith)
  push_cast at this
  unfold Rnd.logsNormal
  rw [hr.normPdf_under this, zero_fin_div h0.ne', hr.rd_zero, log_zero_ninf, rd_ninf, one_def, fin_neg,
    neg_mul_ninf (by norm_num)]

theorem scale_one32 : (1:ℝ) / 2 ^ 104 ≤ 1 ∧ (1:ℝ) ≤ 2 ^ 104 := by
  have : (1:ℝ) ≤ 2 ^ 104 := one_le_pow₀ (by norm_num)
  exact ⟨by rw [div_le_one (by positivity)]; exact this, this⟩

/-- the standard normal law at -16 -/
example : Rnd.logsNormal rn32 (fin (-16)) (fin 0) (fin 1) = pinf :=
  (C137_normal_false rn32_nearest.toBinary32 scale_one32.1 scale_one32.2 (by norm_num)).2

/-- C137 is false of `logs_laplace`: infinite from 105 scales on. -/
theorem C137_laplace_false (hr : Binary32 r) {y μ σ : ℝ} (h1 : 1 / 2 ^ 104 ≤ σ) (h2 : σ ≤ 2 ^ 104)
    (h : 105 * σ ≤ |y - μ|) :
    0 < densLaplace μ σ y ∧ Rnd.logsLaplace r (fin y) (fin μ) (fin σ) = pinf := by
  have h0 : (0:ℝ) < σ := lt_of_lt_of_le (by positivity) h1
  refine ⟨by unfold densLaplace; positivity, ?_⟩
  have := hr.far (n := 104) (by norm_num) h1 h2 (by push_cast; linarith)
  push_cast at this
  have hx : -XF.abs (Rnd.std r (fin y) (fin μ) (fin σ)) ≤ fin (-104) := by
    rcases this with h | h
    · rcases ge_cases h with e | ⟨a, e, ha⟩
      · rw [e]; exact trivial
      · rw [e, fin_abs, fin_neg, fin_le, abs_of_nonneg (by linarith)]; linarith
    · rcases le_cases h with e | ⟨a, e, ha⟩
      · rw [e]; exact trivial
      · rw [e, fin_abs, fin_neg, fin_le, abs_of_nonpos (by linarith)]; linarith
  unfold Rnd.logsLaplace Rnd.laplacePdf
  rw [hr.exp_under hx, ofNat_def, zero_fin_div (by norm_num), hr.rd_zero, zero_fin_div h0.ne', hr.rd_zero,
    log_zero_ninf, rd_ninf, neg_ninf]

example : Rnd.logsLaplace rn32 (fin 750) (fin 1) (fin 1) = pinf :=
  (C137_laplace_false rn32_nearest.toBinary32 scale_one32.1 scale_one32.2 (by norm_num)).2

/-- C137 is false of `logs_exponential`: infinite once `rate * obs` reaches 104. -/
theorem C137_exponential_false (hr : Binary32 r) {y lam : ℝ} (h0 : 0 < lam) (h : 104 ≤ lam * y) :
    0 < densExp lam y ∧ Rnd.logsExponential r (fin y) (fin lam) = pinf := by
  have hy : 0 < y := by
    by_contra hc
    push Not at hc
    nlinarith
  have hd : 0 < densExp lam y := by unfold densExp; rw [if_neg hy.not_gt]; positivity
  refine ⟨hd, ?_⟩
  have hx : Rnd.rd r (-fin lam * fin y) ≤ fin (-104) := by
    have := hr.rd_le_neg (n := 104) (by norm_num) (x := -fin lam * fin y) (by
      rw [fin_neg, fin_mul, fin_le]; push_cast; linarith)
    exact_mod_cast this
  unfold Rnd.logsExponential Rnd.expPdf
  simp only [zero_def, fin_lt, if_neg hy.not_gt]
  rw [hr.exp_under hx, fin_zero_mul_fin, hr.rd_zero, log_zero_ninf, rd_ninf, neg_ninf]

example : Rnd.logsExponential rn32 (fin 400) (fin 2) = pinf :=
  (C137_exponential_false rn32_nearest.toBinary32 two_pos (by norm_num)).2

/-- C137 is false of `logs_logistic` in three regions: NaN from 90 scales below the location on, where `exp`
overflows in numerator and denominator; infinite from 47 to 87 scales below, where the square overflows; and
infinite from 105 scales above on, where `exp` underflows. -/
theorem C137_logistic_false (hr : Binary32 r) {y μ σ : ℝ} (h1 : 1 / 2 ^ 104 ≤ σ) (h2 : σ ≤ 2 ^ 104) :
    0 < densLogistic μ σ y ∧
    (90 * σ ≤ μ - y → Rnd.logsLogistic r (fin y) (fin μ) (fin σ) = nan) ∧
    (47 * σ ≤ μ - y → μ - y ≤ 87 * σ → Rnd.logsLogistic r (fin y) (fin μ) (fin σ) = pinf) ∧
    (105 * σ ≤ y - μ → Rnd.logsLogistic r (fin y) (fin μ) (fin σ) = pinf) := by
  have h0 : (0:ℝ) < σ := lt_of_lt_of_le (by positivity) h1
  refine ⟨by unfold densLogistic; positivity, fun h => ?_, fun h h' => ?_, fun h => ?_⟩
  · have := hr.std_le_neg (y := y) (μ := μ) (n := 89) (by norm_num) h1 h2 (by push_cast; linarith)
    push_cast at this
    have hx : fin 89 ≤ -Rnd.std r (fin y) (fin μ) (fin σ) := by
      rcases le_cases this with e | ⟨a, e, ha⟩
      · rw [e]; exact trivial
      · rw [e, fin_neg, fin_le]; linarith
    unfold Rnd.logsLogistic Rnd.logisPdf
    rw [hr.exp_over hx, one_def, fin_add_pinf, rd_pinf, pow_two]
    rfl
  · have e1 := hr.std_le_neg (y := y) (μ := μ) (n := 46) (by norm_num) h1 h2 (by push_cast; linarith)
    have e2 := hr.std_ge_neg (y := y) (μ := μ) (n := 87) (by norm_num) h1 h2 (by push_cast; linarith)
    push_cast at e1 e2
    obtain ⟨a, e, a1, a2⟩ := between_cases e2 e1
    norm_num at a1
    have b1 : (2:ℝ) ^ 66 ≤ Real.exp (-a) := exp_ge nat_46 (by push_cast; linarith)
    have b2 : Real.exp (-a) < 2 ^ 127 := exp_lt nat_88 (by push_cast; linarith)
    have c1 : (1:ℝ) / 2 ^ 124 ≤ Real.exp (-a) := by
      have : (1:ℝ) / 2 ^ 124 ≤ 1 := by
        rw [div_le_one (by positivity)]; exact one_le_pow₀ (by norm_num)
      exact this.trans ((one_le_pow₀ (by norm_num)).trans b1)
    obtain ⟨b, hb, b3, -⟩ := hr.half c1 b2
    have b4 : (2:ℝ) ^ 65 ≤ b := by
      have e : (2:ℝ) ^ 66 = 2 ^ 65 * 2 := by rw [← pow_succ]
      rw [e] at b1
      generalize (2:ℝ) ^ 65 = M at *
      linarith
    have d0 : (1:ℝ) / 2 ^ 124 ≤ 2 ^ 65 := by
      have : (1:ℝ) / 2 ^ 124 ≤ 1 := by
        rw [div_le_one (by positivity)]; exact one_le_pow₀ (by norm_num)
      exact this.trans (one_le_pow₀ (by norm_num))
    have d1 := hr.ge_half d0 (pow_lt_pow_right₀ (by norm_num) (by norm_num)) (d := 1 + b)
      (b4.trans (by simp))
    have d2 : Rnd.rd r (Rnd.rd r (fin 1 + fin b) ^ 2) = pinf := by
      rw [fin_add]
      change Rnd.rd r (r (1 + b) ^ 2) = pinf
      rcases ge_cases d1 with e | ⟨c, e, hc⟩
      · rw [e, pow_two]; rfl
      · rw [e, fin_pow]
        apply hr.rd_over
        have e1 : (2:ℝ) ^ 65 / 2 = 2 ^ 64 := by rw [show (65:ℕ) = 64 + 1 by norm_num, pow_succ]; ring
        rw [e1] at hc
        calc (2:ℝ) ^ 128 = (2 ^ 64) ^ 2 := by rw [← pow_mul]
          _ ≤ c ^ 2 := pow_le_pow_left₀ (by positivity) hc 2
    unfold Rnd.logsLogistic Rnd.logisPdf
    rw [e, fin_neg, fin_exp]
    change -Rnd.rd r (XF.log (Rnd.rd r (Rnd.rd r (r (Real.exp (-a)) / Rnd.rd r (Rnd.rd r (fin 1 + r (Real.exp (-a))) ^ 2))
      / fin σ))) = pinf
    rw [hb, d2, fin_div_pinf, hr.rd_zero, zero_fin_div h0.ne', hr.rd_zero, log_zero_ninf, rd_ninf, neg_ninf]
  · have := hr.std_ge (y := y) (μ := μ) (n := 104) (by norm_num) h1 h2 (by push_cast; linarith)
    push_cast at this
    have hx : -Rnd.std r (fin y) (fin μ) (fin σ) ≤ fin (-104) := by
      rcases ge_cases this with e | ⟨a, e, ha⟩
      · rw [e]; exact trivial
      · rw [e, fin_neg, fin_le]; linarith
    unfold Rnd.logsLogistic Rnd.logisPdf
    rw [hr.exp_under hx, one_def, fin_add, add_zero, hr.rd_one, fin_pow, one_pow, hr.rd_one,
      zero_fin_div (by norm_num), hr.rd_zero, zero_fin_div h0.ne', hr.rd_zero, log_zero_ninf, rd_ninf, neg_ninf]

example : Rnd.logsLogistic rn32 (fin (-100)) (fin 0) (fin 1) = nan ∧
    Rnd.logsLogistic rn32 (fin (-50)) (fin 0) (fin 1) = pinf ∧
    Rnd.logsLogistic rn32 (fin 120) (fin 0) (fin 1) = pinf :=
  ⟨(C137_logistic_false rn32_nearest.toBinary32 scale_one32.1 scale_one32.2).2.1 (by norm_num),
    (C137_logistic_false rn32_nearest.toBinary32 scale_one32.1 scale_one32.2).2.2.1 (by norm_num) (by norm_num),
    (C137_logistic_false rn32_nearest.toBinary32 scale_one32.1 scale_one32.2).2.2.2 (by norm_num)⟩

/-! ### distribution functions that round to zero or one -/

/-- C137 is false of `crps_logistic`: infinite from 90 scales below the location on, because the distribution
function underflows and its logarithm is minus infinity.  The CRPS itself is finite there. -/
theorem C137_crps_logistic_false (hr : Binary32 r) {y μ σ : ℝ} (h1 : 1 / 2 ^ 104 ≤ σ) (h2 : σ ≤ 2 ^ 104)
    (h : 90 * σ ≤ μ - y) (h' : μ - y ≤ 2 ^ 20 * σ) :
    HasCrps (cdfLogistic μ σ) y ∧ Rnd.crpsLogistic r (fin y) (fin μ) (fin σ) = pinf := by
  have h0 : (0:ℝ) < σ := lt_of_lt_of_le (by positivity) h1
  refine ⟨(C48_logistic h0 μ y).1, ?_⟩
  have e1 := hr.std_le_neg (y := y) (μ := μ) (n := 89) (by norm_num) h1 h2 (by push_cast; linarith)
  have e2 := hr.std_ge_neg (y := y) (μ := μ) (n := 2 ^ 20) le_rfl h1 h2 (by push_cast; linarith)
  push_cast at e1
  obtain ⟨a, e, -, a2⟩ := between_cases e2 e1
  have hx : fin 89 ≤ -fin a := by rw [fin_neg, fin_le]; linarith
  unfold Rnd.crpsLogistic Rnd.logisCdf
  simp only []
  rw [e, hr.exp_over hx, one_def, fin_add_pinf, rd_pinf, fin_div_pinf, hr.rd_zero, log_zero_ninf, rd_ninf,
    ofNat_def, pos_mul_ninf (by norm_num), rd_ninf, fin_sub_ninf, rd_pinf, pinf_sub_fin, rd_pinf, XF.mul_comm',
    pinf_mul_pos h0, rd_pinf]

example : Rnd.crpsLogistic rn32 (fin (-90)) (fin 0) (fin 1) = pinf :=
  (C137_crps_logistic_false rn32_nearest.toBinary32 scale_one32.1 scale_one32.2 (by norm_num) (by norm_num)).2

/-- C137 is false of `crps_gev` with shape zero: infinite from 20 scales above the location on, because the
distribution function rounds to one and `expi(log(1))` is minus infinity.  The CRPS itself is finite there. -/
theorem C137_crps_gumbel_false (hr : Binary32 r) {y μ σ : ℝ} (h1 : 1 / 2 ^ 104 ≤ σ) (h2 : σ ≤ 2 ^ 104)
    (h : 20 * σ ≤ y - μ) (h' : y - μ ≤ 2 ^ 20 * σ) :
    HasCrps (cdfGev 0 μ σ) y ∧
    Rnd.crpsGumbel r (fin y) (fin μ) (fin σ) = pinf := by
  have h0 : (0:ℝ) < σ := lt_of_lt_of_le (by positivity) h1
  have e1 := hr.std_ge (y := y) (μ := μ) (n := 19) (by norm_num) h1 h2 (by push_cast; linarith)
  have e2 := hr.std_le (y := y) (μ := μ) (n := 2 ^ 20) le_rfl h1 h2 (by push_cast; linarith)
  push_cast at e1
  obtain ⟨a, e, a1, -⟩ := between_cases e1 e2
  have b1 : Real.exp (-a) ≤ 1 / 2 ^ 27 := exp_neg_le nat_19 (by push_cast; linarith)
  have b0 := Real.exp_pos (-a)
  obtain ⟨c, hc, c0, c1⟩ : ∃ c, r (Real.exp (-a)) = fin c ∧ 0 ≤ c ∧ c ≤ 1 / 2 ^ 25 := by
    have hs : |Real.exp (-a)| < 2 ^ 127 := by
      rw [abs_of_pos b0]
      have : (1:ℝ) / 2 ^ 27 ≤ 1 := by norm_num
      exact lt_of_le_of_lt (b1.trans this) (one_lt_pow₀ (by norm_num) (by norm_num))
    obtain ⟨δ, η, hδ, hη, e⟩ := hr.acc hs
    have hpos := hr.mono b0.le
    rw [hr.zero, e, fin_le] at hpos
    refine ⟨_, e, hpos, ?_⟩
    have hη' := (abs_le.1 (hη.trans tiny_small32')).2
    have hδ' : δ ≤ 1 := ((abs_le.1 hδ).2).trans (by norm_num)
    have e27 : (1:ℝ) / 2 ^ 25 = 4 * (1 / 2 ^ 27) := by norm_num
    have e60 : (1:ℝ) / 2 ^ 60 ≤ 1 / 2 ^ 27 := by norm_num
    rw [e27]
    generalize (1:ℝ) / 2 ^ 27 = q at *
    generalize (1:ℝ) / 2 ^ 60 = q' at *
    nlinarith
  have hone : r (Real.exp (-c)) = fin 1 := by
    apply hr.one
    have d1 : Real.exp (-c) ≤ 1 := Real.exp_le_one_iff.2 (by linarith)
    have d2 := Real.add_one_le_exp (-c)
    rw [abs_le]
    constructor <;> linarith
  refine ⟨?_, ?_⟩
  · exact (C82_gumbel μ y h0).1
  · unfold Rnd.crpsGumbel
    simp only []
    rw [e, fin_neg, fin_exp]
    have : Rnd.rd r (fin (Real.exp (-a))) = fin c := hc
    rw [this, fin_neg, fin_exp]
    have : Rnd.rd r (fin (Real.exp (-c))) = fin 1 := hone
    rw [this, fin_log one_pos, Real.log_one, hr.rd_zero]
    have : XF.expi (fin 0) = ninf := by simp [XF.expi]
    obtain ⟨g, hg, -, -⟩ := hr.between (m := 0) (n := 1) (by norm_num)
      (a := 57721566490153286060651209008240243 / 10 ^ 35) (by norm_num) (by norm_num)
    obtain ⟨q, hq, -, -⟩ := hr.between (m := 0) (n := 1) (by norm_num) (a := Real.log 2)
      (by push_cast; exact Real.log_nonneg (by norm_num))
      (by push_cast; exact (Real.log_le_sub_one_of_pos two_pos).trans (by norm_num))
    rw [this, rd_ninf, ofNat_def, pos_mul_ninf (by norm_num), rd_ninf, fin_sub_ninf, rd_pinf, fin_log (by norm_num)]
    have hg' : Rnd.rd r Closed.eulerMascheroni = fin g := hg
    have hq' : Rnd.rd r (fin (Real.log 2)) = fin q := hq
    rw [hg', hq', pinf_add_fin, rd_pinf, pinf_sub_fin, rd_pinf, pinf_mul_pos h0, rd_pinf]

example : Rnd.crpsGumbel rn32 (fin 20) (fin 0) (fin 1) = pinf :=
  (C137_crps_gumbel_false rn32_nearest.toBinary32 scale_one32.1 scale_one32.2 (by norm_num) (by norm_num)).2

/-- erf is one up to less than half a unit in the last place from 5 on -/
theorem erf_far32 {b : ℝ} (hb : 5 ≤ b) :
    |2 / Real.sqrt Real.pi * (∫ t in (0:ℝ)..b, Real.exp (-t ^ 2)) - 1| ≤ 1 / 2 ^ 25 := by
  have h2 : (0:ℝ) < Real.sqrt 2 := Real.sqrt_pos.2 two_pos
  have h2' : (1:ℝ) ≤ Real.sqrt 2 := Real.one_le_sqrt.2 (by norm_num)
  have e := erf_Φ (b * Real.sqrt 2)
  rw [mul_div_cancel_right₀ _ h2.ne'] at e
  have hx : 5 ≤ b * Real.sqrt 2 := by nlinarith
  have t := Φ_tail (x := -(b * Real.sqrt 2)) (by linarith)
  have hn : Φ (-(b * Real.sqrt 2)) = 1 - Φ (b * Real.sqrt 2) := by linarith [Φ_add_neg (b * Real.sqrt 2)]
  have hp : φ (-(b * Real.sqrt 2)) ≤ 1 / 2 ^ 27 := by
    unfold φ
    have e2 : -(-(b * Real.sqrt 2)) ^ 2 / 2 = -b ^ 2 := by
      rw [neg_sq, mul_pow, Real.sq_sqrt (by norm_num)]; ring
    rw [e2]
    have : Real.exp (-b ^ 2) ≤ 1 / 2 ^ 27 := exp_neg_le nat_19 (by push_cast; nlinarith)
    have hs : 1 ≤ Real.sqrt (2 * Real.pi) := Real.one_le_sqrt.2 (by have := Real.pi_gt_three; linarith)
    exact (div_le_self (Real.exp_pos _).le hs).trans this
  have h0 := Φ_nonneg (-(b * Real.sqrt 2))
  rw [hn] at t h0
  have t2 : 1 - Φ (b * Real.sqrt 2) ≤ 1 / 2 ^ 27 := by nlinarith
  have e25 : (1:ℝ) / 2 ^ 25 = 4 * (1 / 2 ^ 27) := by norm_num
  rw [e25]
  generalize (1:ℝ) / 2 ^ 27 = q at *
  rw [abs_le]
  constructor <;> linarith

/-- the normal distribution function rounds to one from 8 standard deviations on -/
theorem Binary32.normCdf_one (hr : Binary32 r) {x : XF} (h : fin 8 ≤ x) : Rnd.normCdf r x = fin 1 := by
  obtain ⟨δ, η, hδ, hη, e⟩ := hr.acc (a := Real.sqrt 2) (by
    rw [abs_of_nonneg (Real.sqrt_nonneg 2)]
    have : Real.sqrt 2 ≤ 2 := by rw [Real.sqrt_le_left (by norm_num)]; norm_num
    refine lt_of_le_of_lt this ?_
    calc (2:ℝ) = 2 ^ 1 := by norm_num
      _ < 2 ^ 127 := pow_lt_pow_right₀ (by norm_num) (by norm_num))
  have hs1 : (1:ℝ) ≤ Real.sqrt 2 := Real.one_le_sqrt.2 (by norm_num)
  have hs2 : Real.sqrt 2 ≤ 1.415 := by rw [Real.sqrt_le_left (by norm_num)]; norm_num
  have hδ' := abs_le.1 (hδ.trans (show (1:ℝ) / 2 ^ 24 ≤ 1 / 100 by norm_num))
  have hη' := abs_le.1 ((hη.trans tiny_small32').trans (show (1:ℝ) / 2 ^ 60 ≤ 1 / 100 by norm_num))
  have b1 : 0 < Real.sqrt 2 * (1 + δ) + η := by nlinarith
  have b2 : Real.sqrt 2 * (1 + δ) + η ≤ 3 / 2 := by nlinarith
  have e' : Rnd.rd r (XF.sqrt 2) = fin (Real.sqrt 2 * (1 + δ) + η) := by
    rw [ofNat_def, fin_sqrt (by norm_num)]; exact e
  generalize Real.sqrt 2 * (1 + δ) + η = s at *
  have hz : fin 5 ≤ Rnd.rd r (x / fin s) := by
    have := hr.rd_ge (n := 5) (by norm_num) (x := x / fin s) (by
      rcases ge_cases h with rfl | ⟨a, rfl, ha⟩
      · rw [pinf_div_pos b1]; simp
      · rw [fin_div b1.ne', fin_le, le_div_iff₀ b1]; push_cast; linarith)
    exact_mod_cast this
  have he : Rnd.rd r (XF.erf (Rnd.rd r (x / fin s))) = fin 1 := by
    rcases ge_cases hz with e | ⟨b, e, hb⟩
    · rw [e]; exact hr.rd_one
    · rw [e]; exact hr.one (erf_far32 hb)
  unfold Rnd.normCdf
  rw [e', he, one_def, fin_add, one_add_one_eq_two, hr.rd_two, ofNat_def, fin_div (by norm_num)]
  norm_num
  exact hr.rd_one

/-- the normal density is a positive number within 12 standard deviations of the mean -/
theorem Binary32.normPdf_pos (hr : Binary32 r) {a : ℝ} (h : |a| ≤ 12) :
    ∃ b, Rnd.normPdf r (fin a) = fin b ∧ 1 / 2 ^ 109 ≤ b ∧ b ≤ 1 := by
  have ha : a ^ 2 ≤ 144 := by
    have := abs_le.1 h; nlinarith
  obtain ⟨s, hs, s1, s2⟩ := hr.between (m := 0) (n := 144) (by norm_num) (a := a ^ 2)
    (by push_cast; positivity) (by push_cast; exact ha)
  push_cast at s1 s2
  obtain ⟨t, ht, t1, t2⟩ := hr.between' (m := 0) (n := 72) (by norm_num) (a := -s / 2)
    (by push_cast; linarith) (by push_cast; linarith)
  push_cast at t1 t2
  have x1 : (1:ℝ) / 2 ^ 104 ≤ Real.exp t := exp_neg_ge nat_72 (by push_cast; linarith)
  have x2 : Real.exp t ≤ 1 := Real.exp_le_one_iff.2 (by linarith)
  have big : (1:ℝ) < 2 ^ 127 := one_lt_pow₀ (by norm_num) (by norm_num)
  obtain ⟨e, he, e1, -⟩ := hr.half (a := Real.exp t)
    ((one_div_le_one_div_of_le (by positivity) (pow_le_pow_right₀ (by norm_num) (by norm_num))).trans x1)
    (lt_of_le_of_lt x2 big)
  have e3 := hr.le_nat (n := 1) (by norm_num) (a := Real.exp t) (by simpa using x2)
  rw [he, Nat.cast_one, fin_le] at e3
  obtain ⟨c, hc, c1, c2⟩ := hr.normFactor
  have p104 : (1:ℝ) / 2 ^ 104 = 32 * (1 / 2 ^ 109) := by
    rw [show (109:ℕ) = 104 + 5 by norm_num, pow_add]; ring
  have q0 : (0:ℝ) < 1 / 2 ^ 109 := by positivity
  have q1 : (1:ℝ) / 2 ^ 124 ≤ 1 / 2 ^ 109 :=
    one_div_le_one_div_of_le (by positivity) (pow_le_pow_right₀ (by norm_num) (by norm_num))
  have low : 2 * (1 / 2 ^ 109) ≤ c * e := by
    rw [p104] at x1
    generalize (1:ℝ) / 2 ^ 109 = q at *
    nlinarith
  have e0 : 0 < e := by linarith [Real.exp_pos t]
  have up : c * e ≤ 1 := by nlinarith
  obtain ⟨b, hb, b1, -⟩ := hr.half (a := c * e)
    (by
      refine q1.trans (le_trans ?_ low)
      generalize (1:ℝ) / 2 ^ 109 = q at *
      linarith) (lt_of_le_of_lt up big)
  have b3 := hr.le_nat (n := 1) (by norm_num) (a := c * e) (by simpa using up)
  rw [hb, Nat.cast_one, fin_le] at b3
  refine ⟨b, ?_, ?_, b3⟩
  · unfold Rnd.normPdf
    rw [hc, fin_pow]
    change Rnd.rd r (fin c * Rnd.rd r (XF.exp (Rnd.rd r (-r (a ^ 2) / fin 2)))) = fin b
    rw [hs, fin_neg, fin_div (by norm_num)]
    change Rnd.rd r (fin c * Rnd.rd r (XF.exp (r (-s / 2)))) = fin b
    rw [ht]
    change Rnd.rd r (fin c * r (Real.exp t)) = fin b
    rw [he, fin_mul]
    exact hb
  · generalize (1:ℝ) / 2 ^ 109 = q at *
    linarith

/-- … and so is the density of the code, for a standard deviation of ordinary size -/
theorem Binary32.prob_pos (hr : Binary32 r) {y μ σ : ℝ} (h1 : 1 / 2 ^ 104 ≤ σ) (h2 : σ ≤ 2 ^ 10)
    (h : |y - μ| ≤ 11 * σ) :
    ∃ p, Rnd.rd r (Rnd.normPdf r (Rnd.std r (fin y) (fin μ) (fin σ)) / fin σ) = fin p ∧
      1 / 2 ^ 124 ≤ p ∧ p ≤ 2 ^ 110 := by
  have h0 : (0:ℝ) < σ := lt_of_lt_of_le (by positivity) h1
  have h2' : σ ≤ 2 ^ 104 := h2.trans (pow_le_pow_right₀ (by norm_num) (by norm_num))
  have hh := abs_le.1 h
  have e1 := hr.std_ge_neg (y := y) (μ := μ) (n := 11) (by norm_num) h1 h2' (by push_cast; linarith)
  have e2 := hr.std_le (y := y) (μ := μ) (n := 11) (by norm_num) h1 h2' (by push_cast; linarith)
  push_cast at e1 e2
  obtain ⟨a, e, a1, a2⟩ := between_cases e1 e2
  obtain ⟨b, hb, b1, b2⟩ := hr.normPdf_pos (a := a) (by rw [abs_le]; constructor <;> linarith)
  have hb0 : 0 < b := lt_of_lt_of_le (by positivity) b1
  have d1 : (1:ℝ) / 2 ^ 119 ≤ b / σ := by
    rw [le_div_iff₀ h0]
    calc (1:ℝ) / 2 ^ 119 * σ ≤ 1 / 2 ^ 119 * 2 ^ 10 := mul_le_mul_of_nonneg_left h2 (by positivity)
      _ = 1 / 2 ^ 109 := by rw [show (119:ℕ) = 109 + 10 by norm_num, pow_add]; field_simp
      _ ≤ b := b1
  have d2 : b / σ ≤ 2 ^ 104 := by
    rw [div_le_iff₀ h0]
    calc b ≤ 1 := b2
      _ = 2 ^ 104 * (1 / 2 ^ 104) := by field_simp
      _ ≤ 2 ^ 104 * σ := mul_le_mul_of_nonneg_left h1 (by positivity)
  obtain ⟨p, hp, p1, p2⟩ := hr.half (a := b / σ)
    ((one_div_le_one_div_of_le (by positivity) (pow_le_pow_right₀ (by norm_num) (by norm_num))).trans d1)
    (lt_of_le_of_lt d2 (pow_lt_pow_right₀ (by norm_num) (by norm_num)))
  refine ⟨p, ?_, ?_, ?_⟩
  · rw [e, hb, fin_div h0.ne']; exact hp
  · have : (1:ℝ) / 2 ^ 124 ≤ 1 / 2 ^ 119 / 2 := by
      rw [div_div, ← pow_succ]
      exact one_div_le_one_div_of_le (by positivity) (pow_le_pow_right₀ (by norm_num) (by norm_num))
    exact this.trans ((div_le_div_of_nonneg_right d1 (by norm_num)).trans p1)
  · refine p2.trans ((mul_le_mul_of_nonneg_left d2 (by norm_num)).trans ?_)
    rw [← pow_succ']
    exact pow_le_pow_right₀ (by norm_num) (by norm_num)

theorem log_bounds32 {p : ℝ} (h1 : 1 / 2 ^ 124 ≤ p) (h2 : p ≤ 2 ^ 110) : |Real.log p| ≤ 124 := by
  have h0 : (0:ℝ) < p := lt_of_lt_of_le (by positivity) h1
  have l1 := Real.log_le_log (by positivity) h1
  have l2 := Real.log_le_log h0 h2
  rw [Real.log_div one_ne_zero (by positivity), Real.log_one, Real.log_pow] at l1
  rw [Real.log_pow] at l2
  have hl : Real.log 2 ≤ 1 := (Real.log_le_sub_one_of_pos two_pos).trans (by norm_num)
  have hl0 : 0 ≤ Real.log 2 := Real.log_nonneg (by norm_num)
  push_cast at l1 l2
  generalize Real.log p = v at *
  rw [abs_le]
  constructor <;> linarith

/-- What is true of `logs_normal`: up to 11 standard deviations from the mean the computed score is a number, for
standard deviations from `2 ^ -104` to `2 ^ 10`. -/
theorem C137_normal_partial (hr : Binary32 r) {y μ σ : ℝ} (h1 : 1 / 2 ^ 104 ≤ σ) (h2 : σ ≤ 2 ^ 10)
    (h : |y - μ| ≤ 11 * σ) : ∃ v : ℝ, Rnd.logsNormal r (fin y) (fin μ) (fin σ) = fin v ∧ |v| ≤ 124 := by
  obtain ⟨p, hp, p1, p2⟩ := hr.prob_pos h1 h2 h
  have hp0 : (0:ℝ) < p := lt_of_lt_of_le (by positivity) p1
  have hl := abs_le.1 (log_bounds32 p1 p2)
  unfold Rnd.logsNormal
  rw [hp, fin_log hp0]
  rcases le_total 0 (Real.log p) with h0 | h0
  · obtain ⟨b, hb, b1, b2⟩ := hr.between (m := 0) (n := 124) (by norm_num) (a := Real.log p)
      (by push_cast; exact h0) (by push_cast; exact hl.2)
    push_cast at b1 b2
    refine ⟨-b, ?_, by rw [abs_neg, abs_of_nonneg b1]; exact b2⟩
    change -fin 1 * r (Real.log p) = fin (-b)
    rw [hb, fin_neg, fin_mul, neg_one_mul]
  · obtain ⟨b, hb, b1, b2⟩ := hr.between' (m := 0) (n := 124) (by norm_num) (a := Real.log p)
      (by push_cast; linarith) (by push_cast; linarith)
    push_cast at b1 b2
    refine ⟨-b, ?_, by rw [abs_of_nonneg b1]; exact b2⟩
    change -fin 1 * r (Real.log p) = fin (-b)
    rw [hb, fin_neg, fin_mul, neg_one_mul]

example : ∃ v : ℝ, Rnd.logsNormal rn32 (fin 10) (fin 0) (fin 1) = fin v ∧ |v| ≤ 124 :=
  C137_normal_partial rn32_nearest.toBinary32 scale_one32.1 (by norm_num) (by norm_num)

/-- C137 is false of `logs_tnormal`: truncated from a lower bound at least 9 standard deviations above the
location on, the computed score of an observation up to 11 standard deviations above it is **minus** infinity, the
best possible, because the normalising constant rounds to zero. -/
theorem C137_tnormal_false (hr : Binary32 r) {y μ σ l : ℝ} (u : XF) (h1 : 1 / 2 ^ 104 ≤ σ) (h2 : σ ≤ 2 ^ 10)
    (hl : 9 * σ ≤ l - μ) (hly : l ≤ y) (hyu : fin y ≤ u) (hy : y - μ ≤ 11 * σ) :
    0 < densTruncLo (densNormal μ σ) (cdfNormal μ σ) l y ∧
    Rnd.logsTnormal r (fin y) (fin μ) (fin σ) (fin l) u = ninf := by
  have h0 : (0:ℝ) < σ := lt_of_lt_of_le (by positivity) h1
  have h2' : σ ≤ 2 ^ 104 := h2.trans (pow_le_pow_right₀ (by norm_num) (by norm_num))
  have mono : ∀ {a : ℝ} {b : XF}, fin a ≤ b →
      Rnd.std r (fin a) (fin μ) (fin σ) ≤ Rnd.std r b (fin μ) (fin σ) := by
    intro a b hab
    unfold Rnd.std
    apply hr.rd_mono
    have hm : Rnd.rd r (fin a - fin μ) ≤ Rnd.rd r (b - fin μ) := by
      apply hr.rd_mono
      rcases ge_cases hab with rfl | ⟨c, rfl, hc⟩
      · rw [pinf_sub_fin, fin_sub]; simp
      · rw [fin_sub, fin_sub, fin_le]; linarith
    cases hc : Rnd.rd r (fin a - fin μ) <;> cases hd : Rnd.rd r (b - fin μ) <;>
      simp_all [pinf_div_pos h0, ninf_div_pos h0, fin_div h0.ne', div_le_div_iff_of_pos_right h0]
  refine ⟨?_, ?_⟩
  · unfold densTruncLo
    rw [if_pos hly]
    exact div_pos (div_pos (φ_pos _) h0) (sub_pos.2 (Φ_lt_one _))
  have m1 := mono (a := l) (b := fin y) (by rw [fin_le]; exact hly)
  have m2 := mono hyu
  have m3 := mono (a := l) (b := u) (by
    rcases ge_cases hyu with rfl | ⟨c, rfl, hc⟩
    · simp
    · rw [fin_le]; linarith)
  have e1 := hr.std_ge (y := l) (μ := μ) (n := 8) (by norm_num) h1 h2' (by push_cast; linarith)
  push_cast at e1
  have le_tr : ∀ {a b c : XF}, a ≤ b → b ≤ c → a ≤ c := by
    intro a b c hab hbc
    cases a <;> cases b <;> cases c <;> simp_all
    exact hab.trans hbc
  have not_lt_of : ∀ {a b : XF}, a ≤ b → ¬ b < a := by
    intro a b hab
    cases a <;> cases b <;> simp_all
  obtain ⟨p, hp, p1, p2⟩ := hr.prob_pos (y := y) (μ := μ) h1 h2 (by rw [abs_of_nonneg] <;> linarith)
  have hp0 : (0:ℝ) < p := lt_of_lt_of_le (by positivity) p1
  unfold Rnd.logsTnormal
  simp only []
  rw [if_neg (by
    rintro (h | h)
    · exact not_lt_of m1 h
    · exact not_lt_of m2 h), hr.normCdf_one e1, hr.normCdf_one (le_tr e1 m3), fin_sub, sub_self, hr.rd_zero, hp,
    fin_div_zero, if_neg hp0.ne', if_pos hp0, rd_pinf]
  rfl

example : Rnd.logsTnormal rn32 (fin 10) (fin 0) (fin 1) (fin 9) pinf = ninf :=
  (C137_tnormal_false rn32_nearest.toBinary32 pinf scale_one32.1 (by norm_num) (by norm_num) (by norm_num) (by simp)
    (by norm_num)).2

/-! ### the Poisson scores -/

theorem lgamma_big {k : ℕ} (hk : 35 ≤ k) : fin 89 ≤ XF.lgamma (fin ((k : ℝ) + 1)) := by
  have hpos : (0:ℝ) < (k : ℝ) + 1 := by positivity
  simp only [XF.lgamma]
  rw [if_neg (by rintro ⟨n, hn⟩; have : (0:ℝ) ≤ n := Nat.cast_nonneg n; linarith), fin_le,
    Real.Gamma_nat_eq_factorial, abs_of_pos (by exact_mod_cast k.factorial_pos),
    Real.le_log_iff_exp_le (by exact_mod_cast k.factorial_pos)]
  have h1 : Real.exp 89 * 10000 ^ 89 ≤ 27183 ^ 89 := exp_le_pow (n := 89) (by norm_num)
  have h2 : (27183:ℝ) ^ 89 ≤ (k.factorial : ℝ) * 10000 ^ 89 := by
    have : 27183 ^ 89 ≤ k.factorial * 10000 ^ 89 :=
      nat_35.trans (Nat.mul_le_mul_right _ (Nat.factorial_le hk))
    exact_mod_cast this
  exact le_of_mul_le_mul_right (h1.trans h2) (by positivity)

/-- the Gamma function overflows -/
theorem Binary32.gammaT_over (hr : Binary32 r) {k : ℕ} (hk : 35 ≤ k) :
    Rnd.gammaT r (fin ((k : ℝ) + 1)) = pinf := by
  apply hr.exp_over
  have := hr.rd_ge (n := 89) (by norm_num) (x := XF.lgamma (fin ((k : ℝ) + 1))) (by exact_mod_cast lgamma_big hk)
  exact_mod_cast this

/-- the Bessel function overflows -/
theorem bessel0_big32 {a : ℝ} (ha : 104 ≤ a) :
    (2:ℝ) ^ 128 ≤ ∑' k : ℕ, (a / 2) ^ (2 * k) / (k.factorial : ℝ) ^ 2 := by
  have h0 : (52:ℝ) ≤ a / 2 := by linarith
  generalize a / 2 = q at *
  have hq : 0 ≤ q := by linarith
  have hs : Summable fun k : ℕ => q ^ (2 * k) / (k.factorial : ℝ) ^ 2 := by
    refine Summable.of_nonneg_of_le (fun k => by positivity) (fun k => ?_) (Real.summable_pow_div_factorial (q ^ 2))
    rw [pow_mul]
    have h1 : (1:ℝ) ≤ k.factorial := by exact_mod_cast k.factorial_pos
    exact div_le_div_of_nonneg_left (by positivity) (by positivity) (by nlinarith)
  refine le_trans ?_ (hs.le_tsum 50 fun k _ => by positivity)
  have h7 : (2:ℝ) ^ 64 * (Nat.factorial 50 : ℝ) ≤ 52 ^ 50 := by exact_mod_cast nat_50
  have hf : (0:ℝ) < (Nat.factorial 50 : ℝ) := by exact_mod_cast Nat.factorial_pos 50
  rw [pow_mul', ← div_pow]
  calc (2:ℝ) ^ 128 = (2 ^ 64) ^ 2 := by rw [← pow_mul]
    _ ≤ (q ^ 50 / (Nat.factorial 50 : ℝ)) ^ 2 := by
      apply pow_le_pow_left₀ (by positivity)
      rw [le_div_iff₀ hf]
      exact h7.trans (pow_le_pow_left₀ (by norm_num) h0 50)

/-- C137 is false of `crps_poisson`: from the observation 35 on the result is NaN, whatever the mean. -/
theorem C137_crps_poisson_false (hr : Binary32 r) {y m : ℝ} (hy : 35 ≤ y) (hy' : y ≤ 2 ^ 23) (hm : 0 ≤ m) :
    HasCrps (cdfPmf (pmfPois m)) y ∧ Rnd.crpsPoissonT r (fin y) (fin m) = nan := by
  refine ⟨(C80_poisson hm y).2.1, ?_⟩
  have h1 : XF.abs (fin y) + 1 = fin (y + 1) := by
    rw [fin_abs, abs_of_nonneg (by linarith), one_def, fin_add]
  obtain ⟨b, hb, b1, b2⟩ := hr.between (m := 36) (n := 2 ^ 24) le_rfl (a := y + 1)
    (by push_cast; linarith) (by push_cast; linarith)
  push_cast at b1
  have hk : (35:ℤ) ≤ ⌊b⌋ - 1 := by
    have : (36:ℤ) ≤ ⌊b⌋ := Int.le_floor.2 (by exact_mod_cast b1)
    omega
  obtain ⟨k, hk'⟩ := Int.eq_ofNat_of_zero_le (show 0 ≤ ⌊b⌋ - 1 by omega)
  have ek : (⌊b⌋ : ℝ) = (k : ℝ) + 1 := by
    have : ⌊b⌋ = (k : ℤ) + 1 := by omega
    rw [this]; push_cast; rfl
  have hk2 : 35 ≤ k := by omega
  have hg := hr.gammaT_over hk2
  have hF : Rnd.poisCdfT r (fin y) (fin m) = nan := by
    unfold Rnd.poisCdfT Rnd.gammauincT
    simp only [h1]
    have e1 : Rnd.rd r (fin (y + 1)) = fin b := hb
    rw [e1]
    simp only [XF.floor, ek, hg, zero_def, fin_lt]
    rw [if_neg (by linarith)]
    have : ∀ x : XF, Rnd.rd r (x * pinf) / pinf = nan := by
      intro x
      cases x with
      | nan => rfl
      | ninf => rfl
      | pinf => rfl
      | fin a => rw [fin_mul_pinf, infMul_eq]; split_ifs <;> rfl
    rw [this]; rfl
  unfold Rnd.crpsPoissonT
  simp only [hF, mul_nan, nan_sub, nan_add, rd_nan]

/-- a count of 40 when 38 is expected -/
example : Rnd.crpsPoissonT rn32 (fin 40) (fin 38) = nan :=
  (C137_crps_poisson_false rn32_nearest.toBinary32 (by norm_num) (by norm_num) (by norm_num)).2

/-- C137 is false of `crps_poisson` for large means too: from the mean 52 on the result is NaN for every
observation. -/
theorem C137_crps_poisson_mean_false (hr : Binary32 r) {m : ℝ} (y : ℝ) (hm : 52 ≤ m) :
    HasCrps (cdfPmf (pmfPois m)) y ∧ Rnd.crpsPoissonT r (fin y) (fin m) = nan := by
  refine ⟨(C80_poisson (by linarith) y).2.1, ?_⟩
  have h1 : fin 104 ≤ Rnd.rd r (2 * fin m) := by
    have := hr.rd_ge (n := 104) (by norm_num) (x := 2 * fin m) (by
      rw [ofNat_def, fin_mul, fin_le]; push_cast; linarith)
    exact_mod_cast this
  have h2 : Rnd.rd r (XF.exp (-Rnd.rd r (2 * fin m))) = fin 0 := by
    apply hr.exp_under
    rcases ge_cases h1 with e | ⟨a, e, ha⟩
    · rw [e]; exact trivial
    · rw [e, fin_neg, fin_le]; linarith
  have h3 : Rnd.rd r (XF.bessel0 (Rnd.rd r (2 * fin m))) = pinf := by
    rcases ge_cases h1 with e | ⟨a, e, ha⟩
    · rw [e]; rfl
    · rw [e]; exact hr.rd_over (bessel0_big32 ha)
  have h4 : Rnd.rd r (Rnd.rd r (XF.bessel0 (Rnd.rd r (2 * fin m))) + Rnd.rd r (XF.bessel1 (Rnd.rd r (2 * fin m))))
      = pinf := by
    rw [h3]
    have : fin 0 ≤ Rnd.rd r (XF.bessel1 (Rnd.rd r (2 * fin m))) := by
      have := hr.rd_ge (n := 0) (by norm_num) (x := XF.bessel1 (Rnd.rd r (2 * fin m))) (by
        rcases ge_cases h1 with e | ⟨a, e, ha⟩
        · rw [e]; simp [XF.bessel1]
        · rw [e]; simp only [XF.bessel1, fin_le, Nat.cast_zero]
          refine tsum_nonneg fun k => ?_
          have : (0:ℝ) ≤ a / 2 := by linarith
          positivity)
      exact_mod_cast this
    rcases ge_cases this with e | ⟨a, e, ha⟩
    · rw [e]; rfl
    · rw [e, pinf_add_fin, rd_pinf]
  unfold Rnd.crpsPoissonT
  simp only [h2, h4]
  rw [fin_zero_mul_fin, hr.rd_zero, zero_mul_pinf, rd_nan, sub_nan, rd_nan]

example : Rnd.crpsPoissonT rn32 (fin 20) (fin 60) = nan ∧ Rnd.crpsPoissonT rn32 (fin 0) (fin 52) = nan :=
  ⟨(C137_crps_poisson_mean_false rn32_nearest.toBinary32 _ (by norm_num)).2,
    (C137_crps_poisson_mean_false rn32_nearest.toBinary32 _ (by norm_num)).2⟩

/-- C137 is false of `logs_poisson`: at no count from 35 on is the result a number; up to the mean one it is
infinite. -/
theorem C137_logs_poisson_false (hr : Binary32 r) {k : ℕ} {m : ℝ} (hk : 35 ≤ k) (hk' : k < 2 ^ 24) (hm : 0 < m) :
    0 < pmfPois m k ∧
    (Rnd.logsPoissonT r (fin k) (fin m) = pinf ∨ Rnd.logsPoissonT r (fin k) (fin m) = nan) ∧
    (m ≤ 1 → Rnd.logsPoissonT r (fin k) (fin m) = pinf) := by
  have hk0 : (0:ℝ) < (k : ℝ) := by
    have : 0 < k := by omega
    exact_mod_cast this
  have hpow : XF.pow (fin m) (fin k) = fin (m ^ (k : ℝ)) := by
    unfold XF.pow
    rw [if_neg (by rw [zero_def, fin_inj]; exact hk0.ne')]
    split_ifs with h1
    · rw [one_def, fin_inj] at h1
      rw [h1, Real.one_rpow]; rfl
    · simp only [if_pos hm]
  have hf : Rnd.factorialT r (fin k) = pinf := by
    unfold Rnd.factorialT
    have := hr.rd_nat (n := k + 1) (by omega)
    push_cast at this
    rw [one_def, fin_add, this]
    exact hr.gammaT_over hk
  have hpmf : Rnd.poisPdfT r (fin k) (fin m)
      = Rnd.rd r (Rnd.rd r (Rnd.rd r (fin (m ^ (k : ℝ))) * Rnd.rd r (XF.exp (-fin m))) / pinf) := by
    unfold Rnd.poisPdfT
    simp only [fin_abs, abs_of_pos hk0, XF.floor, Int.floor_natCast, Int.cast_natCast, zero_def, fin_lt, lt_irrefl,
      if_false, hm.not_gt, hk0.not_gt, hpow, hf]
  have hp0 : 0 ≤ m ^ (k : ℝ) := (Real.rpow_pos_of_pos hm _).le
  refine ⟨?_, ?_, fun h1 => ?_⟩
  · unfold pmfPois; positivity
  · unfold Rnd.logsPoissonT
    rw [hpmf]
    cases h : Rnd.rd r (Rnd.rd r (fin (m ^ (k : ℝ))) * Rnd.rd r (XF.exp (-fin m))) with
    | nan => right; rfl
    | ninf => right; rfl
    | pinf => right; rfl
    | fin a => left; rw [fin_div_pinf, hr.rd_zero, log_zero_ninf]; rfl
  · unfold Rnd.logsPoissonT
    rw [hpmf]
    obtain ⟨a, ha, a0, a1⟩ := hr.between (m := 0) (n := 1) (by norm_num) (a := m ^ (k : ℝ))
      (by push_cast; exact hp0) (by push_cast; exact Real.rpow_le_one hm.le h1 hk0.le)
    obtain ⟨b, hb, b0, b1⟩ := hr.between (m := 0) (n := 1) (by norm_num) (a := Real.exp (-m))
      (by push_cast; exact (Real.exp_pos _).le) (by push_cast; exact Real.exp_le_one_iff.2 (by linarith))
    push_cast at a0 a1 b0 b1
    obtain ⟨c, hc, -, -⟩ := hr.between (m := 0) (n := 1) (by norm_num) (a := a * b)
      (by push_cast; positivity) (by push_cast; nlinarith)
    have e1 : Rnd.rd r (fin (m ^ (k : ℝ))) = fin a := ha
    have e2 : Rnd.rd r (XF.exp (-fin m)) = fin b := hb
    have e3 : Rnd.rd r (fin (a * b)) = fin c := hc
    rw [e1, e2, fin_mul, e3, fin_div_pinf, hr.rd_zero, log_zero_ninf]; rfl

example : Rnd.logsPoissonT rn32 (fin (40 : ℕ)) (fin (1 / 2)) = pinf :=
  (C137_logs_poisson_false rn32_nearest.toBinary32 (by norm_num) (by norm_num) (by norm_num)).2.2 (by norm_num)

end Verif
