import Verif.Lemmas.Nearest64
import Verif.Props.Logs
import Verif.Props.LogsInf
import Verif.Props.Closed
import Verif.Props.Gev
import Mathlib.Analysis.Real.Pi.Bounds

/-!
# C129: scores in binary64 where the score itself is a finite number

The exact scores below are finite for every finite observation inside the support.  Computed with binary64
rounding (`Model/Rounding.lean`), in the order of operations of the code, they are not: the densities underflow,
`exp` overflows, and distribution functions round to one.  The theorems hold for every rounding function with the
properties `Binary64`.
-/

noncomputable section

open scoped Classical

namespace Verif

open XF Stats Spec

theorem fin_zero_mul_fin (a : ℝ) : fin a * fin 0 = fin 0 := by rw [fin_mul, mul_zero]
theorem log_zero_ninf : XF.log (fin 0) = ninf := by simp [XF.log]
theorem pos_mul_ninf {c : ℝ} (h : 0 < c) : fin c * ninf = ninf := by rw [XF.mul_comm', ninf_mul_pos h]
theorem rd_ninf (r : ℝ → XF) : Rnd.rd r ninf = ninf := rfl
theorem rd_pinf (r : ℝ → XF) : Rnd.rd r pinf = pinf := rfl
theorem rd_nan (r : ℝ → XF) : Rnd.rd r nan = nan := rfl
theorem rd_exact (x : XF) : Rnd.rd fin x = x := by cases x <;> rfl
theorem ge_cases {n : ℝ} {x : XF} (h : fin n ≤ x) : x = pinf ∨ ∃ a, x = fin a ∧ n ≤ a := by
  cases x <;> simp_all
theorem le_cases {n : ℝ} {x : XF} (h : x ≤ fin n) : x = ninf ∨ ∃ a, x = fin a ∧ a ≤ n := by
  cases x <;> simp_all
theorem between_cases {m n : ℝ} {x : XF} (h1 : fin m ≤ x) (h2 : x ≤ fin n) : ∃ a, x = fin a ∧ m ≤ a ∧ a ≤ n := by
  cases x <;> simp_all

variable {r : ℝ → XF}

/-- The rounded functions without rounding are the functions of the exact model. -/
theorem C129_exact (y m s l u : XF) (ms ss ws : List XF) :
    Rnd.logsNormal fin y m s = Logs.normal y m s true ∧ Rnd.logsLaplace fin y m s = Logs.laplace y m s ∧
    Rnd.logsLogistic fin y m s = Logs.logistic y m s ∧ Rnd.logsExponential fin y s = Logs.exponential y s ∧
    Rnd.logsTnormal fin y m s l u = Logs.tnormal y m s l u ∧ Rnd.crpsLogistic fin y m s = Closed.logistic y m s ∧
    Rnd.crpsGumbel fin y m s = Closed.gev y 0 m s ∧ Rnd.logsPoisson fin y m = Logs.poisson y m := by
  simp only [Rnd.logsNormal, Rnd.logsLaplace, Rnd.logsLogistic, Rnd.logsExponential, Rnd.logsTnormal,
    Rnd.crpsLogistic, Rnd.crpsGumbel, Rnd.logsPoisson, Rnd.normPdf, Rnd.normCdf, Rnd.laplacePdf, Rnd.logisPdf,
    Rnd.logisCdf, Rnd.expPdf, Rnd.std, Rnd.poisPdf, rd_exact]
  refine ⟨rfl, rfl, rfl, rfl, rfl, rfl, ?_, rfl⟩
  simp [Closed.gev, gevCdf, XF.feq, zero_def]

/-- the standard normal law at its mean -/
example : Rnd.logsNormal fin (fin 3) (fin 3) (fin 1) = fin (Real.log (Real.sqrt (2 * Real.pi))) := by
  rw [(C129_exact (fin 3) (fin 3) (fin 1) nan nan [] [] []).1, ((C57_normal 3 one_pos).2 _).1]
  have : (0:ℝ) < Real.sqrt (2 * Real.pi) := Real.sqrt_pos.2 (by positivity)
  have e : densNormal 3 1 3 = (Real.sqrt (2 * Real.pi))⁻¹ := by
    unfold densNormal φ; norm_num
  rw [e, negLog, if_neg (inv_ne_zero this.ne'), Real.log_inv, neg_neg]

/-! ### densities that underflow -/

/-- the factor of the normal density is between zero and one -/
theorem Binary64.normFactor (hr : Binary64 r) :
    ∃ c : ℝ, Rnd.rd r (1 / Rnd.rd r (XF.sqrt (Rnd.rd r (2 * Rnd.rd r XF.pi)))) = fin c ∧ 1 / 6 ≤ c ∧ c ≤ 1 := by
  obtain ⟨p, hp, p1, p2⟩ := hr.between (m := 3) (n := 4) (by norm_num) (a := Real.pi)
    (by have := Real.pi_gt_three; push_cast; linarith) (by have := Real.pi_lt_d2; push_cast; linarith)
  obtain ⟨q, hq, q1, q2⟩ := hr.between (m := 6) (n := 8) (by norm_num) (a := 2 * p)
    (by push_cast at *; linarith) (by push_cast at *; linarith)
  push_cast at q1 q2
  obtain ⟨t, ht, t1, t2⟩ := hr.between (m := 2) (n := 3) (by norm_num) (a := Real.sqrt q)
    (by push_cast; apply Real.le_sqrt_of_sq_le; linarith)
    (by push_cast; rw [Real.sqrt_le_left (by norm_num)]; linarith)
  push_cast at t1 t2
  have ht0 : 0 < t := by linarith
  have s1 : (1:ℝ) / 3 ≤ 1 / t := one_div_le_one_div_of_le ht0 t2
  have s2 : 1 / t ≤ (1:ℝ) := by rw [div_le_one ht0]; linarith
  obtain ⟨c, hc, c1, c2⟩ := hr.half (a := 1 / t)
    ((one_div_le_one_div_of_le (by norm_num) (by
      calc (3:ℝ) ≤ 2 ^ 2 := by norm_num
        _ ≤ 2 ^ 1020 := pow_le_pow_right₀ (by norm_num) (by norm_num))).trans s1)
    (lt_of_le_of_lt s2 (one_lt_pow₀ (by norm_num) (by norm_num)))
  have hc1 := hr.le_nat (n := 1) (by norm_num) (a := 1 / t) (by simpa using s2)
  refine ⟨c, ?_, by linarith, ?_⟩
  · change Rnd.rd r (fin 1 / Rnd.rd r (XF.sqrt (Rnd.rd r (fin 2 * r Real.pi)))) = fin c
    rw [hp, fin_mul]
    change Rnd.rd r (fin 1 / Rnd.rd r (XF.sqrt (r (2 * p)))) = fin c
    rw [hq, fin_sqrt (by linarith)]
    change Rnd.rd r (fin 1 / r (Real.sqrt q)) = fin c
    rw [ht, fin_div ht0.ne']
    exact hc
  · rw [hc] at hc1; simpa using hc1

/-- the normal density underflows 39 standard deviations from the mean -/
theorem Binary64.normPdf_under (hr : Binary64 r) {x : XF} (h : fin 39 ≤ x ∨ x ≤ fin (-39)) :
    Rnd.normPdf r x = fin 0 := by
  have hx : fin 1521 ≤ x ^ 2 := by
    rcases h with h | h
    · rcases ge_cases h with rfl | ⟨a, rfl, ha⟩
      · rw [pow_two]; exact trivial
      · rw [fin_pow, fin_le]; nlinarith
    · rcases le_cases h with rfl | ⟨a, rfl, ha⟩
      · rw [pow_two]; exact trivial
      · rw [fin_pow, fin_le]; nlinarith
  have h1 : fin 1521 ≤ Rnd.rd r (x ^ 2) := by
    have := hr.rd_ge (n := 1521) (by norm_num) (x := x ^ 2) (by exact_mod_cast hx)
    exact_mod_cast this
  have h2 : Rnd.rd r (-(Rnd.rd r (x ^ 2)) / 2) ≤ fin (-746) := by
    have := hr.rd_le_neg (n := 746) (by norm_num) (x := -(Rnd.rd r (x ^ 2)) / 2) (by
      rcases ge_cases h1 with e | ⟨a, e, ha⟩
      · rw [e, neg_pinf, ofNat_def, ninf_div_pos (by norm_num)]; simp
      · rw [e, fin_neg, ofNat_def, fin_div (by norm_num), fin_le]; push_cast; linarith)
    exact_mod_cast this
  obtain ⟨c, hc, -, -⟩ := hr.normFactor
  unfold Rnd.normPdf
  rw [hr.exp_under h2, hc, fin_zero_mul_fin, hr.rd_zero]

/-- the standardised observation is far out -/
theorem Binary64.far (hr : Binary64 r) {n : ℕ} (hn : n ≤ 2 ^ 20) {y μ σ : ℝ} (h1 : 1 / 2 ^ 1000 ≤ σ)
    (h2 : σ ≤ 2 ^ 1000) (h : (n + 1) * σ ≤ |y - μ|) :
    fin n ≤ Rnd.std r (fin y) (fin μ) (fin σ) ∨ Rnd.std r (fin y) (fin μ) (fin σ) ≤ fin (-n) := by
  rcases le_abs.1 h with h | h
  · exact Or.inl (hr.std_ge hn h1 h2 h)
  · exact Or.inr (hr.std_le_neg hn h1 h2 (by linarith))

/-- C129 is false of `logs_normal`: the density is positive, but from 40 standard deviations on the computed score
is infinite. -/
theorem C129_normal_false (hr : Binary64 r) {y μ σ : ℝ} (h1 : 1 / 2 ^ 1000 ≤ σ) (h2 : σ ≤ 2 ^ 1000)
    (h : 40 * σ ≤ |y - μ|) :
    0 < densNormal μ σ y ∧ Rnd.logsNormal r (fin y) (fin μ) (fin σ) = pinf := by
  have h0 : (0:ℝ) < σ := lt_of_lt_of_le (by positivity) h1
  refine ⟨div_pos (φ_pos _) h0, ?_⟩
  have := hr.far (n := 39) (by norm_num) h1 h2 (by push_cast; linarith)
  push_cast at this
  unfold Rnd.logsNormal
  rw [hr.normPdf_under this, zero_fin_div h0.ne', hr.rd_zero, log_zero_ninf, rd_ninf, one_def, fin_neg,
    neg_mul_ninf (by norm_num)]

theorem scale_one : (1:ℝ) / 2 ^ 1000 ≤ 1 ∧ (1:ℝ) ≤ 2 ^ 1000 := by
  have : (1:ℝ) ≤ 2 ^ 1000 := one_le_pow₀ (by norm_num)
  exact ⟨by rw [div_le_one (by positivity)]; exact this, this⟩

/-- the standard normal law at -40 -/
example : Rnd.logsNormal rn64 (fin (-40)) (fin 0) (fin 1) = pinf :=
  (C129_normal_false rn64_nearest.toBinary64 scale_one.1 scale_one.2 (by norm_num)).2

/-- C129 is false of `logs_laplace`: infinite from 747 scales on. -/
theorem C129_laplace_false (hr : Binary64 r) {y μ σ : ℝ} (h1 : 1 / 2 ^ 1000 ≤ σ) (h2 : σ ≤ 2 ^ 1000)
    (h : 747 * σ ≤ |y - μ|) :
    0 < densLaplace μ σ y ∧ Rnd.logsLaplace r (fin y) (fin μ) (fin σ) = pinf := by
  have h0 : (0:ℝ) < σ := lt_of_lt_of_le (by positivity) h1
  refine ⟨by unfold densLaplace; positivity, ?_⟩
  have := hr.far (n := 746) (by norm_num) h1 h2 (by push_cast; linarith)
  push_cast at this
  have hx : -XF.abs (Rnd.std r (fin y) (fin μ) (fin σ)) ≤ fin (-746) := by
    rcases this with h | h
    · rcases ge_cases h with e | ⟨a, e, ha⟩
      · rw [e]; exact trivial
      · rw [e, fin_abs, fin_neg, fin_le, abs_of_nonneg (by linarith)]; linarith
    · rcases le_cases h with e | ⟨a, e, ha⟩
      · rw [e]; exact trivial
      · rw [e, fin_abs, fin_neg, fin_le, abs_of_nonpos (by linarith)]; linarith
  unfold Rnd.logsLaplace Rnd.laplacePdf
  rw [hr.exp_under hx, ofNat_def, zero_fin_div (by norm_num), hr.rd_zero, zero_fin_div h0.ne', hr.rd_zero,
    log_zero_ninf, rd_ninf, neg_ninf]

example : Rnd.logsLaplace rn64 (fin 750) (fin 1) (fin 1) = pinf :=
  (C129_laplace_false rn64_nearest.toBinary64 scale_one.1 scale_one.2 (by norm_num)).2

/-- C129 is false of `logs_exponential`: infinite once `rate * obs` reaches 746. -/
theorem C129_exponential_false (hr : Binary64 r) {y lam : ℝ} (h0 : 0 < lam) (h : 746 ≤ lam * y) :
    0 < densExp lam y ∧ Rnd.logsExponential r (fin y) (fin lam) = pinf := by
  have hy : 0 < y := by
    by_contra hc
    push Not at hc
    nlinarith
  have hd : 0 < densExp lam y := by unfold densExp; rw [if_neg hy.not_gt]; positivity
  refine ⟨hd, ?_⟩
  have hx : Rnd.rd r (-fin lam * fin y) ≤ fin (-746) := by
    have := hr.rd_le_neg (n := 746) (by norm_num) (x := -fin lam * fin y) (by
      rw [fin_neg, fin_mul, fin_le]; push_cast; linarith)
    exact_mod_cast this
  unfold Rnd.logsExponential Rnd.expPdf
  simp only [zero_def, fin_lt, if_neg hy.not_gt]
  rw [hr.exp_under hx, fin_zero_mul_fin, hr.rd_zero, log_zero_ninf, rd_ninf, neg_ninf]

example : Rnd.logsExponential rn64 (fin 400) (fin 2) = pinf :=
  (C129_exponential_false rn64_nearest.toBinary64 two_pos (by norm_num)).2

/-- C129 is false of `logs_logistic` in three regions: NaN from 711 scales below the location on, where `exp`
overflows in numerator and denominator; infinite from 358 to 708 scales below, where the square overflows; and
infinite from 747 scales above on, where `exp` underflows. -/
theorem C129_logistic_false (hr : Binary64 r) {y μ σ : ℝ} (h1 : 1 / 2 ^ 1000 ≤ σ) (h2 : σ ≤ 2 ^ 1000) :
    0 < densLogistic μ σ y ∧
    (711 * σ ≤ μ - y → Rnd.logsLogistic r (fin y) (fin μ) (fin σ) = nan) ∧
    (358 * σ ≤ μ - y → μ - y ≤ 708 * σ → Rnd.logsLogistic r (fin y) (fin μ) (fin σ) = pinf) ∧
    (747 * σ ≤ y - μ → Rnd.logsLogistic r (fin y) (fin μ) (fin σ) = pinf) := by
  have h0 : (0:ℝ) < σ := lt_of_lt_of_le (by positivity) h1
  refine ⟨by unfold densLogistic; positivity, fun h => ?_, fun h h' => ?_, fun h => ?_⟩
  · have := hr.std_le_neg (y := y) (μ := μ) (n := 710) (by norm_num) h1 h2 (by push_cast; linarith)
    push_cast at this
    have hx : fin 710 ≤ -Rnd.std r (fin y) (fin μ) (fin σ) := by
      rcases le_cases this with e | ⟨a, e, ha⟩
      · rw [e]; exact trivial
      · rw [e, fin_neg, fin_le]; linarith
    unfold Rnd.logsLogistic Rnd.logisPdf
    rw [hr.exp_over hx, one_def, fin_add_pinf, rd_pinf, pow_two]
    rfl
  · have e1 := hr.std_le_neg (y := y) (μ := μ) (n := 357) (by norm_num) h1 h2 (by push_cast; linarith)
    have e2 := hr.std_ge_neg (y := y) (μ := μ) (n := 708) (by norm_num) h1 h2 (by push_cast; linarith)
    push_cast at e1 e2
    obtain ⟨a, e, a1, a2⟩ := between_cases e2 e1
    norm_num at a1
    have b1 : (2:ℝ) ^ 514 ≤ Real.exp (-a) := exp_ge nat_357 (by push_cast; linarith)
    have b2 : Real.exp (-a) < 2 ^ 1023 := exp_lt nat_709 (by push_cast; linarith)
    have c1 : (1:ℝ) / 2 ^ 1020 ≤ Real.exp (-a) := by
      have : (1:ℝ) / 2 ^ 1020 ≤ 1 := by
        rw [div_le_one (by positivity)]; exact one_le_pow₀ (by norm_num)
      exact this.trans ((one_le_pow₀ (by norm_num)).trans b1)
    obtain ⟨b, hb, b3, -⟩ := hr.half c1 b2
    have b4 : (2:ℝ) ^ 513 ≤ b := by
      have e : (2:ℝ) ^ 514 = 2 ^ 513 * 2 := by rw [← pow_succ]
      rw [e] at b1
      generalize (2:ℝ) ^ 513 = M at *
      linarith
    have d0 : (1:ℝ) / 2 ^ 1020 ≤ 2 ^ 513 := by
      have : (1:ℝ) / 2 ^ 1020 ≤ 1 := by
        rw [div_le_one (by positivity)]; exact one_le_pow₀ (by norm_num)
      exact this.trans (one_le_pow₀ (by norm_num))
    have d1 := hr.ge_half d0 (pow_lt_pow_right₀ (by norm_num) (by norm_num)) (d := 1 + b)
      (b4.trans (by simp))
    have d2 : Rnd.rd r (Rnd.rd r (fin 1 + fin b) ^ 2) = pinf := by
      rw [fin_add]
      change Rnd.rd r (r (1 + b) ^ 2) = pinf
      rcases ge_cases d1 with e | ⟨c, e, hc⟩
      · rw [e, pow_two]; rfl
      · rw [e, fin_pow]
        apply hr.rd_over
        have e1 : (2:ℝ) ^ 513 / 2 = 2 ^ 512 := by rw [show (513:ℕ) = 512 + 1 by norm_num, pow_succ]; ring
        rw [e1] at hc
        calc (2:ℝ) ^ 1024 = (2 ^ 512) ^ 2 := by rw [← pow_mul]
          _ ≤ c ^ 2 := pow_le_pow_left₀ (by positivity) hc 2
    unfold Rnd.logsLogistic Rnd.logisPdf
    rw [e, fin_neg, fin_exp]
    change -Rnd.rd r (XF.log (Rnd.rd r (Rnd.rd r (r (Real.exp (-a)) / Rnd.rd r (Rnd.rd r (fin 1 + r (Real.exp (-a))) ^ 2))
      / fin σ))) = pinf
    rw [hb, d2, fin_div_pinf, hr.rd_zero, zero_fin_div h0.ne', hr.rd_zero, log_zero_ninf, rd_ninf, neg_ninf]
  · have := hr.std_ge (y := y) (μ := μ) (n := 746) (by norm_num) h1 h2 (by push_cast; linarith)
    push_cast at this
    have hx : -Rnd.std r (fin y) (fin μ) (fin σ) ≤ fin (-746) := by
      rcases ge_cases this with e | ⟨a, e, ha⟩
      · rw [e]; exact trivial
      · rw [e, fin_neg, fin_le]; linarith
    unfold Rnd.logsLogistic Rnd.logisPdf
    rw [hr.exp_under hx, one_def, fin_add, add_zero, hr.rd_one, fin_pow, one_pow, hr.rd_one,
      zero_fin_div (by norm_num), hr.rd_zero, zero_fin_div h0.ne', hr.rd_zero, log_zero_ninf, rd_ninf, neg_ninf]

example : Rnd.logsLogistic rn64 (fin (-800)) (fin 0) (fin 1) = nan ∧
    Rnd.logsLogistic rn64 (fin (-500)) (fin 0) (fin 1) = pinf ∧
    Rnd.logsLogistic rn64 (fin 800) (fin 0) (fin 1) = pinf :=
  ⟨(C129_logistic_false rn64_nearest.toBinary64 scale_one.1 scale_one.2).2.1 (by norm_num),
    (C129_logistic_false rn64_nearest.toBinary64 scale_one.1 scale_one.2).2.2.1 (by norm_num) (by norm_num),
    (C129_logistic_false rn64_nearest.toBinary64 scale_one.1 scale_one.2).2.2.2 (by norm_num)⟩

theorem mix_pos (l : List (ℝ × ℝ × ℝ)) {y : ℝ} (hs : ∀ p ∈ l, 0 < p.2.1) (hw : ∀ p ∈ l, 0 ≤ p.2.2)
    (h1 : 0 < (l.map fun p => p.2.2).sum) : 0 < densMix l y := by
  unfold densMix
  induction l with
  | nil => simp at h1
  | cons p l ih =>
    have hp := hw p List.mem_cons_self
    have hd : 0 < densNormal p.1 p.2.1 y := div_pos (φ_pos _) (hs p List.mem_cons_self)
    have hl : 0 ≤ (l.map fun p => p.2.2 * densNormal p.1 p.2.1 y).sum := List.sum_nonneg (by
      intro x hx
      obtain ⟨q, hq, rfl⟩ := List.mem_map.1 hx
      exact mul_nonneg (hw q (List.mem_cons_of_mem _ hq))
        (div_pos (φ_pos _) (hs q (List.mem_cons_of_mem _ hq))).le)
    simp only [List.map_cons, List.sum_cons] at h1 ⊢
    rcases hp.eq_or_lt with e | e
    · rw [← e, zero_mul, zero_add]
      exact ih (fun q hq => hs q (List.mem_cons_of_mem _ hq)) (fun q hq => hw q (List.mem_cons_of_mem _ hq))
        (by linarith)
    · exact add_pos_of_pos_of_nonneg (mul_pos e hd) hl

/-- C129 is false of `logs_mixnorm`: infinite where the observation is 40 standard deviations away from every
component, whatever the weights. -/
theorem C129_mixnorm_false (hr : Binary64 r) {y : ℝ} (l : List (ℝ × ℝ × ℝ))
    (h : ∀ p ∈ l, 1 / 2 ^ 1000 ≤ p.2.1 ∧ p.2.1 ≤ 2 ^ 1000 ∧ 40 * p.2.1 ≤ |y - p.1|)
    (hw : ∀ p ∈ l, 0 ≤ p.2.2) (h1 : (l.map fun p => p.2.2).sum = 1) :
    0 < densMix l y ∧
    Rnd.logsMixnorm r (fin y) (l.map fun p => fin p.1) (l.map fun p => fin p.2.1) (l.map fun p => fin p.2.2)
      = pinf := by
  have hs : ∀ p ∈ l, 0 < p.2.1 := fun p hp => lt_of_lt_of_le (by positivity) (h p hp).1
  refine ⟨mix_pos l hs hw (by rw [h1]; exact one_pos), ?_⟩
  have key : ∀ p ∈ l, Rnd.rd r (fin p.2.2 * Rnd.rd r (Rnd.normPdf r (Rnd.std r (fin y) (fin p.1) (fin p.2.1))
      / fin p.2.1)) = fin 0 := by
    intro p hp
    have := hr.far (y := y) (μ := p.1) (n := 39) (by norm_num) (h p hp).1 (h p hp).2.1
      (by push_cast; linarith [(h p hp).2.2])
    push_cast at this
    rw [hr.normPdf_under this, zero_fin_div (hs p hp).ne', hr.rd_zero, fin_zero_mul_fin, hr.rd_zero]
  have e : Py.zip2 (fun wi pi => Rnd.rd r (wi * pi)) (l.map fun p => fin p.2.2)
      (Py.zip2 (fun zi si => Rnd.rd r (Rnd.normPdf r zi / si))
        (Py.zip2 (fun mi si => Rnd.std r (fin y) mi si) (l.map fun p => fin p.1) (l.map fun p => fin p.2.1))
        (l.map fun p => fin p.2.1)) = l.map fun _ => fin 0 := by
    clear h1 hw hs h
    induction l with
    | nil => rfl
    | cons p l ih =>
      have ih := ih fun q hq => key q (List.mem_cons_of_mem _ hq)
      simp only [Py.zip2, List.map_cons, List.zipWith_cons_cons] at ih ⊢
      rw [ih, key p List.mem_cons_self]
  have e2 : ∀ l : List (ℝ × ℝ × ℝ), (l.map fun _ => fin 0).foldl (fun a b => Rnd.rd r (a + b)) (0 : XF) = fin 0 := by
    intro l
    induction l with
    | nil => rfl
    | cons p l ih =>
      rw [List.map_cons, List.foldl_cons, zero_def, fin_add, add_zero, hr.rd_zero]
      exact ih
  unfold Rnd.logsMixnorm
  simp only []
  rw [e, e2, log_zero_ninf, rd_ninf]
  rfl

/-- two components, far away -/
example : Rnd.logsMixnorm rn64 (fin 100) [fin 0, fin 1] [fin 1, fin 1] [fin (1 / 4), fin (3 / 4)] = pinf :=
  (C129_mixnorm_false rn64_nearest.toBinary64 [(0, 1, 1 / 4), (1, 1, 3 / 4)]
    (by
      intro p hp
      simp only [List.mem_cons, List.not_mem_nil, or_false] at hp
      rcases hp with rfl | rfl
      · exact ⟨scale_one.1, scale_one.2, by norm_num⟩
      · exact ⟨scale_one.1, scale_one.2, by norm_num⟩)
    (by simp; norm_num) (by norm_num)).2

/-! ### distribution functions that round to zero or one -/

/-- C129 is false of `crps_logistic`: infinite from 711 scales below the location on, because the distribution
function underflows and its logarithm is minus infinity.  The CRPS itself is finite there. -/
theorem C129_crps_logistic_false (hr : Binary64 r) {y μ σ : ℝ} (h1 : 1 / 2 ^ 1000 ≤ σ) (h2 : σ ≤ 2 ^ 1000)
    (h : 711 * σ ≤ μ - y) (h' : μ - y ≤ 2 ^ 20 * σ) :
    HasCrps (cdfLogistic μ σ) y ∧ Rnd.crpsLogistic r (fin y) (fin μ) (fin σ) = pinf := by
  have h0 : (0:ℝ) < σ := lt_of_lt_of_le (by positivity) h1
  refine ⟨(C48_logistic h0 μ y).1, ?_⟩
  have e1 := hr.std_le_neg (y := y) (μ := μ) (n := 710) (by norm_num) h1 h2 (by push_cast; linarith)
  have e2 := hr.std_ge_neg (y := y) (μ := μ) (n := 2 ^ 20) le_rfl h1 h2 (by push_cast; linarith)
  push_cast at e1
  obtain ⟨a, e, -, a2⟩ := between_cases e2 e1
  have hx : fin 710 ≤ -fin a := by rw [fin_neg, fin_le]; linarith
  unfold Rnd.crpsLogistic Rnd.logisCdf
  simp only []
  rw [e, hr.exp_over hx, one_def, fin_add_pinf, rd_pinf, fin_div_pinf, hr.rd_zero, log_zero_ninf, rd_ninf,
    ofNat_def, pos_mul_ninf (by norm_num), rd_ninf, fin_sub_ninf, rd_pinf, pinf_sub_fin, rd_pinf, XF.mul_comm',
    pinf_mul_pos h0, rd_pinf]

example : Rnd.crpsLogistic rn64 (fin (-711)) (fin 0) (fin 1) = pinf :=
  (C129_crps_logistic_false rn64_nearest.toBinary64 scale_one.1 scale_one.2 (by norm_num) (by norm_num)).2

/-- C129 is false of `crps_gev` with shape zero: infinite from 40 scales above the location on, because the
distribution function rounds to one and `expi(log(1))` is minus infinity.  The CRPS itself is finite there. -/
theorem C129_crps_gumbel_false (hr : Binary64 r) {y μ σ : ℝ} (h1 : 1 / 2 ^ 1000 ≤ σ) (h2 : σ ≤ 2 ^ 1000)
    (h : 40 * σ ≤ y - μ) (h' : y - μ ≤ 2 ^ 20 * σ) :
    HasCrps (cdfGev 0 μ σ) y ∧
    Rnd.crpsGumbel r (fin y) (fin μ) (fin σ) = pinf := by
  have h0 : (0:ℝ) < σ := lt_of_lt_of_le (by positivity) h1
  have e1 := hr.std_ge (y := y) (μ := μ) (n := 39) (by norm_num) h1 h2 (by push_cast; linarith)
  have e2 := hr.std_le (y := y) (μ := μ) (n := 2 ^ 20) le_rfl h1 h2 (by push_cast; linarith)
  push_cast at e1
  obtain ⟨a, e, a1, -⟩ := between_cases e1 e2
  have b1 : Real.exp (-a) ≤ 1 / 2 ^ 56 := exp_neg_le nat_39 (by push_cast; linarith)
  have b0 := Real.exp_pos (-a)
  obtain ⟨c, hc, c0, c1⟩ : ∃ c, r (Real.exp (-a)) = fin c ∧ 0 ≤ c ∧ c ≤ 1 / 2 ^ 54 := by
    have hs : |Real.exp (-a)| < 2 ^ 1023 := by
      rw [abs_of_pos b0]
      have : (1:ℝ) / 2 ^ 56 ≤ 1 := by norm_num
      exact lt_of_le_of_lt (b1.trans this) (one_lt_pow₀ (by norm_num) (by norm_num))
    obtain ⟨δ, η, hδ, hη, e⟩ := hr.acc hs
    have hpos := hr.mono b0.le
    rw [hr.zero, e, fin_le] at hpos
    refine ⟨_, e, hpos, ?_⟩
    have hη' := (abs_le.1 (hη.trans tiny_small)).2
    have hδ' : δ ≤ 1 := ((abs_le.1 hδ).2).trans (by norm_num)
    have e56 : (1:ℝ) / 2 ^ 54 = 4 * (1 / 2 ^ 56) := by norm_num
    have e60 : (1:ℝ) / 2 ^ 60 ≤ 1 / 2 ^ 56 := by norm_num
    rw [e56]
    generalize (1:ℝ) / 2 ^ 56 = q at *
    generalize (1:ℝ) / 2 ^ 60 = q' at *
    nlinarith
  have hone : r (Real.exp (-c)) = fin 1 := by
    apply hr.one
    have d1 : Real.exp (-c) ≤ 1 := Real.exp_le_one_iff.2 (by linarith)
    have d2 := Real.add_one_le_exp (-c)
    rw [abs_le]
    constructor <;> linarith
  refine ⟨?_, ?_⟩
  · exact (C82_gumbel μ y h0).1
  · unfold Rnd.crpsGumbel
    simp only []
    rw [e, fin_neg, fin_exp]
    have : Rnd.rd r (fin (Real.exp (-a))) = fin c := hc
    rw [this, fin_neg, fin_exp]
    have : Rnd.rd r (fin (Real.exp (-c))) = fin 1 := hone
    rw [this, fin_log one_pos, Real.log_one, hr.rd_zero]
    have : XF.expi (fin 0) = ninf := by simp [XF.expi]
    obtain ⟨g, hg, -, -⟩ := hr.between (m := 0) (n := 1) (by norm_num)
      (a := 57721566490153286060651209008240243 / 10 ^ 35) (by norm_num) (by norm_num)
    obtain ⟨q, hq, -, -⟩ := hr.between (m := 0) (n := 1) (by norm_num) (a := Real.log 2)
      (by push_cast; exact Real.log_nonneg (by norm_num))
      (by push_cast; exact (Real.log_le_sub_one_of_pos two_pos).trans (by norm_num))
    rw [this, rd_ninf, ofNat_def, pos_mul_ninf (by norm_num), rd_ninf, fin_sub_ninf, rd_pinf, fin_log (by norm_num)]
    have hg' : Rnd.rd r Closed.eulerMascheroni = fin g := hg
    have hq' : Rnd.rd r (fin (Real.log 2)) = fin q := hq
    rw [hg', hq', pinf_add_fin, rd_pinf, pinf_sub_fin, rd_pinf, pinf_mul_pos h0, rd_pinf]

example : Rnd.crpsGumbel rn64 (fin 40) (fin 0) (fin 1) = pinf :=
  (C129_crps_gumbel_false rn64_nearest.toBinary64 scale_one.1 scale_one.2 (by norm_num) (by norm_num)).2

/-- erf is one up to less than half a unit in the last place from 10 on -/
theorem erf_far {b : ℝ} (hb : 10 ≤ b) :
    |2 / Real.sqrt Real.pi * (∫ t in (0:ℝ)..b, Real.exp (-t ^ 2)) - 1| ≤ 1 / 2 ^ 54 := by
  have h2 : (0:ℝ) < Real.sqrt 2 := Real.sqrt_pos.2 two_pos
  have h2' : (1:ℝ) ≤ Real.sqrt 2 := Real.one_le_sqrt.2 (by norm_num)
  have e := erf_Φ (b * Real.sqrt 2)
  rw [mul_div_cancel_right₀ _ h2.ne'] at e
  have hx : 10 ≤ b * Real.sqrt 2 := by nlinarith
  have t := Φ_tail (x := -(b * Real.sqrt 2)) (by linarith)
  have hn : Φ (-(b * Real.sqrt 2)) = 1 - Φ (b * Real.sqrt 2) := by linarith [Φ_add_neg (b * Real.sqrt 2)]
  have hp : φ (-(b * Real.sqrt 2)) ≤ 1 / 2 ^ 56 := by
    unfold φ
    have e2 : -(-(b * Real.sqrt 2)) ^ 2 / 2 = -b ^ 2 := by
      rw [neg_sq, mul_pow, Real.sq_sqrt (by norm_num)]; ring
    rw [e2]
    have : Real.exp (-b ^ 2) ≤ 1 / 2 ^ 56 := exp_neg_le nat_39 (by push_cast; nlinarith)
    have hs : 1 ≤ Real.sqrt (2 * Real.pi) := Real.one_le_sqrt.2 (by have := Real.pi_gt_three; linarith)
    exact (div_le_self (Real.exp_pos _).le hs).trans this
  have h0 := Φ_nonneg (-(b * Real.sqrt 2))
  rw [hn] at t h0
  have t2 : 1 - Φ (b * Real.sqrt 2) ≤ 1 / 2 ^ 56 := by nlinarith
  have e54 : (1:ℝ) / 2 ^ 54 = 4 * (1 / 2 ^ 56) := by norm_num
  rw [e54]
  generalize (1:ℝ) / 2 ^ 56 = q at *
  rw [abs_le]
  constructor <;> linarith

/-- the normal distribution function rounds to one from 15 standard deviations on -/
theorem Binary64.normCdf_one (hr : Binary64 r) {x : XF} (h : fin 15 ≤ x) : Rnd.normCdf r x = fin 1 := by
  obtain ⟨δ, η, hδ, hη, e⟩ := hr.acc (a := Real.sqrt 2) (by
    rw [abs_of_nonneg (Real.sqrt_nonneg 2)]
    have : Real.sqrt 2 ≤ 2 := by rw [Real.sqrt_le_left (by norm_num)]; norm_num
    refine lt_of_le_of_lt this ?_
    calc (2:ℝ) = 2 ^ 1 := by norm_num
      _ < 2 ^ 1023 := pow_lt_pow_right₀ (by norm_num) (by norm_num))
  have hs1 : (1:ℝ) ≤ Real.sqrt 2 := Real.one_le_sqrt.2 (by norm_num)
  have hs2 : Real.sqrt 2 ≤ 1.415 := by rw [Real.sqrt_le_left (by norm_num)]; norm_num
  have hδ' := abs_le.1 (hδ.trans (show (1:ℝ) / 2 ^ 53 ≤ 1 / 100 by norm_num))
  have hη' := abs_le.1 ((hη.trans tiny_small).trans (show (1:ℝ) / 2 ^ 60 ≤ 1 / 100 by norm_num))
  have b1 : 0 < Real.sqrt 2 * (1 + δ) + η := by nlinarith
  have b2 : Real.sqrt 2 * (1 + δ) + η ≤ 3 / 2 := by nlinarith
  have e' : Rnd.rd r (XF.sqrt 2) = fin (Real.sqrt 2 * (1 + δ) + η) := by
    rw [ofNat_def, fin_sqrt (by norm_num)]; exact e
  generalize Real.sqrt 2 * (1 + δ) + η = s at *
  have hz : fin 10 ≤ Rnd.rd r (x / fin s) := by
    have := hr.rd_ge (n := 10) (by norm_num) (x := x / fin s) (by
      rcases ge_cases h with rfl | ⟨a, rfl, ha⟩
      · rw [pinf_div_pos b1]; simp
      · rw [fin_div b1.ne', fin_le, le_div_iff₀ b1]; push_cast; linarith)
    exact_mod_cast this
  have he : Rnd.rd r (XF.erf (Rnd.rd r (x / fin s))) = fin 1 := by
    rcases ge_cases hz with e | ⟨b, e, hb⟩
    · rw [e]; exact hr.rd_one
    · rw [e]; exact hr.one (erf_far hb)
  unfold Rnd.normCdf
  rw [e', he, one_def, fin_add, one_add_one_eq_two, hr.rd_two, ofNat_def, fin_div (by norm_num)]
  norm_num
  exact hr.rd_one

/-- the normal density is a positive number within 37 standard deviations of the mean -/
theorem Binary64.normPdf_pos (hr : Binary64 r) {a : ℝ} (h : |a| ≤ 37) :
    ∃ b, Rnd.normPdf r (fin a) = fin b ∧ 1 / 2 ^ 994 ≤ b ∧ b ≤ 1 := by
  have ha : a ^ 2 ≤ 1369 := by
    have := abs_le.1 h; nlinarith
  obtain ⟨s, hs, s1, s2⟩ := hr.between (m := 0) (n := 1369) (by norm_num) (a := a ^ 2)
    (by push_cast; positivity) (by push_cast; exact ha)
  push_cast at s1 s2
  obtain ⟨t, ht, t1, t2⟩ := hr.between' (m := 0) (n := 685) (by norm_num) (a := -s / 2)
    (by push_cast; linarith) (by push_cast; linarith)
  push_cast at t1 t2
  have x1 : (1:ℝ) / 2 ^ 989 ≤ Real.exp t := exp_neg_ge nat_685 (by push_cast; linarith)
  have x2 : Real.exp t ≤ 1 := Real.exp_le_one_iff.2 (by linarith)
  have big : (1:ℝ) < 2 ^ 1023 := one_lt_pow₀ (by norm_num) (by norm_num)
  obtain ⟨e, he, e1, -⟩ := hr.half (a := Real.exp t)
    ((one_div_le_one_div_of_le (by positivity) (pow_le_pow_right₀ (by norm_num) (by norm_num))).trans x1)
    (lt_of_le_of_lt x2 big)
  have e3 := hr.le_nat (n := 1) (by norm_num) (a := Real.exp t) (by simpa using x2)
  rw [he, Nat.cast_one, fin_le] at e3
  obtain ⟨c, hc, c1, c2⟩ := hr.normFactor
  have p989 : (1:ℝ) / 2 ^ 989 = 32 * (1 / 2 ^ 994) := by
    rw [show (994:ℕ) = 989 + 5 by norm_num, pow_add]; ring
  have q0 : (0:ℝ) < 1 / 2 ^ 994 := by positivity
  have q1 : (1:ℝ) / 2 ^ 1020 ≤ 1 / 2 ^ 994 :=
    one_div_le_one_div_of_le (by positivity) (pow_le_pow_right₀ (by norm_num) (by norm_num))
  have low : 2 * (1 / 2 ^ 994) ≤ c * e := by
    rw [p989] at x1
    generalize (1:ℝ) / 2 ^ 994 = q at *
    nlinarith
  have e0 : 0 < e := by linarith [Real.exp_pos t]
  have up : c * e ≤ 1 := by nlinarith
  obtain ⟨b, hb, b1, -⟩ := hr.half (a := c * e)
    (by
      refine q1.trans (le_trans ?_ low)
      generalize (1:ℝ) / 2 ^ 994 = q at *
      linarith) (lt_of_le_of_lt up big)
  have b3 := hr.le_nat (n := 1) (by norm_num) (a := c * e) (by simpa using up)
  rw [hb, Nat.cast_one, fin_le] at b3
  refine ⟨b, ?_, ?_, b3⟩
  · unfold Rnd.normPdf
    rw [hc, fin_pow]
    change Rnd.rd r (fin c * Rnd.rd r (XF.exp (Rnd.rd r (-r (a ^ 2) / fin 2)))) = fin b
    rw [hs, fin_neg, fin_div (by norm_num)]
    change Rnd.rd r (fin c * Rnd.rd r (XF.exp (r (-s / 2)))) = fin b
    rw [ht]
    change Rnd.rd r (fin c * r (Real.exp t)) = fin b
    rw [he, fin_mul]
    exact hb
  · generalize (1:ℝ) / 2 ^ 994 = q at *
    linarith

/-- … and so is the density of the code, for a standard deviation of ordinary size -/
theorem Binary64.prob_pos (hr : Binary64 r) {y μ σ : ℝ} (h1 : 1 / 2 ^ 1000 ≤ σ) (h2 : σ ≤ 2 ^ 20)
    (h : |y - μ| ≤ 36 * σ) :
    ∃ p, Rnd.rd r (Rnd.normPdf r (Rnd.std r (fin y) (fin μ) (fin σ)) / fin σ) = fin p ∧
      1 / 2 ^ 1020 ≤ p ∧ p ≤ 2 ^ 1010 := by
  have h0 : (0:ℝ) < σ := lt_of_lt_of_le (by positivity) h1
  have h2' : σ ≤ 2 ^ 1000 := h2.trans (pow_le_pow_right₀ (by norm_num) (by norm_num))
  have hh := abs_le.1 h
  have e1 := hr.std_ge_neg (y := y) (μ := μ) (n := 36) (by norm_num) h1 h2' (by push_cast; linarith)
  have e2 := hr.std_le (y := y) (μ := μ) (n := 36) (by norm_num) h1 h2' (by push_cast; linarith)
  push_cast at e1 e2
  obtain ⟨a, e, a1, a2⟩ := between_cases e1 e2
  obtain ⟨b, hb, b1, b2⟩ := hr.normPdf_pos (a := a) (by rw [abs_le]; constructor <;> linarith)
  have hb0 : 0 < b := lt_of_lt_of_le (by positivity) b1
  have d1 : (1:ℝ) / 2 ^ 1014 ≤ b / σ := by
    rw [le_div_iff₀ h0]
    calc (1:ℝ) / 2 ^ 1014 * σ ≤ 1 / 2 ^ 1014 * 2 ^ 20 := mul_le_mul_of_nonneg_left h2 (by positivity)
      _ = 1 / 2 ^ 994 := by rw [show (1014:ℕ) = 994 + 20 by norm_num, pow_add]; field_simp
      _ ≤ b := b1
  have d2 : b / σ ≤ 2 ^ 1000 := by
    rw [div_le_iff₀ h0]
    calc b ≤ 1 := b2
      _ = 2 ^ 1000 * (1 / 2 ^ 1000) := by field_simp
      _ ≤ 2 ^ 1000 * σ := mul_le_mul_of_nonneg_left h1 (by positivity)
  obtain ⟨p, hp, p1, p2⟩ := hr.half (a := b / σ)
    ((one_div_le_one_div_of_le (by positivity) (pow_le_pow_right₀ (by norm_num) (by norm_num))).trans d1)
    (lt_of_le_of_lt d2 (pow_lt_pow_right₀ (by norm_num) (by norm_num)))
  refine ⟨p, ?_, ?_, ?_⟩
  · rw [e, hb, fin_div h0.ne']; exact hp
  · have : (1:ℝ) / 2 ^ 1020 ≤ 1 / 2 ^ 1014 / 2 := by
      rw [div_div, ← pow_succ]
      exact one_div_le_one_div_of_le (by positivity) (pow_le_pow_right₀ (by norm_num) (by norm_num))
    exact this.trans ((div_le_div_of_nonneg_right d1 (by norm_num)).trans p1)
  · refine p2.trans ((mul_le_mul_of_nonneg_left d2 (by norm_num)).trans ?_)
    rw [← pow_succ']
    exact pow_le_pow_right₀ (by norm_num) (by norm_num)

theorem log_bounds {p : ℝ} (h1 : 1 / 2 ^ 1020 ≤ p) (h2 : p ≤ 2 ^ 1010) : |Real.log p| ≤ 1020 := by
  have h0 : (0:ℝ) < p := lt_of_lt_of_le (by positivity) h1
  have l1 := Real.log_le_log (by positivity) h1
  have l2 := Real.log_le_log h0 h2
  rw [Real.log_div one_ne_zero (by positivity), Real.log_one, Real.log_pow] at l1
  rw [Real.log_pow] at l2
  have hl : Real.log 2 ≤ 1 := (Real.log_le_sub_one_of_pos two_pos).trans (by norm_num)
  have hl0 : 0 ≤ Real.log 2 := Real.log_nonneg (by norm_num)
  push_cast at l1 l2
  generalize Real.log p = v at *
  rw [abs_le]
  constructor <;> linarith

/-- What is true of `logs_normal`: up to 36 standard deviations from the mean the computed score is a number, for
standard deviations from `2 ^ -1000` to `2 ^ 20`. -/
theorem C129_normal_partial (hr : Binary64 r) {y μ σ : ℝ} (h1 : 1 / 2 ^ 1000 ≤ σ) (h2 : σ ≤ 2 ^ 20)
    (h : |y - μ| ≤ 36 * σ) : ∃ v : ℝ, Rnd.logsNormal r (fin y) (fin μ) (fin σ) = fin v ∧ |v| ≤ 1020 := by
  obtain ⟨p, hp, p1, p2⟩ := hr.prob_pos h1 h2 h
  have hp0 : (0:ℝ) < p := lt_of_lt_of_le (by positivity) p1
  have hl := abs_le.1 (log_bounds p1 p2)
  unfold Rnd.logsNormal
  rw [hp, fin_log hp0]
  rcases le_total 0 (Real.log p) with h0 | h0
  · obtain ⟨b, hb, b1, b2⟩ := hr.between (m := 0) (n := 1020) (by norm_num) (a := Real.log p)
      (by push_cast; exact h0) (by push_cast; exact hl.2)
    push_cast at b1 b2
    refine ⟨-b, ?_, by rw [abs_neg, abs_of_nonneg b1]; exact b2⟩
    change -fin 1 * r (Real.log p) = fin (-b)
    rw [hb, fin_neg, fin_mul, neg_one_mul]
  · obtain ⟨b, hb, b1, b2⟩ := hr.between' (m := 0) (n := 1020) (by norm_num) (a := Real.log p)
      (by push_cast; linarith) (by push_cast; linarith)
    push_cast at b1 b2
    refine ⟨-b, ?_, by rw [abs_of_nonneg b1]; exact b2⟩
    change -fin 1 * r (Real.log p) = fin (-b)
    rw [hb, fin_neg, fin_mul, neg_one_mul]

example : ∃ v : ℝ, Rnd.logsNormal rn64 (fin 30) (fin 0) (fin 1) = fin v ∧ |v| ≤ 1020 :=
  C129_normal_partial rn64_nearest.toBinary64 scale_one.1 (by norm_num) (by norm_num)

/-- C129 is false of `logs_tnormal`: truncated from a lower bound at least 16 standard deviations above the
location on, the computed score of an observation up to 36 standard deviations above it is **minus** infinity, the
best possible, because the normalising constant rounds to zero. -/
theorem C129_tnormal_false (hr : Binary64 r) {y μ σ l : ℝ} (u : XF) (h1 : 1 / 2 ^ 1000 ≤ σ) (h2 : σ ≤ 2 ^ 20)
    (hl : 16 * σ ≤ l - μ) (hly : l ≤ y) (hyu : fin y ≤ u) (hy : y - μ ≤ 36 * σ) :
    0 < densTruncLo (densNormal μ σ) (cdfNormal μ σ) l y ∧
    Rnd.logsTnormal r (fin y) (fin μ) (fin σ) (fin l) u = ninf := by
  have h0 : (0:ℝ) < σ := lt_of_lt_of_le (by positivity) h1
  have h2' : σ ≤ 2 ^ 1000 := h2.trans (pow_le_pow_right₀ (by norm_num) (by norm_num))
  have mono : ∀ {a : ℝ} {b : XF}, fin a ≤ b →
      Rnd.std r (fin a) (fin μ) (fin σ) ≤ Rnd.std r b (fin μ) (fin σ) := by
    intro a b hab
    unfold Rnd.std
    apply hr.rd_mono
    have hm : Rnd.rd r (fin a - fin μ) ≤ Rnd.rd r (b - fin μ) := by
      apply hr.rd_mono
      rcases ge_cases hab with rfl | ⟨c, rfl, hc⟩
      · rw [pinf_sub_fin, fin_sub]; simp
      · rw [fin_sub, fin_sub, fin_le]; linarith
    cases hc : Rnd.rd r (fin a - fin μ) <;> cases hd : Rnd.rd r (b - fin μ) <;>
      simp_all [pinf_div_pos h0, ninf_div_pos h0, fin_div h0.ne', div_le_div_iff_of_pos_right h0]
  refine ⟨?_, ?_⟩
  · unfold densTruncLo
    rw [if_pos hly]
    exact div_pos (div_pos (φ_pos _) h0) (sub_pos.2 (Φ_lt_one _))
  have m1 := mono (a := l) (b := fin y) (by rw [fin_le]; exact hly)
  have m2 := mono hyu
  have m3 := mono (a := l) (b := u) (by
    rcases ge_cases hyu with rfl | ⟨c, rfl, hc⟩
    · simp
    · rw [fin_le]; linarith)
  have e1 := hr.std_ge (y := l) (μ := μ) (n := 15) (by norm_num) h1 h2' (by push_cast; linarith)
  push_cast at e1
  have le_tr : ∀ {a b c : XF}, a ≤ b → b ≤ c → a ≤ c := by
    intro a b c hab hbc
    cases a <;> cases b <;> cases c <;> simp_all
    exact hab.trans hbc
  have not_lt_of : ∀ {a b : XF}, a ≤ b → ¬ b < a := by
    intro a b hab
    cases a <;> cases b <;> simp_all
  obtain ⟨p, hp, p1, p2⟩ := hr.prob_pos (y := y) (μ := μ) h1 h2 (by rw [abs_of_nonneg] <;> linarith)
  have hp0 : (0:ℝ) < p := lt_of_lt_of_le (by positivity) p1
  unfold Rnd.logsTnormal
  simp only []
  rw [if_neg (by
    rintro (h | h)
    · exact not_lt_of m1 h
    · exact not_lt_of m2 h), hr.normCdf_one e1, hr.normCdf_one (le_tr e1 m3), fin_sub, sub_self, hr.rd_zero, hp,
    fin_div_zero, if_neg hp0.ne', if_pos hp0, rd_pinf]
  rfl

example : Rnd.logsTnormal rn64 (fin 20) (fin 0) (fin 1) (fin 16) pinf = ninf :=
  (C129_tnormal_false rn64_nearest.toBinary64 pinf scale_one.1 (by norm_num) (by norm_num) (by norm_num) (by simp)
    (by norm_num)).2

end Verif
