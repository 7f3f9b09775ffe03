import Verif.Props.Rounding
import Verif.Props.Poisson
import Verif.Props.LogsDiscrete

/-!
# C130: Poisson scores in binary64

The exact scores are finite (C80, C58).  Computed with rounding they are not from the observation 171 on, where
`gamma(172)` overflows, nor from the mean 746 on, where `exp(-2 * mean)` underflows and the Bessel functions overflow.
-/

noncomputable section

open scoped Classical

namespace Verif

open XF Stats Spec

variable {r : ℝ → XF}

theorem Binary64.finite (hr : Binary64 r) {a : ℝ} (h : -1020 ≤ a ∧ a ≤ 1020) : ∃ b, r a = fin b := by
  have h1 := hr.le_nat (n := 1020) (by norm_num) (a := a) (by push_cast; exact h.2)
  have h2 := hr.rd_ge_neg (n := 1020) (by norm_num) (x := fin a) (by rw [fin_le]; push_cast; exact h.1)
  obtain ⟨b, hb, -⟩ := between_cases h2 h1
  exact ⟨b, hb⟩

theorem gamma_big {k : ℕ} (hk : 171 ≤ k) : (2:ℝ) ^ 1024 ≤ Real.Gamma ((k : ℝ) + 1) := by
  rw [Real.Gamma_nat_eq_factorial]
  have : 2 ^ 1024 ≤ k.factorial := nat_171.trans (Nat.factorial_le hk)
  exact_mod_cast this

/-- the Bessel function overflows -/
theorem bessel0_big {a : ℝ} (ha : 1492 ≤ a) :
    (2:ℝ) ^ 1024 ≤ ∑' k : ℕ, (a / 2) ^ (2 * k) / (k.factorial : ℝ) ^ 2 := by
  have h0 : (746:ℝ) ≤ a / 2 := by linarith
  generalize a / 2 = q at *
  have hq : 0 ≤ q := by linarith
  have hs : Summable fun k : ℕ => q ^ (2 * k) / (k.factorial : ℝ) ^ 2 := by
    refine Summable.of_nonneg_of_le (fun k => by positivity) (fun k => ?_) (Real.summable_pow_div_factorial (q ^ 2))
    rw [pow_mul]
    have h1 : (1:ℝ) ≤ k.factorial := by exact_mod_cast k.factorial_pos
    exact div_le_div_of_nonneg_left (by positivity) (by positivity) (by nlinarith)
  refine le_trans ?_ (hs.le_tsum 700 fun k _ => by positivity)
  have h7 : (2:ℝ) ^ 512 * (Nat.factorial 700 : ℝ) ≤ 746 ^ 700 := by exact_mod_cast nat_700
  have hf : (0:ℝ) < (Nat.factorial 700 : ℝ) := by exact_mod_cast Nat.factorial_pos 700
  rw [pow_mul', ← div_pow]
  calc (2:ℝ) ^ 1024 = (2 ^ 512) ^ 2 := by rw [← pow_mul]
    _ ≤ (q ^ 700 / (Nat.factorial 700 : ℝ)) ^ 2 := by
      apply pow_le_pow_left₀ (by positivity)
      rw [le_div_iff₀ hf]
      exact h7.trans (pow_le_pow_left₀ (by norm_num) h0 700)

/-- C130 is false of `crps_poisson`: from the observation 171 on the result is NaN, whatever the mean. -/
theorem C130_crps_false (hr : Binary64 r) {y m : ℝ} (hy : 171 ≤ y) (hy' : y ≤ 2 ^ 52) (hm : 0 ≤ m) :
    HasCrps (cdfPmf (pmfPois m)) y ∧ Rnd.crpsPoisson r (fin y) (fin m) = nan := by
  refine ⟨(C80_poisson hm y).2.1, ?_⟩
  have h1 : XF.abs (fin y) + 1 = fin (y + 1) := by
    rw [fin_abs, abs_of_nonneg (by linarith), one_def, fin_add]
  obtain ⟨b, hb, b1, b2⟩ := hr.between (m := 172) (n := 2 ^ 53) le_rfl (a := y + 1)
    (by push_cast; linarith) (by push_cast; linarith)
  push_cast at b1
  have hk : (171:ℤ) ≤ ⌊b⌋ - 1 := by
    have : (172:ℤ) ≤ ⌊b⌋ := Int.le_floor.2 (by exact_mod_cast b1)
    omega
  obtain ⟨k, hk'⟩ := Int.eq_ofNat_of_zero_le (show 0 ≤ ⌊b⌋ - 1 by omega)
  have ek : (⌊b⌋ : ℝ) = (k : ℝ) + 1 := by
    have : ⌊b⌋ = (k : ℤ) + 1 := by omega
    rw [this]; push_cast; rfl
  have hk2 : 171 ≤ k := by omega
  have hg : Rnd.rd r (XF.gamma (fin ((k : ℝ) + 1))) = pinf := by
    have hpos : (0:ℝ) < (k : ℝ) + 1 := by positivity
    simp only [XF.gamma]
    rw [if_neg hpos.ne', if_neg (by rintro ⟨n, hn⟩; have : (0:ℝ) ≤ n := Nat.cast_nonneg n; linarith)]
    exact hr.rd_over (gamma_big hk2)
  have hF : Rnd.poisCdf r (fin y) (fin m) = nan := by
    unfold Rnd.poisCdf Rnd.gammauinc
    simp only [h1]
    have e1 : Rnd.rd r (fin (y + 1)) = fin b := hb
    rw [e1]
    simp only [XF.floor, ek, hg, zero_def, fin_lt]
    rw [if_neg (by linarith)]
    have : ∀ x : XF, Rnd.rd r (x * pinf) / pinf = nan := by
      intro x
      cases x with
      | nan => rfl
      | ninf => rfl
      | pinf => rfl
      | fin a => rw [fin_mul_pinf, infMul_eq]; split_ifs <;> rfl
    rw [this]; rfl
  unfold Rnd.crpsPoisson
  simp only [hF, mul_nan, nan_sub, nan_add, rd_nan]

example : Rnd.crpsPoisson rn64 (fin 171) (fin 150) = nan :=
  (C130_crps_false rn64_nearest.toBinary64 (by norm_num) (by norm_num) (by norm_num)).2

/-- C130 is false of `crps_poisson` for large means too: from the mean 746 on the result is NaN for every
observation. -/
theorem C130_crps_mean_false (hr : Binary64 r) {m : ℝ} (y : ℝ) (hm : 746 ≤ m) :
    HasCrps (cdfPmf (pmfPois m)) y ∧ Rnd.crpsPoisson r (fin y) (fin m) = nan := by
  refine ⟨(C80_poisson (by linarith) y).2.1, ?_⟩
  have h1 : fin 1492 ≤ Rnd.rd r (2 * fin m) := by
    have := hr.rd_ge (n := 1492) (by norm_num) (x := 2 * fin m) (by
      rw [ofNat_def, fin_mul, fin_le]; push_cast; linarith)
    exact_mod_cast this
  have h2 : Rnd.rd r (XF.exp (-Rnd.rd r (2 * fin m))) = fin 0 := by
    apply hr.exp_under
    rcases ge_cases h1 with e | ⟨a, e, ha⟩
    · rw [e]; exact trivial
    · rw [e, fin_neg, fin_le]; linarith
  have h3 : Rnd.rd r (XF.bessel0 (Rnd.rd r (2 * fin m))) = pinf := by
    rcases ge_cases h1 with e | ⟨a, e, ha⟩
    · rw [e]; rfl
    · rw [e]; exact hr.rd_over (bessel0_big ha)
  have h4 : Rnd.rd r (Rnd.rd r (XF.bessel0 (Rnd.rd r (2 * fin m))) + Rnd.rd r (XF.bessel1 (Rnd.rd r (2 * fin m))))
      = pinf := by
    rw [h3]
    have : fin 0 ≤ Rnd.rd r (XF.bessel1 (Rnd.rd r (2 * fin m))) := by
      have := hr.rd_ge (n := 0) (by norm_num) (x := XF.bessel1 (Rnd.rd r (2 * fin m))) (by
        rcases ge_cases h1 with e | ⟨a, e, ha⟩
        · rw [e]; simp [XF.bessel1]
        · rw [e]; simp only [XF.bessel1, fin_le, Nat.cast_zero]
          refine tsum_nonneg fun k => ?_
          have : (0:ℝ) ≤ a / 2 := by linarith
          positivity)
      exact_mod_cast this
    rcases ge_cases this with e | ⟨a, e, ha⟩
    · rw [e]; rfl
    · rw [e, pinf_add_fin, rd_pinf]
  unfold Rnd.crpsPoisson
  simp only [h2, h4]
  rw [fin_zero_mul_fin, hr.rd_zero, zero_mul_pinf, rd_nan, sub_nan, rd_nan]

example : Rnd.crpsPoisson rn64 (fin 800) (fin 800) = nan ∧ Rnd.crpsPoisson rn64 (fin (-1)) (fin 800) = nan :=
  ⟨(C130_crps_mean_false rn64_nearest.toBinary64 _ (by norm_num)).2, (C130_crps_mean_false rn64_nearest.toBinary64 _ (by norm_num)).2⟩

/-- C130 is false of `logs_poisson`: at no count from 171 on is the result a number; up to the mean one it is
infinite. -/
theorem C130_logs_false (hr : Binary64 r) {k : ℕ} {m : ℝ} (hk : 171 ≤ k) (hm : 0 < m) :
    0 < pmfPois m k ∧
    (Rnd.logsPoisson r (fin k) (fin m) = pinf ∨ Rnd.logsPoisson r (fin k) (fin m) = nan) ∧
    (m ≤ 1 → Rnd.logsPoisson r (fin k) (fin m) = pinf) := by
  have hk0 : (0:ℝ) < (k : ℝ) := by
    have : 0 < k := by omega
    exact_mod_cast this
  have hpow : XF.pow (fin m) (fin k) = fin (m ^ (k : ℝ)) := by
    unfold XF.pow
    rw [if_neg (by rw [zero_def, fin_inj]; exact hk0.ne')]
    split_ifs with h1
    · rw [one_def, fin_inj] at h1
      rw [h1, Real.one_rpow]; rfl
    · simp only [if_pos hm]
  have hf : Rnd.rd r (XF.factorial (fin k)) = pinf := by
    simp only [XF.factorial]
    rw [if_neg hk0.not_gt]
    exact hr.rd_over (gamma_big hk)
  have hpmf : Rnd.poisPdf r (fin k) (fin m)
      = Rnd.rd r (Rnd.rd r (Rnd.rd r (fin (m ^ (k : ℝ))) * Rnd.rd r (XF.exp (-fin m))) / pinf) := by
    unfold Rnd.poisPdf
    simp only [fin_abs, abs_of_pos hk0, XF.floor, Int.floor_natCast, Int.cast_natCast, zero_def, fin_lt, lt_irrefl,
      if_false, hm.not_gt, hk0.not_gt, hpow, hf]
  have hp0 : 0 ≤ m ^ (k : ℝ) := (Real.rpow_pos_of_pos hm _).le
  refine ⟨?_, ?_, fun h1 => ?_⟩
  · unfold pmfPois; positivity
  · unfold Rnd.logsPoisson
    rw [hpmf]
    cases h : Rnd.rd r (Rnd.rd r (fin (m ^ (k : ℝ))) * Rnd.rd r (XF.exp (-fin m))) with
    | nan => right; rfl
    | ninf => right; rfl
    | pinf => right; rfl
    | fin a => left; rw [fin_div_pinf, hr.rd_zero, log_zero_ninf]; rfl
  · unfold Rnd.logsPoisson
    rw [hpmf]
    obtain ⟨a, ha, a0, a1⟩ := hr.between (m := 0) (n := 1) (by norm_num) (a := m ^ (k : ℝ))
      (by push_cast; exact hp0) (by push_cast; exact Real.rpow_le_one hm.le h1 hk0.le)
    obtain ⟨b, hb, b0, b1⟩ := hr.between (m := 0) (n := 1) (by norm_num) (a := Real.exp (-m))
      (by push_cast; exact (Real.exp_pos _).le) (by push_cast; exact Real.exp_le_one_iff.2 (by linarith))
    push_cast at a0 a1 b0 b1
    obtain ⟨c, hc, -, -⟩ := hr.between (m := 0) (n := 1) (by norm_num) (a := a * b)
      (by push_cast; positivity) (by push_cast; nlinarith)
    have e1 : Rnd.rd r (fin (m ^ (k : ℝ))) = fin a := ha
    have e2 : Rnd.rd r (XF.exp (-fin m)) = fin b := hb
    have e3 : Rnd.rd r (fin (a * b)) = fin c := hc
    rw [e1, e2, fin_mul, e3, fin_div_pinf, hr.rd_zero, log_zero_ninf]; rfl

example : Rnd.logsPoisson rn64 (fin (200 : ℕ)) (fin (1 / 2)) = pinf :=
  (C130_logs_false rn64_nearest.toBinary64 (by norm_num) (by norm_num)).2.2 (by norm_num)

theorem cancel_pow (A B : ℝ) (hA : 0 < A) (hB : 0 < B) : 1 / (A * B) * B = 1 / A := by field_simp

/-- `half` with the bounds of the argument -/
theorem Binary64.half' (hr : Binary64 r) {a : ℝ} {i j : ℕ} (hi : i ≤ 1020) (hj : j ≤ 1022) (h1 : 1 / 2 ^ i ≤ a)
    (h2 : a ≤ 2 ^ j) : ∃ b : ℝ, r a = fin b ∧ 1 / 2 ^ (i + 1) ≤ b ∧ b ≤ 2 ^ (j + 1) := by
  obtain ⟨b, hb, b1, b2⟩ := hr.half
    ((one_div_le_one_div_of_le (by positivity) (pow_le_pow_right₀ (by norm_num) hi)).trans h1)
    (lt_of_le_of_lt h2 (pow_lt_pow_right₀ (by norm_num) (by omega)))
  refine ⟨b, hb, ?_, ?_⟩
  · rw [pow_succ, ← div_div]
    exact (div_le_div_of_nonneg_right h1 (by norm_num)).trans b1
  · rw [pow_succ']
    exact b2.trans (mul_le_mul_of_nonneg_left h2 (by norm_num))

/-- What is true of `logs_poisson`: the result is a number at the counts up to 64, for means from an eighth to 256. -/
theorem C130_logs_partial (hr : Binary64 r) {k : ℕ} {m : ℝ} (hk : k ≤ 64) (h1 : 1 / 8 ≤ m) (h2 : m ≤ 256) :
    ∃ v : ℝ, Rnd.logsPoisson r (fin k) (fin m) = fin v := by
  have hm : 0 < m := by linarith
  have hk0 : (0:ℝ) ≤ (k : ℝ) := Nat.cast_nonneg k
  have hpow : XF.pow (fin m) (fin k) = fin (m ^ k) := by
    unfold XF.pow
    split_ifs with h0 h1
    · rw [zero_def, fin_inj] at h0
      have : k = 0 := by exact_mod_cast h0
      rw [this, pow_zero]; rfl
    · rw [one_def, fin_inj] at h1
      rw [h1, one_pow]; rfl
    · simp only [if_pos hm, Real.rpow_natCast]
  have hfac : XF.factorial (fin k) = fin (k.factorial : ℝ) := by
    simp only [XF.factorial]
    rw [if_neg hk0.not_gt, Real.Gamma_nat_eq_factorial]
  have p1 : (1:ℝ) / 2 ^ 192 ≤ m ^ k := by
    calc (1:ℝ) / 2 ^ 192 = (1 / 8) ^ 64 := by rw [div_pow, one_pow]; norm_num
      _ ≤ (1 / 8) ^ k := pow_le_pow_of_le_one (by norm_num) (by norm_num) hk
      _ ≤ m ^ k := pow_le_pow_left₀ (by norm_num) h1 k
  have p2 : m ^ k ≤ 2 ^ 512 := by
    calc m ^ k ≤ 256 ^ k := pow_le_pow_left₀ hm.le h2 k
      _ ≤ 256 ^ 64 := pow_le_pow_right₀ (by norm_num) hk
      _ = 2 ^ 512 := by rw [show (256:ℝ) = 2 ^ 8 by norm_num, ← pow_mul]
  obtain ⟨a, ha, a1, a2⟩ := hr.half' (by norm_num) (by norm_num) p1 p2
  have q1 : (1:ℝ) / 2 ^ 370 ≤ Real.exp (-m) := exp_neg_ge nat_256 (by push_cast; linarith)
  have q2 : Real.exp (-m) ≤ 2 ^ 0 := by rw [pow_zero]; exact Real.exp_le_one_iff.2 (by linarith)
  obtain ⟨b, hb, b1, b2⟩ := hr.half' (by norm_num) (by norm_num) q1 q2
  have a0 : 0 < a := lt_of_lt_of_le (by positivity) a1
  have b0 : 0 < b := lt_of_lt_of_le (by positivity) b1
  have c1 : (1:ℝ) / 2 ^ 564 ≤ a * b := by
    calc (1:ℝ) / 2 ^ 564 = 1 / 2 ^ (192 + 1) * (1 / 2 ^ (370 + 1)) := by
          rw [div_mul_div_comm, one_mul, ← pow_add]
      _ ≤ a * b := mul_le_mul a1 b1 (by positivity) a0.le
  have c2 : a * b ≤ 2 ^ 514 := by
    calc a * b ≤ 2 ^ (512 + 1) * 2 ^ (0 + 1) := mul_le_mul a2 b2 b0.le (by positivity)
      _ = 2 ^ 514 := by rw [← pow_add]
  obtain ⟨c, hc, c3, c4⟩ := hr.half' (by norm_num) (by norm_num) c1 c2
  have f1 : (1:ℝ) / 2 ^ 0 ≤ (k.factorial : ℝ) := by
    rw [pow_zero, div_one]; exact_mod_cast k.factorial_pos
  have f2 : (k.factorial : ℝ) ≤ 2 ^ 296 := by
    have : k.factorial ≤ 2 ^ 296 := (Nat.factorial_le hk).trans nat_64
    exact_mod_cast this
  obtain ⟨d, hd, d1, d2⟩ := hr.half' (by norm_num) (by norm_num) f1 f2
  have c0 : 0 < c := lt_of_lt_of_le (by positivity) c3
  have d0 : 0 < d := lt_of_lt_of_le (by positivity) d1
  have e1 : (1:ℝ) / 2 ^ 862 ≤ c / d := by
    rw [le_div_iff₀ d0]
    calc (1:ℝ) / 2 ^ 862 * d ≤ 1 / 2 ^ 862 * 2 ^ (296 + 1) := mul_le_mul_of_nonneg_left d2 (by positivity)
      _ = 1 / 2 ^ (564 + 1) := by
        rw [show (862:ℕ) = 565 + 297 by norm_num, pow_add]
        exact cancel_pow _ _ (by positivity) (by positivity)
      _ ≤ c := c3
  have e2 : c / d ≤ 2 ^ 516 := by
    rw [div_le_iff₀ d0]
    calc c ≤ 2 ^ (514 + 1) := c4
      _ = 2 ^ 516 * (1 / 2 ^ (0 + 1)) := by
        have e : (2:ℝ) ^ 516 = 2 ^ 515 * 2 := by rw [← pow_succ]
        rw [e, zero_add, pow_one, mul_assoc, mul_one_div_cancel two_ne_zero, mul_one]
      _ ≤ 2 ^ 516 * d := mul_le_mul_of_nonneg_left d1 (by positivity)
  obtain ⟨p, hp, p3, p4⟩ := hr.half' (by norm_num) (by norm_num) e1 e2
  have p0 : 0 < p := lt_of_lt_of_le (by positivity) p3
  have hl := log_bounds (p := p)
    ((one_div_le_one_div_of_le (by positivity) (pow_le_pow_right₀ (by norm_num) (by norm_num))).trans p3)
    (p4.trans (pow_le_pow_right₀ (by norm_num) (by norm_num)))
  have hpmf : Rnd.poisPdf r (fin k) (fin m) = fin p := by
    unfold Rnd.poisPdf
    simp only [fin_abs, abs_of_nonneg hk0, XF.floor, Int.floor_natCast, Int.cast_natCast, zero_def, fin_lt, lt_irrefl,
      if_false, hm.not_gt, hk0.not_gt, hpow, hfac]
    have x1 : Rnd.rd r (fin (m ^ k)) = fin a := ha
    have x2 : Rnd.rd r (XF.exp (-fin m)) = fin b := hb
    have x3 : Rnd.rd r (fin (a * b)) = fin c := hc
    have x4 : Rnd.rd r (fin (k.factorial : ℝ)) = fin d := hd
    rw [x1, x2, fin_mul, x3, x4, fin_div d0.ne']
    exact hp
  unfold Rnd.logsPoisson
  rw [hpmf, fin_log p0]
  obtain ⟨w, hw⟩ := hr.finite (abs_le.1 hl)
  exact ⟨-w, by change -r (Real.log p) = _; rw [hw, fin_neg]⟩

example : ∃ v : ℝ, Rnd.logsPoisson rn64 (fin (12 : ℕ)) (fin 10) = fin v :=
  C130_logs_partial rn64_nearest.toBinary64 (by norm_num) (by norm_num) (by norm_num)

end Verif
