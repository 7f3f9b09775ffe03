import Verif.Lemmas.Nearest32
import Verif.Props.Rounding32

/-!
# C138: binomial coefficients in binary32 on torch and jax

`comb(n, k)` is a floor division of `exp(lgamma)` values, which are not the factorials but numbers next to them.
-/

noncomputable section

open scoped Classical

namespace Verif

open XF Stats Spec

variable {r : ℝ → XF}

/-! ### logarithms of the factorials -/

theorem log_three_near : |Real.log 3 - 1.0986122886681| ≤ 1 / 10 ^ 9 := by
  have h := Real.abs_log_sub_add_sum_range_le (x := 1 / 3) (by norm_num [abs_of_pos]) 20
  have e : Real.log (1 - 1 / 3) = Real.log 2 - Real.log 3 := by
    rw [← Real.log_div (by norm_num) (by norm_num)]; norm_num
  rw [e] at h
  have l := abs_le.1 Real.log_two_near_10
  norm_num [Finset.sum_range_succ, abs_of_pos] at h l ⊢
  rw [abs_le] at h ⊢
  constructor <;> linarith

theorem log_five_near : |Real.log 5 - 1.6094379124341| ≤ 1 / 10 ^ 9 := by
  have h := Real.abs_log_sub_add_sum_range_le (x := 1 / 5) (by norm_num [abs_of_pos]) 14
  have e : Real.log (1 - 1 / 5) = 2 * Real.log 2 - Real.log 5 := by
    rw [← Real.log_rpow (by norm_num), ← Real.log_div (by norm_num) (by norm_num)]; norm_num
  rw [e] at h
  have l := abs_le.1 Real.log_two_near_10
  norm_num [Finset.sum_range_succ, abs_of_pos] at h l ⊢
  rw [abs_le] at h ⊢
  constructor <;> linarith

theorem log_seven_near : |Real.log 7 - 1.94591014905531| ≤ 1 / 10 ^ 9 := by
  have h := Real.abs_log_sub_add_sum_range_le (x := 1 / 8) (by norm_num [abs_of_pos]) 11
  have e : Real.log (1 - 1 / 8) = Real.log 7 - 3 * Real.log 2 := by
    rw [← Real.log_rpow (by norm_num), ← Real.log_div (by norm_num) (by norm_num)]; norm_num
  rw [e] at h
  have l := abs_le.1 Real.log_two_near_10
  norm_num [Finset.sum_range_succ, abs_of_pos] at h l ⊢
  rw [abs_le] at h ⊢
  constructor <;> linarith

/-- a number closer to a number of the grid than half the grid size is rounded to it -/
theorem Nearest32.eq (hr : Nearest32 r) {a : ℝ} (e m : ℤ) (h1 : -126 ≤ e) (h2 : e ≤ 126) (h3 : (2:ℝ) ^ e ≤ a)
    (h4 : a < (2:ℝ) ^ (e + 1)) (h : |a - m * (2:ℝ) ^ (e - 23)| < (2:ℝ) ^ (e - 24)) :
    r a = fin (m * (2:ℝ) ^ (e - 23)) := by
  obtain ⟨n, hn, h5⟩ := hr.grid h1 h2 h3 h4
  have hu := two_zpow_pos (e - 23)
  have e1 : (2:ℝ) ^ (e - 24) = (2:ℝ) ^ (e - 23) / 2 := by
    rw [show e - 24 = e - 23 - 1 by ring, zpow_sub_one₀ two_ne_zero]; ring
  rw [e1] at h h5
  rw [hn]
  generalize (2:ℝ) ^ (e - 23) = u at *
  have h6 := abs_lt.1 h
  have h7 := abs_le.1 h5
  have g1 : ((n:ℝ) - m) * u < 1 * u := by nlinarith
  have g2 : -1 * u < ((n:ℝ) - m) * u := by nlinarith
  have k1 : (n:ℝ) - m < 1 := lt_of_mul_lt_mul_right g1 hu.le
  have k2 : -1 < (n:ℝ) - m := lt_of_mul_lt_mul_right g2 hu.le
  have : n = m := by
    have a1 : n - m < 1 := by exact_mod_cast k1
    have a2 : -1 < n - m := by exact_mod_cast k2
    omega
  rw [this]

theorem factorialT_eq (hr : Nearest32 r) {k : ℕ} (hk : k ≤ 100) :
    Rnd.factorialT r (fin k) = Rnd.rd r (XF.exp (r (Real.log (k.factorial : ℝ)))) := by
  unfold Rnd.factorialT Rnd.gammaT
  have := hr.rd_nat (n := k + 1) (by omega)
  push_cast at this
  rw [one_def, fin_add, this, lgamma_pos (by positivity), Real.Gamma_nat_eq_factorial]
  rfl

/-- the logarithms of 1, 2, 6, …, 5040 are rounded up -/
theorem log_fact_up (hr : Nearest32 r) {k : ℕ} (hk : k ≤ 7) :
    ∃ L : ℝ, r (Real.log (k.factorial : ℝ)) = fin L ∧ Real.log (k.factorial : ℝ) ≤ L ∧
      L ≤ Real.log (k.factorial : ℝ) + 1 / 10 ^ 6 := by
  have l2 := abs_le.1 Real.log_two_near_10
  have l3 := abs_le.1 log_three_near
  have l5 := abs_le.1 log_five_near
  have l7 := abs_le.1 log_seven_near
  norm_num at l2 l3 l5 l7
  have go : ∀ {a : ℝ} (e m : ℤ), -126 ≤ e → e ≤ 126 → (2:ℝ) ^ e ≤ a → a < (2:ℝ) ^ (e + 1) →
      |a - m * (2:ℝ) ^ (e - 23)| < (2:ℝ) ^ (e - 24) → a ≤ m * (2:ℝ) ^ (e - 23) →
      m * (2:ℝ) ^ (e - 23) ≤ a + 1 / 1000000 → ∃ L : ℝ, r a = fin L ∧ a ≤ L ∧ L ≤ a + 1 / 1000000 :=
    fun e m h1 h2 h3 h4 h5 h6 h7 => ⟨_, hr.eq e m h1 h2 h3 h4 h5, h6, h7⟩
  have f6 : Real.log 6 = Real.log 2 + Real.log 3 := by
    rw [← Real.log_mul (by norm_num) (by norm_num)]; norm_num
  have f24 : Real.log 24 = 3 * Real.log 2 + Real.log 3 := by
    rw [← Real.log_rpow (by norm_num), ← Real.log_mul (by norm_num) (by norm_num)]; norm_num
  have f120 : Real.log 120 = 3 * Real.log 2 + Real.log 3 + Real.log 5 := by
    rw [← f24, ← Real.log_mul (by norm_num) (by norm_num)]; norm_num
  have f720 : Real.log 720 = 4 * Real.log 2 + 2 * Real.log 3 + Real.log 5 := by
    have : Real.log 720 = Real.log 120 + Real.log 6 := by
      rw [← Real.log_mul (by norm_num) (by norm_num)]; norm_num
    rw [this, f120, f6]; ring
  have f5040 : Real.log 5040 = 4 * Real.log 2 + 2 * Real.log 3 + Real.log 5 + Real.log 7 := by
    rw [← f720, ← Real.log_mul (by norm_num) (by norm_num)]; norm_num
  have c0 : r (Real.log 1) = fin 0 := by rw [Real.log_one]; exact hr.zero
  interval_cases k
  · norm_num [Nat.factorial]; exact ⟨0, by simpa using c0, le_rfl, by norm_num⟩
  · norm_num [Nat.factorial]; exact ⟨0, by simpa using c0, le_rfl, by norm_num⟩
  · norm_num [Nat.factorial]
    refine go (-1) 11629080 (by norm_num) (by norm_num) ?_ ?_ ?_ ?_ ?_ <;> norm_num <;> try rw [abs_lt]
    all_goals first | linarith | (constructor <;> linarith)
  · norm_num [Nat.factorial]
    rw [f6]
    refine go 0 15030368 (by norm_num) (by norm_num) ?_ ?_ ?_ ?_ ?_ <;> norm_num <;> try rw [abs_lt]
    all_goals first | linarith | (constructor <;> linarith)
  · norm_num [Nat.factorial]
    rw [f24]
    refine go 1 13329724 (by norm_num) (by norm_num) ?_ ?_ ?_ ?_ ?_ <;> norm_num <;> try rw [abs_lt]
    all_goals first | linarith | (constructor <;> linarith)
  · norm_num [Nat.factorial]
    rw [f120]
    refine go 2 10040098 (by norm_num) (by norm_num) ?_ ?_ ?_ ?_ ?_ <;> norm_num <;> try rw [abs_lt]
    all_goals first | linarith | (constructor <;> linarith)
  · norm_num [Nat.factorial]
    rw [f720]
    refine go 2 13797690 (by norm_num) (by norm_num) ?_ ?_ ?_ ?_ ?_ <;> norm_num <;> try rw [abs_lt]
    all_goals first | linarith | (constructor <;> linarith)
  · norm_num [Nat.factorial]
    rw [f5040]
    refine go 3 8939280 (by norm_num) (by norm_num) ?_ ?_ ?_ ?_ ?_ <;> norm_num <;> try rw [abs_lt]
    all_goals first | linarith | (constructor <;> linarith)

/-- … so `exp(lgamma)` gives at least the factorial -/
theorem fact_up (hr : Nearest32 r) {k : ℕ} (hk : k ≤ 7) :
    ∃ F : ℝ, Rnd.factorialT r (fin k) = fin F ∧ (k.factorial : ℝ) ≤ F ∧
      F ≤ k.factorial * (1 + 1 / 10 ^ 5) := by
  obtain ⟨L, h1, h2, h3⟩ := log_fact_up hr hk
  have hp : (0:ℝ) < k.factorial := by exact_mod_cast k.factorial_pos
  have hN : k.factorial ≤ 5040 := by
    have := Nat.factorial_le hk
    simpa [Nat.factorial] using this
  have hN' : (k.factorial : ℝ) ≤ 5040 := by exact_mod_cast hN
  have hone : (1:ℝ) ≤ k.factorial := by exact_mod_cast k.factorial_pos
  have heq := factorialT_eq hr (k := k) (by omega)
  generalize k.factorial = N at *
  have x1 : (N:ℝ) ≤ Real.exp L := by
    rw [← Real.exp_log hp]; exact Real.exp_le_exp.2 h2
  have x2 : Real.exp L ≤ N * (1 + 1 / 10 ^ 5 / 2) := by
    have e1 : Real.exp L ≤ N * Real.exp (1 / 10 ^ 6) := by
      have := Real.exp_le_exp.2 h3
      rwa [Real.exp_add, Real.exp_log hp] at this
    have e2 : Real.exp (1 / 10 ^ 6) ≤ 1 + 1 / 10 ^ 5 / 2 := by
      have := Real.one_sub_le_exp_neg (1 / 10 ^ 6)
      rw [Real.exp_neg] at this
      have hpos := Real.exp_pos (1 / 10 ^ 6)
      have h := mul_le_mul_of_nonneg_right this hpos.le
      rw [inv_mul_cancel₀ hpos.ne'] at h
      norm_num at h ⊢
      linarith
    exact e1.trans (mul_le_mul_of_nonneg_left e2 hp.le)
  obtain ⟨δ, η, hδ, hη, e⟩ := hr.acc (a := Real.exp L) (by
    rw [abs_of_pos (Real.exp_pos L)]
    refine lt_of_le_of_lt (b := 10000) ?_ (by norm_num)
    refine x2.trans ?_
    norm_num; linarith)
  have hge := hr.ge_nat (n := N) (by omega) x1
  rw [e, fin_le] at hge
  refine ⟨_, ?_, hge, ?_⟩
  · rw [heq, h1, fin_exp]; exact e
  · have a1 := (abs_le.1 hδ).2
    have a2 : η ≤ 1 / 10 ^ 7 := (abs_le.1 hη).2.trans (by norm_num)
    have a3 : Real.exp L * (1 + δ) ≤ N * (1 + 1 / 10 ^ 5 / 2) * (1 + 1 / 10 ^ 7) :=
      mul_le_mul x2 (by norm_num at a1 ⊢; linarith) (by have := (abs_le.1 hδ).1; norm_num at this; linarith)
        (by positivity)
    norm_num at a2 a3 ⊢
    linarith

/-- the logarithm of 40320 is rounded down, and `exp(lgamma(9))` is less than the factorial -/
theorem fact_eight (hr : Nearest32 r) :
    ∃ F : ℝ, Rnd.factorialT r (fin (8:ℕ)) = fin F ∧ F < 40320 ∧ 40319 ≤ F := by
  have l2 := abs_le.1 Real.log_two_near_10
  have l3 := abs_le.1 log_three_near
  have l5 := abs_le.1 log_five_near
  have l7 := abs_le.1 log_seven_near
  norm_num at l2 l3 l5 l7
  have f : Real.log 40320 = 7 * Real.log 2 + 2 * Real.log 3 + Real.log 5 + Real.log 7 := by
    have e : (40320:ℝ) = 2 ^ 7 * 3 ^ 2 * 5 * 7 := by norm_num
    rw [e, Real.log_mul (by norm_num) (by norm_num), Real.log_mul (by norm_num) (by norm_num),
      Real.log_mul (by norm_num) (by norm_num), Real.log_pow, Real.log_pow]
    push_cast; ring
  have hL : r (Real.log 40320) = fin (11119732 / 2 ^ 20) := by
    have := hr.eq (a := Real.log 40320) 3 11119732 (by norm_num) (by norm_num) (by rw [f]; norm_num; linarith)
      (by rw [f]; norm_num; linarith) (by rw [f, abs_lt]; norm_num; constructor <;> linarith)
    rw [this]; norm_num
  have d1 : (11119732:ℝ) / 2 ^ 20 ≤ Real.log 40320 - 8 / 10 ^ 8 := by rw [f]; norm_num; linarith
  have d2 : Real.log 40320 - 1 / 10 ^ 6 ≤ (11119732:ℝ) / 2 ^ 20 := by rw [f]; norm_num; linarith
  have x1 : Real.exp (11119732 / 2 ^ 20) ≤ 40320 - 32 / 10 ^ 4 := by
    have e1 := Real.exp_le_exp.2 d1
    rw [Real.exp_sub, Real.exp_log (by norm_num)] at e1
    have e2 := Real.add_one_le_exp (8 / 10 ^ 8 : ℝ)
    refine e1.trans ?_
    rw [div_le_iff₀ (Real.exp_pos _)]
    norm_num at e2 ⊢
    linarith
  have x2 : 40319 ≤ Real.exp (11119732 / 2 ^ 20) := by
    have e1 := Real.exp_le_exp.2 d2
    rw [Real.exp_sub, Real.exp_log (by norm_num)] at e1
    refine le_trans ?_ e1
    rw [le_div_iff₀ (Real.exp_pos _)]
    have := Real.one_sub_le_exp_neg (1 / 10 ^ 6)
    rw [Real.exp_neg] at this
    have hpos := Real.exp_pos (1 / 10 ^ 6)
    have h := mul_le_mul_of_nonneg_right this hpos.le
    rw [inv_mul_cancel₀ hpos.ne'] at h
    norm_num at h ⊢
    linarith
  have hm := hr.mono x1
  have hg : r (40320 - 32 / 10 ^ 4) = fin (10321919 / 2 ^ 8) := by
    have := hr.eq (a := 40320 - 32 / 10 ^ 4) 15 10321919 (by norm_num) (by norm_num) (by norm_num) (by norm_num)
      (by rw [abs_lt]; norm_num)
    rw [this]; norm_num
  rw [hg] at hm
  have hl : fin 40319 ≤ r (Real.exp (11119732 / 2 ^ 20)) := by
    have := hr.ge_nat (n := 40319) (by norm_num) (a := Real.exp (11119732 / 2 ^ 20)) (by push_cast; exact x2)
    exact_mod_cast this
  obtain ⟨F, hF, F1, F2⟩ := between_cases hl hm
  refine ⟨F, ?_, ?_, F1⟩
  · rw [factorialT_eq hr (by norm_num)]
    have : ((Nat.factorial 8 : ℕ) : ℝ) = 40320 := by norm_num [Nat.factorial]
    rw [this, hL, fin_exp]
    exact hF
  · refine lt_of_le_of_lt F2 (by norm_num)

/-- C138 is false of `comb` on torch and jax: all seven binomial coefficients of 8 other than the two ones come out
one too small. -/
theorem C138_comb_false (hr : Nearest32 r) {k : ℕ} (h1 : 1 ≤ k) (h7 : k ≤ 7) :
    Rnd.combT r (fin (8:ℕ)) (fin k) = fin ((Nat.choose 8 k : ℝ) - 1) := by
  obtain ⟨A, hA, A0, A2⟩ := fact_eight hr
  obtain ⟨F, hF, F1, F2⟩ := fact_up hr h7
  obtain ⟨G, hG, G1, G2⟩ := fact_up hr (k := 8 - k) (by omega)
  have hsub : Rnd.rd r (fin ((8:ℕ):ℝ) - fin (k:ℝ)) = fin ((8 - k : ℕ) : ℝ) := by
    rw [fin_sub, ← Nat.cast_sub (by omega)]
    exact hr.rd_nat (by omega)
  have hch : Nat.choose 8 k * (k.factorial * (8 - k).factorial) = 40320 := by
    interval_cases k <;> decide
  have hD : 576 ≤ k.factorial * (8 - k).factorial := by interval_cases k <;> decide
  have hD' : k.factorial * (8 - k).factorial ≤ 5040 := by interval_cases k <;> decide
  have hC1 : 1 ≤ Nat.choose 8 k := by interval_cases k <;> decide
  have hC2 : Nat.choose 8 k ≤ 70 := by interval_cases k <;> decide
  have f0 : (0:ℝ) < k.factorial := by exact_mod_cast k.factorial_pos
  have g0 : (0:ℝ) < (8 - k).factorial := by exact_mod_cast (8 - k).factorial_pos
  have p1 : ((k.factorial * (8 - k).factorial : ℕ) : ℝ) ≤ F * G := by
    push_cast; exact mul_le_mul F1 G1 g0.le (f0.le.trans F1)
  have p2 : F * G ≤ ((k.factorial * (8 - k).factorial : ℕ) : ℝ) * (1 + 3 / 10 ^ 5) := by
    have : F * G ≤ (k.factorial * (1 + 1 / 10 ^ 5)) * ((8 - k).factorial * (1 + 1 / 10 ^ 5)) :=
      mul_le_mul F2 G2 (g0.le.trans G1) (by positivity)
    refine this.trans ?_
    push_cast
    have hfg : (0:ℝ) < k.factorial * (8 - k).factorial := by positivity
    norm_num
    nlinarith
  generalize k.factorial * (8 - k).factorial = D at *
  have D1 : (576:ℝ) ≤ D := by exact_mod_cast hD
  have D2 : (D:ℝ) ≤ 5040 := by exact_mod_cast hD'
  obtain ⟨δ, η, hδ, hη, e⟩ := hr.acc (a := F * G) (by
    rw [abs_of_pos (by linarith)]
    refine lt_of_le_of_lt (b := 10000) ?_ (by norm_num)
    refine p2.trans ?_
    norm_num; linarith)
  have hge := hr.ge_nat (n := D) (by omega) p1
  rw [e, fin_le] at hge
  have q2 : F * G * (1 + δ) + η ≤ D * (1 + 4 / 10 ^ 5) := by
    have a1 := (abs_le.1 hδ).2
    have a2 : η ≤ 1 / 10 ^ 7 := (abs_le.1 hη).2.trans (by norm_num)
    have a3 : F * G * (1 + δ) ≤ D * (1 + 3 / 10 ^ 5) * (1 + 1 / 10 ^ 7) :=
      mul_le_mul p2 (by norm_num at a1 ⊢; linarith) (by have := (abs_le.1 hδ).1; norm_num at this; linarith)
        (by positivity)
    norm_num at a2 a3 ⊢
    linarith
  have hprod : Rnd.rd r (Rnd.factorialT r (fin k) * Rnd.factorialT r (Rnd.rd r (fin ((8:ℕ):ℝ) - fin (k:ℝ))))
      = fin (F * G * (1 + δ) + η) := by
    rw [hsub, hF, hG, fin_mul]; exact e
  generalize F * G * (1 + δ) + η = P at *
  have hP : 0 < P := by linarith
  have hcD : (Nat.choose 8 k : ℝ) * D = 40320 := by exact_mod_cast hch
  have C1 : (1:ℝ) ≤ Nat.choose 8 k := by exact_mod_cast hC1
  have C2 : (Nat.choose 8 k : ℝ) ≤ 70 := by exact_mod_cast hC2
  have hfl : ⌊A / P⌋ = ((Nat.choose 8 k - 1 : ℕ) : ℤ) := by
    rw [Int.floor_eq_iff]
    push_cast [Nat.cast_sub hC1]
    constructor
    · rw [le_div_iff₀ hP]
      have : ((Nat.choose 8 k : ℝ) - 1) * P ≤ ((Nat.choose 8 k : ℝ) - 1) * (D * (1 + 4 / 10 ^ 5)) :=
        mul_le_mul_of_nonneg_left q2 (by linarith)
      nlinarith
    · rw [div_lt_iff₀ hP]
      nlinarith
  unfold Rnd.combT
  rw [hprod, hA]
  simp only [XF.floorDiv]
  rw [if_neg hP.ne', hfl]
  have := hr.rd_nat (n := Nat.choose 8 k - 1) (by omega)
  rw [Nat.cast_sub hC1, Nat.cast_one] at this
  rw [← this]
  congr 2
  push_cast [Nat.cast_sub hC1]
  ring

/-- 8 over 1 is 7 and 8 over 4 is 69 -/
example : Rnd.combT rn32 (fin (8:ℕ)) (fin (1:ℕ)) = fin 7 ∧ Rnd.combT rn32 (fin (8:ℕ)) (fin (4:ℕ)) = fin 69 := by
  constructor
  · rw [C138_comb_false rn32_nearest (by norm_num) (by norm_num)]; norm_num
  · rw [C138_comb_false rn32_nearest (by norm_num) (by norm_num)]
    rw [show Nat.choose 8 4 = 70 from rfl]; norm_num

/-- powers of a half are kept -/
theorem Nearest32.half_pow (hr : Nearest32 r) {c k : ℕ} (hc : c < 2 ^ 23) (hk : k ≤ 100) :
    r ((c : ℝ) / 2 ^ k) = fin ((c : ℝ) / 2 ^ k) := by
  rcases Nat.eq_zero_or_pos c with rfl | h0
  · rw [Nat.cast_zero, zero_div]; exact hr.zero
  have hc1 : (1:ℝ) ≤ c := by exact_mod_cast h0
  have hc2 : (c:ℝ) < 2 ^ 23 := by exact_mod_cast hc
  have hk2 : (2:ℝ) ^ k ≤ 2 ^ 100 := pow_le_pow_right₀ (by norm_num) hk
  have hkp : (0:ℝ) < 2 ^ k := by positivity
  have hpos : (0:ℝ) < (c:ℝ) / 2 ^ k := by positivity
  have hlow : (2:ℝ) ^ (-126 : ℤ) ≤ (c:ℝ) / 2 ^ k := by
    rw [le_div_iff₀ hkp]
    calc (2:ℝ) ^ (-126 : ℤ) * 2 ^ k ≤ (2:ℝ) ^ (-126 : ℤ) * 2 ^ 100 := mul_le_mul_of_nonneg_left hk2 (by positivity)
      _ ≤ 1 := by norm_num
      _ ≤ c := hc1
  obtain ⟨b1, b2, b3⟩ := binade hlow
  have hup : (c:ℝ) / 2 ^ k < 2 ^ 23 := lt_of_le_of_lt (div_le_self (by positivity) (one_le_pow₀ (by norm_num))) hc2
  have l1 : Int.log 2 ((c:ℝ) / 2 ^ k) < 23 := (Int.lt_zpow_iff_log_lt (by norm_num) hpos).1 (by exact_mod_cast hup)
  have l2 : -(k:ℤ) ≤ Int.log 2 ((c:ℝ) / 2 ^ k) := (Int.zpow_le_iff_le_log (by norm_num) hpos).1 (by
    rw [zpow_neg, zpow_natCast]; push_cast
    rw [le_div_iff₀ hkp, inv_mul_cancel₀ hkp.ne']; exact hc1)
  have l3 : Int.log 2 ((c:ℝ) / 2 ^ k) < 23 - k := (Int.lt_zpow_iff_log_lt (by norm_num) hpos).1 (by
    push_cast
    rw [zpow_sub₀ two_ne_zero, zpow_natCast]
    exact div_lt_div_of_pos_right (by exact_mod_cast hc2) hkp)
  generalize Int.log 2 ((c:ℝ) / 2 ^ k) = e at *
  obtain ⟨j, hj⟩ := Int.eq_ofNat_of_zero_le (show 0 ≤ 23 - e - k by omega)
  have e1 : (c:ℝ) / 2 ^ k = (((c * 2 ^ j : ℕ) : ℤ) : ℝ) * (2:ℝ) ^ (e - 23) := by
    push_cast
    rw [show e - 23 = -(j:ℤ) - k by omega, zpow_sub₀ two_ne_zero, zpow_neg, zpow_natCast, zpow_natCast]
    field_simp
  rw [e1] at b2 b3 ⊢
  exact hr.eq e _ b1 (by omega) b2 b3 (by rw [sub_self, abs_zero]; positivity)

/-- the binomial mass function with probability one half -/
theorem binom_half {k : ℕ} (h7 : k ≤ 8) (hr : Nearest32 r) {c : ℕ} (hc : c ≤ 70)
    (h : Rnd.combT r (fin (8:ℕ)) (fin k) = fin c) :
    Rnd.binomPdfT r (fin k) (fin (8:ℕ)) (fin (1 / 2)) = fin ((c : ℝ) / 256) := by
  have hpow : ∀ j : ℕ, XF.pow (fin (1 / 2)) (fin j) = fin (((1:ℕ):ℝ) / 2 ^ j) := by
    intro j
    unfold XF.pow
    split_ifs with h1 h2
    · rw [zero_def, fin_inj] at h1
      have : j = 0 := by exact_mod_cast h1
      subst this; norm_num; rfl
    · rw [one_def, fin_inj] at h2; norm_num at h2
    · simp only [if_pos (show (0:ℝ) < 1 / 2 by norm_num), Real.rpow_natCast]
      congr 1
      rw [div_pow, one_pow, Nat.cast_one]
  have h1 : Rnd.rd r (1 - fin (1 / 2)) = fin (1 / 2) := by
    rw [one_def, fin_sub]
    have := hr.half_pow (c := 1) (k := 1) (by norm_num) (by norm_num)
    norm_num at this ⊢
    exact this
  have hsub : Rnd.rd r (fin ((8:ℕ):ℝ) - fin (k:ℝ)) = fin ((8 - k : ℕ) : ℝ) := by
    rw [fin_sub, ← Nat.cast_sub h7]
    exact hr.rd_nat (by omega)
  unfold Rnd.binomPdfT
  rw [h, h1, hsub, hpow, hpow]
  have a1 : Rnd.rd r (fin (((1:ℕ):ℝ) / 2 ^ k)) = fin (((1:ℕ):ℝ) / 2 ^ k) := hr.half_pow (by norm_num) (by omega)
  have a2 : Rnd.rd r (fin (((1:ℕ):ℝ) / 2 ^ (8 - k))) = fin (((1:ℕ):ℝ) / 2 ^ (8 - k)) :=
    hr.half_pow (by norm_num) (by omega)
  have a3 : Rnd.rd r (fin ((c:ℝ) / 2 ^ k)) = fin ((c:ℝ) / 2 ^ k) := hr.half_pow (by omega) (by omega)
  have a4 : Rnd.rd r (fin ((c:ℝ) / 2 ^ 8)) = fin ((c:ℝ) / 2 ^ 8) := hr.half_pow (by omega) (by omega)
  rw [a1, a2, fin_mul]
  have e1 : (c:ℝ) * (((1:ℕ):ℝ) / 2 ^ k) = (c:ℝ) / 2 ^ k := by rw [Nat.cast_one, mul_one_div]
  rw [e1, a3, fin_mul]
  have e2 : (c:ℝ) / 2 ^ k * (((1:ℕ):ℝ) / 2 ^ (8 - k)) = (c:ℝ) / 2 ^ 8 := by
    rw [Nat.cast_one, div_mul_div_comm, mul_one, ← pow_add, Nat.add_sub_cancel' h7]
  rw [e2, a4]
  norm_num

/-- C138 is false of the binomial log score on torch and jax: with eight trials of probability one half the score of
the outcome `k` is that of the mass `(8 over k - 1) / 256`, for one success `log(256 / 7)` instead of
`log(256 / 8)`. -/
theorem C138_logs_false (hr : Nearest32 r) {k : ℕ} (h1 : 1 ≤ k) (h7 : k ≤ 7) :
    Rnd.binomPdfT r (fin k) (fin (8:ℕ)) (fin (1 / 2)) = fin (((Nat.choose 8 k : ℝ) - 1) / 256) ∧
    Rnd.logsBinomialT r (fin k) (fin (8:ℕ)) (fin (1 / 2)) = -r (Real.log (((Nat.choose 8 k : ℝ) - 1) / 256)) := by
  have hC1 : 1 < Nat.choose 8 k := by interval_cases k <;> decide
  have hC2 : Nat.choose 8 k ≤ 70 := by interval_cases k <;> decide
  have h := C138_comb_false hr h1 h7
  have hp : Rnd.binomPdfT r (fin k) (fin (8:ℕ)) (fin (1 / 2)) = fin (((Nat.choose 8 k : ℝ) - 1) / 256) := by
    have := binom_half (k := k) (c := Nat.choose 8 k - 1) (by omega) hr (by omega)
      (by rw [h, Nat.cast_sub hC1.le, Nat.cast_one])
    rw [this, Nat.cast_sub hC1.le, Nat.cast_one]
  refine ⟨hp, ?_⟩
  have h0 : ¬ (k:ℝ) < 0 := by push Not; positivity
  have hC : (1:ℝ) < Nat.choose 8 k := by exact_mod_cast hC1
  unfold Rnd.logsBinomialT
  simp only [zero_def, fin_lt, if_neg h0]
  rw [hp, fin_log (div_pos (by linarith) (by norm_num))]
  rfl

/-- the outcome one in eight fair trials: the exact score is `log 32`, less than 3.47; the computed one is at
least 3.59 -/
example : ∃ v : ℝ, Rnd.logsBinomialT rn32 (fin (1:ℕ)) (fin (8:ℕ)) (fin (1 / 2)) = fin v ∧ 3.59 ≤ v := by
  rw [(C138_logs_false rn32_nearest le_rfl (by norm_num)).2]
  have e : Real.log (((Nat.choose 8 1 : ℝ) - 1) / 256) = Real.log 7 - 8 * Real.log 2 := by
    rw [show ((Nat.choose 8 1 : ℝ) - 1) = 7 by norm_num, Real.log_div (by norm_num) (by norm_num)]
    congr 1
    rw [show (256:ℝ) = 2 ^ 8 by norm_num, Real.log_pow]; norm_num
  have l2 := abs_le.1 Real.log_two_near_10
  have l7 := abs_le.1 log_seven_near
  norm_num at l2 l7
  rw [e]
  obtain ⟨δ, η, h1, h2, h3⟩ := rn32_nearest.acc (a := Real.log 7 - 8 * Real.log 2) (by
    rw [abs_lt]; constructor <;> norm_num <;> linarith)
  have h1' := abs_le.1 h1
  have h2' : η ≤ 1 / 1000 := (abs_le.1 h2).2.trans (by norm_num)
  refine ⟨_, by rw [h3, fin_neg], ?_⟩
  norm_num at h1' ⊢
  nlinarith

/-- a rounded number is kept -/
theorem Nearest32.idem (hr : Nearest32 r) {a F : ℝ} (h1 : 1 ≤ a) (h2 : a < 2 ^ 120) (h : r a = fin F) :
    r F = fin F ∧ 0 < F := by
  obtain ⟨b1, b2, b3⟩ := binade (x := a) (le_trans (zpow_le_one_of_nonpos₀ (by norm_num) (by norm_num)) h1)
  have l1 : Int.log 2 a < 120 := (Int.lt_zpow_iff_log_lt (by norm_num) (by linarith)).1 (by exact_mod_cast h2)
  generalize Int.log 2 a = e at *
  obtain ⟨n, hn, h5⟩ := hr.grid b1 (by omega) b2 b3
  rw [h, fin_inj] at hn
  have hu := two_zpow_pos (e - 23)
  have e0 : (2:ℝ) ^ e = 2 ^ 23 * (2:ℝ) ^ (e - 23) := by
    rw [← zpow_natCast, ← zpow_add₀ two_ne_zero]; congr 1; push_cast; ring
  have e2 : (2:ℝ) ^ (e + 1) = 2 ^ 24 * (2:ℝ) ^ (e - 23) := by
    rw [← zpow_natCast, ← zpow_add₀ two_ne_zero]; congr 1; push_cast; ring
  have e1 : (2:ℝ) ^ (e - 24) = (2:ℝ) ^ (e - 23) / 2 := by
    rw [show e - 24 = e - 23 - 1 by ring, zpow_sub_one₀ two_ne_zero]; ring
  have h6 := abs_le.1 h5
  rw [e1] at h6
  have n1 : (2:ℝ) ^ 23 - 1 < n := by
    have : ((2:ℝ) ^ 23 - 1) * (2:ℝ) ^ (e - 23) < n * (2:ℝ) ^ (e - 23) := by rw [e0] at b2; nlinarith
    exact lt_of_mul_lt_mul_right this hu.le
  have n2 : (n:ℝ) < 2 ^ 24 + 1 := by
    have : (n:ℝ) * (2:ℝ) ^ (e - 23) < (2 ^ 24 + 1) * (2:ℝ) ^ (e - 23) := by rw [e2] at b3; nlinarith
    exact lt_of_mul_lt_mul_right this hu.le
  have m1 : 2 ^ 23 - 1 < n := by exact_mod_cast n1
  have m2 : n < 2 ^ 24 + 1 := by exact_mod_cast n2
  have m1' : (2:ℝ) ^ 23 ≤ n := by
    have : 2 ^ 23 ≤ n := by omega
    exact_mod_cast this
  have hpos : 0 < F := by rw [hn]; exact mul_pos (by linarith) hu
  refine ⟨?_, hpos⟩
  rw [hn]
  rcases lt_or_eq_of_le (show n ≤ 2 ^ 24 by omega) with m3 | m3
  · have m3' : (n:ℝ) < 2 ^ 24 := by exact_mod_cast m3
    exact hr.eq e n b1 (by omega) (by rw [e0]; exact mul_le_mul_of_nonneg_right m1' hu.le)
      (by rw [e2]; exact mul_lt_mul_of_pos_right m3' hu) (by rw [sub_self, abs_zero]; positivity)
  · have e3 : (n:ℝ) * (2:ℝ) ^ (e - 23) = ((2 ^ 23 : ℤ) : ℝ) * (2:ℝ) ^ (e + 1 - 23) := by
      rw [m3]; push_cast
      rw [show e + 1 - 23 = e - 23 + 1 by ring, zpow_add_one₀ two_ne_zero]; ring
    have e4 : ((2 ^ 23 : ℤ) : ℝ) * (2:ℝ) ^ (e + 1 - 23) = (2:ℝ) ^ (e + 1) := by
      have : ((2 ^ 23 : ℤ) : ℝ) = (2:ℝ) ^ (23 : ℤ) := by norm_num
      rw [this, ← zpow_add₀ two_ne_zero]; congr 1; ring
    rw [e3]
    refine hr.eq (e + 1) (2 ^ 23) (by omega) (by omega) e4.ge ?_ (by rw [sub_self, abs_zero]; positivity)
    rw [e4]; exact zpow_lt_zpow_right₀ (by norm_num) (by omega)

theorem nat_30 : Nat.factorial 30 * 10000 ^ 75 ≤ 27182 ^ 75 := by decide +kernel
theorem nat_75 : 27183 ^ 75 < 2 ^ 120 * 10000 ^ 75 := by decide +kernel

/-- `exp(lgamma(n + 1))` is a number that rounding keeps -/
theorem fact_kept (hr : Nearest32 r) {n : ℕ} (hn : n ≤ 30) :
    ∃ F : ℝ, Rnd.factorialT r (fin n) = fin F ∧ r F = fin F ∧ 0 < F := by
  have hp : (0:ℝ) < n.factorial := by exact_mod_cast n.factorial_pos
  have l0 : 0 ≤ Real.log (n.factorial : ℝ) := Real.log_nonneg (by exact_mod_cast n.factorial_pos)
  have l1 : Real.log (n.factorial : ℝ) ≤ 75 := by
    rw [Real.log_le_iff_le_exp hp]
    have h1 : (2.7182 : ℝ) < Real.exp 1 := lt_trans (by norm_num) Real.exp_one_gt_d9
    have h2 : Real.exp 75 = Real.exp 1 ^ 75 := by rw [← Real.exp_nat_mul]; norm_num
    have h3 : (n.factorial : ℝ) * 10000 ^ 75 ≤ 27182 ^ 75 := by
      have : n.factorial * 10000 ^ 75 ≤ 27182 ^ 75 :=
        (Nat.mul_le_mul_right _ (Nat.factorial_le hn)).trans nat_30
      exact_mod_cast this
    rw [h2]
    calc (n.factorial : ℝ) ≤ 27182 ^ 75 / 10000 ^ 75 := by rwa [le_div_iff₀ (by positivity)]
      _ = 2.7182 ^ 75 := by rw [← div_pow]; norm_num
      _ ≤ Real.exp 1 ^ 75 := pow_le_pow_left₀ (by norm_num) h1.le 75
  obtain ⟨L, hL, L0, L1⟩ := hr.between (m := 0) (n := 75) (by norm_num) (by simpa using l0) (by push_cast; exact l1)
  rw [Nat.cast_zero] at L0
  have x1 : 1 ≤ Real.exp L := Real.one_le_exp L0
  have x2 : Real.exp L < 2 ^ 120 := exp_lt nat_75 (by exact_mod_cast L1)
  obtain ⟨δ, η, -, -, e⟩ := hr.acc (a := Real.exp L) (by
    rw [abs_of_pos (Real.exp_pos L)]; exact x2.trans (by norm_num))
  have := hr.idem x1 x2 e
  refine ⟨_, ?_, this.1, this.2⟩
  rw [factorialT_eq hr (by omega), hL, fin_exp]
  exact e

/-- What is true: the two binomial coefficients that are one come out as one, up to `n = 30`, where the factorials do
not overflow. -/
theorem C138_comb_partial (hr : Nearest32 r) {n : ℕ} (hn : n ≤ 30) :
    Rnd.combT r (fin n) (fin (0:ℕ)) = fin 1 ∧ Rnd.combT r (fin n) (fin n) = fin 1 := by
  obtain ⟨F, hF, F1, F0⟩ := fact_kept hr hn
  have h0 : Rnd.factorialT r (fin (0:ℕ)) = fin 1 := by
    rw [factorialT_eq hr (by norm_num), Nat.factorial_zero, Nat.cast_one, Real.log_one, hr.zero, fin_exp,
      Real.exp_zero, hr.rd_one]
  have hF' : Rnd.rd r (fin F) = fin F := F1
  have hd : XF.floorDiv (fin F) (fin F) = fin 1 := by
    simp only [XF.floorDiv]
    rw [if_neg F0.ne', div_self F0.ne']; simp
  have s1 : Rnd.rd r (fin (n:ℝ) - fin ((0:ℕ):ℝ)) = fin n := by
    rw [fin_sub, Nat.cast_zero, sub_zero]; exact hr.rd_nat (by omega)
  have s2 : Rnd.rd r (fin (n:ℝ) - fin (n:ℝ)) = fin ((0:ℕ):ℝ) := by
    rw [fin_sub, sub_self, Nat.cast_zero]; exact hr.rd_zero
  constructor
  · unfold Rnd.combT
    rw [s1, h0, hF, fin_mul, one_mul, hF', hd, hr.rd_one]
  · unfold Rnd.combT
    rw [s2, h0, hF, fin_mul, mul_one, hF', hd, hr.rd_one]

example : Rnd.combT rn32 (fin (20:ℕ)) (fin (0:ℕ)) = fin 1 := (C138_comb_partial rn32_nearest (by norm_num)).1

end Verif
