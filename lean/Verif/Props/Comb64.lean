import Verif.Lemmas.Nearest64
import Verif.Props.Comb32

/-!
# C138: binomial coefficients in binary64 on torch and jax
-/

noncomputable section

open scoped Classical

namespace Verif

open XF Stats Spec

variable {r : ℝ → XF}

/-! ### logarithms of 2, 3 and 5 to 20 digits -/

theorem logs_fine : |Real.log 2 - 69314718055994530942 / 10 ^ 20| ≤ 1 / 10 ^ 18 ∧
    |Real.log 3 - 109861228866810969140 / 10 ^ 20| ≤ 1 / 10 ^ 18 ∧
    |Real.log 5 - 160943791243410037460 / 10 ^ 20| ≤ 1 / 10 ^ 18 := by
  have a := Real.abs_log_sub_add_sum_range_le (x := 1 / 16) (by norm_num [abs_of_pos]) 17
  have b := Real.abs_log_sub_add_sum_range_le (x := 1 / 25) (by norm_num [abs_of_pos]) 15
  have c := Real.abs_log_sub_add_sum_range_le (x := 1 / 81) (by norm_num [abs_of_pos]) 12
  have ea : Real.log (1 - 1 / 16) = Real.log 3 + Real.log 5 - 4 * Real.log 2 := by
    rw [show (1 - 1 / 16 : ℝ) = 3 * 5 / 2 ^ 4 by norm_num, Real.log_div (by norm_num) (by norm_num),
      Real.log_mul (by norm_num) (by norm_num), Real.log_pow]
    norm_num
  have eb : Real.log (1 - 1 / 25) = 3 * Real.log 2 + Real.log 3 - 2 * Real.log 5 := by
    rw [show (1 - 1 / 25 : ℝ) = 2 ^ 3 * 3 / 5 ^ 2 by norm_num, Real.log_div (by norm_num) (by norm_num),
      Real.log_mul (by norm_num) (by norm_num), Real.log_pow, Real.log_pow]
    norm_num
  have ec : Real.log (1 - 1 / 81) = 4 * Real.log 2 + Real.log 5 - 4 * Real.log 3 := by
    rw [show (1 - 1 / 81 : ℝ) = 2 ^ 4 * 5 / 3 ^ 4 by norm_num, Real.log_div (by norm_num) (by norm_num),
      Real.log_mul (by norm_num) (by norm_num), Real.log_pow, Real.log_pow]
    norm_num
  rw [ea] at a
  rw [eb] at b
  rw [ec] at c
  norm_num [Finset.sum_range_succ, abs_of_pos] at a b c ⊢
  rw [abs_le] at a b c
  simp only [abs_le]
  obtain ⟨a1, a2⟩ := a
  obtain ⟨b1, b2⟩ := b
  obtain ⟨c1, c2⟩ := c
  refine ⟨⟨?_, ?_⟩, ⟨?_, ?_⟩, ⟨?_, ?_⟩⟩ <;> linarith

/-- a number closer to a number of the grid than half the grid size is rounded to it -/
theorem Nearest64.eq (hr : Nearest64 r) {a : ℝ} (e m : ℤ) (h1 : -1022 ≤ e) (h2 : e ≤ 1022) (h3 : (2:ℝ) ^ e ≤ a)
    (h4 : a < (2:ℝ) ^ (e + 1)) (h : |a - m * (2:ℝ) ^ (e - 52)| < (2:ℝ) ^ (e - 53)) :
    r a = fin (m * (2:ℝ) ^ (e - 52)) := by
  obtain ⟨n, hn, h5⟩ := hr.grid h1 h2 h3 h4
  have hu := two_zpow_pos (e - 52)
  have e1 : (2:ℝ) ^ (e - 53) = (2:ℝ) ^ (e - 52) / 2 := by
    rw [show e - 53 = e - 52 - 1 by ring, zpow_sub_one₀ two_ne_zero]; ring
  rw [e1] at h h5
  rw [hn]
  generalize (2:ℝ) ^ (e - 52) = u at *
  have h6 := abs_lt.1 h
  have h7 := abs_le.1 h5
  have g1 : ((n:ℝ) - m) * u < 1 * u := by nlinarith
  have g2 : -1 * u < ((n:ℝ) - m) * u := by nlinarith
  have k1 : (n:ℝ) - m < 1 := lt_of_mul_lt_mul_right g1 hu.le
  have k2 : -1 < (n:ℝ) - m := lt_of_mul_lt_mul_right g2 hu.le
  have : n = m := by
    have a1 : n - m < 1 := by exact_mod_cast k1
    have a2 : -1 < n - m := by exact_mod_cast k2
    omega
  rw [this]

theorem factorialT_eq64 (hr : Nearest64 r) {k : ℕ} (hk : k ≤ 100) :
    Rnd.factorialT r (fin k) = Rnd.rd r (XF.exp (r (Real.log (k.factorial : ℝ)))) := by
  unfold Rnd.factorialT Rnd.gammaT
  have := hr.rd_nat (n := k + 1) (by omega)
  push_cast at this
  rw [one_def, fin_add, this, lgamma_pos (by positivity), Real.Gamma_nat_eq_factorial]
  rfl

theorem log_prods : Real.log 6 = Real.log 2 + Real.log 3 ∧ Real.log 24 = 3 * Real.log 2 + Real.log 3 ∧
    Real.log 120 = 3 * Real.log 2 + Real.log 3 + Real.log 5 := by
  have f6 : Real.log 6 = Real.log 2 + Real.log 3 := by
    rw [← Real.log_mul (by norm_num) (by norm_num)]; norm_num
  have f24 : Real.log 24 = 3 * Real.log 2 + Real.log 3 := by
    rw [← Real.log_rpow (by norm_num), ← Real.log_mul (by norm_num) (by norm_num)]; norm_num
  refine ⟨f6, f24, ?_⟩
  rw [← f24, ← Real.log_mul (by norm_num) (by norm_num)]; norm_num

/-- how far the logarithms of 1, 2, 6, 24 are rounded down, relative to the rounding of the factorial -/
theorem log_fact64 (hr : Nearest64 r) {k : ℕ} (hk : k ≤ 4) :
    ∃ L : ℝ, r (Real.log (k.factorial : ℝ)) = fin L ∧ Real.log (k.factorial : ℝ) - 5 / 10 ^ 17 ≤ L ∧
      (k = 2 → Real.log (k.factorial : ℝ) - 3 / 10 ^ 17 ≤ L) ∧ (k = 4 ∨ k ≤ 1 → Real.log (k.factorial : ℝ) ≤ L) ∧
      L ≤ Real.log (k.factorial : ℝ) + 1 / 10 ^ 6 := by
  obtain ⟨l2, l3, l5⟩ := logs_fine
  rw [abs_le] at l2 l3 l5
  norm_num at l2 l3 l5
  obtain ⟨f6, f24, -⟩ := log_prods
  have c0 : r (Real.log 1) = fin 0 := by rw [Real.log_one]; exact hr.zero
  interval_cases k
  · norm_num [Nat.factorial]; exact ⟨0, by simpa using c0, by norm_num⟩
  · norm_num [Nat.factorial]; exact ⟨0, by simpa using c0, by norm_num⟩
  · norm_num [Nat.factorial]
    refine ⟨_, hr.eq (-1) 6243314768165359 (by norm_num) (by norm_num) ?_ ?_ ?_, ?_⟩ <;> norm_num <;> try rw [abs_lt]
    all_goals first | linarith | (refine ⟨?_, ?_⟩ <;> linarith) | (refine ⟨?_, ?_, ?_⟩ <;> linarith)
  · norm_num [Nat.factorial]
    rw [f6]
    refine ⟨_, hr.eq 0 8069367277953026 (by norm_num) (by norm_num) ?_ ?_ ?_, ?_⟩ <;> norm_num <;> try rw [abs_lt]
    all_goals first | linarith | (refine ⟨?_, ?_⟩ <;> linarith) | (refine ⟨?_, ?_, ?_⟩ <;> linarith)
  · norm_num [Nat.factorial]
    rw [f24]
    refine ⟨_, hr.eq 1 7156341023059193 (by norm_num) (by norm_num) ?_ ?_ ?_, ?_⟩ <;> norm_num <;> try rw [abs_lt]
    all_goals first | linarith | (refine ⟨?_, ?_⟩ <;> linarith) | (refine ⟨?_, ?_, ?_⟩ <;> linarith)

/-- … so `exp(lgamma)` gives at least the factorial -/
theorem fact_up64 (hr : Nearest64 r) {k : ℕ} (hk : k ≤ 4) :
    ∃ F : ℝ, Rnd.factorialT r (fin k) = fin F ∧ (k.factorial : ℝ) ≤ F ∧
      F ≤ k.factorial * (1 + 1 / 10 ^ 5) := by
  obtain ⟨L, h1, h2, h2', h2'', h3⟩ := log_fact64 hr hk
  have hp : (0:ℝ) < k.factorial := by exact_mod_cast k.factorial_pos
  have hN : k.factorial ≤ 24 := by
    have := Nat.factorial_le hk
    simpa [Nat.factorial] using this
  have hN' : (k.factorial : ℝ) ≤ 24 := by exact_mod_cast hN
  have hone : (1:ℝ) ≤ k.factorial := by exact_mod_cast k.factorial_pos
  have heq := factorialT_eq64 hr (k := k) (by omega)
  have low : ∀ {d : ℝ}, Real.log (k.factorial : ℝ) - d ≤ L → k.factorial * (1 - d) ≤ Real.exp L := by
    intro d h
    have e1 := Real.exp_le_exp.2 h
    rw [sub_eq_add_neg, Real.exp_add, Real.exp_log hp] at e1
    exact (mul_le_mul_of_nonneg_left (Real.one_sub_le_exp_neg d) hp.le).trans e1
  have hge : fin (k.factorial : ℝ) ≤ r (Real.exp L) := by
    by_cases c4 : k = 4 ∨ k ≤ 1
    · refine hr.ge_nat (by omega) ?_
      rw [← Real.exp_log hp]; exact Real.exp_le_exp.2 (h2'' c4)
    · by_cases c2 : k = 2
      · have := hr.mono (low (h2' c2))
        subst c2
        have e := hr.eq (a := ((Nat.factorial 2 : ℕ) : ℝ) * (1 - 3 / 10 ^ 17)) 0 (2 ^ 53) (by norm_num) (by norm_num)
          (by norm_num [Nat.factorial]) (by norm_num [Nat.factorial]) (by rw [abs_lt]; norm_num [Nat.factorial])
        rw [e] at this
        convert this using 2
        norm_num [Nat.factorial]
      · have c3 : k = 3 := by omega
        have := hr.mono (low h2)
        subst c3
        have e := hr.eq (a := ((Nat.factorial 3 : ℕ) : ℝ) * (1 - 5 / 10 ^ 17)) 2 (6 * 2 ^ 50) (by norm_num)
          (by norm_num) (by norm_num [Nat.factorial]) (by norm_num [Nat.factorial])
          (by rw [abs_lt]; norm_num [Nat.factorial])
        rw [e] at this
        convert this using 2
        norm_num [Nat.factorial]
  clear low
  generalize k.factorial = N at *
  have x2 : Real.exp L ≤ N * (1 + 1 / 10 ^ 5 / 2) := by
    have e1 : Real.exp L ≤ N * Real.exp (1 / 10 ^ 6) := by
      have := Real.exp_le_exp.2 h3
      rwa [Real.exp_add, Real.exp_log hp] at this
    have e2 : Real.exp (1 / 10 ^ 6) ≤ 1 + 1 / 10 ^ 5 / 2 := by
      have := Real.one_sub_le_exp_neg (1 / 10 ^ 6)
      rw [Real.exp_neg] at this
      have hpos := Real.exp_pos (1 / 10 ^ 6)
      have h := mul_le_mul_of_nonneg_right this hpos.le
      rw [inv_mul_cancel₀ hpos.ne'] at h
      norm_num at h ⊢
      linarith
    exact e1.trans (mul_le_mul_of_nonneg_left e2 hp.le)
  obtain ⟨δ, η, hδ, hη, e⟩ := hr.acc (a := Real.exp L) (by
    rw [abs_of_pos (Real.exp_pos L)]
    refine lt_of_le_of_lt (b := 2 ^ 6) ?_ (pow_lt_pow_right₀ (by norm_num) (by norm_num))
    refine x2.trans ?_
    norm_num; linarith)
  rw [e, fin_le] at hge
  refine ⟨_, ?_, hge, ?_⟩
  · rw [heq, h1, fin_exp]; exact e
  · have a1 := (abs_le.1 hδ).2
    have a2 : η ≤ 1 / 2 ^ 60 := (abs_le.1 hη).2.trans tiny_small
    have a3 : Real.exp L * (1 + δ) ≤ N * (1 + 1 / 10 ^ 5 / 2) * (1 + 1 / 10 ^ 7) :=
      mul_le_mul x2 (by norm_num at a1 ⊢; linarith) (by have := (abs_le.1 hδ).1; norm_num at this; linarith)
        (by positivity)
    clear hη
    norm_num at a2 a3 ⊢
    linarith

/-- the logarithm of 120 is rounded down, and `exp(lgamma(6))` is less than the factorial -/
theorem fact_five (hr : Nearest64 r) :
    ∃ F : ℝ, Rnd.factorialT r (fin (5:ℕ)) = fin F ∧ F < 120 ∧ 119 ≤ F := by
  obtain ⟨l2, l3, l5⟩ := logs_fine
  rw [abs_le] at l2 l3 l5
  norm_num at l2 l3 l5
  obtain ⟨-, -, f⟩ := log_prods
  have hL : r (Real.log 120) = fin (5390236507208137 / 2 ^ 50) := by
    have := hr.eq (a := Real.log 120) 2 5390236507208137 (by norm_num) (by norm_num) (by rw [f]; norm_num; linarith)
      (by rw [f]; norm_num; linarith) (by rw [f, abs_lt]; norm_num; constructor <;> linarith)
    rw [this]; norm_num
  have d1 : (5390236507208137:ℝ) / 2 ^ 50 ≤ Real.log 120 - 15 / 10 ^ 17 := by rw [f]; norm_num; linarith
  have d2 : Real.log 120 - 1 / 10 ^ 6 ≤ (5390236507208137:ℝ) / 2 ^ 50 := by rw [f]; norm_num; linarith
  have x1 : Real.exp (5390236507208137 / 2 ^ 50) ≤ 120 - 17 / 10 ^ 15 := by
    have e1 := Real.exp_le_exp.2 d1
    rw [Real.exp_sub, Real.exp_log (by norm_num)] at e1
    have e2 := Real.add_one_le_exp (15 / 10 ^ 17 : ℝ)
    refine e1.trans ?_
    rw [div_le_iff₀ (Real.exp_pos _)]
    norm_num at e2 ⊢
    linarith
  have x2 : 119 ≤ Real.exp (5390236507208137 / 2 ^ 50) := by
    have e1 := Real.exp_le_exp.2 d2
    rw [sub_eq_add_neg, Real.exp_add, Real.exp_log (by norm_num)] at e1
    have := Real.one_sub_le_exp_neg (1 / 10 ^ 6)
    norm_num at this e1 ⊢
    linarith
  have hm := hr.mono x1
  have hg : r (120 - 17 / 10 ^ 15) = fin (120 - 1 / 2 ^ 46) := by
    have := hr.eq (a := 120 - 17 / 10 ^ 15) 6 (120 * 2 ^ 46 - 1) (by norm_num) (by norm_num) (by norm_num) (by norm_num)
      (by rw [abs_lt]; norm_num)
    rw [this]; norm_num
  rw [hg] at hm
  have hl : fin 119 ≤ r (Real.exp (5390236507208137 / 2 ^ 50)) := by
    have := hr.ge_nat (n := 119) (by norm_num) (a := Real.exp (5390236507208137 / 2 ^ 50)) (by push_cast; exact x2)
    exact_mod_cast this
  obtain ⟨F, hF, F1, F2⟩ := between_cases hl hm
  refine ⟨F, ?_, ?_, F1⟩
  · rw [factorialT_eq64 hr (by norm_num)]
    have : ((Nat.factorial 5 : ℕ) : ℝ) = 120 := by norm_num [Nat.factorial]
    rw [this, hL, fin_exp]
    exact hF
  · refine lt_of_le_of_lt F2 (by norm_num)

/-- C138 is false of `comb` on torch and jax in binary64 too: the four binomial coefficients of 5 other than the two
ones come out one too small. -/
theorem C138_comb64_false (hr : Nearest64 r) {k : ℕ} (h1 : 1 ≤ k) (h4 : k ≤ 4) :
    Rnd.combT r (fin (5:ℕ)) (fin k) = fin ((Nat.choose 5 k : ℝ) - 1) := by
  obtain ⟨A, hA, A0, A2⟩ := fact_five hr
  obtain ⟨F, hF, F1, F2⟩ := fact_up64 hr h4
  obtain ⟨G, hG, G1, G2⟩ := fact_up64 hr (k := 5 - k) (by omega)
  have hsub : Rnd.rd r (fin ((5:ℕ):ℝ) - fin (k:ℝ)) = fin ((5 - k : ℕ) : ℝ) := by
    rw [fin_sub, ← Nat.cast_sub (by omega)]
    exact hr.rd_nat (by omega)
  have hch : Nat.choose 5 k * (k.factorial * (5 - k).factorial) = 120 := by
    interval_cases k <;> decide
  have hD : 12 ≤ k.factorial * (5 - k).factorial := by interval_cases k <;> decide
  have hD' : k.factorial * (5 - k).factorial ≤ 24 := by interval_cases k <;> decide
  have hC1 : 1 ≤ Nat.choose 5 k := by interval_cases k <;> decide
  have hC2 : Nat.choose 5 k ≤ 10 := by interval_cases k <;> decide
  have f0 : (0:ℝ) < k.factorial := by exact_mod_cast k.factorial_pos
  have g0 : (0:ℝ) < (5 - k).factorial := by exact_mod_cast (5 - k).factorial_pos
  have p1 : ((k.factorial * (5 - k).factorial : ℕ) : ℝ) ≤ F * G := by
    push_cast; exact mul_le_mul F1 G1 g0.le (f0.le.trans F1)
  have p2 : F * G ≤ ((k.factorial * (5 - k).factorial : ℕ) : ℝ) * (1 + 3 / 10 ^ 5) := by
    have : F * G ≤ (k.factorial * (1 + 1 / 10 ^ 5)) * ((5 - k).factorial * (1 + 1 / 10 ^ 5)) :=
      mul_le_mul F2 G2 (g0.le.trans G1) (by positivity)
    refine this.trans ?_
    push_cast
    have hfg : (0:ℝ) < k.factorial * (5 - k).factorial := by positivity
    norm_num
    nlinarith
  generalize k.factorial * (5 - k).factorial = D at *
  have D1 : (12:ℝ) ≤ D := by exact_mod_cast hD
  have D2 : (D:ℝ) ≤ 24 := by exact_mod_cast hD'
  obtain ⟨δ, η, hδ, hη, e⟩ := hr.acc (a := F * G) (by
    rw [abs_of_pos (by linarith)]
    refine lt_of_le_of_lt (b := 2 ^ 6) ?_ (pow_lt_pow_right₀ (by norm_num) (by norm_num))
    refine p2.trans ?_
    norm_num; linarith)
  have hge := hr.ge_nat (n := D) (by omega) p1
  rw [e, fin_le] at hge
  have q2 : F * G * (1 + δ) + η ≤ D * (1 + 4 / 10 ^ 5) := by
    have a1 := (abs_le.1 hδ).2
    have a2 : η ≤ 1 / 2 ^ 60 := (abs_le.1 hη).2.trans tiny_small
    have a3 : F * G * (1 + δ) ≤ D * (1 + 3 / 10 ^ 5) * (1 + 1 / 10 ^ 7) :=
      mul_le_mul p2 (by norm_num at a1 ⊢; linarith) (by have := (abs_le.1 hδ).1; norm_num at this; linarith)
        (by positivity)
    clear hη
    norm_num at a2 a3 ⊢
    linarith
  have hprod : Rnd.rd r (Rnd.factorialT r (fin k) * Rnd.factorialT r (Rnd.rd r (fin ((5:ℕ):ℝ) - fin (k:ℝ))))
      = fin (F * G * (1 + δ) + η) := by
    rw [hsub, hF, hG, fin_mul]; exact e
  clear hη
  generalize F * G * (1 + δ) + η = P at *
  have hP : 0 < P := by linarith
  have hcD : (Nat.choose 5 k : ℝ) * D = 120 := by exact_mod_cast hch
  have C1 : (1:ℝ) ≤ Nat.choose 5 k := by exact_mod_cast hC1
  have C2 : (Nat.choose 5 k : ℝ) ≤ 10 := by exact_mod_cast hC2
  have hfl : ⌊A / P⌋ = ((Nat.choose 5 k - 1 : ℕ) : ℤ) := by
    rw [Int.floor_eq_iff]
    push_cast [Nat.cast_sub hC1]
    constructor
    · rw [le_div_iff₀ hP]
      have : ((Nat.choose 5 k : ℝ) - 1) * P ≤ ((Nat.choose 5 k : ℝ) - 1) * (D * (1 + 4 / 10 ^ 5)) :=
        mul_le_mul_of_nonneg_left q2 (by linarith)
      nlinarith
    · rw [div_lt_iff₀ hP]
      nlinarith
  unfold Rnd.combT
  rw [hprod, hA]
  simp only [XF.floorDiv]
  rw [if_neg hP.ne', hfl]
  have := hr.rd_nat (n := Nat.choose 5 k - 1) (by omega)
  rw [Nat.cast_sub hC1, Nat.cast_one] at this
  rw [← this]
  congr 2
  push_cast [Nat.cast_sub hC1]
  ring

/-- 5 over 1 is 4 and 5 over 2 is 9 -/
example : Rnd.combT rn64 (fin (5:ℕ)) (fin (1:ℕ)) = fin 4 ∧ Rnd.combT rn64 (fin (5:ℕ)) (fin (2:ℕ)) = fin 9 := by
  constructor
  · rw [C138_comb64_false rn64_nearest (by norm_num) (by norm_num)]; norm_num
  · rw [C138_comb64_false rn64_nearest (by norm_num) (by norm_num)]
    rw [show Nat.choose 5 2 = 10 from rfl]; norm_num

end Verif
