import Verif.Lemmas.BetaCrps
import Verif.Lemmas.Discrete

/-!
# The incomplete beta function as a binomial and as a negative binomial distribution function
-/

noncomputable section

open scoped Classical
open MeasureTheory Set

namespace Verif

open XF Spec Stats

theorem bK_succ_right (a b x : ℝ) : (1 - x) * bK a b x = bK a (b + 1) x := by
  unfold bK
  split_ifs with h
  · rw [show b + 1 - 1 = (b - 1) + 1 by ring, Real.rpow_add_one (by linarith [h.2])]; ring
  · rw [mul_zero]

theorem prim_bK_succ_right {a b : ℝ} (ha : 0 < a) (hb : 0 < b) (x : ℝ) :
    prim (bK a (b + 1)) x = (b * prim (bK a b) x + bT a b x) / (a + b) := by
  have e : prim (bK a (b + 1)) x = prim (bK a b) x - prim (bK (a + 1) b) x := by
    unfold prim
    rw [← integral_sub (bK_integrable ha hb).integrableOn (bK_integrable (by linarith) hb).integrableOn]
    refine integral_congr_ae (Filter.Eventually.of_forall fun t => ?_)
    dsimp only
    rw [← bK_succ_right, ← bK_succ]; ring
  have : a + b ≠ 0 := by positivity
  rw [e, prim_bK_succ ha hb]
  field_simp
  ring

theorem betaF_succ_right {a b : ℝ} (ha : 0 < a) (hb : 0 < b) : betaF a (b + 1) = b / (a + b) * betaF a b := by
  rw [betaF_symm, betaF_succ hb ha, betaF_symm, add_comm b a]

/-- One step of the incomplete beta function along its second parameter. -/
theorem bF_succ_right {a b : ℝ} (ha : 0 < a) (hb : 0 < b) (x : ℝ) :
    bF a (b + 1) x = bF a b x + bT a b x / (b * betaF a b) := by
  have h1 := (betaF_pos ha hb).ne'
  have h2 : a + b ≠ 0 := by positivity
  unfold bF
  rw [prim_bK_succ_right ha hb, betaF_succ_right ha hb]
  field_simp

theorem bF_succ_left {a b : ℝ} (ha : 0 < a) (hb : 0 < b) (x : ℝ) :
    bF (a + 1) b x = bF a b x - bT a b x / (a * betaF a b) := by
  have h1 := (betaF_pos ha hb).ne'
  have h2 : a + b ≠ 0 := by positivity
  unfold bF
  rw [prim_bK_succ ha hb, betaF_succ ha hb]
  field_simp

theorem bF_shift {a b : ℝ} (ha : 0 < a) (hb : 0 < b) (x : ℝ) :
    bF a (b + 1) x = bF (a + 1) b x
      + bT a b x * (Real.Gamma (a + b + 1) / (Real.Gamma (a + 1) * Real.Gamma (b + 1))) := by
  have h1 := (Real.Gamma_pos_of_pos ha).ne'
  have h2 := (Real.Gamma_pos_of_pos hb).ne'
  have h3 := (Real.Gamma_pos_of_pos (add_pos ha hb)).ne'
  have h4 : a + b ≠ 0 := by positivity
  rw [bF_succ_right ha hb, bF_succ_left ha hb, Real.Gamma_add_one h4, Real.Gamma_add_one ha.ne',
    Real.Gamma_add_one hb.ne', show betaF a b = Real.Gamma a * Real.Gamma b / Real.Gamma (a + b) from rfl]
  field_simp
  ring

theorem bF_one_right {a x : ℝ} (ha : 0 < a) (h0 : 0 ≤ x) (h1 : x ≤ 1) : bF a 1 x = x ^ a := by
  have hg := (Real.Gamma_pos_of_pos ha).ne'
  unfold bF
  rw [prim_bK ha one_pos h0 h1, show betaF a 1 = Real.Gamma a * Real.Gamma 1 / Real.Gamma (a + 1) from rfl,
    Real.Gamma_one, Real.Gamma_add_one ha.ne']
  simp only [sub_self, Real.rpow_zero, mul_one]
  rw [integral_rpow (Or.inl (by linarith)), sub_add_cancel, Real.zero_rpow ha.ne']
  field_simp
  ring

theorem bT_nat {a b : ℕ} (ha : 0 < a) (hb : 0 < b) {x : ℝ} (h0 : 0 ≤ x) (h1 : x ≤ 1) :
    bT a b x = x ^ a * (1 - x) ^ b := by
  unfold bT
  split_ifs with h
  · rw [Real.rpow_natCast, Real.rpow_natCast]
  · rcases h0.lt_or_eq with h2 | h2
    · have : x = 1 := le_antisymm h1 (not_lt.1 fun h3 => h ⟨h2, h3⟩)
      rw [this, sub_self, zero_pow hb.ne', mul_zero]
    · rw [← h2, zero_pow ha.ne', zero_mul]

/-- The binomial distribution function. -/
theorem bF_binom {n k : ℕ} (hk : k < n) {p : ℝ} (h0 : 0 ≤ p) (h1 : p ≤ 1) :
    bF ((n - k : ℕ) : ℝ) ((k : ℝ) + 1) (1 - p) = ∑ j ∈ Finset.range (k + 1), pmfBinom n p j := by
  have hx0 : 0 ≤ 1 - p := by linarith
  have hx1 : 1 - p ≤ 1 := by linarith
  induction k with
  | zero =>
    rw [Nat.cast_zero, zero_add, bF_one_right (by exact_mod_cast (by omega : 0 < n - 0)) hx0 hx1,
      Real.rpow_natCast]
    simp [pmfBinom]
  | succ k ih =>
    have ih := ih (by omega)
    rw [Finset.sum_range_succ, ← ih]
    set a : ℕ := n - (k + 1) with ha
    have ha0 : 0 < a := by omega
    have e1 : ((n - k : ℕ) : ℝ) = (a : ℝ) + 1 := by
      rw [show n - k = a + 1 by omega]; push_cast; ring
    have hs := bF_shift (a := (a : ℝ)) (b := ((k + 1 : ℕ) : ℝ)) (by exact_mod_cast ha0)
      (by exact_mod_cast Nat.succ_pos k) (1 - p)
    rw [hs, e1, bT_nat ha0 (Nat.succ_pos k) hx0 hx1, sub_sub_cancel]
    have e2 : (a : ℝ) + ((k + 1 : ℕ) : ℝ) + 1 = (n : ℝ) + 1 := by
      rw [show (n:ℝ) = ((a + (k + 1) : ℕ) : ℝ) by rw [show a + (k + 1) = n by omega]]; push_cast; ring
    rw [e2, Real.Gamma_nat_eq_factorial, Real.Gamma_nat_eq_factorial, Real.Gamma_nat_eq_factorial]
    unfold pmfBinom
    rw [Nat.cast_choose ℝ (by omega : k + 1 ≤ n), ← ha, Nat.cast_succ]
    simp only [Nat.succ_eq_add_one]
    ring

/-- Markov's inequality for the beta distribution. -/
theorem one_sub_bF_le {a b x : ℝ} (ha : 0 < a) (hb : 0 < b) (hx : 0 < x) :
    1 - bF a b x ≤ a / (a + b) / x := by
  have hB := betaF_pos ha hb
  have i1 := bK_integrable ha hb
  have i2 : Integrable (bK (a + 1) b) := bK_integrable (by linarith) hb
  have e1 : betaF a b - prim (bK a b) x = ∫ t in Ioi x, bK a b t := by
    rw [← bK_integral ha hb, ← intervalIntegral.integral_Iic_add_Ioi (b := x) i1.integrableOn i1.integrableOn]
    unfold prim; ring
  have e2 : x * ∫ t in Ioi x, bK a b t ≤ ∫ t in Ioi x, bK (a + 1) b t := by
    rw [← integral_const_mul]
    refine setIntegral_mono_on (i1.const_mul x).integrableOn i2.integrableOn measurableSet_Ioi fun t ht => ?_
    rw [← bK_succ]
    exact mul_le_mul_of_nonneg_right (le_of_lt ht) (bK_nonneg a b t)
  have e3 : ∫ t in Ioi x, bK (a + 1) b t ≤ betaF (a + 1) b := by
    rw [← bK_integral (by linarith : 0 < a + 1) hb]
    exact setIntegral_le_integral i2 (Filter.Eventually.of_forall fun t => bK_nonneg _ _ t)
  rw [betaF_succ ha hb] at e3
  have e4 : 1 - bF a b x = (betaF a b - prim (bK a b) x) / betaF a b := by
    unfold bF; field_simp
  rw [e4, e1, le_div_iff₀ hx, div_mul_eq_mul_div, div_le_iff₀ hB]
  linarith

end Verif
