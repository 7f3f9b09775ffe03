import Mathlib.NumberTheory.Harmonic.EulerMascheroni
import Mathlib.Analysis.SpecialFunctions.Log.Deriv
import Mathlib.Algebra.BigOperators.Field
import Mathlib.Analysis.Complex.ExponentialBounds

/-!
# Euler's constant to seven decimals
-/

noncomputable section

open scoped Topology
open Filter

namespace Verif

theorem log_ratio_lower {x : ℝ} (h0 : 0 < x) (h1 : x < 1) : 2 * x ≤ Real.log (1 + x) - Real.log (1 - x) := by
  have h := Real.hasSum_log_sub_log_of_abs_lt_one (x := x) (by rw [abs_of_pos h0]; exact h1)
  have := h.summable.sum_le_tsum (Finset.range 1) (fun k _ => by positivity)
  rw [h.tsum_eq] at this
  simpa using this

theorem log_ratio_upper {x : ℝ} (h0 : 0 < x) (h1 : x < 1) :
    Real.log (1 + x) - Real.log (1 - x) ≤ 2 * x + 2 / 3 * x ^ 3 / (1 - x ^ 2) := by
  have h := Real.hasSum_log_sub_log_of_abs_lt_one (x := x) (by rw [abs_of_pos h0]; exact h1)
  have hs := (hasSum_nat_add_iff' 1).2 h
  simp only [Finset.range_one, Finset.sum_singleton] at hs
  have hx2 : x ^ 2 < 1 := by nlinarith
  have hg := (hasSum_geometric_of_lt_one (sq_nonneg x) hx2).mul_left (2 / 3 * x ^ 3)
  have := hasSum_le (fun k : ℕ => ?_) hs hg
  · simp only [Nat.cast_zero, mul_zero, zero_add, pow_one] at this
    rw [div_eq_mul_inv]
    linarith
  · have e : x ^ (2 * (k + 1) + 1) = x ^ 3 * (x ^ 2) ^ k := by rw [← pow_mul, ← pow_add]; ring_nf
    rw [e, ← mul_assoc]
    refine mul_le_mul_of_nonneg_right (mul_le_mul_of_nonneg_right ?_ (by positivity)) (by positivity)
    rw [mul_one_div]
    refine div_le_div_of_nonneg_left two_pos.le (by norm_num) ?_
    push_cast
    linarith [(Nat.cast_nonneg k : (0:ℝ) ≤ k)]

/-- `H n - log (n + 1/2)`. -/
def eulD (n : ℕ) : ℝ := (harmonic n : ℝ) - Real.log (n + 1 / 2)

theorem eul_step (n : ℕ) : eulD n - eulD (n + 1) =
    (Real.log (1 + 1 / (2 * n + 2)) - Real.log (1 - 1 / (2 * n + 2))) - 1 / (n + 1) := by
  have hn : (0:ℝ) ≤ n := Nat.cast_nonneg n
  unfold eulD
  rw [harmonic_succ, ← Real.log_div (by positivity)]
  · have e : (1 + 1 / (2 * (n:ℝ) + 2)) / (1 - 1 / (2 * n + 2)) = (n + 1 + 1 / 2) / (n + 1 / 2) := by
      have : (1:ℝ) - 1 / (2 * n + 2) ≠ 0 := by
        have : 1 / (2 * (n:ℝ) + 2) < 1 := by rw [div_lt_one (by positivity)]; linarith
        linarith
      rw [div_eq_div_iff this (by positivity)]
      field_simp
      ring
    rw [e, Real.log_div (by positivity) (by positivity)]
    push_cast
    rw [one_div ((n:ℝ) + 1)]
    ring
  · have : 1 / (2 * (n:ℝ) + 2) < 1 := by rw [div_lt_one (by positivity)]; linarith
    linarith

theorem eul_x (n : ℕ) : 0 < 1 / (2 * (n:ℝ) + 2) ∧ 1 / (2 * (n:ℝ) + 2) < 1 := by
  have hn : (0:ℝ) ≤ n := Nat.cast_nonneg n
  exact ⟨by positivity, by rw [div_lt_one (by positivity)]; linarith⟩

theorem eulD_anti : Antitone eulD := by
  refine antitone_nat_of_succ_le fun n => ?_
  have h := log_ratio_lower (eul_x n).1 (eul_x n).2
  have e : 2 * (1 / (2 * (n:ℝ) + 2)) = 1 / (n + 1) := by field_simp; try ring
  have := eul_step n
  linarith

theorem eulE_mono : Monotone fun n : ℕ => eulD (n + 1) - 1 / (24 * ((n:ℝ) + 1) ^ 2) := by
  refine monotone_nat_of_le_succ fun m => ?_
  have h := log_ratio_upper (eul_x (m + 1)).1 (eul_x (m + 1)).2
  have hs := eul_step (m + 1)
  have hm : (0:ℝ) ≤ m := Nat.cast_nonneg m
  push_cast at h hs ⊢
  have e : 2 * (1 / (2 * ((m:ℝ) + 1) + 2)) = 1 / (m + 1 + 1) := by field_simp; try ring
  have b : 2 / 3 * (1 / (2 * ((m:ℝ) + 1) + 2)) ^ 3 / (1 - (1 / (2 * ((m:ℝ) + 1) + 2)) ^ 2)
      ≤ 1 / (24 * ((m:ℝ) + 1) ^ 2) - 1 / (24 * ((m:ℝ) + 1 + 1) ^ 2) := by
    have e1 : 2 / 3 * (1 / (2 * ((m:ℝ) + 1) + 2)) ^ 3 / (1 - (1 / (2 * ((m:ℝ) + 1) + 2)) ^ 2)
        = 1 / (3 * (m + 2) * ((2 * m + 3) * (2 * m + 5))) := by
      have : (1:ℝ) - (1 / (2 * ((m:ℝ) + 1) + 2)) ^ 2 = (2 * m + 3) * (2 * m + 5) / (2 * m + 4) ^ 2 := by
        field_simp; ring
      rw [this]
      field_simp
      ring
    have e2 : 1 / (24 * ((m:ℝ) + 1) ^ 2) - 1 / (24 * ((m:ℝ) + 1 + 1) ^ 2)
        = (2 * m + 3) / (24 * (m + 1) ^ 2 * (m + 2) ^ 2) := by
      field_simp; ring
    rw [e1, e2, div_le_div_iff₀ (by positivity) (by positivity)]
    have : (0:ℝ) ≤ (2 * m + 3) * (3 * (m + 2) * ((2 * m + 3) * (2 * m + 5))) - 1 * (24 * (m + 1) ^ 2 * (m + 2) ^ 2) := by
      ring_nf
      positivity
    linarith
  linarith

theorem eulD_tendsto : Tendsto eulD atTop (𝓝 Real.eulerMascheroniConstant) := by
  have h1 := Real.tendsto_harmonic_sub_log
  have h2 := Real.tendsto_harmonic_sub_log_add_one
  refine tendsto_of_tendsto_of_tendsto_of_le_of_le' h2 h1 ?_ ?_
  · filter_upwards with n
    have hn : (0:ℝ) ≤ n := Nat.cast_nonneg n
    have := Real.log_le_log (show (0:ℝ) < n + 1 / 2 by positivity) (show (n:ℝ) + 1 / 2 ≤ n + 1 by linarith)
    unfold eulD; linarith
  · filter_upwards [eventually_gt_atTop 0] with n hn
    have hn : (0:ℝ) < n := Nat.cast_pos.2 hn
    have := Real.log_le_log hn (show (n:ℝ) ≤ n + 1 / 2 by linarith)
    unfold eulD; linarith

theorem eul_bounds (n : ℕ) :
    eulD (n + 1) - 1 / (24 * ((n:ℝ) + 1) ^ 2) ≤ Real.eulerMascheroniConstant ∧
    Real.eulerMascheroniConstant ≤ eulD (n + 1) := by
  refine ⟨?_, eulD_anti.le_of_tendsto eulD_tendsto (n + 1)⟩
  refine eulE_mono.ge_of_tendsto (f := fun n : ℕ => eulD (n + 1) - 1 / (24 * ((n:ℝ) + 1) ^ 2)) ?_ n
  have h1 : Tendsto (fun n : ℕ => 1 / ((n:ℝ) + 1)) atTop (𝓝 0) := tendsto_one_div_add_atTop_nhds_zero_nat
  have h2 := ((tendsto_add_atTop_iff_nat 1).2 eulD_tendsto).sub ((h1.mul h1).const_mul (1 / 24))
  rw [mul_zero, mul_zero, sub_zero] at h2
  refine h2.congr fun n => ?_
  have hn : (0:ℝ) ≤ n := Nat.cast_nonneg n
  field_simp

theorem harmonic_floor (N n : ℕ) (hN : 0 < N) :
    ((∑ i ∈ Finset.range n, N / (i + 1) : ℕ) : ℝ) / N ≤ (harmonic n : ℝ) ∧
    (harmonic n : ℝ) ≤ (((∑ i ∈ Finset.range n, N / (i + 1) : ℕ) : ℝ) + n) / N := by
  have hN' : (0:ℝ) < N := Nat.cast_pos.2 hN
  have e : (harmonic n : ℝ) = (∑ i ∈ Finset.range n, (N:ℝ) / ((i:ℝ) + 1)) / N := by
    unfold harmonic
    push_cast
    rw [Finset.sum_div]
    refine Finset.sum_congr rfl fun i _ => ?_
    have : (i:ℝ) + 1 ≠ 0 := by positivity
    field_simp
  rw [e]
  push_cast
  constructor
  · refine div_le_div_of_nonneg_right (Finset.sum_le_sum fun i _ => ?_) hN'.le
    have := Nat.cast_div_le (α := ℝ) (m := N) (n := i + 1)
    push_cast at this
    exact this
  · refine div_le_div_of_nonneg_right ?_ hN'.le
    have h2 : ∀ i ∈ Finset.range n, (N:ℝ) / ((i:ℝ) + 1) ≤ ((N / (i + 1) : ℕ) : ℝ) + 1 := by
      intro i _
      rw [div_le_iff₀ (by positivity)]
      have := Nat.lt_mul_div_succ N (show 0 < i + 1 by omega)
      have h3 : N ≤ (i + 1) * (N / (i + 1) + 1) := this.le
      have h4 : (N:ℝ) ≤ ((i:ℝ) + 1) * (((N / (i + 1) : ℕ) : ℝ) + 1) := by exact_mod_cast h3
      linarith
    refine (Finset.sum_le_sum h2).trans_eq ?_
    rw [Finset.sum_add_distrib]
    simp

theorem harmonic_sum_value : ∑ i ∈ Finset.range 1024, 10 ^ 15 / (i + 1) = 7509175672277657 := by
  decide +kernel

/-- The decimal expansion used by the code is right to seven decimals. -/
theorem eulerMascheroni_decimal :
    |(57721566490153286060651209008240243 : ℝ) / 10 ^ 35 - Real.eulerMascheroniConstant| ≤ 1 / 10 ^ 7 := by
  have a : (harmonic 1024 : ℝ) - Real.log (((1024:ℕ):ℝ) + 1 / 2) - 1 / (24 * 1024 ^ 2)
      ≤ Real.eulerMascheroniConstant := by
    have := (eul_bounds 1023).1
    rwa [show (((1023:ℕ):ℝ) + 1) = 1024 by norm_num] at this
  have b : Real.eulerMascheroniConstant ≤ (harmonic 1024 : ℝ) - Real.log (((1024:ℕ):ℝ) + 1 / 2) :=
    (eul_bounds 1023).2
  have hf := harmonic_floor (10 ^ 15) 1024 (by norm_num)
  rw [harmonic_sum_value] at hf
  have hl : Real.log (((1024:ℕ):ℝ) + 1 / 2) = 10 * Real.log 2
      + (Real.log (1 + 1 / 4097) - Real.log (1 - 1 / 4097)) := by
    rw [← Real.log_div (by norm_num) (by norm_num),
      show (((1024:ℕ):ℝ) + 1 / 2) = 2 ^ 10 * ((1 + 1 / 4097) / (1 - 1 / 4097)) by norm_num,
      Real.log_mul (by norm_num) (by norm_num), Real.log_pow]
    norm_num
  have l1 := log_ratio_lower (x := 1 / 4097) (by norm_num) (by norm_num)
  have l2 := log_ratio_upper (x := 1 / 4097) (by norm_num) (by norm_num)
  have g1 := Real.log_two_gt_d9
  have g2 := Real.log_two_lt_d9
  rw [hl] at a b
  generalize (harmonic 1024 : ℝ) = H at *
  generalize Real.log (1 + 1 / 4097) - Real.log (1 - 1 / 4097) = L at *
  obtain ⟨f1, f2⟩ := hf
  norm_num at f1 f2 l1 l2 g1 g2 a b
  rw [abs_le]
  constructor <;> norm_num <;> linarith

end Verif
