import Verif.Model.Rounding
import Verif.Lemmas.ClosedInf
import Mathlib.Analysis.Complex.ExponentialBounds
import Mathlib.Data.Nat.Factorial.Basic

/-!
Consequences of the properties of rounding.
-/

namespace Verif

theorem nat_746 : 2 ^ 1075 * 10000 ^ 746 ≤ 27182 ^ 746 := by decide +kernel
theorem nat_710 : 2 ^ 1024 * 10000 ^ 710 ≤ 27182 ^ 710 := by decide +kernel
theorem nat_357 : 2 ^ 514 * 10000 ^ 357 ≤ 27182 ^ 357 := by decide +kernel
theorem nat_39 : 2 ^ 56 * 10000 ^ 39 ≤ 27182 ^ 39 := by decide +kernel
theorem nat_685 : 27183 ^ 685 ≤ 2 ^ 989 * 10000 ^ 685 := by decide +kernel
theorem nat_709 : 27183 ^ 709 < 2 ^ 1023 * 10000 ^ 709 := by decide +kernel
theorem nat_171 : 2 ^ 1024 ≤ Nat.factorial 171 := by decide +kernel
theorem nat_256 : 27183 ^ 256 ≤ 2 ^ 370 * 10000 ^ 256 := by decide +kernel
theorem nat_64 : Nat.factorial 64 ≤ 2 ^ 296 := by decide +kernel
theorem nat_700 : 2 ^ 512 * Nat.factorial 700 ≤ 746 ^ 700 := by decide +kernel

end Verif

noncomputable section

open scoped Classical

namespace Verif

open XF Spec

theorem tiny_small : (1 : ℝ) / 2 ^ 1075 ≤ 1 / 2 ^ 60 := by
  apply one_div_le_one_div_of_le (by positivity)
  exact pow_le_pow_right₀ (by norm_num) (by norm_num)

/-! ### consequences -/

theorem size_aux {n σ M : ℝ} (h0 : 0 ≤ n) (hn : n ≤ 2 ^ 20) (hσ : 0 < σ) (hM : σ ≤ M) (h : 0 < M) :
    (n + 1) * σ < 2 ^ 23 * M := by nlinarith

theorem small_aux {n : ℝ} (hn : n ≤ 2 ^ 20) : (n + 1) * (1 / 2 ^ 33 : ℝ) ≤ 1 / 4 := by
  norm_num at hn ⊢; linarith

namespace Binary64

variable {r : ℝ → XF} (hr : Binary64 r)

include hr

theorem zero : r 0 = fin 0 := by simpa using hr.nat 0 (by norm_num)

theorem ge_nat {n : ℕ} (hn : n ≤ 2 ^ 53) {a : ℝ} (h : (n : ℝ) ≤ a) : fin n ≤ r a := by
  rw [← hr.nat n hn]; exact hr.mono h

theorem le_nat {n : ℕ} (hn : n ≤ 2 ^ 53) {a : ℝ} (h : a ≤ n) : r a ≤ fin n := by
  rw [← hr.nat n hn]; exact hr.mono h

/-- rounding keeps a number between two integers -/
theorem between {m n : ℕ} (hn : n ≤ 2 ^ 53) {a : ℝ} (h1 : (m : ℝ) ≤ a) (h2 : a ≤ n) :
    ∃ b : ℝ, r a = fin b ∧ (m : ℝ) ≤ b ∧ b ≤ n := by
  have hmn : m ≤ n := by exact_mod_cast h1.trans h2
  have e1 := hr.ge_nat (hmn.trans hn) h1
  have e2 := hr.le_nat hn h2
  have e3 := hr.noNan a
  cases hc : r a <;> simp_all

/-- rounding keeps a number between an integer and a negative integer -/
theorem between' {m n : ℕ} (hn : n ≤ 2 ^ 53) {a : ℝ} (h1 : (m : ℝ) ≤ -a) (h2 : -a ≤ n) :
    ∃ b : ℝ, r a = fin b ∧ (m : ℝ) ≤ -b ∧ -b ≤ n := by
  obtain ⟨b, hb, h3, h4⟩ := hr.between hn h1 h2
  refine ⟨-b, ?_, by simpa using h3, by simpa using h4⟩
  have := hr.neg (-a)
  rw [neg_neg, hb] at this
  rw [this]; rfl

/-- a positive number of ordinary size stays positive and changes by at most a factor two -/
theorem half {a : ℝ} (h1 : 1 / 2 ^ 1020 ≤ a) (h2 : a < 2 ^ 1023) : ∃ b : ℝ, r a = fin b ∧ a / 2 ≤ b ∧ b ≤ 2 * a := by
  have h0 : (0:ℝ) < a := lt_of_lt_of_le (by positivity) h1
  obtain ⟨δ, η, hδ, hη, e⟩ := hr.acc (a := a) (by rwa [abs_of_pos h0])
  have ht : (1 : ℝ) / 2 ^ 1075 ≤ a / 4 := by
    have : (1 : ℝ) / 2 ^ 1075 ≤ 1 / 2 ^ 1022 :=
      one_div_le_one_div_of_le (by positivity) (pow_le_pow_right₀ (by norm_num) (by norm_num))
    have e : (1 : ℝ) / 2 ^ 1022 = 1 / 2 ^ 1020 / 4 := by
      rw [show (1022 : ℕ) = 1020 + 2 by norm_num, pow_add]; ring
    rw [e] at this
    linarith
  have hu : (1 : ℝ) / 2 ^ 53 ≤ 1 / 4 := by norm_num
  have hδ' := abs_le.1 hδ
  have hη' := abs_le.1 hη
  exact ⟨_, e, by nlinarith, by nlinarith⟩

theorem ge_half {a d : ℝ} (h1 : 1 / 2 ^ 1020 ≤ a) (h2 : a < 2 ^ 1023) (h : a ≤ d) : fin (a / 2) ≤ r d := by
  obtain ⟨b, hb, h3, -⟩ := hr.half h1 h2
  have := hr.mono h
  rw [hb] at this
  cases hc : r d with
  | nan => exact absurd hc (hr.noNan d)
  | ninf => rw [hc] at this; exact absurd this (by simp)
  | pinf => simp
  | fin c =>
    rw [hc, fin_le] at this
    rw [fin_le]; exact h3.trans this

theorem rd_mono {x y : XF} (h : x ≤ y) : Rnd.rd r x ≤ Rnd.rd r y := by
  have key : ∀ a, r a = pinf ∨ r a = ninf ∨ ∃ b, r a = fin b := by
    intro a
    have := hr.noNan a
    cases hc : r a <;> simp_all
  cases x <;> cases y <;> simp only [Rnd.rd] <;> try simp_all
  · rename_i a
    rcases key a with e | e | ⟨b, e⟩ <;> rw [e] <;> simp
  · rename_i a
    rcases key a with e | e | ⟨b, e⟩ <;> rw [e] <;> simp
  · exact hr.mono h

theorem rd_nat {n : ℕ} (hn : n ≤ 2 ^ 53) : Rnd.rd r (fin n) = fin n := hr.nat n hn

theorem rd_zero : Rnd.rd r (fin 0) = fin 0 := hr.zero

theorem rd_one : Rnd.rd r (fin 1) = fin 1 := by simpa using hr.rd_nat (n := 1) (by norm_num)

theorem rd_two : Rnd.rd r (fin 2) = fin 2 := by simpa using hr.rd_nat (n := 2) (by norm_num)

theorem rd_neg (x : XF) : Rnd.rd r (-x) = -Rnd.rd r x := by
  cases x <;> try rfl
  exact hr.neg _

theorem rd_neg_nat {n : ℕ} (hn : n ≤ 2 ^ 53) : Rnd.rd r (fin (-n)) = fin (-n) := by
  rw [← fin_neg, hr.rd_neg, hr.rd_nat hn]

theorem rd_ge {n : ℕ} (hn : n ≤ 2 ^ 53) {x : XF} (h : fin n ≤ x) : fin n ≤ Rnd.rd r x := by
  rw [← hr.rd_nat hn]; exact hr.rd_mono h

theorem rd_le {n : ℕ} (hn : n ≤ 2 ^ 53) {x : XF} (h : x ≤ fin n) : Rnd.rd r x ≤ fin n := by
  rw [← hr.rd_nat hn]; exact hr.rd_mono h

theorem rd_ge_neg {n : ℕ} (hn : n ≤ 2 ^ 53) {x : XF} (h : fin (-n) ≤ x) : fin (-n) ≤ Rnd.rd r x := by
  rw [← hr.rd_neg_nat hn]; exact hr.rd_mono h

theorem rd_le_neg {n : ℕ} (hn : n ≤ 2 ^ 53) {x : XF} (h : x ≤ fin (-n)) : Rnd.rd r x ≤ fin (-n) := by
  rw [← hr.rd_neg_nat hn]; exact hr.rd_mono h

theorem rd_under {a : ℝ} (h0 : 0 ≤ a) (h : a ≤ 1 / 2 ^ 1075) : Rnd.rd r (fin a) = fin 0 :=
  hr.under (by rwa [abs_of_nonneg h0])

theorem rd_over {a : ℝ} (h : 2 ^ 1024 ≤ a) : Rnd.rd r (fin a) = pinf := hr.over h

/-- rounding loses at most one standard deviation, as long as the standard deviation is of ordinary size -/
theorem sub_ge {n : ℕ} (hn : n ≤ 2 ^ 20) {d σ : ℝ} (h1 : 1 / 2 ^ 1000 ≤ σ) (h2 : σ ≤ 2 ^ 1000)
    (h : (n + 1) * σ ≤ d) : fin (n * σ) ≤ r d := by
  have h0 : (0:ℝ) < σ := lt_of_lt_of_le (by positivity) h1
  have hn' : (n : ℝ) ≤ 2 ^ 20 := by exact_mod_cast hn
  have hn0 : (0:ℝ) ≤ n := Nat.cast_nonneg n
  have hb : |(n + 1) * σ| < 2 ^ 1023 := by
    rw [abs_of_nonneg (by positivity)]
    have e : (2:ℝ) ^ 1023 = 2 ^ 23 * 2 ^ 1000 := by rw [← pow_add]
    rw [e]
    exact size_aux hn0 hn' h0 h2 (by positivity)
  obtain ⟨δ, η, hδ, hη, e⟩ := hr.acc hb
  have hm := hr.mono h
  rw [e] at hm
  have ht : (1 : ℝ) / 2 ^ 1075 ≤ σ / 4 := by
    have : (1 : ℝ) / 2 ^ 1075 ≤ 1 / 2 ^ 1002 :=
      one_div_le_one_div_of_le (by positivity) (pow_le_pow_right₀ (by norm_num) (by norm_num))
    have e : (1 : ℝ) / 2 ^ 1002 = 1 / 2 ^ 1000 / 4 := by
      rw [show (1002 : ℕ) = 1000 + 2 by norm_num, pow_add]; ring
    rw [e] at this
    generalize (1 : ℝ) / 2 ^ 1000 = z at *
    generalize (1 : ℝ) / 2 ^ 1075 = w at *
    linarith
  have hu : (1 : ℝ) / 2 ^ 53 ≤ 1 / 2 ^ 33 := by norm_num
  have hle : n * σ ≤ (n + 1) * σ * (1 + δ) + η := by
    have a1 := (abs_le.1 (hδ.trans hu)).1
    have a2 := (abs_le.1 (hη.trans ht)).1
    have a3 : (n + 1) * σ * δ ≥ -((n + 1) * σ * (1 / 2 ^ 33)) := by
      have : 0 ≤ (n + 1) * σ := by positivity
      nlinarith
    have a4 : (n + 1) * σ * (1 / 2 ^ 33) ≤ σ / 4 := by
      have := mul_le_mul_of_nonneg_right (small_aux hn') h0.le
      calc (n + 1) * σ * (1 / 2 ^ 33) = (n + 1) * (1 / 2 ^ 33) * σ := by ring
        _ ≤ 1 / 4 * σ := this
        _ = σ / 4 := by ring
    have a5 : (n + 1) * σ * (1 + δ) = n * σ + σ + (n + 1) * σ * δ := by ring
    rw [a5]
    generalize (n + 1) * σ * (1 / 2 ^ 33) = q at *
    linarith
  cases hc : r d with
  | nan => exact absurd hc (hr.noNan d)
  | ninf => rw [hc] at hm; exact absurd hm (by simp)
  | pinf => simp
  | fin b =>
    rw [hc, fin_le] at hm
    rw [fin_le]; exact hle.trans hm

/-- … and gains at most one -/
theorem sub_le {n : ℕ} (hn : n ≤ 2 ^ 20) {d σ : ℝ} (h1 : 1 / 2 ^ 1000 ≤ σ) (h2 : σ ≤ 2 ^ 1000)
    (h : d ≤ n * σ) : r d ≤ fin ((n + 1) * σ) := by
  have h0 : (0:ℝ) < σ := lt_of_lt_of_le (by positivity) h1
  have hn' : (n : ℝ) ≤ 2 ^ 20 := by exact_mod_cast hn
  have hn0 : (0:ℝ) ≤ n := Nat.cast_nonneg n
  have hb : |n * σ| < 2 ^ 1023 := by
    rw [abs_of_nonneg (by positivity)]
    refine lt_of_le_of_lt (b := (n + 1) * σ) (mul_le_mul_of_nonneg_right (by simp) h0.le) ?_
    have e : (2:ℝ) ^ 1023 = 2 ^ 23 * 2 ^ 1000 := by rw [← pow_add]
    rw [e]
    exact size_aux hn0 hn' h0 h2 (by positivity)
  obtain ⟨δ, η, hδ, hη, e⟩ := hr.acc hb
  have hm := hr.mono h
  rw [e] at hm
  have ht : (1 : ℝ) / 2 ^ 1075 ≤ σ / 4 := by
    have : (1 : ℝ) / 2 ^ 1075 ≤ 1 / 2 ^ 1002 :=
      one_div_le_one_div_of_le (by positivity) (pow_le_pow_right₀ (by norm_num) (by norm_num))
    have e : (1 : ℝ) / 2 ^ 1002 = 1 / 2 ^ 1000 / 4 := by
      rw [show (1002 : ℕ) = 1000 + 2 by norm_num, pow_add]; ring
    rw [e] at this
    generalize (1 : ℝ) / 2 ^ 1000 = z at *
    generalize (1 : ℝ) / 2 ^ 1075 = w at *
    linarith
  have hu : (1 : ℝ) / 2 ^ 53 ≤ 1 / 2 ^ 33 := by norm_num
  have hle : n * σ * (1 + δ) + η ≤ (n + 1) * σ := by
    have a1 := (abs_le.1 (hδ.trans hu)).2
    have a2 := (abs_le.1 (hη.trans ht)).2
    have a3 : n * σ * δ ≤ n * σ * (1 / 2 ^ 33) := by
      have : 0 ≤ n * σ := by positivity
      nlinarith
    have a4 : n * σ * (1 / 2 ^ 33) ≤ σ / 4 := by
      have := mul_le_mul_of_nonneg_right (small_aux hn') h0.le
      calc n * σ * (1 / 2 ^ 33) ≤ (n + 1) * (1 / 2 ^ 33) * σ := by
            have : 0 ≤ 1 / 2 ^ 33 * σ := by positivity
            calc n * σ * (1 / 2 ^ 33) = n * (1 / 2 ^ 33 * σ) := by ring
              _ ≤ (n + 1) * (1 / 2 ^ 33 * σ) := mul_le_mul_of_nonneg_right (by simp) this
              _ = _ := by ring
        _ ≤ 1 / 4 * σ := this
        _ = σ / 4 := by ring
    have a5 : n * σ * (1 + δ) = n * σ + n * σ * δ := by ring
    rw [a5]
    generalize n * σ * (1 / 2 ^ 33) = q at *
    linarith
  cases hc : r d with
  | nan => exact absurd hc (hr.noNan d)
  | pinf => rw [hc] at hm; exact absurd hm (by simp)
  | ninf => simp
  | fin b =>
    rw [hc, fin_le] at hm
    rw [fin_le]; exact hm.trans hle

/-- a standardised observation at least `n + 1` scales above the location is at least `n` -/
theorem std_ge {n : ℕ} (hn : n ≤ 2 ^ 20) {y μ σ : ℝ} (h1 : 1 / 2 ^ 1000 ≤ σ) (h2 : σ ≤ 2 ^ 1000)
    (h : (n + 1) * σ ≤ y - μ) : fin n ≤ Rnd.std r (fin y) (fin μ) (fin σ) := by
  have h0 : (0:ℝ) < σ := lt_of_lt_of_le (by positivity) h1
  unfold Rnd.std
  apply hr.rd_ge (hn.trans (by norm_num))
  have := hr.sub_ge hn h1 h2 h
  rw [fin_sub]
  change fin n ≤ r (y - μ) / fin σ
  cases hc : r (y - μ) with
  | nan => exact absurd hc (hr.noNan _)
  | ninf => rw [hc] at this; exact absurd this (by simp)
  | pinf => rw [show (pinf : XF) / fin σ = pinf by simp [div_def, XF.div, h0.le]]; simp
  | fin b =>
    rw [hc, fin_le] at this
    rw [fin_div h0.ne', fin_le, le_div_iff₀ h0]; exact this

/-- … and at most `n + 1` if it is at most `n` scales above -/
theorem std_le {n : ℕ} (hn : n ≤ 2 ^ 20) {y μ σ : ℝ} (h1 : 1 / 2 ^ 1000 ≤ σ) (h2 : σ ≤ 2 ^ 1000)
    (h : y - μ ≤ n * σ) : Rnd.std r (fin y) (fin μ) (fin σ) ≤ fin (n + 1) := by
  have h0 : (0:ℝ) < σ := lt_of_lt_of_le (by positivity) h1
  unfold Rnd.std
  have := hr.rd_le (n := n + 1) (x := Rnd.rd r (fin y - fin μ) / fin σ)
    ((Nat.add_le_add_right hn 1).trans (by norm_num))
  push_cast at this
  apply this
  have := hr.sub_le hn h1 h2 h
  rw [fin_sub]
  change r (y - μ) / fin σ ≤ fin (n + 1)
  cases hc : r (y - μ) with
  | nan => exact absurd hc (hr.noNan _)
  | pinf => rw [hc] at this; exact absurd this (by simp)
  | ninf => rw [show (ninf : XF) / fin σ = ninf by simp [div_def, XF.div, h0.le]]; simp
  | fin b =>
    rw [hc, fin_le] at this
    rw [fin_div h0.ne', fin_le, div_le_iff₀ h0]; exact this

theorem std_swap (y μ σ : ℝ) : Rnd.std r (fin y) (fin μ) (fin σ) = -Rnd.std r (fin μ) (fin y) (fin σ) := by
  unfold Rnd.std
  rw [fin_sub, fin_sub, show y - μ = -(μ - y) by ring, ← fin_neg, hr.rd_neg]
  have : ∀ x : XF, -x / fin σ = -(x / fin σ) := by
    intro x
    cases x with
    | nan => rfl
    | pinf => rw [neg_pinf]; simp only [div_def, XF.div]; split_ifs <;> rfl
    | ninf => rw [neg_ninf]; simp only [div_def, XF.div]; split_ifs <;> rfl
    | fin b =>
      by_cases h : σ = 0
      · subst h
        simp only [fin_neg, fin_div_zero]
        rcases lt_trichotomy b 0 with hb | hb | hb
        · simp [hb, hb.ne, hb.le, hb.not_gt, neg_pinf, neg_ninf]
        · simp [hb]
        · simp [hb, hb.ne', hb.le, hb.not_gt, neg_pinf, neg_ninf]
      · rw [fin_neg, fin_div h, fin_div h, fin_neg, neg_div]
  rw [this, hr.rd_neg]

theorem std_le_neg {n : ℕ} (hn : n ≤ 2 ^ 20) {y μ σ : ℝ} (h1 : 1 / 2 ^ 1000 ≤ σ) (h2 : σ ≤ 2 ^ 1000)
    (h : (n + 1) * σ ≤ μ - y) : Rnd.std r (fin y) (fin μ) (fin σ) ≤ fin (-n) := by
  rw [hr.std_swap]
  have := hr.std_ge hn h1 h2 h
  cases hc : Rnd.std r (fin μ) (fin y) (fin σ) <;> simp_all [neg_pinf]

theorem std_ge_neg {n : ℕ} (hn : n ≤ 2 ^ 20) {y μ σ : ℝ} (h1 : 1 / 2 ^ 1000 ≤ σ) (h2 : σ ≤ 2 ^ 1000)
    (h : μ - y ≤ n * σ) : fin (-(n + 1)) ≤ Rnd.std r (fin y) (fin μ) (fin σ) := by
  rw [hr.std_swap]
  have := hr.std_le hn h1 h2 h
  cases hc : Rnd.std r (fin μ) (fin y) (fin σ) <;> simp_all [neg_ninf]

end Binary64

/-! ### powers of e -/

theorem exp_ge {n k : ℕ} (h : 2 ^ k * 10000 ^ n ≤ 27182 ^ n) {x : ℝ} (hx : (n : ℝ) ≤ x) :
    (2:ℝ) ^ k ≤ Real.exp x := by
  have h1 : (2.7182 : ℝ) < Real.exp 1 := lt_trans (by norm_num) Real.exp_one_gt_d9
  have h2 : Real.exp n = Real.exp 1 ^ n := by rw [← Real.exp_nat_mul, mul_one]
  have h3 : (2:ℝ) ^ k * 10000 ^ n ≤ 27182 ^ n := by exact_mod_cast h
  have h4 : (2.7182 : ℝ) = 27182 / 10000 := by norm_num
  calc (2:ℝ) ^ k ≤ 27182 ^ n / 10000 ^ n := by rwa [le_div_iff₀ (by positivity)]
    _ = 2.7182 ^ n := by rw [h4, div_pow]
    _ ≤ Real.exp 1 ^ n := pow_le_pow_left₀ (by norm_num) h1.le n
    _ = Real.exp n := h2.symm
    _ ≤ Real.exp x := Real.exp_le_exp.2 hx

theorem exp_neg_le {n k : ℕ} (h : 2 ^ k * 10000 ^ n ≤ 27182 ^ n) {x : ℝ} (hx : x ≤ -(n : ℝ)) :
    Real.exp x ≤ 1 / 2 ^ k := by
  have := exp_ge h (x := -x) (by linarith)
  rw [Real.exp_neg] at this
  rw [le_div_iff₀ (by positivity)]
  have h0 := Real.exp_pos x
  calc Real.exp x * 2 ^ k ≤ Real.exp x * (Real.exp x)⁻¹ := mul_le_mul_of_nonneg_left this h0.le
    _ = 1 := mul_inv_cancel₀ h0.ne'

theorem exp_le_pow {n : ℕ} {x : ℝ} (hx : x ≤ (n : ℝ)) : Real.exp x * 10000 ^ n ≤ 27183 ^ n := by
  have h1 : Real.exp 1 < 2.7183 := lt_trans Real.exp_one_lt_d9 (by norm_num)
  have h2 : Real.exp n = Real.exp 1 ^ n := by rw [← Real.exp_nat_mul, mul_one]
  have h4 : (2.7183 : ℝ) = 27183 / 10000 := by norm_num
  rw [← le_div_iff₀ (by positivity), ← div_pow, ← h4]
  calc Real.exp x ≤ Real.exp n := Real.exp_le_exp.2 hx
    _ = Real.exp 1 ^ n := h2
    _ ≤ 2.7183 ^ n := pow_le_pow_left₀ (Real.exp_pos 1).le h1.le n

theorem exp_lt {n k : ℕ} (h : 27183 ^ n < 2 ^ k * 10000 ^ n) {x : ℝ} (hx : x ≤ (n : ℝ)) :
    Real.exp x < (2:ℝ) ^ k := by
  have h3 : (27183:ℝ) ^ n < 2 ^ k * 10000 ^ n := by exact_mod_cast h
  have := (exp_le_pow hx).trans_lt h3
  exact lt_of_mul_lt_mul_right this (by positivity)

theorem exp_neg_ge {n k : ℕ} (h : 27183 ^ n ≤ 2 ^ k * 10000 ^ n) {x : ℝ} (hx : -(n : ℝ) ≤ x) :
    1 / (2:ℝ) ^ k ≤ Real.exp x := by
  have h3 : (27183:ℝ) ^ n ≤ 2 ^ k * 10000 ^ n := by exact_mod_cast h
  have := (exp_le_pow (x := -x) (n := n) (by linarith)).trans h3
  have h5 : Real.exp (-x) ≤ 2 ^ k := le_of_mul_le_mul_right this (by positivity)
  rw [Real.exp_neg] at h5
  rw [div_le_iff₀ (by positivity)]
  have h0 := Real.exp_pos x
  calc (1:ℝ) = Real.exp x * (Real.exp x)⁻¹ := (mul_inv_cancel₀ h0.ne').symm
    _ ≤ Real.exp x * 2 ^ k := mul_le_mul_of_nonneg_left h5 h0.le

/-- the exponential underflows -/
theorem Binary64.exp_under {r : ℝ → XF} (hr : Binary64 r) {x : XF} (h : x ≤ fin (-746)) :
    Rnd.rd r (XF.exp x) = fin 0 := by
  cases x with
  | nan => exact absurd h (by simp)
  | pinf => exact absurd h (by simp)
  | ninf => exact hr.rd_zero
  | fin a =>
    rw [fin_le] at h
    exact hr.rd_under (Real.exp_pos a).le (exp_neg_le nat_746 (by exact_mod_cast h))

/-- the exponential overflows -/
theorem Binary64.exp_over {r : ℝ → XF} (hr : Binary64 r) {x : XF} (h : fin 710 ≤ x) :
    Rnd.rd r (XF.exp x) = pinf := by
  cases x with
  | nan => exact absurd h (by simp)
  | ninf => exact absurd h (by simp)
  | pinf => rfl
  | fin a =>
    rw [fin_le] at h
    exact hr.rd_over (exp_ge nat_710 (by exact_mod_cast h))

end Verif
