import Verif.Lemmas.Nearest32
import Verif.Lemmas.Rounding

/-!
A rounding function with the properties `Nearest64`: round to nearest, with ties away from zero for normal numbers and
towards zero for the numbers below them.
-/

noncomputable section

open scoped Classical

namespace Verif

open XF Spec

/-- rounding of a nonnegative number to 53 binary digits, or to a multiple of `2 ^ -1074` -/
def mag64 (x : ℝ) : ℝ :=
  if x < (2:ℝ) ^ (-1022 : ℤ) then ⌈x / (2:ℝ) ^ (-1074 : ℤ) - 1 / 2⌉ * (2:ℝ) ^ (-1074 : ℤ)
  else ⌊x / (2:ℝ) ^ (Int.log 2 x - 52) + 1 / 2⌋ * (2:ℝ) ^ (Int.log 2 x - 52)

/-- half way between the largest binary64 number and `2 ^ 1024` -/
def top64 : ℝ := 2 ^ 1024 - 2 ^ 970

/-- rounding to nearest in binary64 -/
def rn64 (a : ℝ) : XF :=
  if top64 ≤ a then pinf else if a ≤ -top64 then ninf else
  if 0 ≤ a then fin (mag64 a) else fin (-mag64 (-a))

theorem tiny64_pos : (0:ℝ) < (2:ℝ) ^ (-1022 : ℤ) := two_zpow_pos _

theorem mag64_eq {x : ℝ} {e : ℤ} (he : -1022 ≤ e) (h1 : (2:ℝ) ^ e ≤ x) (h2 : x < (2:ℝ) ^ (e + 1)) :
    mag64 x = ⌊x / (2:ℝ) ^ (e - 52) + 1 / 2⌋ * (2:ℝ) ^ (e - 52) := by
  unfold mag64
  rw [log2_of h1 h2, if_neg]
  rw [not_lt]
  exact (zpow_le_zpow_right₀ (by norm_num) he).trans h1

theorem mag64_err {x : ℝ} {e : ℤ} (he : -1022 ≤ e) (h1 : (2:ℝ) ^ e ≤ x) (h2 : x < (2:ℝ) ^ (e + 1)) :
    |x - mag64 x| ≤ (2:ℝ) ^ (e - 53) := by
  rw [mag64_eq he h1 h2]
  have hu := two_zpow_pos (e - 52)
  have e1 : (2:ℝ) ^ (e - 53) = (2:ℝ) ^ (e - 52) * (1 / 2) := by
    rw [show e - 53 = e - 52 - 1 by ring, zpow_sub_one₀ two_ne_zero]; ring
  have := floor_half_le (x / (2:ℝ) ^ (e - 52))
  rw [e1]
  calc |x - (⌊x / (2:ℝ) ^ (e - 52) + 1 / 2⌋ : ℝ) * (2:ℝ) ^ (e - 52)|
      = |(2:ℝ) ^ (e - 52) * (x / (2:ℝ) ^ (e - 52) - (⌊x / (2:ℝ) ^ (e - 52) + 1 / 2⌋ : ℝ))| := by
        congr 1; field_simp
    _ = (2:ℝ) ^ (e - 52) * |x / (2:ℝ) ^ (e - 52) - (⌊x / (2:ℝ) ^ (e - 52) + 1 / 2⌋ : ℝ)| := by
        rw [abs_mul, abs_of_pos hu]
    _ ≤ (2:ℝ) ^ (e - 52) * (1 / 2) := mul_le_mul_of_nonneg_left this hu.le

/-- a multiple of the grid size between the powers of two is kept -/
theorem mag64_grid {e : ℤ} (he : -1022 ≤ e) {n : ℤ} (h1 : 2 ^ 52 ≤ n) (h2 : n < 2 ^ 53) :
    mag64 (n * (2:ℝ) ^ (e - 52)) = n * (2:ℝ) ^ (e - 52) := by
  have hu := two_zpow_pos (e - 52)
  have h1' : (2:ℝ) ^ 52 ≤ n := by exact_mod_cast h1
  have h2' : (n:ℝ) < 2 ^ 53 := by exact_mod_cast h2
  have e1 : (2:ℝ) ^ e = 2 ^ 52 * (2:ℝ) ^ (e - 52) := by
    rw [← zpow_natCast, ← zpow_add₀ two_ne_zero]; congr 1; push_cast; ring
  have e2 : (2:ℝ) ^ (e + 1) = 2 ^ 53 * (2:ℝ) ^ (e - 52) := by
    rw [← zpow_natCast, ← zpow_add₀ two_ne_zero]; congr 1; push_cast; ring
  rw [mag64_eq he (by rw [e1]; exact mul_le_mul_of_nonneg_right h1' hu.le)
    (by rw [e2]; exact mul_lt_mul_of_pos_right h2' hu), mul_div_cancel_right₀ _ hu.ne']
  have : ⌊(n:ℝ) + 1 / 2⌋ = n := by
    rw [Int.floor_eq_iff]; constructor <;> linarith
  rw [this]

theorem mag64_bounds {x : ℝ} {e : ℤ} (he : -1022 ≤ e) (h1 : (2:ℝ) ^ e ≤ x) (h2 : x < (2:ℝ) ^ (e + 1)) :
    (2:ℝ) ^ e ≤ mag64 x ∧ mag64 x ≤ (2:ℝ) ^ (e + 1) := by
  have hu := two_zpow_pos (e - 52)
  have e1 : (2:ℝ) ^ e = 2 ^ 52 * (2:ℝ) ^ (e - 52) := by
    rw [← zpow_natCast, ← zpow_add₀ two_ne_zero]; congr 1; push_cast; ring
  have e2 : (2:ℝ) ^ (e + 1) = 2 ^ 53 * (2:ℝ) ^ (e - 52) := by
    rw [← zpow_natCast, ← zpow_add₀ two_ne_zero]; congr 1; push_cast; ring
  rw [mag64_eq he h1 h2, e1, e2]
  rw [e1] at h1
  rw [e2] at h2
  have q1 : (2:ℝ) ^ 52 ≤ x / (2:ℝ) ^ (e - 52) := by rwa [le_div_iff₀ hu]
  have q2 : x / (2:ℝ) ^ (e - 52) < 2 ^ 53 := by rwa [div_lt_iff₀ hu]
  have f1 : (2 ^ 52 : ℤ) ≤ ⌊x / (2:ℝ) ^ (e - 52) + 1 / 2⌋ := by
    rw [Int.le_floor]; push_cast; linarith
  have f2 : ⌊x / (2:ℝ) ^ (e - 52) + 1 / 2⌋ ≤ (2 ^ 53 : ℤ) := by
    have : ⌊x / (2:ℝ) ^ (e - 52) + 1 / 2⌋ < (2 ^ 53 + 1 : ℤ) := by
      rw [Int.floor_lt]; push_cast; linarith
    omega
  have g1 : (2 ^ 52 : ℝ) ≤ (⌊x / (2:ℝ) ^ (e - 52) + 1 / 2⌋ : ℝ) := by exact_mod_cast f1
  have g2 : (⌊x / (2:ℝ) ^ (e - 52) + 1 / 2⌋ : ℝ) ≤ (2 ^ 53 : ℝ) := by exact_mod_cast f2
  exact ⟨mul_le_mul_of_nonneg_right g1 hu.le, mul_le_mul_of_nonneg_right g2 hu.le⟩

theorem binade64 {x : ℝ} (h : (2:ℝ) ^ (-1022 : ℤ) ≤ x) :
    -1022 ≤ Int.log 2 x ∧ (2:ℝ) ^ Int.log 2 x ≤ x ∧ x < (2:ℝ) ^ (Int.log 2 x + 1) := by
  have h0 : 0 < x := tiny64_pos.trans_le h
  exact ⟨(Int.zpow_le_iff_le_log (by norm_num) h0).1 (by exact_mod_cast h), log2_le h0, lt_log2 x⟩

theorem ulp64_pos : (0:ℝ) < (2:ℝ) ^ (-1074 : ℤ) := two_zpow_pos _

theorem tiny64_eq : (2:ℝ) ^ (-1022 : ℤ) = 2 ^ 52 * (2:ℝ) ^ (-1074 : ℤ) := by
  rw [← zpow_natCast, ← zpow_add₀ two_ne_zero]; congr 1

theorem mag64_sub {x : ℝ} (h : x < (2:ℝ) ^ (-1022 : ℤ)) :
    mag64 x = ⌈x / (2:ℝ) ^ (-1074 : ℤ) - 1 / 2⌉ * (2:ℝ) ^ (-1074 : ℤ) := by
  unfold mag64; rw [if_pos h]

theorem mag64_small {x : ℝ} (h0 : 0 ≤ x) (h : x ≤ (2:ℝ) ^ (-1074 : ℤ) / 2) : mag64 x = 0 := by
  have hu := ulp64_pos
  have e := tiny64_eq
  have hx : x < (2:ℝ) ^ (-1022 : ℤ) := by
    rw [e]; generalize (2:ℝ) ^ (-1074 : ℤ) = u at *; norm_num; linarith
  rw [mag64_sub hx]
  have : ⌈x / (2:ℝ) ^ (-1074 : ℤ) - 1 / 2⌉ = 0 := by
    have q1 : x / (2:ℝ) ^ (-1074 : ℤ) ≤ 1 / 2 := by rw [div_le_iff₀ hu]; linarith
    have q0 : 0 ≤ x / (2:ℝ) ^ (-1074 : ℤ) := by positivity
    rw [Int.ceil_eq_iff]
    push_cast
    constructor <;> linarith
  rw [this]; simp

theorem mag64_zero : mag64 0 = 0 := mag64_small le_rfl (by have := ulp64_pos; linarith)

theorem mag64_sub_bounds {x : ℝ} (h0 : 0 ≤ x) (h : x < (2:ℝ) ^ (-1022 : ℤ)) :
    0 ≤ mag64 x ∧ mag64 x ≤ (2:ℝ) ^ (-1022 : ℤ) ∧ |x - mag64 x| ≤ (2:ℝ) ^ (-1074 : ℤ) / 2 := by
  rw [mag64_sub h]
  rw [tiny64_eq] at h ⊢
  have hu := ulp64_pos
  generalize (2:ℝ) ^ (-1074 : ℤ) = u at *
  have q0 : 0 ≤ x / u := by positivity
  have q2 : x / u < 2 ^ 52 := by rwa [div_lt_iff₀ hu]
  have f0 : 0 ≤ ⌈x / u - 1 / 2⌉ := by
    have : -1 < ⌈x / u - 1 / 2⌉ := by rw [Int.lt_ceil]; push_cast; linarith
    omega
  have f1 : ⌈x / u - 1 / 2⌉ ≤ 2 ^ 52 := by rw [Int.ceil_le]; push_cast; linarith
  have g0 : (0:ℝ) ≤ (⌈x / u - 1 / 2⌉ : ℝ) := by exact_mod_cast f0
  have g1 : (⌈x / u - 1 / 2⌉ : ℝ) ≤ 2 ^ 52 := by exact_mod_cast f1
  have c1 := Int.le_ceil (x / u - 1 / 2)
  have c2 := Int.ceil_lt_add_one (x / u - 1 / 2)
  have ex : x = x / u * u := by field_simp
  refine ⟨mul_nonneg g0 hu.le, mul_le_mul_of_nonneg_right g1 hu.le, ?_⟩
  generalize (⌈x / u - 1 / 2⌉ : ℝ) = c at *
  generalize x / u = q at *
  rw [ex, ← sub_mul, abs_mul, abs_of_pos hu]
  have : |q - c| ≤ 1 / 2 := by rw [abs_le]; constructor <;> linarith
  nlinarith

theorem mag64_nonneg {x : ℝ} (h0 : 0 ≤ x) : 0 ≤ mag64 x := by
  by_cases h : x < (2:ℝ) ^ (-1022 : ℤ)
  · exact (mag64_sub_bounds h0 h).1
  · obtain ⟨a, b, c⟩ := binade64 (not_lt.1 h)
    exact (two_zpow_pos _).le.trans (mag64_bounds a b c).1

theorem mag64_mono {x y : ℝ} (h0 : 0 ≤ x) (h : x ≤ y) : mag64 x ≤ mag64 y := by
  by_cases hx : x < (2:ℝ) ^ (-1022 : ℤ)
  · by_cases hy : y < (2:ℝ) ^ (-1022 : ℤ)
    · rw [mag64_sub hx, mag64_sub hy]
      have hu := ulp64_pos
      apply mul_le_mul_of_nonneg_right _ hu.le
      have : ⌈x / (2:ℝ) ^ (-1074 : ℤ) - 1 / 2⌉ ≤ ⌈y / (2:ℝ) ^ (-1074 : ℤ) - 1 / 2⌉ :=
        Int.ceil_le_ceil (by have := div_le_div_of_nonneg_right h hu.le; linarith)
      exact_mod_cast this
    · obtain ⟨a', b', c'⟩ := binade64 (not_lt.1 hy)
      refine (mag64_sub_bounds h0 hx).2.1.trans (le_trans ?_ (mag64_bounds a' b' c').1)
      exact zpow_le_zpow_right₀ (by norm_num) a'
  · obtain ⟨a, b, c⟩ := binade64 (not_lt.1 hx)
    have hy := (not_lt.1 hx).trans h
    obtain ⟨a', b', c'⟩ := binade64 hy
    have hl : Int.log 2 x ≤ Int.log 2 y := Int.log_mono_right (tiny64_pos.trans_le (not_lt.1 hx)) h
    rcases hl.eq_or_lt with e | e
    · rw [mag64_eq a b c, mag64_eq a' b' c', e]
      have hu := two_zpow_pos (Int.log 2 y - 52)
      apply mul_le_mul_of_nonneg_right _ hu.le
      have : ⌊x / (2:ℝ) ^ (Int.log 2 y - 52) + 1 / 2⌋ ≤ ⌊y / (2:ℝ) ^ (Int.log 2 y - 52) + 1 / 2⌋ :=
        Int.floor_le_floor (by have := div_le_div_of_nonneg_right h hu.le; linarith)
      exact_mod_cast this
    · refine (mag64_bounds a b c).2.trans (le_trans ?_ (mag64_bounds a' b' c').1)
      exact zpow_le_zpow_right₀ (by norm_num) (by omega)

theorem mag64_nat {n : ℕ} (hn : n ≤ 2 ^ 53) : mag64 n = n := by
  rcases Nat.eq_zero_or_pos n with rfl | h
  · rw [Nat.cast_zero, mag64_zero]
  have h1 : (1:ℝ) ≤ n := by exact_mod_cast h
  have ht : (2:ℝ) ^ (-1022 : ℤ) ≤ n := le_trans (zpow_le_one_of_nonpos₀ (by norm_num) (by norm_num)) h1
  obtain ⟨a, b, c⟩ := binade64 ht
  rcases hn.eq_or_lt with rfl | hlt
  · have e1 : ((2 ^ 53 : ℕ) : ℝ) = ((2 ^ 52 : ℤ) : ℝ) * (2:ℝ) ^ ((53 : ℤ) - 52) := by norm_num
    rw [e1]
    exact mag64_grid (by norm_num) le_rfl (by norm_num)
  · have l0 : 0 ≤ Int.log 2 (n:ℝ) := (Int.zpow_le_iff_le_log (by norm_num) (by linarith)).1 (by simpa using h1)
    have l1 : Int.log 2 (n:ℝ) < 53 := (Int.lt_zpow_iff_log_lt (by norm_num) (by linarith)).1 (by
      have : (n:ℝ) < 2 ^ 53 := by exact_mod_cast hlt
      exact_mod_cast this)
    generalize Int.log 2 (n:ℝ) = e at *
    obtain ⟨k, hk⟩ := Int.eq_ofNat_of_zero_le (show 0 ≤ 52 - e by omega)
    have e1 : (n:ℝ) = (((n * 2 ^ k : ℕ) : ℤ) : ℝ) * (2:ℝ) ^ (e - 52) := by
      push_cast
      rw [show e - 52 = -(k:ℤ) by omega, zpow_neg, zpow_natCast]
      field_simp
    have m1 : (2:ℝ) ^ 52 ≤ (n * 2 ^ k : ℝ) := by
      have : (2:ℝ) ^ 52 = (2:ℝ) ^ e * 2 ^ k := by
        rw [← zpow_natCast, ← zpow_natCast, ← zpow_add₀ two_ne_zero]; congr 1; push_cast; omega
      rw [this]
      exact mul_le_mul_of_nonneg_right b (by positivity)
    have m2 : (n * 2 ^ k : ℝ) < 2 ^ 53 := by
      have : (2:ℝ) ^ 53 = (2:ℝ) ^ (e + 1) * 2 ^ k := by
        rw [← zpow_natCast, ← zpow_natCast, ← zpow_add₀ two_ne_zero]; congr 1; push_cast; omega
      rw [this]
      exact mul_lt_mul_of_pos_right c (by positivity)
    rw [e1]
    exact mag64_grid a (by exact_mod_cast m1) (by exact_mod_cast m2)

theorem huge64 : (2:ℝ) ^ 1023 < top64 := by
  have h : (2:ℝ) ^ 970 < 2 ^ 1023 := pow_lt_pow_right₀ (by norm_num) (by norm_num)
  have e : (2:ℝ) ^ 1024 = 2 * 2 ^ 1023 := by rw [← pow_succ']
  unfold top64
  rw [e]
  generalize (2:ℝ) ^ 1023 = A at *
  generalize (2:ℝ) ^ 970 = B at *
  linarith

theorem top64_le : top64 ≤ 2 ^ 1024 := by
  have : (0:ℝ) < 2 ^ 970 := by positivity
  unfold top64
  generalize (2:ℝ) ^ 1024 = A at *
  generalize (2:ℝ) ^ 970 = B at *
  linarith

theorem top64_big : (2:ℝ) ^ 60 < top64 :=
  (pow_lt_pow_right₀ (by norm_num) (by norm_num)).trans huge64

theorem top64_pos : 0 < top64 := lt_trans (by positivity) top64_big

theorem ulp64_half : (2:ℝ) ^ (-1074 : ℤ) / 2 = 1 / 2 ^ 1075 := by
  rw [zpow_neg, pow_succ, one_div, mul_inv]; norm_cast

theorem rn64_pos {a : ℝ} (h0 : 0 ≤ a) (h : a < top64) : rn64 a = fin (mag64 a) := by
  have h5 := top64_pos
  unfold rn64
  rw [if_neg h.not_ge, if_neg (by rw [not_le]; linarith), if_pos h0]

theorem rn64_odd (a : ℝ) : rn64 (-a) = -rn64 a := by
  have hM := top64_pos
  unfold rn64
  generalize top64 = M at *
  by_cases h1 : M ≤ a
  · rw [if_neg (by linarith), if_pos (by linarith), if_pos h1]; rfl
  · by_cases h2 : a ≤ -M
    · rw [if_pos (by linarith), if_neg h1, if_pos h2]; rfl
    · rw [if_neg (by intro h; exact h2 (by linarith)), if_neg (by intro h; exact h1 (by linarith)), if_neg h1, if_neg h2]
      rcases lt_trichotomy a 0 with h | h | h
      · rw [if_pos (by linarith), if_neg h.not_ge, fin_neg, neg_neg]
      · subst h
        rw [neg_zero, if_pos le_rfl, if_pos le_rfl, mag64_zero, fin_neg, neg_zero]
      · rw [if_neg (by linarith), if_pos h.le, neg_neg, fin_neg]

theorem rn64_mono_pos {a b : ℝ} (h0 : 0 ≤ a) (h : a ≤ b) : rn64 a ≤ rn64 b := by
  by_cases hb : top64 ≤ b
  · have : rn64 b = pinf := by unfold rn64; rw [if_pos hb]
    rw [this]
    by_cases ha : top64 ≤ a
    · unfold rn64; rw [if_pos ha]; simp
    · rw [rn64_pos h0 (not_le.1 ha)]; simp
  · rw [rn64_pos h0 (h.trans_lt (not_le.1 hb)), rn64_pos (h0.trans h) (not_le.1 hb), fin_le]
    exact mag64_mono h0 h

theorem rn64_nearest : Nearest64 rn64 where
  noNan a := by unfold rn64; split_ifs <;> simp
  mono := by
    intro a b h
    rcases le_total 0 a with ha | ha
    · exact rn64_mono_pos ha h
    · rcases le_total 0 b with hb | hb
      · have z : rn64 0 = fin 0 := by
          rw [rn64_pos le_rfl top64_pos, mag64_zero]
        have h1 := rn64_mono_pos le_rfl hb
        have h2 := rn64_mono_pos le_rfl (neg_nonneg.2 ha)
        rw [rn64_odd] at h2
        rw [z] at h1 h2
        cases hc : rn64 a <;> cases hd : rn64 b <;> simp_all [neg_pinf, neg_ninf]
        linarith
      · have h1 := rn64_mono_pos (neg_nonneg.2 hb) (neg_le_neg h)
        rw [rn64_odd, rn64_odd] at h1
        cases hc : rn64 a <;> cases hd : rn64 b <;> simp_all [neg_pinf, neg_ninf]
  neg := rn64_odd
  nat n hn := by
    have : (n:ℝ) ≤ 2 ^ 53 := by exact_mod_cast hn
    have h2 : (2:ℝ) ^ 53 < top64 := lt_trans (by norm_num) top64_big
    rw [rn64_pos (Nat.cast_nonneg n) (this.trans_lt h2), mag64_nat hn]
  acc := by
    have key : ∀ a : ℝ, 0 ≤ a → a < 2 ^ 1023 →
        ∃ δ η : ℝ, |δ| ≤ 1 / 2 ^ 53 ∧ |η| ≤ 1 / 2 ^ 1075 ∧ rn64 a = fin (a * (1 + δ) + η) := by
      intro a h0 h
      rw [rn64_pos h0 (h.trans huge64)]
      by_cases ht : a < (2:ℝ) ^ (-1022 : ℤ)
      · refine ⟨0, mag64 a - a, by simp, ?_, ?_⟩
        · rw [abs_sub_comm, ← ulp64_half]; exact (mag64_sub_bounds h0 ht).2.2
        · congr 1; ring
      · obtain ⟨p, q, s⟩ := binade64 (not_lt.1 ht)
        have e1 := mag64_err p q s
        have ha : 0 < a := tiny64_pos.trans_le (not_lt.1 ht)
        refine ⟨(mag64 a - a) / a, 0, ?_, by simp, ?_⟩
        · rw [abs_div, abs_of_pos ha, div_le_iff₀ ha, abs_sub_comm]
          refine e1.trans ?_
          have : (2:ℝ) ^ (Int.log 2 a - 53) = 1 / 2 ^ 53 * (2:ℝ) ^ Int.log 2 a := by
            rw [zpow_sub₀ two_ne_zero]; norm_cast; ring
          rw [this]
          exact mul_le_mul_of_nonneg_left q (by positivity)
        · congr 1; field_simp; ring
    intro a h
    rcases le_total 0 a with h0 | h0
    · exact key a h0 (by rwa [abs_of_nonneg h0] at h)
    · obtain ⟨δ, η, h1, h2, h3⟩ := key (-a) (by linarith) (by rwa [abs_of_nonpos h0] at h)
      refine ⟨δ, -η, h1, by rwa [abs_neg], ?_⟩
      have := rn64_odd (-a)
      rw [neg_neg, h3, fin_neg] at this
      rw [this]; congr 1; ring
  under := by
    have key : ∀ a : ℝ, 0 ≤ a → a ≤ 1 / 2 ^ 1075 → rn64 a = fin 0 := by
      intro a h0 h
      rw [rn64_pos h0 (lt_of_le_of_lt (h.trans tiny_small) (lt_trans (by norm_num) top64_big)),
        mag64_small h0 (by rwa [ulp64_half])]
    intro a h
    rcases le_total 0 a with h0 | h0
    · exact key a h0 (by rwa [abs_of_nonneg h0] at h)
    · have := rn64_odd (-a)
      rw [neg_neg, key (-a) (by linarith) (by rwa [abs_of_nonpos h0] at h), fin_neg, neg_zero] at this
      exact this
  over := by
    intro a h
    unfold rn64
    rw [if_pos (top64_le.trans h)]
  one := by
    intro a h
    have h' := abs_le.1 h
    norm_num at h'
    rw [rn64_pos (by linarith) (lt_of_le_of_lt (b := 2) (by linarith) (lt_trans (by norm_num) top64_big))]
    congr 1
    rcases lt_or_ge a 1 with h1 | h1
    · rw [mag64_eq (e := -1) (by norm_num) (by norm_num; linarith) (by norm_num; exact h1)]
      have : ⌊a / (2:ℝ) ^ ((-1:ℤ) - 52) + 1 / 2⌋ = 2 ^ 53 := by
        rw [Int.floor_eq_iff]
        norm_num
        constructor <;> linarith
      rw [this]; norm_num
    · rw [mag64_eq (e := 0) (by norm_num) (by norm_num; exact h1) (by norm_num; linarith)]
      have : ⌊a / (2:ℝ) ^ ((0:ℤ) - 52) + 1 / 2⌋ = 2 ^ 52 := by
        rw [Int.floor_eq_iff]
        norm_num
        constructor <;> linarith
      rw [this]; norm_num
  grid := by
    intro a e h1 h2 h3 h4
    have h0 : 0 ≤ a := (two_zpow_pos e).le.trans h3
    have hlt : a < top64 := by
      refine lt_trans (lt_of_lt_of_le h4 ?_) huge64
      have := zpow_le_zpow_right₀ (a := (2:ℝ)) (by norm_num) (show e + 1 ≤ ((1023:ℕ):ℤ) by push_cast; omega)
      rwa [zpow_natCast] at this
    have := mag64_err h1 h3 h4
    rw [mag64_eq h1 h3 h4] at this
    exact ⟨_, by rw [rn64_pos h0 hlt, mag64_eq h1 h3 h4], this⟩

end Verif
