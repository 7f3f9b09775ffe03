import Verif.Lemmas.Rounding32
import Mathlib.Data.Int.Log

/-!
A rounding function with the properties `Nearest32`: round to nearest, ties away from zero, with numbers below the
smallest normal number flushed to zero.
-/

noncomputable section

open scoped Classical

namespace Verif

open XF Spec

/-- rounding of a nonnegative number to 24 binary digits -/
def mag32 (x : ℝ) : ℝ :=
  if x < (2:ℝ) ^ (-126 : ℤ) then 0
  else ⌊x / (2:ℝ) ^ (Int.log 2 x - 23) + 1 / 2⌋ * (2:ℝ) ^ (Int.log 2 x - 23)

/-- rounding to nearest in binary32 -/
def rn32 (a : ℝ) : XF :=
  if 2 ^ 128 - 2 ^ 103 ≤ a then pinf else if a ≤ -(2 ^ 128 - 2 ^ 103) then ninf else
  if 0 ≤ a then fin (mag32 a) else fin (-mag32 (-a))

theorem two_zpow_pos (e : ℤ) : (0:ℝ) < (2:ℝ) ^ e := by positivity

theorem log2_of {x : ℝ} {e : ℤ} (h1 : (2:ℝ) ^ e ≤ x) (h2 : x < (2:ℝ) ^ (e + 1)) : Int.log 2 x = e := by
  have h0 : 0 < x := lt_of_lt_of_le (two_zpow_pos e) h1
  have a1 : e ≤ Int.log 2 x := (Int.zpow_le_iff_le_log (by norm_num) h0).1 (by exact_mod_cast h1)
  have a2 : Int.log 2 x < e + 1 := (Int.lt_zpow_iff_log_lt (by norm_num) h0).1 (by exact_mod_cast h2)
  omega

theorem log2_le {x : ℝ} (h0 : 0 < x) : (2:ℝ) ^ Int.log 2 x ≤ x := by
  have := Int.zpow_log_le_self (b := 2) (by norm_num) h0
  exact_mod_cast this

theorem lt_log2 (x : ℝ) : x < (2:ℝ) ^ (Int.log 2 x + 1) := by
  have := Int.lt_zpow_succ_log_self (b := 2) (by norm_num) x
  exact_mod_cast this

theorem tiny_pos : (0:ℝ) < (2:ℝ) ^ (-126 : ℤ) := two_zpow_pos _

theorem mag32_eq {x : ℝ} {e : ℤ} (he : -126 ≤ e) (h1 : (2:ℝ) ^ e ≤ x) (h2 : x < (2:ℝ) ^ (e + 1)) :
    mag32 x = ⌊x / (2:ℝ) ^ (e - 23) + 1 / 2⌋ * (2:ℝ) ^ (e - 23) := by
  unfold mag32
  rw [log2_of h1 h2, if_neg]
  rw [not_lt]
  exact (zpow_le_zpow_right₀ (by norm_num) he).trans h1

theorem floor_half_le (q : ℝ) : |q - (⌊q + 1 / 2⌋ : ℝ)| ≤ 1 / 2 := by
  have a := Int.floor_le (q + 1 / 2)
  have b := Int.lt_floor_add_one (q + 1 / 2)
  rw [abs_le]; constructor <;> linarith

theorem mag32_err {x : ℝ} {e : ℤ} (he : -126 ≤ e) (h1 : (2:ℝ) ^ e ≤ x) (h2 : x < (2:ℝ) ^ (e + 1)) :
    |x - mag32 x| ≤ (2:ℝ) ^ (e - 24) := by
  rw [mag32_eq he h1 h2]
  have hu := two_zpow_pos (e - 23)
  have e1 : (2:ℝ) ^ (e - 24) = (2:ℝ) ^ (e - 23) * (1 / 2) := by
    rw [show e - 24 = e - 23 - 1 by ring, zpow_sub_one₀ two_ne_zero]; ring
  have := floor_half_le (x / (2:ℝ) ^ (e - 23))
  rw [e1]
  calc |x - (⌊x / (2:ℝ) ^ (e - 23) + 1 / 2⌋ : ℝ) * (2:ℝ) ^ (e - 23)|
      = |(2:ℝ) ^ (e - 23) * (x / (2:ℝ) ^ (e - 23) - (⌊x / (2:ℝ) ^ (e - 23) + 1 / 2⌋ : ℝ))| := by
        congr 1; field_simp
    _ = (2:ℝ) ^ (e - 23) * |x / (2:ℝ) ^ (e - 23) - (⌊x / (2:ℝ) ^ (e - 23) + 1 / 2⌋ : ℝ)| := by
        rw [abs_mul, abs_of_pos hu]
    _ ≤ (2:ℝ) ^ (e - 23) * (1 / 2) := mul_le_mul_of_nonneg_left this hu.le

/-- a multiple of the grid size between the powers of two is kept -/
theorem mag32_grid {e : ℤ} (he : -126 ≤ e) {n : ℤ} (h1 : 2 ^ 23 ≤ n) (h2 : n < 2 ^ 24) :
    mag32 (n * (2:ℝ) ^ (e - 23)) = n * (2:ℝ) ^ (e - 23) := by
  have hu := two_zpow_pos (e - 23)
  have h1' : (2:ℝ) ^ 23 ≤ n := by exact_mod_cast h1
  have h2' : (n:ℝ) < 2 ^ 24 := by exact_mod_cast h2
  have e1 : (2:ℝ) ^ e = 2 ^ 23 * (2:ℝ) ^ (e - 23) := by
    rw [← zpow_natCast, ← zpow_add₀ two_ne_zero]; congr 1; push_cast; ring
  have e2 : (2:ℝ) ^ (e + 1) = 2 ^ 24 * (2:ℝ) ^ (e - 23) := by
    rw [← zpow_natCast, ← zpow_add₀ two_ne_zero]; congr 1; push_cast; ring
  rw [mag32_eq he (by rw [e1]; exact mul_le_mul_of_nonneg_right h1' hu.le)
    (by rw [e2]; exact mul_lt_mul_of_pos_right h2' hu), mul_div_cancel_right₀ _ hu.ne']
  have : ⌊(n:ℝ) + 1 / 2⌋ = n := by
    rw [Int.floor_eq_iff]; constructor <;> linarith
  rw [this]

theorem mag32_bounds {x : ℝ} {e : ℤ} (he : -126 ≤ e) (h1 : (2:ℝ) ^ e ≤ x) (h2 : x < (2:ℝ) ^ (e + 1)) :
    (2:ℝ) ^ e ≤ mag32 x ∧ mag32 x ≤ (2:ℝ) ^ (e + 1) := by
  have hu := two_zpow_pos (e - 23)
  have e1 : (2:ℝ) ^ e = 2 ^ 23 * (2:ℝ) ^ (e - 23) := by
    rw [← zpow_natCast, ← zpow_add₀ two_ne_zero]; congr 1; push_cast; ring
  have e2 : (2:ℝ) ^ (e + 1) = 2 ^ 24 * (2:ℝ) ^ (e - 23) := by
    rw [← zpow_natCast, ← zpow_add₀ two_ne_zero]; congr 1; push_cast; ring
  rw [mag32_eq he h1 h2, e1, e2]
  rw [e1] at h1
  rw [e2] at h2
  have q1 : (2:ℝ) ^ 23 ≤ x / (2:ℝ) ^ (e - 23) := by rwa [le_div_iff₀ hu]
  have q2 : x / (2:ℝ) ^ (e - 23) < 2 ^ 24 := by rwa [div_lt_iff₀ hu]
  have f1 : (2 ^ 23 : ℤ) ≤ ⌊x / (2:ℝ) ^ (e - 23) + 1 / 2⌋ := by
    rw [Int.le_floor]; push_cast; linarith
  have f2 : ⌊x / (2:ℝ) ^ (e - 23) + 1 / 2⌋ ≤ (2 ^ 24 : ℤ) := by
    have : ⌊x / (2:ℝ) ^ (e - 23) + 1 / 2⌋ < (2 ^ 24 + 1 : ℤ) := by
      rw [Int.floor_lt]; push_cast; linarith
    omega
  have g1 : (2 ^ 23 : ℝ) ≤ (⌊x / (2:ℝ) ^ (e - 23) + 1 / 2⌋ : ℝ) := by exact_mod_cast f1
  have g2 : (⌊x / (2:ℝ) ^ (e - 23) + 1 / 2⌋ : ℝ) ≤ (2 ^ 24 : ℝ) := by exact_mod_cast f2
  exact ⟨mul_le_mul_of_nonneg_right g1 hu.le, mul_le_mul_of_nonneg_right g2 hu.le⟩

theorem binade {x : ℝ} (h : (2:ℝ) ^ (-126 : ℤ) ≤ x) :
    -126 ≤ Int.log 2 x ∧ (2:ℝ) ^ Int.log 2 x ≤ x ∧ x < (2:ℝ) ^ (Int.log 2 x + 1) := by
  have h0 : 0 < x := tiny_pos.trans_le h
  exact ⟨(Int.zpow_le_iff_le_log (by norm_num) h0).1 (by exact_mod_cast h), log2_le h0, lt_log2 x⟩

theorem mag32_nonneg {x : ℝ} : 0 ≤ mag32 x := by
  by_cases h : x < (2:ℝ) ^ (-126 : ℤ)
  · unfold mag32; rw [if_pos h]
  · obtain ⟨a, b, c⟩ := binade (not_lt.1 h)
    exact (two_zpow_pos _).le.trans (mag32_bounds a b c).1

theorem mag32_mono {x y : ℝ} (h : x ≤ y) : mag32 x ≤ mag32 y := by
  by_cases hx : x < (2:ℝ) ^ (-126 : ℤ)
  · have : mag32 x = 0 := by unfold mag32; rw [if_pos hx]
    rw [this]; exact mag32_nonneg
  · obtain ⟨a, b, c⟩ := binade (not_lt.1 hx)
    have hy := (not_lt.1 hx).trans h
    obtain ⟨a', b', c'⟩ := binade hy
    have hl : Int.log 2 x ≤ Int.log 2 y := Int.log_mono_right (tiny_pos.trans_le (not_lt.1 hx)) h
    rcases hl.eq_or_lt with e | e
    · rw [mag32_eq a b c, mag32_eq a' b' c', e]
      have hu := two_zpow_pos (Int.log 2 y - 23)
      apply mul_le_mul_of_nonneg_right _ hu.le
      have : ⌊x / (2:ℝ) ^ (Int.log 2 y - 23) + 1 / 2⌋ ≤ ⌊y / (2:ℝ) ^ (Int.log 2 y - 23) + 1 / 2⌋ :=
        Int.floor_le_floor (by have := div_le_div_of_nonneg_right h hu.le; linarith)
      exact_mod_cast this
    · refine (mag32_bounds a b c).2.trans (le_trans ?_ (mag32_bounds a' b' c').1)
      exact zpow_le_zpow_right₀ (by norm_num) (by omega)

theorem mag32_nat {n : ℕ} (hn : n ≤ 2 ^ 24) : mag32 n = n := by
  rcases Nat.eq_zero_or_pos n with rfl | h
  · unfold mag32; rw [if_pos (by rw [Nat.cast_zero]; exact tiny_pos)]; simp
  have h1 : (1:ℝ) ≤ n := by exact_mod_cast h
  have ht : (2:ℝ) ^ (-126 : ℤ) ≤ n := le_trans (zpow_le_one_of_nonpos₀ (by norm_num) (by norm_num)) h1
  obtain ⟨a, b, c⟩ := binade ht
  rcases hn.eq_or_lt with rfl | hlt
  · have e1 : ((2 ^ 24 : ℕ) : ℝ) = ((2 ^ 23 : ℤ) : ℝ) * (2:ℝ) ^ ((24 : ℤ) - 23) := by norm_num
    rw [e1]
    exact mag32_grid (by norm_num) le_rfl (by norm_num)
  · have l0 : 0 ≤ Int.log 2 (n:ℝ) := (Int.zpow_le_iff_le_log (by norm_num) (by linarith)).1 (by simpa using h1)
    have l1 : Int.log 2 (n:ℝ) < 24 := (Int.lt_zpow_iff_log_lt (by norm_num) (by linarith)).1 (by
      have : (n:ℝ) < 2 ^ 24 := by exact_mod_cast hlt
      exact_mod_cast this)
    generalize Int.log 2 (n:ℝ) = e at *
    obtain ⟨k, hk⟩ := Int.eq_ofNat_of_zero_le (show 0 ≤ 23 - e by omega)
    have e1 : (n:ℝ) = (((n * 2 ^ k : ℕ) : ℤ) : ℝ) * (2:ℝ) ^ (e - 23) := by
      push_cast
      rw [show e - 23 = -(k:ℤ) by omega, zpow_neg, zpow_natCast]
      field_simp
    have m1 : (2:ℝ) ^ 23 ≤ (n * 2 ^ k : ℝ) := by
      have : (2:ℝ) ^ 23 = (2:ℝ) ^ e * 2 ^ k := by
        rw [← zpow_natCast, ← zpow_natCast, ← zpow_add₀ two_ne_zero]; congr 1; push_cast; omega
      rw [this]
      exact mul_le_mul_of_nonneg_right b (by positivity)
    have m2 : (n * 2 ^ k : ℝ) < 2 ^ 24 := by
      have : (2:ℝ) ^ 24 = (2:ℝ) ^ (e + 1) * 2 ^ k := by
        rw [← zpow_natCast, ← zpow_natCast, ← zpow_add₀ two_ne_zero]; congr 1; push_cast; omega
      rw [this]
      exact mul_lt_mul_of_pos_right c (by positivity)
    rw [e1]
    exact mag32_grid a (by exact_mod_cast m1) (by exact_mod_cast m2)

theorem huge32 : (2:ℝ) ^ 127 < 2 ^ 128 - 2 ^ 103 := by norm_num

theorem rn32_pos {a : ℝ} (h0 : 0 ≤ a) (h : a < 2 ^ 128 - 2 ^ 103) : rn32 a = fin (mag32 a) := by
  have h5 := huge32
  have h6 : (0:ℝ) < 2 ^ 127 := by positivity
  unfold rn32
  rw [if_neg h.not_ge, if_neg (by rw [not_le]; linarith), if_pos h0]

theorem rn32_odd (a : ℝ) : rn32 (-a) = -rn32 a := by
  have h5 := huge32
  have h6 : (0:ℝ) < 2 ^ 127 := by positivity
  unfold rn32
  generalize (2:ℝ) ^ 128 - 2 ^ 103 = M at *
  have hM : 0 < M := by linarith
  by_cases h1 : M ≤ a
  · rw [if_neg (by linarith), if_pos (by linarith), if_pos h1]; rfl
  · by_cases h2 : a ≤ -M
    · rw [if_pos (by linarith), if_neg h1, if_pos h2]; rfl
    · rw [if_neg (by intro h; exact h2 (by linarith)), if_neg (by intro h; exact h1 (by linarith)), if_neg h1, if_neg h2]
      rcases lt_trichotomy a 0 with h | h | h
      · rw [if_pos (by linarith), if_neg h.not_ge, fin_neg, neg_neg]
      · subst h
        have : mag32 0 = 0 := by unfold mag32; rw [if_pos tiny_pos]
        rw [neg_zero, if_pos le_rfl, if_pos le_rfl, this, fin_neg, neg_zero]
      · rw [if_neg (by linarith), if_pos h.le, neg_neg, fin_neg]

theorem rn32_mono_pos {a b : ℝ} (h0 : 0 ≤ a) (h : a ≤ b) : rn32 a ≤ rn32 b := by
  by_cases hb : 2 ^ 128 - 2 ^ 103 ≤ b
  · have : rn32 b = pinf := by unfold rn32; rw [if_pos hb]
    rw [this]
    by_cases ha : 2 ^ 128 - 2 ^ 103 ≤ a
    · unfold rn32; rw [if_pos ha]; simp
    · rw [rn32_pos h0 (not_le.1 ha)]; simp
  · rw [rn32_pos h0 (h.trans_lt (not_le.1 hb)), rn32_pos (h0.trans h) (not_le.1 hb), fin_le]
    exact mag32_mono h

theorem rn32_nearest : Nearest32 rn32 where
  noNan a := by unfold rn32; split_ifs <;> simp
  mono := by
    intro a b h
    rcases le_total 0 a with ha | ha
    · exact rn32_mono_pos ha h
    · rcases le_total 0 b with hb | hb
      · have z : rn32 0 = fin 0 := by
          rw [rn32_pos le_rfl (by norm_num)]
          congr 1
          unfold mag32; rw [if_pos tiny_pos]
        have h1 := rn32_mono_pos le_rfl hb
        have h2 := rn32_mono_pos le_rfl (neg_nonneg.2 ha)
        rw [rn32_odd] at h2
        rw [z] at h1 h2
        cases hc : rn32 a <;> cases hd : rn32 b <;> simp_all [neg_pinf, neg_ninf]
        linarith
      · have h1 := rn32_mono_pos (neg_nonneg.2 hb) (neg_le_neg h)
        rw [rn32_odd, rn32_odd] at h1
        cases hc : rn32 a <;> cases hd : rn32 b <;> simp_all [neg_pinf, neg_ninf]
  neg := rn32_odd
  nat n hn := by
    have : (n:ℝ) ≤ 2 ^ 24 := by exact_mod_cast hn
    have h2 : (2:ℝ) ^ 24 < 2 ^ 128 - 2 ^ 103 := by norm_num
    rw [rn32_pos (Nat.cast_nonneg n) (this.trans_lt h2), mag32_nat hn]
  acc := by
    have key : ∀ a : ℝ, 0 ≤ a → a < 2 ^ 127 →
        ∃ δ η : ℝ, |δ| ≤ 1 / 2 ^ 24 ∧ |η| ≤ 1 / 2 ^ 126 ∧ rn32 a = fin (a * (1 + δ) + η) := by
      intro a h0 h
      rw [rn32_pos h0 (h.trans huge32)]
      by_cases ht : a < (2:ℝ) ^ (-126 : ℤ)
      · have e : (2:ℝ) ^ (-126 : ℤ) = 1 / 2 ^ 126 := by rw [zpow_neg, one_div]; norm_cast
        refine ⟨0, -a, by simp, ?_, ?_⟩
        · rw [abs_neg, abs_of_nonneg h0, ← e]; exact ht.le
        · have : mag32 a = 0 := by unfold mag32; rw [if_pos ht]
          rw [this]; congr 1; ring
      · obtain ⟨p, q, s⟩ := binade (not_lt.1 ht)
        have e1 := mag32_err p q s
        have ha : 0 < a := tiny_pos.trans_le (not_lt.1 ht)
        refine ⟨(mag32 a - a) / a, 0, ?_, by simp, ?_⟩
        · rw [abs_div, abs_of_pos ha, div_le_iff₀ ha, abs_sub_comm]
          refine e1.trans ?_
          have : (2:ℝ) ^ (Int.log 2 a - 24) = 1 / 2 ^ 24 * (2:ℝ) ^ Int.log 2 a := by
            rw [zpow_sub₀ two_ne_zero]; norm_cast; ring
          rw [this]
          exact mul_le_mul_of_nonneg_left q (by positivity)
        · congr 1; field_simp; ring
    intro a h
    rcases le_total 0 a with h0 | h0
    · exact key a h0 (by rwa [abs_of_nonneg h0] at h)
    · obtain ⟨δ, η, h1, h2, h3⟩ := key (-a) (by linarith) (by rwa [abs_of_nonpos h0] at h)
      refine ⟨δ, -η, h1, by rwa [abs_neg], ?_⟩
      have := rn32_odd (-a)
      rw [neg_neg, h3, fin_neg] at this
      rw [this]; congr 1; ring
  under := by
    have key : ∀ a : ℝ, 0 ≤ a → a ≤ 1 / 2 ^ 150 → rn32 a = fin 0 := by
      intro a h0 h
      have h1 : (1:ℝ) / 2 ^ 150 < (2:ℝ) ^ (-126 : ℤ) := by norm_num
      rw [rn32_pos h0 (lt_of_le_of_lt h (by norm_num))]
      unfold mag32; rw [if_pos (h.trans_lt h1)]
    intro a h
    rcases le_total 0 a with h0 | h0
    · exact key a h0 (by rwa [abs_of_nonneg h0] at h)
    · have := rn32_odd (-a)
      rw [neg_neg, key (-a) (by linarith) (by rwa [abs_of_nonpos h0] at h), fin_neg, neg_zero] at this
      exact this
  over := by
    intro a h
    unfold rn32
    rw [if_pos (le_trans (by norm_num) h)]
  one := by
    intro a h
    have h' := abs_le.1 h
    norm_num at h'
    rw [rn32_pos (by linarith) (lt_of_le_of_lt (b := 2) (by linarith) (by norm_num))]
    congr 1
    rcases lt_or_ge a 1 with h1 | h1
    · rw [mag32_eq (e := -1) (by norm_num) (by norm_num; linarith) (by norm_num; exact h1)]
      have : ⌊a / (2:ℝ) ^ ((-1:ℤ) - 23) + 1 / 2⌋ = 2 ^ 24 := by
        rw [Int.floor_eq_iff]
        norm_num
        constructor <;> linarith
      rw [this]; norm_num
    · rw [mag32_eq (e := 0) (by norm_num) (by norm_num; exact h1) (by norm_num; linarith)]
      have : ⌊a / (2:ℝ) ^ ((0:ℤ) - 23) + 1 / 2⌋ = 2 ^ 23 := by
        rw [Int.floor_eq_iff]
        norm_num
        constructor <;> linarith
      rw [this]; norm_num
  grid := by
    intro a e h1 h2 h3 h4
    have h0 : 0 ≤ a := (two_zpow_pos e).le.trans h3
    have hlt : a < 2 ^ 128 - 2 ^ 103 := by
      refine lt_trans (lt_of_lt_of_le h4 ?_) huge32
      have := zpow_le_zpow_right₀ (a := (2:ℝ)) (by norm_num) (show e + 1 ≤ ((127:ℕ):ℤ) by push_cast; omega)
      rwa [zpow_natCast] at this
    have := mag32_err h1 h3 h4
    rw [mag32_eq h1 h3 h4] at this
    exact ⟨_, by rw [rn32_pos h0 hlt, mag32_eq h1 h3 h4], this⟩

end Verif
