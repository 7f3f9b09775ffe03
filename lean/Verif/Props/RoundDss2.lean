import Verif.Lemmas.RoundDss2
import Verif.Props.RoundDss
import Verif.Props.Dss

/-!
# Property C174: the range of the Dawid-Sebastiani score in binary64

The variance is formed from squares, so for members of size `2 ^ 600` it overflows and the computed score is infinite, and
for members of size `2 ^ -600` it underflows and the score is not a number, although the score itself, a logarithm, is below
`900` in absolute value.  Between these extremes the computed score is a number.
-/

noncomputable section

open scoped Classical

namespace Verif

open XF Py Api Spec

/-- the divisor of the variance in the compiled function -/
theorem dss_fact {r : ℝ → XF} (hr : Binary64 r) {M : ℕ} (hM : M ≠ 0) (hM2 : M ≤ 2 ^ 53) (bias : Bool) :
    (if bias = true then Rnd.rd r (Rnd.rd r ((M : XF) - 1) + 1) else Rnd.rd r ((M : XF) - 1))
      = (((if bias = true then M else M - 1) : ℕ) : XF) := by
  have c : Rnd.rd r ((M : XF) - 1) = fin ((M - 1 : ℕ) : ℝ) := by
    rw [natCast_fin, one_fin, fin_sub, show (M:ℝ) - 1 = ((M - 1 : ℕ) : ℝ) by
      rw [Nat.cast_sub (Nat.pos_of_ne_zero hM), Nat.cast_one]]
    exact hr.nat _ (by omega)
  cases bias
  · simp only [Bool.false_eq_true, if_false]; rw [c, natCast_fin]
  · simp only [if_true]
    rw [c, one_fin, fin_add, natCast_fin, show ((M - 1 : ℕ) : ℝ) + 1 = M by
      rw [Nat.cast_sub (Nat.pos_of_ne_zero hM), Nat.cast_one]; ring]
    exact hr.nat _ hM2

example : Binary64 rn64 ∧ 7 ≠ 0 ∧ 7 ≤ 2 ^ 53 := ⟨rn64_nearest.toBinary64, by norm_num, by norm_num⟩

/-- Full property: the score computed in binary64 from finite data of positive variance is a number.  Proved for data up to
`2 ^ 200`, two members at least `2 ^ -200` apart and at most `2 ^ 20` members; missing: other data, for which it may be false
(`C174_overflow_false`, `C174_underflow_false`). -/
theorem C174_finite_partial {r : ℝ → XF} (hr : Nearest64 r) {S : List XF → XF} (hS : ∀ xs, RSum r xs (S xs)) (bias : Bool)
    {y : ℝ} {xs : List ℝ} (hM : xs.length ≤ 2 ^ 20) (hy : |y| ≤ 2 ^ 200) (hx : ∀ x ∈ xs, |x| ≤ 2 ^ 200) {a b : ℝ}
    (ha : a ∈ xs) (hb : b ∈ xs) (hab : 1 / 2 ^ 200 ≤ |a - b|) :
    (∃ v : ℝ, Rnd.dssGufunc r S bias (fin y) (xs.map fin) = fin v) ∧
      ∃ v : ℝ, Rnd.dssScore r S bias (fin y) (xs.map fin) = fin v := by
  have p : (2:ℝ) ^ 200 = (2:ℝ) ^ (200 : ℤ) := by norm_num
  have p' : (1:ℝ) / 2 ^ 200 = (2:ℝ) ^ (-200 : ℤ) := by norm_num
  rw [p'] at hab
  rw [p] at hy
  simp only [p] at hx
  have hne : xs ≠ [] := List.ne_nil_of_mem ha
  have h2 : 2 ≤ xs.length := by
    by_contra hc
    have hl : xs.length = 1 := by have := List.length_pos_iff.mpr hne; omega
    obtain ⟨c, rfl⟩ := List.length_eq_one_iff.1 hl
    rw [List.mem_singleton] at ha hb
    rw [ha, hb, sub_self, abs_zero] at hab
    exact absurd hab (not_le.2 (two_zpow_pos _))
  obtain ⟨m, em, hm⟩ := avg_band hr hS (K := 200) (by norm_num) le_rfl hne hM hx
  constructor
  · obtain ⟨v, ev, v1, v2⟩ := var_band hr hS (K := 200) (by norm_num) le_rfl hM hx ha hb hab hm (f := if bias = true then xs.length else xs.length - 1)
      (by split_ifs <;> omega) (by split_ifs <;> omega)
    obtain ⟨w, ew⟩ := dssTail_band hr hy hm v1 v2
    refine ⟨w, ?_⟩
    unfold Rnd.dssGufunc
    simp only [em]
    rw [List.length_map, dss_fact hr.toBinary64 (by omega) (hM.trans (by norm_num)), ev]
    exact ew
  · obtain ⟨v, ev, v1, v2⟩ := var_band hr hS (K := 200) (by norm_num) le_rfl hM hx ha hb hab hm (f := xs.length - if bias = true then 0 else 1)
      (by split_ifs <;> omega) (by split_ifs <;> omega)
    obtain ⟨w, ew⟩ := dssTail_band hr hy hm v1 v2
    refine ⟨w, ?_⟩
    unfold Rnd.dssScore Rnd.ensStd
    simp only [em, List.length_map, ← pow_two]
    rw [ev]
    exact ew

example : ∃ S : List XF → XF, Nearest64 rn64 ∧ (∀ xs, RSum rn64 xs (S xs)) ∧ [(1:ℝ), 2, 6].length ≤ 2 ^ 20 ∧ |(3:ℝ)| ≤ 2 ^ 200 ∧
    (∀ x ∈ [(1:ℝ), 2, 6], |x| ≤ 2 ^ 200) ∧ (1:ℝ) ∈ [(1:ℝ), 2, 6] ∧ (2:ℝ) ∈ [(1:ℝ), 2, 6] ∧ 1 / 2 ^ 200 ≤ |(1:ℝ) - 2| := by
  obtain ⟨S, hS⟩ := exists_rsum rn64
  refine ⟨S, rn64_nearest, hS, by norm_num, by norm_num [abs_of_pos], ?_, by simp, by simp, by norm_num⟩
  intro x hx
  simp only [List.mem_cons, List.not_mem_nil, or_false] at hx
  rcases hx with rfl | rfl | rfl <;> norm_num [abs_of_pos]

/-- the mean of two opposite members is zero, and their deviations are the members -/
theorem pair_mean {r : ℝ → XF} (hr : Binary64 r) {S : List XF → XF} (hS : ∀ xs, RSum r xs (S xs)) {P : ℝ} (hP : r P = fin P) :
    Rnd.avg r S [fin P, fin (-P)] = fin 0 ∧ Rnd.rd r (fin P - fin 0) = fin P ∧ Rnd.rd r (fin (-P) - fin 0) = fin (-P) ∧
      ∀ c : XF, S [c, c] = Rnd.rd r (c + c) := by
  have z := rd_zero' hr
  refine ⟨?_, ?_, ?_, fun c => (hS _).two (List.Perm.refl _)⟩
  · unfold Rnd.avg
    rw [(hS _).two (List.Perm.refl _), fin_add, add_neg_cancel, z, show (([fin P, fin (-P)] : List XF).length : XF) = fin 2 by
      rw [natCast_fin]; norm_num, fin_div (by norm_num), zero_div, z]
  · rw [fin_sub, sub_zero]; exact hP
  · rw [fin_sub, sub_zero]
    show r (-P) = _
    rw [hr.neg, hP, fin_neg]

example : ∃ S : List XF → XF, Binary64 rn64 ∧ (∀ xs, RSum rn64 xs (S xs)) ∧ rn64 1 = fin 1 := by
  obtain ⟨S, hS⟩ := exists_rsum rn64
  exact ⟨S, rn64_nearest.toBinary64, hS, by simpa using rn64_nearest.nat 1 (by norm_num)⟩

/-- the score of two opposite members and the observation zero -/
theorem pair_ds (path : Path) {P : ℝ} (hP : 0 < P) :
    dss1 path false (fin 0) ([P, -P].map fin) = .ok (fin (Real.log 2 + 2 * Real.log P)) := by
  have e1 : Spec.avg [P, -P] = 0 := by simp [Spec.avg]
  have e2 : Spec.svar false [P, -P] = 2 * P ^ 2 := by
    unfold Spec.svar Spec.csum
    rw [e1]
    simp
    norm_num
    ring
  rw [C38_value path false 0 [P, -P] (by rw [e2]; positivity), e1, e2, Spec.ds, Real.log_mul (by norm_num) (by positivity),
    Real.log_pow]
  congr 2
  push_cast
  ring

example : (0:ℝ) < 3 := by norm_num

/-- Two members `2 ^ 600` and `-2 ^ 600` and the observation zero: the score is `1201 log 2`, about `832`, and the computed
score is infinite, for every order of summation. -/
theorem C174_overflow_false {r : ℝ → XF} (hr : Nearest64 r) {S : List XF → XF} (hS : ∀ xs, RSum r xs (S xs)) :
    Rnd.dssGufunc r S false (fin 0) ([2 ^ 600, -2 ^ 600].map fin) = pinf ∧
      Rnd.dssScore r S false (fin 0) ([2 ^ 600, -2 ^ 600].map fin) = pinf ∧
      ∀ path, dss1 path false (fin 0) ([2 ^ 600, -2 ^ 600].map fin) = .ok (fin (1201 * Real.log 2)) := by
  have hP : r (2 ^ 600) = fin (2 ^ 600) := by exact_mod_cast hr.two (k := 600) (by norm_num) (by norm_num)
  have z := rd_zero' hr.toBinary64
  obtain ⟨m, d1, d2, s2⟩ := pair_mean hr.toBinary64 hS hP
  have sq : Rnd.rd r (fin ((2:ℝ) ^ 600 * 2 ^ 600)) = pinf := hr.over (by
    rw [← pow_add]; exact pow_le_pow_right₀ (by norm_num) (by norm_num))
  have two : (if false = true then Rnd.rd r (Rnd.rd r (((2 : ℕ) : XF) - 1) + 1) else Rnd.rd r (((2 : ℕ) : XF) - 1)) = fin 1 := by
    rw [dss_fact hr.toBinary64 (by norm_num) (by norm_num)]
    rw [natCast_fin]; norm_num
  have q1 : (pinf : XF) / fin 1 = pinf := by simp [div_def, XF.div]
  have tail : Rnd.rd r (Rnd.rd r (Rnd.rd r (Rnd.rd r (fin 0 - fin 0) / pinf) ^ 2)
      + Rnd.rd r (2 * Rnd.rd r (XF.log pinf))) = pinf := by
    rw [fin_sub, sub_self, z, show (fin 0 : XF) / pinf = fin 0 by simp [div_def, XF.div], z, fin_pow,
      show (0:ℝ) ^ 2 = 0 by norm_num, z, show Rnd.rd r (XF.log pinf) = pinf from rfl, two_fin,
      show (fin 2 : XF) * pinf = pinf by simp [HMul.hMul, Mul.mul, XF.mul, XF.infMul]]
    rfl
  refine ⟨?_, ?_, fun path => ?_⟩
  · unfold Rnd.dssGufunc
    simp only [List.map_cons, List.map_nil, m, List.length_cons, List.length_nil, zero_add, Nat.reduceAdd, d1, d2]
    rw [fin_pow, fin_pow, neg_sq, pow_two ((2:ℝ) ^ 600), sq, s2, two, show Rnd.rd r (pinf + pinf) = pinf from rfl, q1,
      show Rnd.rd r (XF.sqrt (Rnd.rd r pinf)) = pinf from rfl]
    exact tail
  · unfold Rnd.dssScore Rnd.ensStd
    simp only [List.map_cons, List.map_nil, m, List.length_cons, List.length_nil, zero_add, Nat.reduceAdd, d1, d2]
    rw [fin_mul, fin_mul, neg_mul_neg, sq, s2, show ((2 - (if false = true then 0 else 1) : ℕ) : XF) = fin 1 by
      rw [natCast_fin]; norm_num, show Rnd.rd r (pinf + pinf) = pinf from rfl, q1,
      show Rnd.rd r (XF.sqrt (Rnd.rd r pinf)) = pinf from rfl]
    exact tail
  · rw [pair_ds path (by positivity), Real.log_pow]
    congr 2
    push_cast
    ring

example : ∃ S : List XF → XF, Nearest64 rn64 ∧ ∀ xs, RSum rn64 xs (S xs) := by
  obtain ⟨S, hS⟩ := exists_rsum rn64
  exact ⟨S, rn64_nearest, hS⟩

/-- Two members `2 ^ -600` and `-2 ^ -600` and the observation zero: the score is `-1199 log 2`, about `-831`, and the
computed score is not a number. -/
theorem C174_underflow_false {r : ℝ → XF} (hr : Nearest64 r) {S : List XF → XF} (hS : ∀ xs, RSum r xs (S xs)) :
    Rnd.dssGufunc r S false (fin 0) ([1 / 2 ^ 600, -(1 / 2 ^ 600)].map fin) = nan ∧
      Rnd.dssScore r S false (fin 0) ([1 / 2 ^ 600, -(1 / 2 ^ 600)].map fin) = nan ∧
      ∀ path, dss1 path false (fin 0) ([1 / 2 ^ 600, -(1 / 2 ^ 600)].map fin) = .ok (fin (-1199 * Real.log 2)) := by
  have hP : r (1 / 2 ^ 600) = fin (1 / 2 ^ 600) := by
    have := hr.two (k := -600) (by norm_num) (by norm_num)
    rwa [zpow_neg, ← one_div, show ((2:ℝ) ^ (600 : ℤ)) = 2 ^ 600 from by exact_mod_cast rfl] at this
  have z := rd_zero' hr.toBinary64
  obtain ⟨m, d1, d2, s2⟩ := pair_mean hr.toBinary64 hS hP
  have sq : Rnd.rd r (fin ((1:ℝ) / 2 ^ 600 * (1 / 2 ^ 600))) = fin 0 := hr.under (by
    rw [one_div_mul_one_div, ← pow_add, abs_of_pos (by positivity)]
    exact one_div_le_one_div_of_le (by positivity) (pow_le_pow_right₀ (by norm_num) (by norm_num)))
  have two : (if false = true then Rnd.rd r (Rnd.rd r (((2 : ℕ) : XF) - 1) + 1) else Rnd.rd r (((2 : ℕ) : XF) - 1)) = fin 1 := by
    rw [dss_fact hr.toBinary64 (by norm_num) (by norm_num)]
    rw [natCast_fin]; norm_num
  have s0 : XF.sqrt (fin 0) = fin 0 := by rw [fin_sqrt le_rfl, Real.sqrt_zero]
  have tail : Rnd.rd r (Rnd.rd r (Rnd.rd r (Rnd.rd r (fin 0 - fin 0) / fin 0) ^ 2)
      + Rnd.rd r (2 * Rnd.rd r (XF.log (fin 0)))) = nan := by
    rw [fin_sub, sub_self, z, zero_div_zero, show Rnd.rd r nan = nan from rfl, nan_pow, show Rnd.rd r nan = nan from rfl, nan_add]
    rfl
  refine ⟨?_, ?_, fun path => ?_⟩
  · unfold Rnd.dssGufunc
    simp only [List.map_cons, List.map_nil, m, List.length_cons, List.length_nil, zero_add, Nat.reduceAdd, d1, d2]
    rw [fin_pow, fin_pow, neg_sq, pow_two ((1:ℝ) / 2 ^ 600), sq, s2, two, fin_add, add_zero, z, fin_div one_ne_zero, zero_div, z,
      s0, z]
    exact tail
  · unfold Rnd.dssScore Rnd.ensStd
    simp only [List.map_cons, List.map_nil, m, List.length_cons, List.length_nil, zero_add, Nat.reduceAdd, d1, d2]
    rw [fin_mul, fin_mul, neg_mul_neg, sq, s2, show ((2 - (if false = true then 0 else 1) : ℕ) : XF) = fin 1 by
      rw [natCast_fin]; norm_num, fin_add, add_zero, z, fin_div one_ne_zero, zero_div, z, s0, z]
    exact tail
  · rw [pair_ds path (by positivity), one_div, Real.log_inv, Real.log_pow]
    congr 2
    push_cast
    ring

example : ∃ S : List XF → XF, Nearest64 rn64 ∧ ∀ xs, RSum rn64 xs (S xs) := by
  obtain ⟨S, hS⟩ := exists_rsum rn64
  exact ⟨S, rn64_nearest, hS⟩

end Verif
