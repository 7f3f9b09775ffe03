import Verif.Lemmas.RoundCrps2
import Verif.Lemmas.CrpsInf
import Verif.Lemmas.RoundCrpsIntA

/-!
# Property C165: accuracy of the ensemble CRPS in binary64

The estimators `nrg`, `fair`, `qd` and `int` of the array path (`core/crps/_approx.py`) are computed with an error that is small
relative to the distances between the data (for `qd` and `int` even relative to the score), however large the data are, in whatever
order the backend adds.  The estimator `pwm` is accurate only relative to the size of the data: with three members two
units apart near `2 ^ 53` it returns `-1` for a forecast whose fair score is zero.
-/

noncomputable section

open scoped Classical

namespace Verif

open XF Py Spec

/-- Without rounding the functions are those of the exact model, in whatever order the entries are added. -/
theorem C165_exact {S : List XF → XF} (hS : ∀ xs, RSum fin xs (S xs)) :
    Rnd.crpsNrg fin S = Approx.nrg ∧ Rnd.crpsFair fin S = Approx.fair ∧ Rnd.crpsQd fin S = Approx.qd ∧
      Rnd.crpsPwm fin S = Approx.pwm ∧ Rnd.crpsAkr fin S = Approx.akr ∧ Rnd.crpsAkrCircperm fin S = Approx.akrCircperm ∧
      Rnd.crpsInt fin S = Approx.int := by
  have hs : S = List.sum := funext fun xs => (hS xs).exact
  subst hs
  refine ⟨?_, ?_, ?_, ?_, ?_, ?_, ?_⟩ <;> funext y xs
  · simp only [Rnd.crpsNrg, Rnd.crpsE1, Rnd.crpsPairs, Rnd.adiff, Approx.nrg, Approx.e1, sum2, rd_fin_eq, xsum_flatMap]
  · simp only [Rnd.crpsFair, Rnd.crpsE1, Rnd.crpsPairs, Rnd.adiff, Approx.fair, Approx.e1, sum2, rd_fin_eq, xsum_flatMap]
  · simp only [Rnd.crpsQd, Approx.qd, rd_fin_eq]
  · simp only [Rnd.crpsPwm, Rnd.crpsE1, Rnd.adiff, Approx.pwm, Approx.e1, rd_fin_eq]
  · simp only [Rnd.crpsAkr, Rnd.crpsE1, Rnd.adiff, Approx.akr, Approx.e1, rd_fin_eq]
  · simp only [Rnd.crpsAkrCircperm, Rnd.crpsE1, Rnd.adiff, Approx.akrCircperm, Approx.e1, rd_fin_eq]
  · simp only [Rnd.crpsInt, Approx.int, rd_fin_eq, mean, List.length_map]

example : ∃ S : List XF → XF, ∀ xs, RSum fin xs (S xs) := exists_rsum fin

theorem crps_ecdf_means (y : ℝ) {xs : List ℝ} (h : xs ≠ []) :
    Spec.crps (ecdf xs) y = meanAbs y xs - 1 / 2 * (sumAbsDiff xs / (xs.length : ℝ) ^ 2) := by
  rw [crps_ecdf_eq_energy y h, energy, wabs_uw, wpair_uw, sabs_eq, spair_eq]
  ring

/-- Full property: for all finite data the estimator `nrg` computed in binary64 is close to the CRPS of the empirical
distribution, relative to the mean distance of the members to the observation.  Proved for data up to `2 ^ 959` and up to
`2 ^ 20` members; for larger data it is false (`C165_overflow_false`). -/
theorem C165_nrg_partial {r : ℝ → XF} (hr : Binary64 r) {S : List XF → XF} (hS : ∀ xs, RSum r xs (S xs)) {y : ℝ}
    {xs : List ℝ} (hne : xs ≠ []) (hM : xs.length ≤ 2 ^ 20) (hy : |y| ≤ 2 ^ 959) (hx : ∀ x ∈ xs, |x| ≤ 2 ^ 959) :
    ∃ v : ℝ, Rnd.crpsNrg r S (fin y) (xs.map fin) = fin v ∧
      |v - Spec.crps (ecdf xs) y| ≤ (xs.length : ℝ) ^ 2 / 2 ^ 47 * meanAbs y xs + 1 / 2 ^ 1069 := by
  have hM1 : (1:ℝ) ≤ xs.length := by exact_mod_cast List.length_pos_iff.mpr hne
  obtain ⟨v, e, hv⟩ := crpsPair_near hr hS hne hM hy hx (Q := (xs.length : ℝ) ^ 2) (one_le_pow₀ hM1)
    (by have := sq_nonneg (xs.length : ℝ); linarith)
  refine ⟨v, ?_, ?_⟩
  · unfold Rnd.crpsNrg
    rw [List.length_map, half_fin, natCast_fin, Nat.cast_pow]
    exact e
  · rw [crps_ecdf_means y hne]
    exact hv

/-- the data of the examples -/
def trio : List ℝ := [1, 3, 7]

theorem trio_bound : ∀ x ∈ trio, |x| ≤ 2 ^ 959 := by
  have h : (7:ℝ) ≤ 2 ^ 959 := by
    calc (7:ℝ) ≤ 2 ^ 3 := by norm_num
      _ ≤ 2 ^ 959 := pow_le_pow_right₀ (by norm_num) (by norm_num)
  intro x hx
  refine le_trans ?_ h
  simp only [trio, List.mem_cons, List.not_mem_nil, or_false] at hx
  rcases hx with rfl | rfl | rfl <;> norm_num

example : ∃ S : List XF → XF, (∀ xs, RSum rn64 xs (S xs)) ∧ Binary64 rn64 ∧ trio ≠ [] ∧ trio.length ≤ 2 ^ 20 ∧
    |(3:ℝ)| ≤ 2 ^ 959 ∧ ∀ x ∈ trio, |x| ≤ 2 ^ 959 := by
  obtain ⟨S, hS⟩ := exists_rsum rn64
  exact ⟨S, hS, rn64_nearest.toBinary64, by simp [trio], by simp [trio], trio_bound 3 (by simp [trio]), trio_bound⟩

/-- The same for the estimator `fair` and two members or more. -/
theorem C165_fair_partial {r : ℝ → XF} (hr : Binary64 r) {S : List XF → XF} (hS : ∀ xs, RSum r xs (S xs)) {y : ℝ}
    {xs : List ℝ} (h2 : 2 ≤ xs.length) (hM : xs.length ≤ 2 ^ 20) (hy : |y| ≤ 2 ^ 959) (hx : ∀ x ∈ xs, |x| ≤ 2 ^ 959) :
    ∃ v : ℝ, Rnd.crpsFair r S (fin y) (xs.map fin) = fin v ∧
      |v - fairCrps y xs| ≤ (xs.length : ℝ) ^ 2 / 2 ^ 47 * meanAbs y xs + 1 / 2 ^ 1069 := by
  have hne : xs ≠ [] := by intro e; simp [e] at h2
  have hM2 : (2:ℝ) ≤ xs.length := by exact_mod_cast h2
  obtain ⟨v, e, hv⟩ := crpsPair_near hr hS hne hM hy hx (Q := (xs.length : ℝ) * ((xs.length : ℝ) - 1)) (by nlinarith)
    (by nlinarith)
  refine ⟨v, ?_, ?_⟩
  · unfold Rnd.crpsFair
    rw [List.length_map, half_fin, natCast_fin, natPred_cast h2]
    exact e
  · have : fairCrps y xs = meanAbs y xs - 1 / 2 * (sumAbsDiff xs / ((xs.length : ℝ) * ((xs.length : ℝ) - 1))) := by
      unfold fairCrps
      have h0 : (xs.length : ℝ) * ((xs.length : ℝ) - 1) ≠ 0 := by nlinarith
      field_simp
    rw [this]
    exact hv

example : ∃ S : List XF → XF, (∀ xs, RSum rn64 xs (S xs)) ∧ Binary64 rn64 ∧ 2 ≤ trio.length ∧ trio.length ≤ 2 ^ 20 ∧
    |(3:ℝ)| ≤ 2 ^ 959 ∧ ∀ x ∈ trio, |x| ≤ 2 ^ 959 := by
  obtain ⟨S, hS⟩ := exists_rsum rn64
  exact ⟨S, hS, rn64_nearest.toBinary64, by simp [trio], by simp [trio], trio_bound 3 (by simp [trio]), trio_bound⟩

/-- Full property: for all finite data in ascending order the estimator `qd` computed in binary64 is nonnegative and close
to the CRPS of the empirical distribution, relative to the score itself.  Proved for data up to `2 ^ 959` and up to
`2 ^ 20` members; missing: larger data, for which distances may be beyond binary64. -/
theorem C165_qd_partial {r : ℝ → XF} (hr : Nearest64 r) {S : List XF → XF} (hS : ∀ xs, RSum r xs (S xs)) {y : ℝ}
    {xs : List ℝ} (hne : xs ≠ []) (hM : xs.length ≤ 2 ^ 20) (hs : xs.Pairwise (· ≤ ·)) (hy : |y| ≤ 2 ^ 959)
    (hx : ∀ x ∈ xs, |x| ≤ 2 ^ 959) :
    ∃ v : ℝ, Rnd.crpsQd r S (fin y) (xs.map fin) = fin v ∧ 0 ≤ v ∧
      |v - Spec.crps (ecdf xs) y| ≤ (xs.length + 5) / 2 ^ 51 * Spec.crps (ecdf xs) y + 1 / 2 ^ 1050 := by
  obtain ⟨⟨v, e, h0, hv⟩, _⟩ := crpsQd_near hr hS hne hM hy hx
  rw [qdSum_uw y hne hs, ← crps_ecdf_eq_energy y hne] at hv
  refine ⟨v, e, h0, hv.trans (le_of_eq ?_)⟩
  rw [mul_one_div]
  congr 1
  rw [mul_one_div, show (1073:ℕ) = 23 + 1050 from rfl, pow_add]
  field_simp

example : ∃ S : List XF → XF, (∀ xs, RSum rn64 xs (S xs)) ∧ Nearest64 rn64 ∧ trio ≠ [] ∧ trio.length ≤ 2 ^ 20 ∧
    trio.Pairwise (· ≤ ·) ∧ |(3:ℝ)| ≤ 2 ^ 959 ∧ ∀ x ∈ trio, |x| ≤ 2 ^ 959 := by
  obtain ⟨S, hS⟩ := exists_rsum rn64
  exact ⟨S, hS, rn64_nearest, by simp [trio], by simp [trio], by simp [trio]; norm_num, trio_bound 3 (by simp [trio]),
    trio_bound⟩

/-- Full property: for all finite data in ascending order the estimator `int` computed in binary64 is nonnegative and close
to the CRPS of the empirical distribution, relative to the score itself.  Proved for data up to `2 ^ 959` and up to
`2 ^ 20` members; missing: larger data, for which distances may be beyond binary64. -/
theorem C165_int_partial {r : ℝ → XF} (hr : Nearest64 r) {S : List XF → XF} (hS : ∀ xs, RSum r xs (S xs)) {y : ℝ}
    {xs : List ℝ} (hne : xs ≠ []) (hM : xs.length ≤ 2 ^ 20) (hs : xs.Pairwise (· ≤ ·)) (hy : |y| ≤ 2 ^ 959)
    (hx : ∀ x ∈ xs, |x| ≤ 2 ^ 959) :
    ∃ v : ℝ, Rnd.crpsInt r S (fin y) (xs.map fin) = fin v ∧ 0 ≤ v ∧
      |v - Spec.crps (ecdf xs) y| ≤ (xs.length : ℝ) ^ 2 / 2 ^ 46 * Spec.crps (ecdf xs) y + 1 / 2 ^ 1050 := by
  have hM' : (xs.length : ℝ) ≤ 2 ^ 20 := by exact_mod_cast hM
  have hM1 : (1:ℝ) ≤ xs.length := by exact_mod_cast List.length_pos_iff.mpr hne
  have hM2 : (xs.length : ℝ) ≤ (xs.length : ℝ) ^ 2 := by nlinarith
  have e0 : int0 y 0 0 (uw xs) = Spec.crps (ecdf xs) y := by rw [int0_uw y hne hs, crps_ecdf_eq_energy y hne]
  have b : Spec.crps (ecdf xs) y ≤ 2 ^ 1000 := by
    have h1 : Spec.crps (ecdf xs) y ≤ meanAbs y xs := by
      rw [crps_ecdf_means y hne]
      have : 0 ≤ sumAbsDiff xs / (xs.length : ℝ) ^ 2 := div_nonneg (spair_nonneg' xs) (sq_nonneg _)
      linarith
    refine h1.trans ?_
    have h2 : (xs.map fun x => |x - y|).sum ≤ (xs.length : ℝ) * 2 ^ 960 := sum_map_le fun x h => dist960 (hx x h) hy
    calc meanAbs y xs = (xs.map fun x => |x - y|).sum / xs.length := rfl
      _ ≤ 2 ^ 960 := by rw [div_le_iff₀ (by linarith), mul_comm]; exact h2
      _ ≤ 2 ^ 1000 := pow_le_pow_right₀ (by norm_num) (by norm_num)
  obtain ⟨v, e, v0, hv⟩ := crpsInt_near hr hS hne hM hs hy hx (by rw [e0]; exact b)
  rw [e0] at hv
  have c0 : 0 ≤ Spec.crps (ecdf xs) y := by
    unfold Spec.crps
    exact MeasureTheory.integral_nonneg fun _ => sq_nonneg _
  refine ⟨v, e, v0, hv.trans (add_le_add ?_ ?_)⟩
  · refine mul_le_mul_of_nonneg_right ?_ c0
    calc (6 * (xs.length : ℝ) ^ 2 + 11 + xs.length) * (1 / 2 ^ 51) ≤ (32 * (xs.length : ℝ) ^ 2) * (1 / 2 ^ 51) := by
          gcongr; linarith
      _ = _ := by ring
  · rw [show (1073:ℕ) = 23 + 1050 from rfl, pow_add, ← one_div_mul_one_div, ← mul_assoc]
    refine mul_le_of_le_one_left (by positivity) ?_
    rw [mul_one_div, div_le_one (by positivity)]
    have : (4:ℝ) * 2 ^ 20 ≤ 2 ^ 23 := by norm_num
    linarith

example : ∃ S : List XF → XF, (∀ xs, RSum rn64 xs (S xs)) ∧ Nearest64 rn64 ∧ trio ≠ [] ∧ trio.length ≤ 2 ^ 20 ∧
    trio.Pairwise (· ≤ ·) ∧ |(3:ℝ)| ≤ 2 ^ 959 ∧ ∀ x ∈ trio, |x| ≤ 2 ^ 959 := by
  obtain ⟨S, hS⟩ := exists_rsum rn64
  exact ⟨S, hS, rn64_nearest, by simp [trio], by simp [trio], by simp [trio]; norm_num, trio_bound 3 (by simp [trio]), trio_bound⟩

/-- Full property: the estimator `pwm` computed in binary64 is close to the fair CRPS relative to the distances of the
members to the observation.  This is false (`C165_pwm_false`); what holds is a bound relative to the size `B` of the
data. -/
theorem C165_pwm_partial {r : ℝ → XF} (hr : Binary64 r) {S : List XF → XF} (hS : ∀ xs, RSum r xs (S xs)) {y B : ℝ}
    {xs : List ℝ} (h2 : 2 ≤ xs.length) (hM : xs.length ≤ 2 ^ 20) (hs : xs.Pairwise (· ≤ ·)) (hB : 1 / 2 ^ 900 ≤ B)
    (hB2 : B ≤ 2 ^ 900) (hy : |y| ≤ B) (hx : ∀ x ∈ xs, |x| ≤ B) :
    ∃ v : ℝ, Rnd.crpsPwm r S (fin y) (xs.map fin) = fin v ∧
      |v - fairCrps y xs| ≤ (xs.length + 4) / 2 ^ 51 * (5 * B) := by
  obtain ⟨_, _, v, e, hv⟩ := crpsPwm_near hr hS h2 hM hB hB2 hy hx
  refine ⟨v, e, ?_⟩
  have : fairCrps y xs
      = meanAbs y xs + xs.sum / xs.length - 2 * (pwmU 0 xs / ((xs.length : ℝ) * ((xs.length : ℝ) - 1))) := by
    rw [← mul_div_assoc, ← sabs_eq, pwm_val h2 hs]
    rfl
  rw [this, div_eq_mul_one_div _ ((2:ℝ) ^ 51)]
  exact hv

example : ∃ S : List XF → XF, (∀ xs, RSum rn64 xs (S xs)) ∧ Binary64 rn64 ∧ 2 ≤ trio.length ∧ trio.length ≤ 2 ^ 20 ∧
    trio.Pairwise (· ≤ ·) ∧ 1 / 2 ^ 900 ≤ (7:ℝ) ∧ (7:ℝ) ≤ 2 ^ 900 ∧ |(3:ℝ)| ≤ 7 ∧ ∀ x ∈ trio, |x| ≤ 7 := by
  obtain ⟨S, hS⟩ := exists_rsum rn64
  refine ⟨S, hS, rn64_nearest.toBinary64, by simp [trio], by simp [trio], by simp [trio]; norm_num, ?_, ?_, by norm_num, ?_⟩
  · have : (1:ℝ) ≤ 2 ^ 900 := one_le_pow₀ (by norm_num)
    have := (div_le_one (by positivity : (0:ℝ) < 2 ^ 900)).2 this
    linarith
  · calc (7:ℝ) ≤ 2 ^ 3 := by norm_num
      _ ≤ 2 ^ 900 := pow_le_pow_right₀ (by norm_num) (by norm_num)
  · intro x hx
    simp only [trio, List.mem_cons, List.not_mem_nil, or_false] at hx
    rcases hx with rfl | rfl | rfl <;> norm_num

/-- the mean distance between every member and the one `s` places before it, the members arranged in a circle -/
def circleMean (s : ℕ) (xs : List ℝ) : ℝ :=
  ((List.range xs.length).map fun i =>
    |xs.getD i 0 - xs.getD ((i + (xs.length - s % xs.length)) % xs.length) 0|).sum / xs.length

/-- Full property: for all finite data the estimators `akr` and `akr_circperm` computed in binary64 are close to their
exact values, relative to the distances that enter.  Proved for data up to `2 ^ 959` and up to `2 ^ 20` members; missing:
larger data, for which distances may be beyond binary64. -/
theorem C165_akr_partial {r : ℝ → XF} (hr : Binary64 r) {S : List XF → XF} (hS : ∀ xs, RSum r xs (S xs)) {y : ℝ}
    {xs : List ℝ} (hne : xs ≠ []) (hM : xs.length ≤ 2 ^ 20) (hy : |y| ≤ 2 ^ 959) (hx : ∀ x ∈ xs, |x| ≤ 2 ^ 959) :
    (∃ v : ℝ, Rnd.crpsAkr r S (fin y) (xs.map fin) = fin v ∧
      |v - (meanAbs y xs - 1 / 2 * circleMean 1 xs)|
        ≤ (xs.length + 4) / 2 ^ 51 * (meanAbs y xs + 1 / 2 * circleMean 1 xs) + 1 / 2 ^ 1069) ∧
    ∃ v : ℝ, Rnd.crpsAkrCircperm r S (fin y) (xs.map fin) = fin v ∧
      |v - (meanAbs y xs - 1 / 2 * circleMean (xs.length / 2) xs)|
        ≤ (xs.length + 4) / 2 ^ 51 * (meanAbs y xs + 1 / 2 * circleMean (xs.length / 2) xs) + 1 / 2 ^ 1069 := by
  have t : (10:ℝ) * (1 / 2 ^ 1073) ≤ 1 / 2 ^ 1069 := by
    rw [show (1073:ℕ) = 4 + 1069 from rfl, pow_add, ← one_div_mul_one_div, ← mul_assoc]
    have : (0:ℝ) < 1 / 2 ^ 1069 := by positivity
    generalize (1:ℝ) / 2 ^ 1069 = w at *
    norm_num; linarith
  have key := fun s => crpsRoll_near hr hS hne hM hy hx s
  constructor
  · obtain ⟨v, e, hv⟩ := key 1
    refine ⟨v, e, hv.trans (add_le_add (le_of_eq ?_) t)⟩
    rw [mul_one_div]
    rfl
  · obtain ⟨v, e, hv⟩ := key (xs.length / 2)
    refine ⟨v, ?_, hv.trans (add_le_add (le_of_eq ?_) t)⟩
    · unfold Rnd.crpsAkrCircperm
      rw [show (xs.map fin).length / 2 = xs.length / 2 by rw [List.length_map]]
      exact e
    · rw [mul_one_div]
      rfl

example : ∃ S : List XF → XF, (∀ xs, RSum rn64 xs (S xs)) ∧ Binary64 rn64 ∧ trio ≠ [] ∧ trio.length ≤ 2 ^ 20 ∧
    |(3:ℝ)| ≤ 2 ^ 959 ∧ ∀ x ∈ trio, |x| ≤ 2 ^ 959 := by
  obtain ⟨S, hS⟩ := exists_rsum rn64
  exact ⟨S, hS, rn64_nearest.toBinary64, by simp [trio], by simp [trio], trio_bound 3 (by simp [trio]), trio_bound⟩

/-- Two members equal to the observation `2 ^ 53 - 7` and one two units above it: the fair CRPS is zero and no two of the
data differ by more than two, but with every rounding to nearest and in every order of summation `pwm` returns `-1`,
whereas `fair` stays within `2 ^ -43` of zero. -/
theorem C165_pwm_false {r : ℝ → XF} (hr : Nearest64 r) {S : List XF → XF} (hS : ∀ xs, RSum r xs (S xs)) :
    Rnd.crpsPwm r S (fin (2 ^ 53 - 7)) ([2 ^ 53 - 7, 2 ^ 53 - 7, 2 ^ 53 - 5].map fin) = fin (-1) ∧
      fairCrps (2 ^ 53 - 7) [2 ^ 53 - 7, 2 ^ 53 - 7, 2 ^ 53 - 5] = 0 ∧
      ∃ v : ℝ, Rnd.crpsFair r S (fin (2 ^ 53 - 7)) ([2 ^ 53 - 7, 2 ^ 53 - 7, 2 ^ 53 - 5].map fin) = fin v ∧
        |v| ≤ 1 / 2 ^ 43 := by
  have z : fairCrps (2 ^ 53 - 7) [2 ^ 53 - 7, 2 ^ 53 - 7, 2 ^ 53 - 5] = 0 := by
    unfold fairCrps meanAbs sumAbsDiff
    norm_num
  refine ⟨?_, z, ?_⟩
  · have := pwm_bad hr hS
    simp only [List.map_cons, List.map_nil]
    norm_num
    exact this
  · have big : ∀ {x : ℝ}, |x| ≤ 2 ^ 53 → |x| ≤ 2 ^ 959 := fun h => h.trans (pow_le_pow_right₀ (by norm_num) (by norm_num))
    obtain ⟨v, e, hv⟩ := C165_fair_partial hr.toBinary64 hS (y := 2 ^ 53 - 7) (xs := [2 ^ 53 - 7, 2 ^ 53 - 7, 2 ^ 53 - 5])
      (by simp) (by simp) (big (by rw [abs_of_pos (by norm_num)]; norm_num)) (by
        intro x hx
        simp only [List.mem_cons, List.not_mem_nil, or_false] at hx
        rcases hx with rfl | rfl | rfl <;> exact big (by rw [abs_of_pos (by norm_num)]; norm_num))
    refine ⟨v, e, ?_⟩
    rw [z, sub_zero] at hv
    have m : meanAbs (2 ^ 53 - 7) [2 ^ 53 - 7, 2 ^ 53 - 7, 2 ^ 53 - 5] = 2 / 3 := by
      unfold meanAbs; norm_num
    rw [m] at hv
    have t : (1:ℝ) / 2 ^ 1069 ≤ 1 / 2 ^ 60 :=
      one_div_le_one_div_of_le (by positivity) (pow_le_pow_right₀ (by norm_num) (by norm_num))
    refine hv.trans ((add_le_add (le_refl _) t).trans ?_)
    norm_num

example : ∃ S : List XF → XF, (∀ xs, RSum rn64 xs (S xs)) ∧ Nearest64 rn64 := by
  obtain ⟨S, hS⟩ := exists_rsum rn64
  exact ⟨S, hS, rn64_nearest⟩

/-- Beyond the range of binary64: the score of this forecast is `2 ^ 1022`, a binary64 number like all the data, and the
code returns NaN. -/
theorem C165_overflow_false {r : ℝ → XF} (hr : Binary64 r) {S : List XF → XF} (hS : ∀ xs, RSum r xs (S xs)) :
    Rnd.crpsNrg r S (fin (-2 ^ 1023)) ([-2 ^ 1023, 2 ^ 1023].map fin) = nan ∧
      Spec.crps (ecdf [-2 ^ 1023, 2 ^ 1023]) (-2 ^ 1023) = 2 ^ 1022 := by
  have e4 : (2:ℝ) ^ 1023 = 2 * 2 ^ 1022 := pow_succ' _ _
  constructor
  · have z : Rnd.rd r (fin 0) = fin 0 := by
      have := hr.nat 0 (by norm_num)
      simpa [Rnd.rd] using this
    have o : Rnd.rd r (fin (2 ^ 1023 - -2 ^ 1023)) = pinf := by
      refine hr.over (le_of_eq ?_)
      rw [sub_neg_eq_add, ← two_mul, ← pow_succ']
    have o' : Rnd.rd r (fin (-2 ^ 1023 - 2 ^ 1023)) = ninf := by
      have : r (-(2 ^ 1023 - -2 ^ 1023)) = -Rnd.rd r (fin (2 ^ 1023 - -2 ^ 1023)) := hr.neg _
      rw [o] at this
      rw [show (-2 ^ 1023 - 2 ^ 1023 : ℝ) = -(2 ^ 1023 - -2 ^ 1023) by generalize (2:ℝ) ^ 1023 = P; ring]
      exact this
    have d0 : ∀ a : ℝ, Rnd.adiff r (fin a) (fin a) = fin 0 := by
      intro a; unfold Rnd.adiff; rw [fin_sub, sub_self, z, fin_abs, abs_zero]
    have d1 : Rnd.adiff r (fin (-2 ^ 1023)) (fin (2 ^ 1023)) = pinf := by
      unfold Rnd.adiff; rw [fin_sub, o']; rfl
    have d2 : Rnd.adiff r (fin (2 ^ 1023)) (fin (-2 ^ 1023)) = pinf := by
      unfold Rnd.adiff; rw [fin_sub, o]; rfl
    have n0 : NonnegX (fin 0) := .inr ⟨0, le_refl _, rfl⟩
    have n1 : NonnegX pinf := .inl rfl
    unfold Rnd.crpsNrg Rnd.crpsE1 Rnd.crpsPairs
    simp only [List.map_cons, List.map_nil, List.flatMap_cons, List.flatMap_nil, List.length_cons, List.length_nil,
      List.append_nil, List.cons_append, List.nil_append, d0, d1, d2]
    rw [((hS [fin 0, pinf]).nonneg hr (by simp [n0, n1])).2 (by simp),
      ((hS [fin 0, pinf, pinf, fin 0]).nonneg hr (by simp [n0, n1])).2 (by simp), pinf_div_nat, pinf_div_nat, half_fin]
    have : Rnd.rd r (fin (1 / 2) * Rnd.rd r pinf) = pinf := by
      show Rnd.rd r (fin (1 / 2) * pinf) = pinf
      have h : infMul true (1 / 2) = pinf := by unfold infMul; norm_num
      rw [fin_mul_pinf, h]; rfl
    rw [this]
    rfl
  · rw [crps_ecdf_means _ (by simp)]
    unfold meanAbs sumAbsDiff
    simp only [List.map_cons, List.map_nil, List.sum_cons, List.sum_nil, List.length_cons, List.length_nil, sub_self, abs_zero]
    rw [e4]
    clear e4
    have p : (0:ℝ) < 2 ^ 1022 := by positivity
    generalize (2:ℝ) ^ 1022 = P at *
    rw [abs_of_pos (by linarith), abs_of_neg (by linarith)]
    push_cast
    ring

example : ∃ S : List XF → XF, (∀ xs, RSum rn64 xs (S xs)) ∧ Binary64 rn64 := by
  obtain ⟨S, hS⟩ := exists_rsum rn64
  exact ⟨S, hS, rn64_nearest.toBinary64⟩

end Verif
