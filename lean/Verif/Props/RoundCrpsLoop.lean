import Verif.Lemmas.RoundCrpsInt
import Verif.Lemmas.RoundCrpsAkr
import Verif.Props.RoundCrps

/-!
# Property C166: accuracy of the ensemble CRPS of the numba path in binary64

The loops of `core/crps/_gufuncs.py` for the estimators `qd` (the default), `int`, `nrg`, `fair`, `pwm`, `akr`
and `akr_circperm`.
-/

noncomputable section

open scoped Classical

namespace Verif

open XF Py Spec

/-- Without rounding the functions are those of the exact model. -/
theorem C166_exact : RndLoop.qd fin = Gufunc.qd ∧ RndLoop.nrg fin = Gufunc.nrg ∧ RndLoop.fair fin = Gufunc.fair ∧
    RndLoop.pwm fin = Gufunc.pwm ∧ RndLoop.int fin = Gufunc.int ∧ RndLoop.akr fin = Gufunc.akr ∧
    RndLoop.akrCircperm fin = Gufunc.akrCircperm := by
  refine ⟨?_, ?_, ?_, ?_, ?_, ?_, ?_⟩ <;> funext y xs
  · simp only [RndLoop.qd, Gufunc.qd, rd_fin_eq]
    rfl
  · simp only [RndLoop.nrg, RndLoop.pairLoop, Gufunc.nrg, rd_fin_eq, Rnd.adiff]
  · simp only [RndLoop.fair, RndLoop.pairLoop, Gufunc.fair, rd_fin_eq, Rnd.adiff]
  · simp only [RndLoop.pwm, Gufunc.pwm, rd_fin_eq, Rnd.adiff]
  · have h : RndLoop.intStep fin = fun w y x s => intStep y x w s := by
      funext w y x s
      simp only [RndLoop.intStep, intStep, rd_fin_eq]
    simp only [RndLoop.int, Gufunc.int, h, rd_fin_eq]
    rfl
  · simp only [RndLoop.akr, Gufunc.akr, rd_fin_eq, Rnd.adiff]
  · simp only [RndLoop.akrCircperm, Gufunc.akrCircperm, rd_fin_eq, Rnd.adiff]

example : RndLoop.nrg fin (fin 3) (trio.map fin) = fin (Spec.crps (ecdf trio) 3) := by
  rw [C166_exact.2.1, Gufunc.nrg_fin 3 trio (by simp [trio]), crps_ecdf_eq_energy 3 (by simp [trio])]

/-- Full property: for all finite data in ascending order the default estimator computed in binary64 is nonnegative and
close to the CRPS of the empirical distribution, relative to the score itself.  Proved for data up to `2 ^ 959` and up to
`2 ^ 20` members; for larger data it is false (`C166_overflow_false`). -/
theorem C166_qd_partial {r : ℝ → XF} (hr : Nearest64 r) {y : ℝ} {xs : List ℝ} (hne : xs ≠ []) (hM : xs.length ≤ 2 ^ 20)
    (hs : xs.Pairwise (· ≤ ·)) (hy : |y| ≤ 2 ^ 959) (hx : ∀ x ∈ xs, |x| ≤ 2 ^ 959) :
    ∃ v : ℝ, RndLoop.qd r (fin y) (xs.map fin) = fin v ∧ 0 ≤ v ∧
      |v - Spec.crps (ecdf xs) y| ≤ (xs.length + 6) / 2 ^ 51 * Spec.crps (ecdf xs) y + 1 / 2 ^ 1048 := by
  obtain ⟨v, e, h0, hv⟩ := loopQd_near hr hne hM hs hy hx
  rw [qdSum_uw y hne hs, ← crps_ecdf_eq_energy y hne] at hv
  refine ⟨v, e, h0, hv.trans (le_of_eq ?_)⟩
  rw [mul_one_div]
  congr 1
  rw [mul_one_div, show (1073:ℕ) = 25 + 1048 from rfl, pow_add]
  field_simp

example : Nearest64 rn64 ∧ trio ≠ [] ∧ trio.length ≤ 2 ^ 20 ∧ trio.Pairwise (· ≤ ·) ∧ |(3:ℝ)| ≤ 2 ^ 959 ∧
    ∀ x ∈ trio, |x| ≤ 2 ^ 959 :=
  ⟨rn64_nearest, by simp [trio], by simp [trio], by simp [trio]; norm_num, trio_bound 3 (by simp [trio]), trio_bound⟩

/-- Full property: for all finite data in ascending order the estimator `int` computed in binary64 is nonnegative and close
to the CRPS of the empirical distribution, relative to the score itself.  Proved for data up to `2 ^ 959` and up to
`2 ^ 20` members; missing: larger data, for which distances may be beyond binary64. -/
theorem C166_int_partial {r : ℝ → XF} (hr : Nearest64 r) {y : ℝ} {xs : List ℝ} (hne : xs ≠ []) (hM : xs.length ≤ 2 ^ 20)
    (hs : xs.Pairwise (· ≤ ·)) (hy : |y| ≤ 2 ^ 959) (hx : ∀ x ∈ xs, |x| ≤ 2 ^ 959) :
    ∃ v : ℝ, RndLoop.int r (fin y) (xs.map fin) = fin v ∧ 0 ≤ v ∧
      |v - Spec.crps (ecdf xs) y| ≤ (xs.length : ℝ) ^ 2 / 2 ^ 46 * Spec.crps (ecdf xs) y + 1 / 2 ^ 1050 := by
  have hM' : (xs.length : ℝ) ≤ 2 ^ 20 := by exact_mod_cast hM
  have hM1 : (1:ℝ) ≤ xs.length := by exact_mod_cast List.length_pos_iff.mpr hne
  have hM2 : (xs.length : ℝ) ≤ (xs.length : ℝ) ^ 2 := by nlinarith
  have e0 : int0 y 0 0 (uw xs) = Spec.crps (ecdf xs) y := by rw [int0_uw y hne hs, crps_ecdf_eq_energy y hne]
  have b : Spec.crps (ecdf xs) y ≤ 2 ^ 1000 := by
    have h1 : Spec.crps (ecdf xs) y ≤ meanAbs y xs := by
      rw [crps_ecdf_means y hne]
      have : 0 ≤ sumAbsDiff xs / (xs.length : ℝ) ^ 2 := div_nonneg (spair_nonneg' xs) (sq_nonneg _)
      linarith
    refine h1.trans ?_
    have h2 : (xs.map fun x => |x - y|).sum ≤ (xs.length : ℝ) * 2 ^ 960 := sum_map_le fun x h => dist960 (hx x h) hy
    calc meanAbs y xs = (xs.map fun x => |x - y|).sum / xs.length := rfl
      _ ≤ 2 ^ 960 := by rw [div_le_iff₀ (by linarith), mul_comm]; exact h2
      _ ≤ 2 ^ 1000 := pow_le_pow_right₀ (by norm_num) (by norm_num)
  obtain ⟨v, e, v0, hv⟩ := loopInt_near hr hne hM hs hy hx (by rw [e0]; exact b)
  rw [e0] at hv
  have c0 : 0 ≤ Spec.crps (ecdf xs) y := by
    unfold Spec.crps
    exact MeasureTheory.integral_nonneg fun _ => sq_nonneg _
  refine ⟨v, e, v0, hv.trans (add_le_add ?_ ?_)⟩
  · refine mul_le_mul_of_nonneg_right ?_ c0
    calc (6 * (xs.length : ℝ) ^ 2 + 11 + (xs.length + 2)) * (1 / 2 ^ 51) ≤ (32 * (xs.length : ℝ) ^ 2) * (1 / 2 ^ 51) := by
          gcongr; linarith
      _ = _ := by ring
  · rw [show (1073:ℕ) = 23 + 1050 from rfl, pow_add, ← one_div_mul_one_div, ← mul_assoc]
    refine mul_le_of_le_one_left (by positivity) ?_
    rw [mul_one_div, div_le_one (by positivity)]
    have : (4:ℝ) * (2 ^ 20 + 2) ≤ 2 ^ 23 := by norm_num
    linarith

example : Nearest64 rn64 ∧ trio ≠ [] ∧ trio.length ≤ 2 ^ 20 ∧ trio.Pairwise (· ≤ ·) ∧ |(3:ℝ)| ≤ 2 ^ 959 ∧
    ∀ x ∈ trio, |x| ≤ 2 ^ 959 :=
  ⟨rn64_nearest, by simp [trio], by simp [trio], by simp [trio]; norm_num, trio_bound 3 (by simp [trio]), trio_bound⟩

/-- Full property: for all finite data the estimator `nrg` computed in binary64 is close to the CRPS of the empirical
distribution, relative to the mean distance of the members to the observation.  Proved for data up to `2 ^ 950` and up to
`2 ^ 20` members; for larger data it is false (`C166_overflow_false`). -/
theorem C166_nrg_partial {r : ℝ → XF} (hr : Binary64 r) {y : ℝ} {xs : List ℝ} (hne : xs ≠ []) (hM : xs.length ≤ 2 ^ 20)
    (hy : |y| ≤ 2 ^ 950) (hx : ∀ x ∈ xs, |x| ≤ 2 ^ 950) :
    ∃ v : ℝ, RndLoop.nrg r (fin y) (xs.map fin) = fin v ∧
      |v - Spec.crps (ecdf xs) y| ≤ (xs.length : ℝ) ^ 2 / 2 ^ 46 * meanAbs y xs + 1 / 2 ^ 1069 := by
  have hM1 : (1:ℝ) ≤ xs.length := by exact_mod_cast List.length_pos_iff.mpr hne
  obtain ⟨v, e, hv⟩ := loopPair_near hr hne hM hy hx (Q := (xs.length : ℝ) ^ 2) (one_le_pow₀ hM1)
    (by have := sq_nonneg (xs.length : ℝ); linarith)
  refine ⟨v, ?_, ?_⟩
  · unfold RndLoop.nrg
    rw [List.length_map, if_neg (by simp), half_fin, natCast_fin, natCast_fin, Nat.cast_pow]
    exact e
  · rw [crps_ecdf_means y hne]
    exact hv

theorem trio_bound' : ∀ x ∈ trio, |x| ≤ 2 ^ 950 := by
  have h : (7:ℝ) ≤ 2 ^ 950 := by
    calc (7:ℝ) ≤ 2 ^ 3 := by norm_num
      _ ≤ 2 ^ 950 := pow_le_pow_right₀ (by norm_num) (by norm_num)
  intro x hx
  refine le_trans ?_ h
  simp only [trio, List.mem_cons, List.not_mem_nil, or_false] at hx
  rcases hx with rfl | rfl | rfl <;> norm_num

example : Binary64 rn64 ∧ trio ≠ [] ∧ trio.length ≤ 2 ^ 20 ∧ |(3:ℝ)| ≤ 2 ^ 950 ∧ ∀ x ∈ trio, |x| ≤ 2 ^ 950 :=
  ⟨rn64_nearest.toBinary64, by simp [trio], by simp [trio], trio_bound' 3 (by simp [trio]), trio_bound'⟩

/-- The same for the estimator `fair` and two members or more. -/
theorem C166_fair_partial {r : ℝ → XF} (hr : Binary64 r) {y : ℝ} {xs : List ℝ} (h2 : 2 ≤ xs.length)
    (hM : xs.length ≤ 2 ^ 20) (hy : |y| ≤ 2 ^ 950) (hx : ∀ x ∈ xs, |x| ≤ 2 ^ 950) :
    ∃ v : ℝ, RndLoop.fair r (fin y) (xs.map fin) = fin v ∧
      |v - fairCrps y xs| ≤ (xs.length : ℝ) ^ 2 / 2 ^ 46 * meanAbs y xs + 1 / 2 ^ 1069 := by
  have hne : xs ≠ [] := by intro e; simp [e] at h2
  have hM2 : (2:ℝ) ≤ xs.length := by exact_mod_cast h2
  obtain ⟨v, e, hv⟩ := loopPair_near hr hne hM hy hx (Q := (xs.length : ℝ) * ((xs.length : ℝ) - 1)) (by nlinarith)
    (by nlinarith)
  refine ⟨v, ?_, ?_⟩
  · unfold RndLoop.fair
    rw [List.length_map, if_neg (by simp), half_fin, natCast_fin, natCast_fin, natPred_cast h2]
    exact e
  · have : fairCrps y xs = meanAbs y xs - 1 / 2 * (sumAbsDiff xs / ((xs.length : ℝ) * ((xs.length : ℝ) - 1))) := by
      unfold fairCrps
      have h0 : (xs.length : ℝ) * ((xs.length : ℝ) - 1) ≠ 0 := by nlinarith
      field_simp
    rw [this]
    exact hv

example : Binary64 rn64 ∧ 2 ≤ trio.length ∧ trio.length ≤ 2 ^ 20 ∧ |(3:ℝ)| ≤ 2 ^ 950 ∧ ∀ x ∈ trio, |x| ≤ 2 ^ 950 :=
  ⟨rn64_nearest.toBinary64, by simp [trio], by simp [trio], trio_bound' 3 (by simp [trio]), trio_bound'⟩

/-- Full property: the estimator `pwm` computed in binary64 is close to the fair CRPS relative to the distances of the
members to the observation.  This is false (`C166_pwm_false`); what holds is a bound relative to the size `B` of the
data. -/
theorem C166_pwm_partial {r : ℝ → XF} (hr : Binary64 r) {y B : ℝ} {xs : List ℝ} (h2 : 2 ≤ xs.length)
    (hM : xs.length ≤ 2 ^ 20) (hs : xs.Pairwise (· ≤ ·)) (hB : 1 / 2 ^ 900 ≤ B) (hB2 : B ≤ 2 ^ 900) (hy : |y| ≤ B)
    (hx : ∀ x ∈ xs, |x| ≤ B) :
    ∃ v : ℝ, RndLoop.pwm r (fin y) (xs.map fin) = fin v ∧
      |v - fairCrps y xs| ≤ (xs.length + 5) / 2 ^ 51 * (8 * B) := by
  obtain ⟨_, _, v, e, hv⟩ := loopPwm_near hr h2 hM hB hB2 hy hx
  refine ⟨v, e, ?_⟩
  have : fairCrps y xs
      = meanAbs y xs + xs.sum / xs.length - 2 * pwmU 0 xs / ((xs.length : ℝ) * ((xs.length : ℝ) - 1)) := by
    rw [← sabs_eq, pwm_val h2 hs]
    rfl
  rw [this, div_eq_mul_one_div _ ((2:ℝ) ^ 51)]
  exact hv

example : Binary64 rn64 ∧ 2 ≤ trio.length ∧ trio.length ≤ 2 ^ 20 ∧ trio.Pairwise (· ≤ ·) ∧ 1 / 2 ^ 900 ≤ (7:ℝ) ∧
    (7:ℝ) ≤ 2 ^ 900 ∧ |(3:ℝ)| ≤ 7 ∧ ∀ x ∈ trio, |x| ≤ 7 := by
  refine ⟨rn64_nearest.toBinary64, by simp [trio], by simp [trio], by simp [trio]; norm_num, ?_, ?_, by norm_num, ?_⟩
  · have : (1:ℝ) ≤ 2 ^ 900 := one_le_pow₀ (by norm_num)
    have := (div_le_one (by positivity : (0:ℝ) < 2 ^ 900)).2 this
    linarith
  · calc (7:ℝ) ≤ 2 ^ 3 := by norm_num
      _ ≤ 2 ^ 900 := pow_le_pow_right₀ (by norm_num) (by norm_num)
  · intro x hx
    simp only [trio, List.mem_cons, List.not_mem_nil, or_false] at hx
    rcases hx with rfl | rfl | rfl <;> norm_num

/-- Full property: for all finite data `akr` and `akr_circperm` of the numba path computed in binary64 are close to their
exact values, relative to the distances that enter.  Proved for data up to `2 ^ 959` and up to `2 ^ 20` members; missing:
larger data, for which distances may be beyond binary64. -/
theorem C166_akr_partial {r : ℝ → XF} (hr : Nearest64 r) {y : ℝ} {xs : List ℝ} (hne : xs ≠ []) (hM : xs.length ≤ 2 ^ 20)
    (hy : |y| ≤ 2 ^ 959) (hx : ∀ x ∈ xs, |x| ≤ 2 ^ 959) :
    (∃ v : ℝ, RndLoop.akr r (fin y) (xs.map fin) = fin v ∧
      |v - (meanAbs y xs - 1 / 2 * circleMean 1 xs)|
        ≤ (2 * xs.length + 10) / 2 ^ 51 * (meanAbs y xs + 1 / 2 * circleMean 1 xs) + 1 / 2 ^ 1050) ∧
    ∃ v : ℝ, RndLoop.akrCircperm r (fin y) (xs.map fin) = fin v ∧
      |v - (meanAbs y xs - 1 / 2 * circleMean (xs.length / 2) xs)|
        ≤ (2 * xs.length + 10) / 2 ^ 51 * (meanAbs y xs + 1 / 2 * circleMean (xs.length / 2) xs) + 1 / 2 ^ 1050 := by
  have hM0 : 0 < xs.length := List.length_pos_iff.mpr hne
  have h1 : half * 1 = fin (1 / 2) := by rw [half_fin, one_fin, fin_mul, mul_one]
  have sum_eq : ∀ (s : ℕ) (σ : ℕ → ℕ), (∀ i < xs.length, σ i = (i + (xs.length - s % xs.length)) % xs.length) →
      ((List.range xs.length).map fun i => |xs.getD i 0 - xs.getD (σ i) 0|).sum / xs.length = circleMean s xs := by
    intro s σ h
    unfold circleMean
    rw [List.map_congr_left fun i hi => by rw [h i (List.mem_range.1 hi)]]
  constructor
  · have hσ : ∀ i < xs.length, (if i = 0 then xs.length else i) - 1 = (i + (xs.length - 1 % xs.length)) % xs.length := by
      intro i hi
      rcases Nat.lt_or_ge 1 xs.length with h | h
      · rw [Nat.mod_eq_of_lt h]
        split_ifs with h0
        · rw [h0, zero_add, Nat.mod_eq_of_lt (by omega)]
        · rw [show i + (xs.length - 1) = (i - 1) + xs.length by omega, Nat.add_mod_right, Nat.mod_eq_of_lt (by omega)]
      · have : xs.length = 1 := by omega
        rw [this, Nat.mod_one]
        have : i = 0 := by omega
        simp [this]
    obtain ⟨v, e, hv⟩ := loopCirc_near hr hne hM hy hx (σ := fun i => (if i = 0 then xs.length else i) - 1)
      (fun i hi => by rw [hσ i hi]; exact Nat.mod_lt _ hM0) rfl
    rw [sum_eq 1 _ hσ] at hv
    refine ⟨v, ?_, hv⟩
    unfold RndLoop.akr
    rw [List.length_map]
    dsimp only
    rw [h1, natCast_fin]
    exact e
  · have hσ : ∀ i < xs.length, Gufunc.sigma xs.length i = (i + (xs.length - xs.length / 2 % xs.length)) % xs.length := by
      intro i hi
      rw [sigma_eq, Nat.mod_eq_of_lt (Nat.div_lt_self hM0 (by norm_num))]
      congr 1
      omega
    obtain ⟨v, e, hv⟩ := loopCirc_near hr hne hM hy hx (σ := Gufunc.sigma xs.length)
      (fun i hi => by rw [hσ i hi]; exact Nat.mod_lt _ hM0) rfl
    rw [sum_eq (xs.length / 2) _ hσ] at hv
    refine ⟨v, ?_, hv⟩
    unfold RndLoop.akrCircperm
    rw [List.length_map]
    dsimp only
    rw [h1, natCast_fin]
    exact e

example : Nearest64 rn64 ∧ trio ≠ [] ∧ trio.length ≤ 2 ^ 20 ∧ |(3:ℝ)| ≤ 2 ^ 959 ∧ ∀ x ∈ trio, |x| ≤ 2 ^ 959 :=
  ⟨rn64_nearest, by simp [trio], by simp [trio], trio_bound 3 (by simp [trio]), trio_bound⟩

/-- Two members equal to the observation `2 ^ 53 - 7` and one two units above it: the fair CRPS is zero and no two of the
data differ by more than two, but with every rounding to nearest the loop for `pwm` returns `-1`. -/
theorem C166_pwm_false {r : ℝ → XF} (hr : Nearest64 r) :
    RndLoop.pwm r (fin (2 ^ 53 - 7)) ([2 ^ 53 - 7, 2 ^ 53 - 7, 2 ^ 53 - 5].map fin) = fin (-1) ∧
      fairCrps (2 ^ 53 - 7) [2 ^ 53 - 7, 2 ^ 53 - 7, 2 ^ 53 - 5] = 0 := by
  refine ⟨?_, ?_⟩
  · have := loopPwm_bad hr
    simp only [List.map_cons, List.map_nil]
    norm_num
    exact this
  · unfold fairCrps meanAbs sumAbsDiff
    norm_num

example : Nearest64 rn64 := rn64_nearest

/-- Beyond the range of binary64: the score of this forecast is `2 ^ 1022`, a binary64 number like all the data, but the
loop for `nrg` returns NaN and the default estimator returns infinity. -/
theorem C166_overflow_false {r : ℝ → XF} (hn : Nearest64 r) :
    RndLoop.nrg r (fin (-2 ^ 1023)) ([-2 ^ 1023, 2 ^ 1023].map fin) = nan ∧
      RndLoop.qd r (fin (-2 ^ 1023)) ([-2 ^ 1023, 2 ^ 1023].map fin) = pinf ∧
      Spec.crps (ecdf [-2 ^ 1023, 2 ^ 1023]) (-2 ^ 1023) = 2 ^ 1022 := by
  have hr := hn.toBinary64
  obtain ⟨S, hS⟩ := exists_rsum r
  have z : Rnd.rd r (fin 0) = fin 0 := by
    have := hr.nat 0 (by norm_num)
    simpa [Rnd.rd] using this
  have o : Rnd.rd r (fin (2 ^ 1023 - -2 ^ 1023)) = pinf := by
    refine hr.over (le_of_eq ?_)
    rw [sub_neg_eq_add, ← two_mul, ← pow_succ']
  have d0 : Rnd.adiff r (fin (-2 ^ 1023)) (fin (-2 ^ 1023)) = fin 0 := by
    unfold Rnd.adiff; rw [fin_sub, sub_self, z, fin_abs, abs_zero]
  have d2 : Rnd.adiff r (fin (2 ^ 1023)) (fin (-2 ^ 1023)) = pinf := by
    unfold Rnd.adiff; rw [fin_sub, o]; rfl
  refine ⟨?_, ?_, (C165_overflow_false hr hS).2⟩
  · obtain ⟨s1, s2⟩ := pairLoop_rsum r (-2 ^ 1023) [-2 ^ 1023, 2 ^ 1023]
    have n0 : NonnegX (fin 0) := .inr ⟨0, le_refl _, rfl⟩
    have n1 : NonnegX pinf := .inl rfl
    have t : Rnd.rd r (2 * Rnd.adiff r (fin (2 ^ 1023)) (fin (-2 ^ 1023))) = pinf := by
      have h : infMul true 2 = pinf := by unfold infMul; norm_num
      rw [d2, two_fin, fin_mul_pinf, h]; rfl
    have u : upPairs [-2 ^ 1023, 2 ^ 1023] = [(2 ^ 1023, -2 ^ 1023)] := by
      simp [upPairs, List.range']
    rw [u] at s2
    simp only [List.map_cons, List.map_nil, List.cons_append, List.nil_append, d0, t] at s1 s2
    rw [d2] at s1
    unfold RndLoop.nrg
    rw [if_neg (by simp), List.length_map]
    simp only [List.map_cons, List.map_nil]
    rw [(s1.nonneg hr (by simp [n0, n1])).2 (by simp), (s2.nonneg hr (by simp [n0, n1])).2 (by simp), half_fin,
      pinf_div_nat]
    have h : infMul true (1 / 2) = pinf := by unfold infMul; norm_num
    rw [fin_mul_pinf, h, show Rnd.rd r pinf = pinf from rfl, pinf_div_nat]
    rfl
  · have lt : -(2:ℝ) ^ 1023 < 2 ^ 1023 := neg_lt_self (by positivity)
    have one : ∀ n : ℕ, n ≤ 2 → Rnd.rd r (fin n) = fin n := fun n hn => hr.nat n (hn.trans (by norm_num))
    unfold RndLoop.qd forEnumM
    simp only [List.map_cons, List.map_nil, List.length_cons, List.length_nil, List.zipIdx_cons, List.zipIdx_nil, List.foldlM_cons,
      List.foldlM_nil]
    have hh : Rnd.rd r (fin (1 / 2)) = fin (1 / 2) := half_rd hn (n := 1) (by norm_num) (by norm_num) (by norm_num)
    have hh' : Rnd.rd r (fin (-(1 / 2))) = fin (-(1 / 2)) := neg_rd hr hh
    have h1 : Rnd.rd r (fin 1) = fin 1 := by simpa using one 1 (by norm_num)
    have h1' : Rnd.rd r (fin (-1)) = fin (-1) := neg_rd hr h1
    have h2 : Rnd.rd r (fin 2) = fin 2 := by simpa using one 2 (by norm_num)
    have h : infMul true (1 / 2) = pinf := by unfold infMul; norm_num
    rw [sub_neg_eq_add] at o
    simp [lt, fin_sub, z]
    rw [o, show (2 : XF) = fin 2 from rfl, show (4 : XF) = fin 4 from rfl, half_fin, zero_fin, natCast_fin, fin_div (by norm_num), fin_mul, h2, fin_sub]
    norm_num
    rw [z, fin_sub, fin_add]
    norm_num at hh hh' h ⊢
    rw [hh, h1', fin_add, show (-1:ℝ) + 1 / 2 = -(1 / 2) by norm_num, hh', fin_mul, zero_mul, z, z, mul_comm pinf,
      fin_mul_pinf, h]
    show Rnd.rd r (fin (1 / 2) * pinf) = pinf
    rw [fin_mul_pinf, h]
    rfl

example : Nearest64 rn64 := rn64_nearest

end Verif
