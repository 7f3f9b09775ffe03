import Verif.Lemmas.NegbinomCrps
import Verif.Props.Poisson

/-!
# C81: `crps_negbinom`
-/

noncomputable section

open scoped Classical

namespace Verif

open XF Spec Stats

theorem negbinomCdf_fin {r p : ℝ} (hr : 0 < r) (h0 : 0 < p) (h1 : p ≤ 1) (y : ℝ) :
    negbinomCdf (fin y) (fin r) (fin p) = fin (cdfPmf (pmfNegbinom r p) y) := by
  unfold negbinomCdf
  by_cases hy : y < 0
  · simp [XF.zero_def, hy, cdfPmf_neg hy]
  · have hy0 := not_lt.1 hy
    have e : ((⌊y + 1⌋ : ℤ) : ℝ) = (⌊y⌋₊ : ℝ) + 1 := by
      rw [Int.floor_add_one]; push_cast; rw [floor_nonneg hy0]
    simp only [XF.zero_def, fin_lt, hy, if_false, XF.one_def, fin_add, XF.floor, e]
    rw [betainc_fin hr (by positivity) h0.le h1, bF_negbinom hr h0 h1, cdfPmf_floor hy0]

/-- The part of the mean up to the observation. -/
theorem nb_partial_mean {r p : ℝ} (h0 : 0 < p) {y : ℝ} (hy : 0 ≤ y) :
    ∑ k ∈ Finset.range (⌊y⌋₊ + 1), (k:ℝ) * pmfNegbinom r p k
      = r * (1 - p) / p * cdfPmf (pmfNegbinom (r + 1) p) (y - 1) := by
  rw [Finset.sum_range_succ', Nat.cast_zero, zero_mul, add_zero]
  have e : ∀ k : ℕ, ((k + 1 : ℕ) : ℝ) * pmfNegbinom r p (k + 1)
      = r * (1 - p) / p * pmfNegbinom (r + 1) p k := by
    intro k
    push_cast
    rw [pmfNegbinom_rec, ← mul_add, mul_assoc, pmfNegbinom_succ_size h0]
    ring
  simp only [e]
  rw [← Finset.mul_sum]
  congr 1
  by_cases h : y < 1
  · rw [Nat.floor_eq_zero.2 h, cdfPmf_neg (by linarith)]; simp
  · have h' := not_lt.1 h
    rw [cdfPmf_floor (by linarith), Nat.floor_sub_one, Nat.sub_add_cancel (Nat.le_floor (by simpa using h'))]

/-- C81: for every size `r > 0`, probability in `(0, 1]` and real observation, the closed form is the CRPS of
the negative binomial distribution. -/
theorem C81_negbinom {r p : ℝ} (hr : 0 < r) (h0 : 0 < p) (h1 : p ≤ 1) (y : ℝ) :
    IsPmf (pmfNegbinom r p) ∧ HasCrps (cdfPmf (pmfNegbinom r p)) y ∧
    Api.crpsNegbinom (fin y) (fin r) (some (fin p)) none = .ok (fin (crps (cdfPmf (pmfNegbinom r p)) y)) := by
  have hP := isPmf_negbinom hr h0 h1
  have hM := pmfNegbinom_mean hr h0 h1
  obtain ⟨h2, h3⟩ := crps_pmf_energy hP hM.summable y
  refine ⟨hP, h2, ?_⟩
  have hp2 : p ^ 2 ≠ 0 := by positivity
  have hz : -4 * (1 - p) / p ^ 2 < 1 := by
    have : 0 ≤ 4 * (1 - p) / p ^ 2 := by
      have : 0 ≤ 1 - p := by linarith
      positivity
    have e : -4 * (1 - p) / p ^ 2 = -(4 * (1 - p) / p ^ 2) := by ring
    rw [e]; linarith
  simp only [Api.crpsNegbinom, Closed.negbinom, XF.one_def, XF.ofNat_def, fin_sub, fin_add, fin_neg, fin_mul,
    fin_pow, fin_div hp2, negbinomCdf_fin hr h0 h1, negbinomCdf_fin (by linarith : 0 < r + 1) h0 h1]
  have hH : XF.hyp2f1 (fin (r + 1)) (fin (1 / 2)) (fin 2) (fin (-4 * (1 - p) / p ^ 2)) = fin (nbH r p) := by
    simp only [XF.hyp2f1]
    rw [if_pos ⟨by norm_num, by norm_num, hz⟩]
    rfl
  rw [hH]
  simp only [fin_sub, fin_add, fin_mul, fin_div hp2]
  rw [h3, nb_pair hr h0 h1]
  congr 2
  by_cases hy : y < 0
  · rw [cdfPmf_neg hy, cdfPmf_neg (by linarith), absdev_neg hP hM hy]
    field_simp
    ring
  · have hy0 := not_lt.1 hy
    rw [absdev_nonneg hP hM hy0, nb_partial_mean h0 hy0]
    field_simp
    ring

/-- The parametrisation by the mean: `mu` stands for the probability `r / (r + mu)`. -/
theorem C81_negbinom_mu {r μ : ℝ} (hr : 0 < r) (hμ : 0 ≤ μ) (y : ℝ) :
    Api.crpsNegbinom (fin y) (fin r) none (some (fin μ))
      = .ok (fin (crps (cdfPmf (pmfNegbinom r (r / (r + μ)))) y)) ∧
    HasSum (fun k : ℕ => (k:ℝ) * pmfNegbinom r (r / (r + μ)) k) μ := by
  have hs : 0 < r + μ := by linarith
  have h0 : 0 < r / (r + μ) := by positivity
  have h1 : r / (r + μ) ≤ 1 := by rw [div_le_one hs]; linarith
  constructor
  · have h := (C81_negbinom hr h0 h1 y).2.2
    simp only [Api.crpsNegbinom] at h ⊢
    rw [fin_add, fin_div hs.ne', h]
  · have h := pmfNegbinom_mean hr h0 h1
    have e : r * (1 - r / (r + μ)) / (r / (r + μ)) = μ := by field_simp; ring
    rwa [e] at h

/-- Probability one: all mass at zero. -/
example (y : ℝ) : Api.crpsNegbinom (fin y) (fin 2) (some (fin 1)) none
    = .ok (fin (crps (cdfPmf (pmfNegbinom 2 1)) y)) :=
  (C81_negbinom two_pos one_pos le_rfl y).2.2

example : Api.crpsNegbinom (fin 3) (fin (1 / 2)) none (some (fin 4))
    = .ok (fin (crps (cdfPmf (pmfNegbinom (1 / 2) (1 / 2 / (1 / 2 + 4)))) 3)) :=
  (C81_negbinom_mu (by norm_num) (by norm_num) 3).1

end Verif
