import Verif.Lemmas.DiscreteRec
import Verif.Lemmas.GammaCrps

/-!
# C80: `crps_poisson`
-/

noncomputable section

open scoped Classical

namespace Verif

open XF Spec Stats

theorem pmfPois_rec (μ : ℝ) (i : ℕ) : ((i:ℝ) + 1) * pmfPois μ (i + 1) = (μ + 0 * i) * pmfPois μ i := by
  unfold pmfPois
  have h1 : (i.factorial : ℝ) ≠ 0 := by exact_mod_cast i.factorial_ne_zero
  rw [Nat.factorial_succ]
  push_cast
  field_simp
  ring

theorem pmfPois_mean {μ : ℝ} (h : 0 ≤ μ) : HasSum (fun k : ℕ => (k:ℝ) * pmfPois μ k) μ := by
  have h1 := (hasSum_nat_add_iff (f := fun k : ℕ => (k:ℝ) * pmfPois μ k) 1 (g := μ)).1
  simp only [Finset.range_one, Finset.sum_singleton, Nat.cast_zero, zero_mul, add_zero] at h1
  refine h1 (hasSum_of_eq ((isPmf_pois h).total.mul_left μ) (fun i => ?_) (mul_one μ).symm)
  push_cast
  rw [pmfPois_rec]; ring

theorem gF_pois {μ : ℝ} (h : 0 ≤ μ) (k : ℕ) :
    1 - gF ((k:ℝ) + 1) μ = ∑ j ∈ Finset.range (k + 1), pmfPois μ j := by
  induction k with
  | zero =>
    rw [Nat.cast_zero, zero_add, gF, prim_gK one_pos h, Real.Gamma_one]
    simp only [sub_self, Real.rpow_zero, one_mul, div_one]
    rw [intervalIntegral.integral_comp_neg (fun t => Real.exp t), integral_exp]
    simp [pmfPois]
  | succ k ih =>
    have hs := gF_sub (a := (k:ℝ) + 1) (by positivity) μ
    rw [Finset.sum_range_succ, ← ih]
    have e : gT ((k:ℝ) + 1) μ / Real.Gamma ((k:ℝ) + 1 + 1) = pmfPois μ (k + 1) := by
      rw [show (k:ℝ) + 1 = ((k + 1 : ℕ) : ℝ) by push_cast; ring, Real.Gamma_nat_eq_factorial]
      unfold gT pmfPois
      split_ifs with h0
      · rw [Real.rpow_natCast]
      · rw [le_antisymm (not_lt.1 h0) h]; simp
    rw [e] at hs
    push_cast
    linarith

/-- The Bessel constant. -/
theorem pois_pair {μ : ℝ} (h : 0 ≤ μ) :
    (∑' p : ℕ × ℕ, pmfPois μ p.1 * pmfPois μ p.2 * |(p.1:ℝ) - p.2|) / 2
      = μ * Real.exp (-2 * μ) * ((∑' k : ℕ, (2 * μ / 2) ^ (2 * k) / (k.factorial : ℝ) ^ 2)
        + ∑' k : ℕ, (2 * μ / 2) ^ (2 * k + 1) / ((k.factorial : ℝ) * ((k + 1).factorial : ℝ))) := by
  have hP := isPmf_pois h
  have h1 := pair_recur hP (pmfPois_mean h).summable (pmfPois_rec μ)
  rw [sub_zero, one_mul] at h1
  have e2 : Real.exp (-2 * μ) = Real.exp (-μ) * Real.exp (-μ) := by rw [← Real.exp_add]; ring_nf
  have hE : Real.exp (-μ) * Real.exp (-μ) ≠ 0 := by positivity
  have sA : Summable fun k : ℕ => (2 * μ / 2) ^ (2 * k) / (k.factorial : ℝ) ^ 2 := by
    have : Summable fun k : ℕ => pmfPois μ k * pmfPois μ k := by
      refine Summable.of_nonneg_of_le (fun k => mul_nonneg (hP.nonneg k) (hP.nonneg k)) (fun k => ?_)
        hP.total.summable
      exact mul_le_of_le_one_right (hP.nonneg k) (le_hasSum hP.total k fun j _ => hP.nonneg j)
    refine (this.mul_left (Real.exp (-μ) * Real.exp (-μ))⁻¹).congr fun k => ?_
    unfold pmfPois
    have h3 : (k.factorial : ℝ) ≠ 0 := by exact_mod_cast k.factorial_ne_zero
    rw [mul_div_cancel_left₀ μ two_ne_zero, pow_mul']
    field_simp
  have sB : Summable fun k : ℕ => (2 * μ / 2) ^ (2 * k + 1)
      / ((k.factorial : ℝ) * ((k + 1).factorial : ℝ)) := by
    have : Summable fun k : ℕ => pmfPois μ k * pmfPois μ (k + 1) := by
      refine Summable.of_nonneg_of_le (fun k => mul_nonneg (hP.nonneg k) (hP.nonneg _)) (fun k => ?_)
        hP.total.summable
      exact mul_le_of_le_one_right (hP.nonneg k) (le_hasSum hP.total (k + 1) fun j _ => hP.nonneg j)
    refine (this.mul_left (Real.exp (-μ) * Real.exp (-μ))⁻¹).congr fun k => ?_
    unfold pmfPois
    have h3 : (k.factorial : ℝ) ≠ 0 := by exact_mod_cast k.factorial_ne_zero
    have h4 : ((k + 1).factorial : ℝ) ≠ 0 := by exact_mod_cast (k + 1).factorial_ne_zero
    rw [mul_div_cancel_left₀ μ two_ne_zero, show 2 * k + 1 = k + (k + 1) by ring, pow_add]
    field_simp
    ring
  refine h1.unique (hasSum_of_eq ((sA.hasSum.add sB.hasSum).mul_left (μ * Real.exp (-2 * μ)))
    (fun k => ?_) rfl)
  unfold pmfPois
  have h3 : (k.factorial : ℝ) ≠ 0 := by exact_mod_cast k.factorial_ne_zero
  have h4 : ((k + 1).factorial : ℝ) ≠ 0 := by exact_mod_cast (k + 1).factorial_ne_zero
  rw [mul_div_cancel_left₀ μ two_ne_zero, show 2 * k + 1 = k + (k + 1) by ring, pow_add, e2, pow_mul']
  field_simp
  ring

theorem gamma_fin_pos {x : ℝ} (h : 0 < x) : XF.gamma (fin x) = fin (Real.Gamma x) := by
  simp only [XF.gamma]
  rw [if_neg h.ne', if_neg]
  rintro ⟨n, hn⟩
  have : (0:ℝ) ≤ n := Nat.cast_nonneg n
  linarith

theorem floor_nonneg {y : ℝ} (hy : 0 ≤ y) : (⌊y⌋ : ℝ) = ((⌊y⌋₊ : ℕ) : ℝ) := by
  rw [← natCast_floor_eq_intCast_floor hy]

theorem poisCdf_fin {μ : ℝ} (h : 0 ≤ μ) (y : ℝ) : poisCdf (fin y) (fin μ) = fin (cdfPmf (pmfPois μ) y) := by
  unfold poisCdf
  by_cases hy : y < 0
  · simp [XF.zero_def, hy, cdfPmf_neg hy]
  · have hy0 := not_lt.1 hy
    have e : ⌊|y| + 1⌋ = ((⌊y⌋₊ + 1 : ℕ) : ℤ) := by
      rw [abs_of_nonneg hy0, Int.floor_add_one, Nat.cast_succ, Int.natCast_floor_eq_floor hy0]
    have hk : (0:ℝ) < (⌊y⌋₊:ℝ) + 1 := by positivity
    have hG := Real.Gamma_pos_of_pos hk
    simp only [XF.zero_def, fin_lt, hy, if_false, fin_abs, XF.one_def, fin_add, XF.floor, e,
      XF.gammauinc, XF.gammainc]
    push_cast
    rw [if_pos ⟨hk, h⟩, ← prim_gK hk h, gamma_fin_pos hk]
    rw [fin_sub, fin_mul, fin_div hG.ne', cdfPmf_floor hy0, ← gF_pois h]
    congr 1
    unfold gF
    field_simp

theorem poisPdf_floor {μ : ℝ} (h : 0 ≤ μ) (y : ℝ) :
    poisPdf (XF.floor (fin y)) (fin μ) = fin (if y < 0 then 0 else pmfPois μ ⌊y⌋₊) := by
  have hm : ¬ μ < 0 := not_lt.2 h
  unfold poisPdf
  by_cases hy : y < 0
  · have : ((⌊y⌋ : ℤ) : ℝ) < 0 := by exact_mod_cast Int.floor_lt_zero.2 hy
    simp only [XF.floor, XF.zero_def, fin_lt, hm, this, if_true, if_false, hy]
  · have hy0 := not_lt.1 hy
    have hf : ((⌊y⌋₊).factorial : ℝ) ≠ 0 := by exact_mod_cast (⌊y⌋₊).factorial_ne_zero
    simp only [XF.floor, floor_nonneg hy0, fin_abs, Nat.abs_cast, XF.zero_def, fin_lt, hm, if_false,
      not_lt.2 (Nat.cast_nonneg (α := ℝ) ⌊y⌋₊), XF.factorial, Real.Gamma_nat_eq_factorial, pow_fin_nat h,
      fin_neg, fin_exp, fin_mul, fin_div hf, Int.floor_natCast, Int.cast_natCast, lt_irrefl, hy]
    rfl

/-- C80: for every mean `μ ≥ 0` and every real observation, `crps_poisson` is the CRPS of the Poisson
distribution. -/
theorem C80_poisson {μ : ℝ} (h : 0 ≤ μ) (y : ℝ) :
    IsPmf (pmfPois μ) ∧ HasCrps (cdfPmf (pmfPois μ)) y ∧
    Closed.poisson (fin y) (fin μ) = fin (crps (cdfPmf (pmfPois μ)) y) := by
  have hP := isPmf_pois h
  have hM := pmfPois_mean h
  obtain ⟨h1, h2⟩ := crps_pmf_energy hP hM.summable y
  refine ⟨hP, h1, ?_⟩
  unfold Closed.poisson
  simp only [poisCdf_fin h, poisPdf_floor h, XF.ofNat_def, XF.one_def, fin_mul, fin_neg, XF.bessel0, XF.bessel1,
    fin_exp, fin_add, fin_sub]
  rw [h2, pois_pair h]
  congr 1
  by_cases hy : y < 0
  · rw [if_pos hy, cdfPmf_neg hy, absdev_neg hP hM hy]; ring
  · have hy0 := not_lt.1 hy
    rw [if_neg hy, absdev_nonneg hP hM hy0]
    have e : ∑ k ∈ Finset.range (⌊y⌋₊ + 1), (k:ℝ) * pmfPois μ k
        = μ * (cdfPmf (pmfPois μ) y - pmfPois μ ⌊y⌋₊) := by
      rw [cdfPmf_floor hy0, Finset.sum_range_succ', Finset.sum_range_succ (f := pmfPois μ),
        add_sub_cancel_right, Finset.mul_sum, Nat.cast_zero, zero_mul, add_zero]
      refine Finset.sum_congr rfl fun k _ => ?_
      push_cast
      rw [pmfPois_rec]; ring
    rw [e]; ring

/-- A mean of zero: the score is the distance from zero. -/
example (y : ℝ) : crps (cdfPmf (pmfPois 0)) y = |y| := by
  have h := (C80_poisson le_rfl y).2.2
  have hP := isPmf_pois (le_refl (0:ℝ))
  rw [(crps_pmf_energy hP (pmfPois_mean le_rfl).summable y).2, pois_pair le_rfl, zero_mul, zero_mul, sub_zero,
    tsum_eq_single 0]
  · simp [pmfPois]
  · intro k hk
    simp [pmfPois, hk]

example : Closed.poisson (fin (-1)) (fin 2) = fin (crps (cdfPmf (pmfPois 2)) (-1)) :=
  (C80_poisson (by norm_num) (-1)).2.2

end Verif
