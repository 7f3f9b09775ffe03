import Verif.Spec.Pmf
import Verif.Lemmas.LogsFin
import Mathlib.Analysis.Analytic.Binomial
import Mathlib.Data.Nat.Choose.Vandermonde
import Mathlib.Analysis.SpecialFunctions.Exponential

/-!
# The mass functions sum to one; values of the discrete densities of `core/stats.py`
-/

noncomputable section

open scoped Classical

namespace Verif

open XF Stats Spec

theorem isPmf_binom (n : ℕ) {p : ℝ} (h0 : 0 ≤ p) (h1 : p ≤ 1) : IsPmf (pmfBinom n p) := by
  refine ⟨fun k => ?_, ?_⟩
  · unfold pmfBinom
    have : 0 ≤ 1 - p := by linarith
    positivity
  · have h := hasSum_sum_of_ne_finset_zero (L := .unconditional ℕ) (f := pmfBinom n p) (s := Finset.range (n + 1)) (by
      intro k hk
      simp only [Finset.mem_range, not_lt] at hk
      rw [pmfBinom, Nat.choose_eq_zero_of_lt (by omega)]; simp)
    have e : ∑ k ∈ Finset.range (n + 1), pmfBinom n p k = 1 := by
      have := add_pow p (1 - p) n
      rw [add_sub_cancel, one_pow] at this
      rw [this]
      refine Finset.sum_congr rfl fun k _ => ?_
      rw [pmfBinom]; ring
    rwa [e] at h

theorem isPmf_pois {μ : ℝ} (h : 0 ≤ μ) : IsPmf (pmfPois μ) := by
  refine ⟨fun k => ?_, ?_⟩
  · unfold pmfPois; positivity
  · have h1 : HasSum (fun k : ℕ => μ ^ k / k.factorial) (Real.exp μ) := by
      rw [Real.exp_eq_exp_ℝ]
      exact NormedSpace.expSeries_div_hasSum_exp μ
    have h2 := h1.mul_right (Real.exp (-μ))
    rw [← Real.exp_add, add_neg_cancel, Real.exp_zero] at h2
    refine (funext fun k => ?_ : pmfPois μ = _) ▸ h2
    rw [pmfPois]; ring

theorem asc_prod (r : ℝ) (k : ℕ) :
    Polynomial.eval r (ascPochhammer ℝ k) = ∏ i ∈ Finset.range k, (r + i) := by
  induction k with
  | zero => simp
  | succ k ih => rw [ascPochhammer_succ_eval, ih, Finset.prod_range_succ]

theorem choose_prod (r : ℝ) (k : ℕ) :
    Ring.choose (r + k - 1) k = (∏ i ∈ Finset.range k, (r + i)) / k.factorial := by
  have h := Ring.factorial_nsmul_multichoose_eq_ascPochhammer r k
  rw [Ring.multichoose_eq, Polynomial.ascPochhammer_smeval_eq_eval, asc_prod] at h
  rw [← h, nsmul_eq_mul]
  have : (k.factorial : ℝ) ≠ 0 := by exact_mod_cast k.factorial_ne_zero
  field_simp

theorem isPmf_negbinom {r p : ℝ} (hr : 0 < r) (h0 : 0 < p) (h1 : p ≤ 1) : IsPmf (pmfNegbinom r p) := by
  have h1' : 0 ≤ 1 - p := by linarith
  refine ⟨fun k => ?_, ?_⟩
  · unfold pmfNegbinom
    have : 0 ≤ ∏ i ∈ Finset.range k, (r + i) := Finset.prod_nonneg fun i _ => by positivity
    positivity
  · have h := (Real.one_div_one_sub_rpow_hasFPowerSeriesOnBall_zero r).hasSum (y := 1 - p) (by
      rw [Metric.mem_eball, edist_zero_right]
      rw [Real.enorm_eq_ofReal h1']
      rw [ENNReal.ofReal_lt_one]
      linarith)
    rw [zero_add, sub_sub_cancel] at h
    have h2 := h.mul_right (p ^ r)
    rw [one_div, inv_mul_cancel₀ (Real.rpow_pos_of_pos h0 r).ne'] at h2
    refine (funext fun k => ?_ : pmfNegbinom r p = _) ▸ h2
    rw [FormalMultilinearSeries.ofScalars_apply_eq, choose_prod, pmfNegbinom, smul_eq_mul]
    ring

theorem isPmf_hypergeo {m n K : ℕ} (h : K ≤ m + n) : IsPmf (pmfHypergeo m n K) := by
  have hc : (0:ℝ) < (m + n).choose K := by exact_mod_cast Nat.choose_pos h
  refine ⟨fun k => ?_, ?_⟩
  · unfold pmfHypergeo
    split_ifs
    · positivity
    · exact le_rfl
  · have h' := hasSum_sum_of_ne_finset_zero (L := .unconditional ℕ) (f := pmfHypergeo m n K) (s := Finset.range (K + 1)) (by
      intro k hk
      simp only [Finset.mem_range, not_lt] at hk
      rw [pmfHypergeo, if_neg (by omega)])
    have e : ∑ k ∈ Finset.range (K + 1), pmfHypergeo m n K k = 1 := by
      have hv := Nat.add_choose_eq m n K
      rw [Finset.Nat.sum_antidiagonal_eq_sum_range_succ_mk] at hv
      rw [← div_self hc.ne']
      nth_rw 1 [hv]
      push_cast
      rw [Finset.sum_div]
      refine Finset.sum_congr rfl fun k hk => ?_
      rw [pmfHypergeo, if_pos (by simpa [Nat.lt_succ_iff] using hk)]
    rwa [e] at h'

/-! ### the model -/

theorem pow_fin_nat {a : ℝ} (ha : 0 ≤ a) (k : ℕ) : XF.pow (fin a) (fin (k : ℝ)) = fin (a ^ k) := by
  rcases ha.lt_or_eq with h | h
  · rw [pow_fin_pos h, Real.rpow_natCast]
  · subst h
    rcases Nat.eq_zero_or_pos k with h | h
    · subst h; simp [XF.pow, XF.zero_def, XF.one_def]
    · rw [pow_fin_zero (by exact_mod_cast h), zero_pow (by omega)]

theorem comb_nat (n k : ℕ) : XF.comb (fin (n : ℝ)) (fin (k : ℝ)) = fin (n.choose k : ℝ) := by
  unfold XF.comb
  simp only [Nat.cast_nonneg, true_and, Nat.cast_le]
  split_ifs with h
  · rw [Real.Gamma_nat_eq_factorial, Real.Gamma_nat_eq_factorial, ← Nat.cast_sub h,
      Real.Gamma_nat_eq_factorial, Nat.cast_choose ℝ h]
  · rw [Nat.choose_eq_zero_of_lt (not_le.1 h)]; simp

theorem gamma_prod {r : ℝ} (hr : 0 < r) (k : ℕ) :
    Real.Gamma (r + k) = (∏ i ∈ Finset.range k, (r + i)) * Real.Gamma r := by
  induction k with
  | zero => simp
  | succ k ih =>
    rw [Finset.prod_range_succ, Nat.cast_succ, ← add_assoc, Real.Gamma_add_one (by positivity), ih]
    ring

theorem comb_negbinom {r : ℝ} (hr : 1 ≤ r) (k : ℕ) :
    XF.comb (fin (r + k - 1)) (fin (k : ℝ)) = fin ((∏ i ∈ Finset.range k, (r + i)) / k.factorial) := by
  unfold XF.comb
  dsimp only
  rw [if_pos ⟨by positivity, by linarith⟩]
  have hg := Real.Gamma_pos_of_pos (by linarith : 0 < r)
  rw [sub_add_cancel, gamma_prod (by linarith), Real.Gamma_nat_eq_factorial,
    show r + (k:ℝ) - 1 - k + 1 = r by ring]
  have : (k.factorial : ℝ) ≠ 0 := by exact_mod_cast k.factorial_ne_zero
  congr 1
  field_simp

end Verif
