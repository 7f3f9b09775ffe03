import Verif.Lemmas.Pmf

/-!
# C58: logarithmic scores of the discrete families

Each theorem says that the mass function sums to one and that the code's score is its negative logarithm
at every non-negative integer (`+inf` where it is zero), and gives the score elsewhere.  The claim is false
in places: the binomial and hypergeometric scores are finite at some observations that are not integers
(`C58_binomial_noninteger`, `C58_hypergeometric_noninteger`), the binomial score with probability one is
NaN beyond the number of trials (`C58_binomial_nan`), and the negative binomial score is `+inf` everywhere
when the size is below one (`C58_negbinom_small_size`).
-/

noncomputable section

open scoped Classical

namespace Verif

open XF Spec Stats

theorem fin_natCast_neg (k : ℕ) : ¬ ((k : ℝ) < 0) := not_lt.2 (Nat.cast_nonneg k)

/-- `logs_binomial` at integers and at negative observations.  Missing from the full claim: observations
that are not integers, and observations above the number of trials when the probability is one. -/
theorem C58_binomial_partial (n : ℕ) {p : ℝ} (h0 : 0 ≤ p) (h1 : p ≤ 1) :
    IsPmf (pmfBinom n p) ∧
    (∀ k : ℕ, (p < 1 ∨ k ≤ n) →
      Logs.binomial (fin (k : ℝ)) (fin (n : ℝ)) (fin p) = negLog (pmfBinom n p k)) ∧
    ∀ y : ℝ, y < 0 → Logs.binomial (fin y) (fin (n : ℝ)) (fin p) = pinf := by
  refine ⟨isPmf_binom n h0 h1, fun k hk => ?_, fun y hy => ?_⟩
  · unfold Logs.binomial
    simp only [XF.zero_def, fin_lt, fin_natCast_neg, if_false]
    rw [← log_fin_nonneg ((isPmf_binom n h0 h1).nonneg k)]
    congr 2
    unfold binomPdf pmfBinom
    rw [comb_nat, pow_fin_nat h0]
    simp only [XF.one_def, fin_sub, fin_mul]
    rcases le_or_gt k n with h | h
    · rw [← Nat.cast_sub h, pow_fin_nat (by linarith), fin_mul]
    · have hp : p < 1 := hk.resolve_right (not_le.2 h)
      rw [pow_fin_pos (by linarith), Nat.choose_eq_zero_of_lt h]
      simp
  · unfold Logs.binomial
    simp [XF.zero_def, hy]

example : Logs.binomial (fin ((1 : ℕ) : ℝ)) (fin ((2 : ℕ) : ℝ)) (fin (1 / 2)) = fin (Real.log 2)
    ∧ Logs.binomial (fin ((3 : ℕ) : ℝ)) (fin ((2 : ℕ) : ℝ)) (fin (1 / 2)) = pinf := by
  rw [(C58_binomial_partial 2 (by norm_num) (by norm_num)).2.1 _ (Or.inl (by norm_num)),
    (C58_binomial_partial 2 (by norm_num) (by norm_num)).2.1 _ (Or.inl (by norm_num))]
  norm_num [pmfBinom, negLog, Nat.choose]
  rw [one_div, Real.log_inv, neg_neg]

/-- The binomial score is finite at an observation outside the support. -/
theorem C58_binomial_noninteger :
    Logs.binomial (fin (1 / 2)) (fin 1) (fin (1 / 2)) = fin (-Real.log (2 / Real.pi)) := by
  have hpi := Real.pi_pos
  have hg : Real.Gamma (1 / 2 + 1) = Real.sqrt Real.pi / 2 := by
    rw [Real.Gamma_add_one (by norm_num), Real.Gamma_one_half_eq]; ring
  have h2 : Real.Gamma (1 + 1) = 1 := by
    rw [Real.Gamma_add_one (by norm_num), Real.Gamma_one]; ring
  have e : binomPdf (fin (1 / 2)) (fin 1) (fin (1 / 2)) = fin (2 / Real.pi) := by
    unfold binomPdf XF.comb
    dsimp only
    rw [if_pos (by norm_num), show (1:ℝ) - 1 / 2 + 1 = 1 / 2 + 1 by norm_num, hg, h2]
    simp only [XF.one_def, fin_sub]
    rw [show (1:ℝ) - 1 / 2 = 1 / 2 by norm_num, pow_fin_pos (by norm_num), fin_mul, fin_mul, mul_assoc,
      ← Real.rpow_add (by norm_num)]
    congr 1
    norm_num
    have := Real.mul_self_sqrt hpi.le
    field_simp
    nlinarith
  unfold Logs.binomial
  simp only [XF.zero_def, fin_lt]
  rw [if_neg (by norm_num), if_neg (by norm_num), e, fin_log (by positivity), fin_neg]

/-- With probability one and an observation above the number of trials the score is NaN, not `+inf`. -/
theorem C58_binomial_nan : Logs.binomial (fin ((2 : ℕ) : ℝ)) (fin ((1 : ℕ) : ℝ)) (fin 1) = nan := by
  have e : XF.pow (fin 0) (fin (-1)) = pinf := pow_fin_zero_neg (by norm_num)
  have e2 : binomPdf (fin ((2 : ℕ) : ℝ)) (fin ((1 : ℕ) : ℝ)) (fin 1) = nan := by
    unfold binomPdf
    rw [comb_nat, pow_fin_nat (by norm_num)]
    simp only [XF.one_def, fin_sub, fin_mul]
    rw [show (1:ℝ) - 1 = 0 by norm_num, show ((1 : ℕ) : ℝ) - ((2 : ℕ) : ℝ) = -1 by norm_num, e]
    norm_num
    show XF.mul (fin 0) pinf = nan
    simp [XF.mul, XF.infMul]
  unfold Logs.binomial
  simp only [XF.zero_def, fin_lt, fin_natCast_neg, if_false, e2]
  rfl

/-- `logs_poisson`, every real observation. -/
theorem C58_poisson {μ : ℝ} (h : 0 ≤ μ) :
    IsPmf (pmfPois μ) ∧
    (∀ k : ℕ, Logs.poisson (fin (k : ℝ)) (fin μ) = negLog (pmfPois μ k)) ∧
    ∀ y : ℝ, (∀ k : ℕ, y ≠ k) → Logs.poisson (fin y) (fin μ) = pinf := by
  have hm : ¬ μ < 0 := not_lt.2 h
  refine ⟨isPmf_pois h, fun k => ?_, fun y hy => ?_⟩
  · unfold Logs.poisson
    rw [← log_fin_nonneg ((isPmf_pois h).nonneg k)]
    congr 2
    unfold poisPdf pmfPois
    have hf : (k.factorial : ℝ) ≠ 0 := by exact_mod_cast k.factorial_ne_zero
    simp only [fin_abs, Nat.abs_cast, XF.floor, XF.zero_def, fin_lt, hm, if_false, fin_natCast_neg,
      XF.factorial, Real.Gamma_nat_eq_factorial, pow_fin_nat h, fin_neg, fin_exp, fin_mul, fin_div hf,
      Int.floor_natCast, Int.cast_natCast, lt_irrefl]
  · unfold Logs.poisson
    have e : poisPdf (fin y) (fin μ) = fin 0 := by
      unfold poisPdf
      simp only [fin_abs, XF.floor, XF.zero_def, fin_lt, hm, if_false]
      rcases lt_or_ge y 0 with h' | h'
      · rw [if_pos h']
      · rw [if_neg (not_lt.2 h'), abs_of_nonneg h', if_pos]
        refine lt_of_le_of_ne (Int.floor_le y) fun he => ?_
        have h0 : 0 ≤ ⌊y⌋ := Int.floor_nonneg.2 h'
        refine hy ⌊y⌋.toNat ?_
        rw [← Int.cast_natCast, Int.toNat_of_nonneg h0, he]
    rw [e]
    simp [XF.log]
    rfl

example : Logs.poisson (fin ((0 : ℕ) : ℝ)) (fin 3) = fin 3 ∧ Logs.poisson (fin (1 / 2)) (fin 3) = pinf := by
  refine ⟨?_, (C58_poisson (by norm_num)).2.2 _ fun k hk => ?_⟩
  · rw [(C58_poisson (by norm_num)).2.1]
    simp [pmfPois, negLog]
  · have : (1 : ℝ) = ((2 * k : ℕ) : ℝ) := by push_cast; linarith
    have : 1 = 2 * k := by exact_mod_cast this
    omega

/-- `logs_negbinom` with size at least one, every real observation.  Missing from the full claim: sizes
between zero and one. -/
theorem C58_negbinom_partial {r p : ℝ} (hr : 1 ≤ r) (h0 : 0 < p) (h1 : p ≤ 1) :
    IsPmf (pmfNegbinom r p) ∧
    (∀ k : ℕ, Logs.negbinom (fin (k : ℝ)) (fin r) (fin p) = negLog (pmfNegbinom r p k)) ∧
    ∀ y : ℝ, (∀ k : ℕ, y ≠ k) → Logs.negbinom (fin y) (fin r) (fin p) = pinf := by
  have hP := isPmf_negbinom (by linarith : 0 < r) h0 h1
  refine ⟨hP, fun k => ?_, fun y hy => ?_⟩
  · unfold Logs.negbinom
    simp only [XF.floor, XF.zero_def, fin_lt, fin_natCast_neg, fin_feq, Int.floor_natCast, Int.cast_natCast,
      not_true_eq_false, or_self, if_false]
    rw [← log_fin_nonneg (hP.nonneg k)]
    congr 2
    unfold negbinomPdf pmfNegbinom
    simp only [fin_abs, Nat.abs_cast, XF.floor, XF.zero_def, fin_lt, fin_natCast_neg, if_false,
      Int.floor_natCast, Int.cast_natCast, lt_irrefl, XF.one_def, fin_add, fin_sub]
    rw [comb_negbinom hr, pow_fin_pos h0, pow_fin_nat (by linarith), fin_mul, fin_mul]
  · unfold Logs.negbinom
    rw [if_pos]
    simp only [XF.floor, XF.zero_def, fin_lt, fin_feq]
    rcases lt_or_ge y 0 with h' | h'
    · exact Or.inl h'
    · right
      intro he
      have h0 : 0 ≤ ⌊y⌋ := Int.floor_nonneg.2 h'
      refine hy ⌊y⌋.toNat ?_
      rw [← Int.cast_natCast, Int.toNat_of_nonneg h0, he]

example : Logs.negbinom (fin ((1 : ℕ) : ℝ)) (fin 1) (fin (1 / 2)) = fin (Real.log 4) := by
  rw [(C58_negbinom_partial le_rfl (by norm_num) (by norm_num)).2.1]
  norm_num [pmfNegbinom, negLog]
  rw [one_div, Real.log_inv, neg_neg]

/-- With a size between zero and one every observation scores `+inf`: `comb(n + x - 1, x)` is zero because
its lower argument exceeds its upper argument. -/
theorem C58_negbinom_small_size {r p : ℝ} (h0 : 0 < p) (h1 : p ≤ 1) (h2 : r < 1) (y : ℝ) :
    Logs.negbinom (fin y) (fin r) (fin p) = pinf := by
  unfold Logs.negbinom
  by_cases hz : fin y < 0 ∨ ¬ (XF.floor (fin y)).feq (fin y)
  · rw [if_pos hz]
  · simp only [hz, if_false]
    simp only [XF.floor, XF.zero_def, fin_lt, fin_feq, not_or, not_not] at hz
    have hy : 0 ≤ y := not_lt.1 hz.1
    have h0' : 0 ≤ ⌊y⌋ := Int.floor_nonneg.2 hy
    obtain ⟨k, hk⟩ := Int.eq_ofNat_of_zero_le h0'
    have hyk : y = (k : ℝ) := by rw [← hz.2, hk]; simp
    have e : negbinomPdf (fin y) (fin r) (fin p) = fin 0 := by
      unfold negbinomPdf
      simp only [fin_abs, XF.floor, XF.zero_def, fin_lt, XF.one_def, fin_add, fin_sub]
      rw [if_neg hz.1]
      split_ifs
      · rfl
      · have : XF.comb (fin (r + y - 1)) (fin y) = fin 0 := by
          unfold XF.comb
          dsimp only
          rw [if_neg]
          rintro ⟨_, h3⟩
          linarith
        rw [this, pow_fin_pos h0, hyk, pow_fin_nat (by linarith), fin_mul, fin_mul]
        simp
    rw [e]
    simp [XF.log]
    rfl

example : (0 : ℝ) < 1 / 3 ∧ (1 / 3 : ℝ) ≤ 1 ∧ (1 / 2 : ℝ) < 1 := by norm_num

/-- So with size one half the exponentials of the negative scores sum to zero while the mass function of
the distribution sums to one. -/
theorem C58_negbinom_fails :
    IsPmf (pmfNegbinom (1 / 2) (1 / 2)) ∧ pmfNegbinom (1 / 2) (1 / 2) 0 ≠ 0 ∧
    ∀ k : ℕ, Logs.negbinom (fin (k : ℝ)) (fin (1 / 2)) (fin (1 / 2)) = pinf := by
  refine ⟨isPmf_negbinom (by norm_num) (by norm_num) (by norm_num), ?_,
    fun k => C58_negbinom_small_size (by norm_num) (by norm_num) (by norm_num) _⟩
  simp only [pmfNegbinom, Finset.range_zero, Finset.prod_empty, Nat.factorial_zero, Nat.cast_one, pow_zero]
  positivity

/-- `logs_hypergeometric` at integers, and at real observations beyond the ends of the support.  Missing
from the full claim: observations that are not integers. -/
theorem C58_hypergeometric_partial {m n K : ℕ} (h : K ≤ m + n) :
    IsPmf (pmfHypergeo m n K) ∧
    (∀ k : ℕ, Logs.hypergeometric (fin (k : ℝ)) (fin (m : ℝ)) (fin (n : ℝ)) (fin (K : ℝ))
      = negLog (pmfHypergeo m n K k)) ∧
    ∀ y : ℝ, (y < 0 ∨ (m : ℝ) < y ∨ (K : ℝ) < y) →
      Logs.hypergeometric (fin y) (fin (m : ℝ)) (fin (n : ℝ)) (fin (K : ℝ)) = pinf := by
  have hP := isPmf_hypergeo h
  have hc : (0:ℝ) < (m + n).choose K := by exact_mod_cast Nat.choose_pos h
  have zero : ∀ y : ℝ, ¬ (max 0 ((K:ℝ) - (m + n) + m) ≤ y ∧ y ≤ min (m:ℝ) K) →
      hypergeoPdf (fin y) (fin (m : ℝ) + fin (n : ℝ)) (fin (m : ℝ)) (fin (K : ℝ)) = fin 0 := by
    intro y hy
    have ec : ∀ a b : ℝ, ∃ c : ℝ, XF.comb (fin a) (fin b) = fin c := by
      intro a b
      unfold XF.comb
      dsimp only
      split_ifs <;> exact ⟨_, rfl⟩
    obtain ⟨c1, h1⟩ := ec m y
    obtain ⟨c2, h2⟩ := ec ((m:ℝ) + n - m) ((K:ℝ) - y)
    unfold hypergeoPdf
    simp only [fin_add, fin_sub, XF.zero_def, fin_max, fin_min, fin_le, hy, XF.ind_def, if_false, h1, h2]
    rw [← Nat.cast_add, comb_nat, fin_mul, fin_mul, fin_div hc.ne']
    simp
  refine ⟨hP, fun k => ?_, fun y hy => ?_⟩
  · unfold Logs.hypergeometric
    dsimp only
    rw [← log_fin_nonneg (hP.nonneg k)]
    congr 2
    by_cases hk : max 0 ((K:ℝ) - (m + n) + m) ≤ k ∧ (k:ℝ) ≤ min (m:ℝ) K
    · have hkK : k ≤ K := by exact_mod_cast (le_min_iff.1 hk.2).2
      unfold hypergeoPdf pmfHypergeo
      simp only [fin_add, fin_sub, XF.zero_def, fin_max, fin_min, fin_le, hk, XF.ind_def, if_true, comb_nat]
      rw [← Nat.cast_add, show ((m + n : ℕ) : ℝ) - m = (n : ℝ) by push_cast; ring, ← Nat.cast_sub hkK,
        comb_nat, comb_nat]
      simp only [hkK, if_true, and_self, fin_mul, fin_div hc.ne', one_mul]
    · rw [zero _ hk]
      congr 1
      unfold pmfHypergeo
      split_ifs with hkK
      · rw [not_and_or, max_le_iff, le_min_iff, not_and_or, not_and_or] at hk
        rcases hk with (hk | hk) | (hk | hk)
        · exact absurd (Nat.cast_nonneg k) hk
        · have : n < K - k := by
            have : (k:ℝ) + n < K := by linarith [not_le.1 hk]
            have : k + n < K := by exact_mod_cast this
            omega
          rw [Nat.choose_eq_zero_of_lt this]; simp
        · rw [Nat.cast_le] at hk
          rw [Nat.choose_eq_zero_of_lt (not_le.1 hk)]; simp
        · exact absurd (by exact_mod_cast hkK) hk
      · rfl
  · unfold Logs.hypergeometric
    dsimp only
    rw [zero y]
    · simp [XF.log]; rfl
    · rintro ⟨h1, h2⟩
      rw [max_le_iff] at h1
      rw [le_min_iff] at h2
      rcases hy with hy | hy | hy <;> linarith [h1.1, h2.1, h2.2]

example : Logs.hypergeometric (fin ((1 : ℕ) : ℝ)) (fin ((1 : ℕ) : ℝ)) (fin ((1 : ℕ) : ℝ)) (fin ((1 : ℕ) : ℝ))
    = fin (Real.log 2) := by
  rw [(C58_hypergeometric_partial (by norm_num)).2.1]
  norm_num [pmfHypergeo, negLog]
  rw [one_div, Real.log_inv, neg_neg]

/-- The hypergeometric score is finite at an observation outside the support. -/
theorem C58_hypergeometric_noninteger :
    Logs.hypergeometric (fin (1 / 2)) (fin ((1 : ℕ) : ℝ)) (fin ((1 : ℕ) : ℝ)) (fin ((1 : ℕ) : ℝ))
      = fin (-Real.log (8 / Real.pi ^ 2)) := by
  have hpi := Real.pi_pos
  have hg : Real.Gamma (1 / 2 + 1) = Real.sqrt Real.pi / 2 := by
    rw [Real.Gamma_add_one (by norm_num), Real.Gamma_one_half_eq]; ring
  have h2 : Real.Gamma (1 + 1) = 1 := by
    rw [Real.Gamma_add_one (by norm_num), Real.Gamma_one]; ring
  have hs := Real.mul_self_sqrt hpi.le
  have e1 : XF.comb (fin 1) (fin (1 / 2)) = fin (4 / Real.pi) := by
    unfold XF.comb
    dsimp only
    rw [if_pos (by norm_num), show (1:ℝ) - 1 / 2 + 1 = 1 / 2 + 1 by norm_num, hg, h2]
    congr 1
    field_simp
    nlinarith
  have e : hypergeoPdf (fin (1 / 2)) (fin ((1 : ℕ) : ℝ) + fin ((1 : ℕ) : ℝ)) (fin ((1 : ℕ) : ℝ))
      (fin ((1 : ℕ) : ℝ)) = fin (8 / Real.pi ^ 2) := by
    unfold hypergeoPdf
    simp only [fin_add, fin_sub, XF.zero_def, fin_max, fin_min, fin_le, XF.ind_def]
    rw [← Nat.cast_add, comb_nat]
    norm_num
    norm_num at e1
    rw [e1, fin_mul, fin_mul, fin_div (by norm_num)]
    congr 1
    field_simp
    norm_num
  unfold Logs.hypergeometric
  dsimp only
  rw [e, fin_log (by positivity)]
  rfl

end Verif
