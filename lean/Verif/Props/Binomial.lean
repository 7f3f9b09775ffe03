import Verif.Lemmas.BetaSum
import Verif.Props.Discrete

/-!
# C79: `crps_binomial`

The code takes the distribution function at `n` to be the incomplete beta function with first parameter
`1e-36` instead of one.  For probabilities below one this changes the score by less than any float can
show (`C79_binomial_partial`).  With probability one the replacement is zero, and the score is wrong
(`C79_prob_one_fails`).
-/

noncomputable section

open scoped Classical

namespace Verif

open XF Spec Stats

theorem binomPdf_nat {n k : ℕ} (hk : k ≤ n) {p : ℝ} (h0 : 0 ≤ p) (h1 : p ≤ 1) :
    binomPdf (fin (k : ℝ)) (fin (n : ℝ)) (fin p) = fin (pmfBinom n p k) := by
  unfold binomPdf pmfBinom
  rw [comb_nat, pow_fin_nat h0]
  simp only [XF.one_def, fin_sub, fin_mul]
  rw [← Nat.cast_sub hk, pow_fin_nat (by linarith), fin_mul]

theorem binomCdf_lt {n k : ℕ} (hk : k < n) {p : ℝ} (h0 : 0 ≤ p) (h1 : p ≤ 1) :
    binomCdf (fin (k : ℝ)) (fin (n : ℝ)) (fin p) = fin (∑ j ∈ Finset.range (k + 1), pmfBinom n p j) := by
  have hd : (n : ℝ) - k = ((n - k : ℕ) : ℝ) := (Nat.cast_sub hk.le).symm
  have hd0 : (0:ℝ) < ((n - k : ℕ) : ℝ) := by exact_mod_cast (by omega : 0 < n - k)
  have hmin : min (k:ℝ) n = k := min_eq_left (by exact_mod_cast hk.le)
  unfold binomCdf
  simp only [fin_min, hmin, fin_sub, hd, XF.zero_def, fin_feq, hd0.ne', if_false, fin_lt,
    not_lt.2 (Nat.cast_nonneg (α := ℝ) k), XF.one_def, fin_add]
  rw [betainc_fin hd0 (by positivity) (by linarith) (by linarith), bF_binom hk h0 h1]

theorem binomCdf_top (n : ℕ) {p : ℝ} (h0 : 0 ≤ p) (h1 : p ≤ 1) :
    binomCdf (fin (n : ℝ)) (fin (n : ℝ)) (fin p) = fin (bF (1 / 10 ^ 36) ((n:ℝ) + 1) (1 - p)) := by
  unfold binomCdf
  simp only [fin_min, min_self, fin_sub, sub_self, XF.zero_def, fin_feq, if_true, fin_lt,
    not_lt.2 (Nat.cast_nonneg (α := ℝ) n), if_false, XF.one_def, fin_add]
  rw [betainc_fin (by positivity) (by positivity) (by linarith) (by linarith)]

theorem sum_pmfBinom (n : ℕ) {p : ℝ} (h0 : 0 ≤ p) (h1 : p ≤ 1) :
    (∀ k, n < k → pmfBinom n p k = 0) ∧ ∑ i ∈ Finset.range (n + 1), pmfBinom n p i = 1 := by
  have h : ∀ k, n < k → pmfBinom n p k = 0 := by
    intro k hk
    rw [pmfBinom, Nat.choose_eq_zero_of_lt hk]; simp
  refine ⟨h, ?_⟩
  have := (isPmf_binom n h0 h1).total.tsum_eq
  rw [tsum_eq_sum (s := Finset.range (n + 1))
    (fun k hk => h k (by simpa [Nat.lt_succ_iff] using hk))] at this
  exact this

/-- The value of the code: the CRPS, and the effect of the replaced value at `n`. -/
theorem binomial_fin (n : ℕ) {p : ℝ} (h0 : 0 ≤ p) (h1 : p ≤ 1) (y : ℝ) :
    Closed.binomial (fin y) n (fin p) = fin (crps (cdfPmf (pmfBinom n p)) y
      + 2 * (p ^ n * (1 - bF (1 / 10 ^ 36) ((n:ℝ) + 1) (1 - p)) * (n - y))) := by
  obtain ⟨hz, hs⟩ := sum_pmfBinom n h0 h1
  set b := bF (1 / 10 ^ 36) ((n:ℝ) + 1) (1 - p) with hb
  set c : ℕ → ℝ := fun i => if i < n then ∑ j ∈ Finset.range (i + 1), pmfBinom n p j else b with hc
  have hpn : pmfBinom n p n = p ^ n := by simp [pmfBinom]
  have e : ∀ i ∈ List.range (n + 1),
      binomPdf (fin (i : ℝ)) (fin (n : ℝ)) (fin p)
        * (XF.ind (fin y < fin (i : ℝ)) - (binomCdf (fin (i : ℝ)) (fin (n : ℝ)) (fin p)
          - fin (1 / 2) * binomPdf (fin (i : ℝ)) (fin (n : ℝ)) (fin p)))
        * (fin (i : ℝ) - fin y)
      = fin (pmfBinom n p i * ((if y < i then 1 else 0) - c i + pmfBinom n p i / 2) * (i - y)) := by
    intro i hi
    have hi' : i ≤ n := by simpa [Nat.lt_succ_iff] using hi
    have hcdf : binomCdf (fin (i : ℝ)) (fin (n : ℝ)) (fin p) = fin (c i) := by
      rcases hi'.lt_or_eq with h | h
      · rw [binomCdf_lt h h0 h1, hc]; simp [h]
      · rw [h, binomCdf_top n h0 h1, hc]; simp [hb]
    rw [binomPdf_nat hi' h0 h1, hcdf]
    simp only [XF.ind_def, fin_lt, fin_sub, fin_mul]
    congr 1; ring
  unfold Closed.binomial
  dsimp only
  rw [List.map_congr_left e, range_map_sum_fin, XF.ofNat_def, fin_mul, (crps_pmf hz hs y).2]
  congr 1
  rw [← mul_add]
  congr 1
  rw [Finset.sum_range_succ, Finset.sum_range_succ _ n, hs, hpn]
  have e1 : c n = b := by simp [hc]
  have e2 : ∀ i ∈ Finset.range n,
      pmfBinom n p i * ((if y < i then 1 else 0) - c i + pmfBinom n p i / 2) * (i - y)
      = pmfBinom n p i * ((if y < i then 1 else 0) - ∑ j ∈ Finset.range (i + 1), pmfBinom n p j
        + pmfBinom n p i / 2) * (i - y) := by
    intro i hi
    rw [hc]; simp only [Finset.mem_range.1 hi, if_true]
  rw [Finset.sum_congr rfl e2, e1]
  ring

/-- Full claim: `crps_binomial` is the CRPS of the binomial distribution.  For a probability below one the
two differ by at most the bound given, which vanishes beside the rounding of a float.  Missing:
probability one, where the claim is false. -/
theorem C79_binomial_partial (n : ℕ) {p : ℝ} (h0 : 0 ≤ p) (h1 : p < 1) (y : ℝ) :
    IsPmf (pmfBinom n p) ∧ HasCrps (cdfPmf (pmfBinom n p)) y ∧
    ∃ e : ℝ, Closed.binomial (fin y) n (fin p) = fin (crps (cdfPmf (pmfBinom n p)) y + e) ∧
      |e| ≤ 2 * p ^ n * |n - y| / (10 ^ 36 * ((n + 1) * (1 - p))) := by
  obtain ⟨hz, hs⟩ := sum_pmfBinom n h0 h1.le
  refine ⟨isPmf_binom n h0 h1.le, (crps_pmf hz hs y).1, _, binomial_fin n h0 h1.le y, ?_⟩
  have hx : 0 < 1 - p := by linarith
  have ha : (0:ℝ) < 1 / 10 ^ 36 := by positivity
  have hb : (0:ℝ) < (n:ℝ) + 1 := by positivity
  have hl := bF_le ha hb (1 - p)
  have hm := one_sub_bF_le ha hb hx
  have hpn : 0 ≤ p ^ n := pow_nonneg h0 n
  have hm2 : 1 - bF (1 / 10 ^ 36) ((n:ℝ) + 1) (1 - p) ≤ 1 / (10 ^ 36 * ((n + 1) * (1 - p))) := by
    refine hm.trans ?_
    rw [div_div, div_le_div_iff₀ (by positivity) (by positivity)]
    have : (0:ℝ) ≤ 1 / 10 ^ 36 * (1 - p) := by positivity
    have e : (1:ℝ) / 10 ^ 36 * (10 ^ 36 * ((n + 1) * (1 - p))) = (n + 1) * (1 - p) := by
      field_simp
    rw [e]
    nlinarith
  rw [abs_mul, abs_two, abs_mul, abs_mul, abs_of_nonneg hpn,
    abs_of_nonneg (by linarith : 0 ≤ 1 - bF (1 / 10 ^ 36) ((n:ℝ) + 1) (1 - p))]
  have := mul_le_mul_of_nonneg_left hm2 (mul_nonneg hpn (abs_nonneg ((n:ℝ) - y)))
  calc _ = 2 * (p ^ n * |(n:ℝ) - y| * (1 - bF (1 / 10 ^ 36) ((n:ℝ) + 1) (1 - p))) := by ring
    _ ≤ 2 * (p ^ n * |(n:ℝ) - y| * (1 / (10 ^ 36 * ((n + 1) * (1 - p))))) := by linarith
    _ = _ := by ring

example : ∃ e : ℝ, Closed.binomial (fin 2) 3 (fin (1 / 2))
    = fin (crps (cdfPmf (pmfBinom 3 (1 / 2))) 2 + e) ∧ |e| ≤ 1 / 10 ^ 36 := by
  obtain ⟨-, -, e, h1, h2⟩ := C79_binomial_partial 3 (p := 1 / 2) (by norm_num) (by norm_num) 2
  refine ⟨e, h1, h2.trans ?_⟩
  norm_num

/-- C79 fails with probability one.  All mass is then at `n`, so that the CRPS is `|n - y|`; the code gives
three times that below `n` and a negative number above. -/
theorem C79_prob_one_fails (n : ℕ) (y : ℝ) :
    (y < n → Closed.binomial (fin y) n (fin 1) = fin (3 * |n - y|)) ∧
    (n ≤ y → Closed.binomial (fin y) n (fin 1) = fin (-|n - y|)) ∧
    HasCrps (cdfPmf (pmfBinom n 1)) y ∧ crps (cdfPmf (pmfBinom n 1)) y = |n - y| := by
  obtain ⟨hz, hs⟩ := sum_pmfBinom n zero_le_one (le_refl (1:ℝ))
  have hb : bF (1 / 10 ^ 36) ((n:ℝ) + 1) (1 - 1) = 0 := by
    unfold bF; rw [prim_bK_neg (by norm_num), zero_div]
  have hf : ∀ i, i < n → pmfBinom n 1 i = 0 := by
    intro i hi
    rw [pmfBinom, sub_self, zero_pow (by omega), mul_zero]
  have hfn : pmfBinom n 1 n = 1 := by simp [pmfBinom]
  have hc : crps (cdfPmf (pmfBinom n 1)) y = |n - y| := by
    rw [(crps_pmf hz hs y).2, Finset.sum_range_succ, hs, hfn, Finset.sum_eq_zero]
    · split_ifs with h
      · rw [abs_of_nonneg (by linarith)]; ring
      · rw [abs_of_nonpos (by linarith)]; ring
    · intro i hi
      rw [hf i (Finset.mem_range.1 hi)]; ring
  refine ⟨fun h => ?_, fun h => ?_, (crps_pmf hz hs y).1, hc⟩
  · rw [binomial_fin n zero_le_one le_rfl, hc, hb, abs_of_nonneg (by linarith), one_pow]
    congr 1; ring
  · rw [binomial_fin n zero_le_one le_rfl, hc, hb, abs_of_nonpos (by linarith), one_pow]
    congr 1; ring

example : Closed.binomial (fin 5) 3 (fin 1) = fin (-2) := by
  rw [(C79_prob_one_fails 3 5).2.1 (by norm_num)]
  norm_num

end Verif
