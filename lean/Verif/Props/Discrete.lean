import Verif.Lemmas.Discrete

/-!
# C55: `crps_hypergeometric`
-/

noncomputable section

open scoped Classical

namespace Verif

open XF Spec Stats

theorem hypergeometric_fin {m n K : ℕ} (h : K ≤ m + n) (y : ℝ) :
    Closed.hypergeometric (fin y) m n K = fin (2 * ∑ i ∈ Finset.range (n + 1), pmfHypergeo m n K i
      * ((if y < i then 1 else 0) - ∑ j ∈ Finset.range (i + 1), pmfHypergeo m n K j
        + pmfHypergeo m n K i / 2) * (i - y)) := by
  have e : ∀ i : ℕ, hypergeoPdf (fin (i : ℝ)) (fin (m : ℝ) + fin (n : ℝ)) (fin (m : ℝ)) (fin (K : ℝ))
      * (XF.ind (fin y < fin (i : ℝ))
        - hypergeoCdf i (fin (m : ℝ) + fin (n : ℝ)) (fin (m : ℝ)) (fin (K : ℝ))
        + hypergeoPdf (fin (i : ℝ)) (fin (m : ℝ) + fin (n : ℝ)) (fin (m : ℝ)) (fin (K : ℝ)) / 2)
      * (fin (i : ℝ) - fin y)
      = fin (pmfHypergeo m n K i * ((if y < i then 1 else 0)
        - ∑ j ∈ Finset.range (i + 1), pmfHypergeo m n K j + pmfHypergeo m n K i / 2) * (i - y)) := by
    intro i
    unfold hypergeoCdf
    simp only [hypergeoPdf_nat h, range_map_sum_fin]
    simp only [XF.ind_def, fin_lt, XF.ofNat_def, fin_div two_ne_zero,
      fin_sub, fin_add, fin_mul]
  unfold Closed.hypergeometric
  simp only [e, range_map_sum_fin]
  rw [XF.ofNat_def, fin_mul]

/-- C55 holds when the largest possible number of successes, `min m K`, is at most `n`.  Missing: the
other parameters, where it is false. -/
theorem C55_partial {m n K : ℕ} (h : K ≤ m + n) (hs : min m K ≤ n) (y : ℝ) :
    IsPmf (pmfHypergeo m n K) ∧ HasCrps (cdfPmf (pmfHypergeo m n K)) y ∧
    Closed.hypergeometric (fin y) m n K = fin (crps (cdfPmf (pmfHypergeo m n K)) y) := by
  have hP := isPmf_hypergeo h
  have h0 : ∀ k, n < k → pmfHypergeo m n K k = 0 := by
    intro k hk
    unfold pmfHypergeo
    split_ifs with hkK
    · rw [Nat.choose_eq_zero_of_lt (by omega)]; simp
    · rfl
  have h1 : ∑ i ∈ Finset.range (n + 1), pmfHypergeo m n K i = 1 := by
    have := hP.total.tsum_eq
    rw [tsum_eq_sum (s := Finset.range (n + 1))
      (fun k hk => h0 k (by simpa [Nat.lt_succ_iff] using hk))] at this
    exact this
  obtain ⟨hi, hv⟩ := crps_pmf h0 h1 y
  refine ⟨hP, hi, ?_⟩
  rw [hypergeometric_fin h, hv]

example : 4 ≤ 5 + 6 ∧ min 5 4 ≤ 6 := by norm_num

/-- C55 fails: drawing the single ball of an urn with one success and no failure gives one success for
certain, so the CRPS is `|1 - y|`; the code returns zero whatever the observation, because it sums
over `0 … n` with `n` the number of failures. -/
theorem C55_false (y : ℝ) :
    Closed.hypergeometric (fin y) 1 0 1 = fin 0 ∧ HasCrps (cdfPmf (pmfHypergeo 1 0 1)) y ∧
    crps (cdfPmf (pmfHypergeo 1 0 1)) y = |1 - y| := by
  have p0 : pmfHypergeo 1 0 1 0 = 0 := by norm_num [pmfHypergeo]
  have p1 : pmfHypergeo 1 0 1 1 = 1 := by norm_num [pmfHypergeo]
  have h0 : ∀ k, 1 < k → pmfHypergeo 1 0 1 k = 0 := by
    intro k hk; unfold pmfHypergeo; rw [if_neg (by omega)]
  obtain ⟨hi, hv⟩ := crps_pmf h0 (by simp [Finset.sum_range_succ, p0, p1]) y
  refine ⟨?_, hi, ?_⟩
  · rw [hypergeometric_fin (by norm_num)]
    simp [p0]
  · rw [hv]
    simp only [Finset.sum_range_succ, Finset.sum_range_zero, p0, p1, Nat.cast_one, Nat.cast_zero]
    rcases lt_or_ge y 1 with h | h
    · rw [abs_of_pos (by linarith), if_pos h]; ring
    · rw [abs_of_nonpos (by linarith), if_neg (not_lt.2 h)]; ring

/-- A satisfying case: one draw from an urn with one success and one failure. -/
example : Closed.hypergeometric (fin 0) 1 1 1 = fin (1 / 4) := by
  rw [hypergeometric_fin (by norm_num)]
  congr 1
  norm_num [Finset.sum_range_succ, pmfHypergeo]

example : min 1 1 ≤ 1 := by norm_num

end Verif
