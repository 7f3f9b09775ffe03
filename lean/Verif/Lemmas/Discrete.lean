import Verif.Lemmas.Pmf
import Verif.Lemmas.CrpsIntegral
import Verif.Spec.Dist
import Verif.Model.Closed2

/-!
# The CRPS of a distribution on finitely many integers
-/

noncomputable section

open scoped Classical
open MeasureTheory

namespace Verif

open XF Spec Stats

/-- The masses at `0 … N` as a weighted list. -/
def pmfList (f : ℕ → ℝ) (N : ℕ) : List (ℝ × ℝ) := (List.range (N + 1)).map fun i : ℕ => ((i : ℝ), f i)

theorem qdSum_append (y c : ℝ) (l : List (ℝ × ℝ)) (p : ℝ × ℝ) :
    qdSum y c (l ++ [p])
      = qdSum y c l + p.2 * ((if y < p.1 then 1 else 0) - (c + wtot l + p.2 / 2)) * (p.1 - y) := by
  induction l generalizing c with
  | nil => simp [qdSum, wtot]
  | cons q l ih =>
    simp only [List.cons_append, qdSum, ih, wtot, List.map_cons, List.sum_cons]
    ring

theorem wtot_range (f : ℕ → ℝ) (N : ℕ) :
    wtot ((List.range N).map fun i : ℕ => ((i : ℝ), f i)) = ∑ i ∈ Finset.range N, f i := by
  induction N with
  | zero => simp [wtot]
  | succ N ih =>
    rw [List.range_succ, List.map_append, Finset.sum_range_succ, ← ih]
    simp [wtot]

theorem qdSum_range (y : ℝ) (f : ℕ → ℝ) (N : ℕ) :
    qdSum y 0 ((List.range N).map fun i : ℕ => ((i : ℝ), f i))
      = ∑ i ∈ Finset.range N, f i * ((if y < i then 1 else 0) - ∑ j ∈ Finset.range (i + 1), f j + f i / 2)
        * (i - y) := by
  induction N with
  | zero => simp [qdSum]
  | succ N ih =>
    rw [List.range_succ, List.map_append, Finset.sum_range_succ, ← ih, List.map_cons, List.map_nil,
      qdSum_append, wtot_range, Finset.sum_range_succ (f := f)]
    simp only
    ring

theorem pmfList_sorted (f : ℕ → ℝ) (N : ℕ) : SortedP (pmfList f N) := by
  unfold SortedP pmfList
  rw [List.pairwise_map]
  refine (List.pairwise_lt_range (n := N + 1)).imp fun h => ?_
  exact Nat.cast_le.2 h.le

theorem wcdf_pmfList {f : ℕ → ℝ} {N : ℕ} (h0 : ∀ k, N < k → f k = 0) (h1 : wtot (pmfList f N) = 1) :
    wcdf (pmfList f N) = cdfPmf f := by
  funext z
  unfold wcdf cdfPmf
  have e : ((pmfList f N).map Prod.snd).sum = 1 := h1
  rw [e, div_one, tsum_eq_sum (s := Finset.range (N + 1))
    (fun k hk => by
      have : N < k := by simpa [Nat.lt_succ_iff] using hk
      simp [h0 k this])]
  unfold pmfList
  generalize N + 1 = K
  induction K with
  | zero => simp
  | succ K ih =>
    rw [List.range_succ, List.map_append, List.filter_append, List.map_append, List.sum_append, ih,
      Finset.sum_range_succ]
    congr 1
    by_cases h : (K : ℝ) ≤ z <;> simp [h]

theorem hasCrps_wcdf (y : ℝ) (l : List (ℝ × ℝ)) (hw : wtot l = 1) : HasCrps (wcdf l) y := by
  have e : ∀ z, (wcdf l z - if y ≤ z then 1 else 0) ^ 2
      = (l.map fun p => (l.map fun q =>
          (p.2 * q.2) * ((step p.1 z - step y z) * (step q.1 z - step y z))).sum).sum := by
    intro z
    have h := wcdf_sub l hw y z
    unfold step at h ⊢
    rw [pow_two, h, ← List.sum_map_mul_right]
    congr 1
    refine List.map_congr_left fun p _ => ?_
    rw [← List.sum_map_mul_left]
    congr 1
    refine List.map_congr_left fun q _ => ?_
    ring
  unfold HasCrps
  simp only [e]
  refine integrable_list_sum l _ fun p _ => ?_
  refine integrable_list_sum l _ fun q _ => ?_
  exact (integrable_step_prod y p.1 q.1).const_mul _

/-- The quantile form of the CRPS for a mass function on `0 … N`. -/
theorem crps_pmf {f : ℕ → ℝ} {N : ℕ} (h0 : ∀ k, N < k → f k = 0)
    (h1 : ∑ i ∈ Finset.range (N + 1), f i = 1) (y : ℝ) :
    HasCrps (cdfPmf f) y ∧
    crps (cdfPmf f) y = 2 * ∑ i ∈ Finset.range (N + 1),
      f i * ((if y < i then 1 else 0) - ∑ j ∈ Finset.range (i + 1), f j + f i / 2) * (i - y) := by
  have hw : wtot (pmfList f N) = 1 := by unfold pmfList; rw [wtot_range, h1]
  rw [← wcdf_pmfList h0 hw]
  refine ⟨hasCrps_wcdf y _ hw, ?_⟩
  rw [crps_wcdf_eq_energy y _ hw, ← qdSum_energy y (pmfList_sorted f N) hw]
  unfold pmfList
  rw [qdSum_range]

theorem hypergeoPdf_nat {m n K : ℕ} (h : K ≤ m + n) (k : ℕ) :
    hypergeoPdf (fin (k : ℝ)) (fin (m : ℝ) + fin (n : ℝ)) (fin (m : ℝ)) (fin (K : ℝ))
      = fin (pmfHypergeo m n K k) := by
  have hc : (0:ℝ) < (m + n).choose K := by exact_mod_cast Nat.choose_pos h
  have hM : (m : ℝ) + n - m = n := by ring
  unfold hypergeoPdf pmfHypergeo
  simp only [fin_add, fin_sub, XF.zero_def, fin_max, fin_min, fin_le, XF.ind_def, comb_nat, hM]
  rw [← Nat.cast_add, comb_nat]
  by_cases hkK : k ≤ K
  · rw [← Nat.cast_sub hkK, comb_nat, if_pos hkK, fin_mul, fin_mul, fin_div hc.ne']
    congr 1
    split_ifs with hi
    · ring
    · rw [not_and_or, max_le_iff, le_min_iff, not_and_or, not_and_or] at hi
      rcases hi with (hk | hk) | (hk | hk)
      · exact absurd (Nat.cast_nonneg k) hk
      · have : n < K - k := by
          push_cast at hk
          have : (k:ℝ) + n < K := by linarith [not_le.1 hk]
          have : k + n < K := by exact_mod_cast this
          omega
        rw [Nat.choose_eq_zero_of_lt this]; simp
      · rw [Nat.cast_le] at hk
        rw [Nat.choose_eq_zero_of_lt (not_le.1 hk)]; simp
      · exact absurd (by exact_mod_cast hkK) hk
  · have hi : ¬ (max 0 ((K:ℝ) - ((m + n : ℕ) : ℝ) + m) ≤ (k : ℝ) ∧ (k:ℝ) ≤ min (m:ℝ) K) := by
      intro hi
      exact hkK (by exact_mod_cast (le_min_iff.1 hi.2).2)
    obtain ⟨c, hc'⟩ : ∃ c : ℝ, XF.comb (fin (n : ℝ)) (fin ((K : ℝ) - k)) = fin c := by
      unfold XF.comb
      dsimp only
      split_ifs <;> exact ⟨_, rfl⟩
    rw [hc', if_neg hkK, if_neg hi, fin_mul, fin_mul, fin_div hc.ne']
    simp

theorem range_map_sum_fin (N : ℕ) (f : ℕ → ℝ) :
    ((List.range N).map fun i : ℕ => fin (f i)).sum = fin (∑ i ∈ Finset.range N, f i) := by
  induction N with
  | zero => simp [XF.zero_def]
  | succ N ih =>
    rw [List.range_succ, List.map_append, List.sum_append, ih, Finset.sum_range_succ]
    simp

end Verif
