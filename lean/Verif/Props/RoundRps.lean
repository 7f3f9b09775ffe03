import Verif.Lemmas.RoundBrier
import Verif.Lemmas.Nearest64

/-!
# Property C170: accuracy of the ranked probability score in binary64

The ranked probability score (`core/brier.py:18-25`) of a vector of `K` probabilities is computed with an absolute error of
at most `K (K + 7) / 2 ^ 46`, in whatever order the backend adds; a forecast that gives all its probability to the
category that occurs scores exactly zero.
-/

noncomputable section

open scoped Classical

namespace Verif

open XF Py Spec

/-- Without rounding the function is that of the exact model, in whatever order the entries are added. -/
theorem C170_exact {T S : List XF → XF} (hT : ∀ xs, RSum fin xs (T xs)) (hS : ∀ xs, RSum fin xs (S xs)) :
    Rnd.rps1 fin T S = Brier.rps1 := by
  have ht : T = List.sum := funext fun xs => (hT xs).exact
  have hs : S = List.sum := funext fun xs => (hS xs).exact
  subst ht hs
  funext o f
  simp only [Rnd.rps1, Brier.rps1, Rnd.cumsum, Py.cumsum, rd_fin_eq]

example : ∃ T S : List XF → XF, (∀ xs, RSum fin xs (T xs)) ∧ ∀ xs, RSum fin xs (S xs) := by
  obtain ⟨S, hS⟩ := exists_rsum fin
  exact ⟨S, S, hS, hS⟩

/-- The score of probabilities `f` (rounded numbers: their sum may exceed one a little) when category `c` occurs.  The
observation is the one-hot row of `c`. -/
theorem C170_rps {r : ℝ → XF} (hr : Binary64 r) {T S : List XF → XF} (hT : ∀ xs, RSum r xs (T xs))
    (hS : ∀ xs, RSum r xs (S xs)) {f : List ℝ} {c : ℕ} (hc : 1 ≤ c) (hcK : c ≤ f.length) (hK : f.length ≤ 2 ^ 20)
    (h0 : ∀ p ∈ f, 0 ≤ p) (h1 : f.sum ≤ 1 + 1 / 2 ^ 10) :
    ∃ v : ℝ, Rnd.rps1 r T S ((List.range f.length).map fun j => if c = j + 1 then 1 else 0) (f.map fin) = fin v ∧
      |v - rps f c| ≤ f.length * (f.length + 7) / 2 ^ 46 := by
  have hK' : (f.length : ℝ) ≤ 2 ^ 20 := by exact_mod_cast hK
  have hK'' : (f.length : ℝ) ≤ 1048576 := hK'.trans (by norm_num)
  have hK1 : (1:ℝ) ≤ f.length := by exact_mod_cast hc.trans hcK
  have hne : List.range f.length ≠ [] := by
    rw [← List.length_pos_iff, List.length_range]; omega
  have eo : ((List.range f.length).map fun j => if c = j + 1 then (1 : XF) else 0) = (hotRow f.length c).map fin := by
    unfold hotRow
    rw [List.map_map]
    refine List.map_congr_left fun j _ => ?_
    simp only [Function.comp_apply]
    split_ifs <;> rfl
  have len : (hotRow f.length c).length = f.length := by simp [hotRow]
  have so : ∀ j < f.length, cum (hotRow f.length c) j ≤ 1 := fun j hj => by
    rw [hot_cum hc hj]; split_ifs <;> norm_num
  have sf : ∀ j, cum f j ≤ 1 + 1 / 2 ^ 10 := fun j => (cum_le h0 j).trans h1
  have p400 : (2:ℝ) ≤ 2 ^ 400 := le_self_pow₀ (by norm_num) (by norm_num)
  have hos : (hotRow f.length c).sum ≤ 1 := by
    have : (hotRow f.length c).sum = cum (hotRow f.length c) (f.length - 1) := by
      unfold cum
      rw [List.take_of_length_le (by rw [len]; omega)]
    rw [this]; exact so _ (by omega)
  have ht : ∀ j ∈ List.range f.length, Sized
      (Rnd.rd r (Rnd.rd r (T ((f.map fin).take (j + 1)) - T (((hotRow f.length c).map fin).take (j + 1))) ^ 2))
      ((cum f j - cum (hotRow f.length c) j) ^ 2) 5 (3 * (f.length + 2) + 10) := by
    intro j hj
    have hj := List.mem_range.1 hj
    have d := dsq_near hr (cum_nonneg h0 j) (cum_nonneg hot_nonneg j) (k := f.length + 2) ((sf j).trans (le_trans (by norm_num) p400))
      ((so j hj).trans (le_trans (by norm_num) p400)) (by linarith) (by norm_num; linarith only [hK''])
      (cum_near hr h0 (h1.trans (le_trans (by norm_num) p400)) hK j (hT _))
      (by
        have := cum_near hr hot_nonneg (hos.trans (le_trans (by norm_num) p400)) (by rw [len]; exact hK) j (hT _)
        rw [len] at this; exact this)
    refine d.wider (by linarith) ?_
    have l5 : (1:ℝ) / 2 ^ 469 ≤ 1 / 2 ^ 10 :=
      one_div_le_one_div_of_le (by positivity) (pow_le_pow_right₀ (by norm_num) (by norm_num))
    have l0 : (0:ℝ) < 1 / 2 ^ 469 := by positivity
    have a0 := cum_nonneg h0 j
    have b0 := cum_nonneg (hot_nonneg (K := f.length) (c := c)) j
    calc (cum f j + cum (hotRow f.length c) j + 1 / 2 ^ 469) ^ 2 ≤ (2 + 2 / 2 ^ 10) ^ 2 :=
          pow_le_pow_left₀ (by linarith only [a0, b0, l0]) (by linarith only [sf j, so j hj, l5]) 2
      _ ≤ 5 := by norm_num
  have k50 : 3 * ((f.length : ℝ) + 2) + 10 + (List.range f.length).length ≤ 2 ^ 50 := by
    rw [List.length_range]
    norm_num; linarith only [hK'']
  have p1000 : (2:ℝ) ^ 30 ≤ 2 ^ 1000 := pow_le_pow_right₀ (by norm_num) (by norm_num)
  have tot : ((List.range f.length).map fun _ => (5:ℝ)).sum = 5 * f.length := by
    simp [mul_comm]
  have s := Sized.sum hr (hS ((List.range f.length).map fun j =>
      Rnd.rd r (Rnd.rd r (T ((f.map fin).take (j + 1)) - T (((hotRow f.length c).map fin).take (j + 1))) ^ 2))) hne ht
    (by
      rw [tot]
      refine le_trans ?_ p1000
      norm_num; linarith only [hK'']) k50
  rw [tot, List.length_range] at s
  obtain ⟨_, _, v, e, hv⟩ := s
  refine ⟨v, ?_, ?_⟩
  · rw [eo]
    unfold Rnd.rps1
    rw [rps_list r T len.symm]
    exact e
  · have er : rps f c = ((List.range f.length).map fun j => (cum f j - cum (hotRow f.length c) j) ^ 2).sum := by
      unfold rps
      congr 1
      exact List.map_congr_left fun j hj => brier_sq hc (List.mem_range.1 hj) _
    rw [er]
    refine hv.trans ?_
    generalize (f.length : ℝ) = K at *
    rw [le_div_iff₀ (by positivity)]
    have e1 : (1:ℝ) / 2 ^ 51 * 2 ^ 46 = 1 / 32 := by norm_num
    calc (3 * (K + 2) + 10 + K) * (1 / 2 ^ 51) * (5 * K) * 2 ^ 46
        = (3 * (K + 2) + 10 + K) * (5 * K) * (1 / 2 ^ 51 * 2 ^ 46) := by ring
      _ = (4 * K + 16) * (5 * K) / 32 := by rw [e1]; ring
      _ ≤ K * (K + 7) := by nlinarith only [hK1]

example : ∃ (T S : List XF → XF), (∀ xs, RSum rn64 xs (T xs)) ∧ (∀ xs, RSum rn64 xs (S xs)) ∧ Binary64 rn64 ∧ 1 ≤ 2 ∧
    2 ≤ [(1:ℝ) / 4, 1 / 2, 1 / 4].length ∧ [(1:ℝ) / 4, 1 / 2, 1 / 4].length ≤ 2 ^ 20 ∧
    (∀ p ∈ [(1:ℝ) / 4, 1 / 2, 1 / 4], 0 ≤ p) ∧ [(1:ℝ) / 4, 1 / 2, 1 / 4].sum ≤ 1 + 1 / 2 ^ 10 := by
  obtain ⟨S, hS⟩ := exists_rsum rn64
  refine ⟨S, S, hS, hS, rn64_nearest.toBinary64, by norm_num, by simp, by simp, ?_, by norm_num⟩
  intro p hp
  simp only [List.mem_cons, List.not_mem_nil, or_false] at hp
  rcases hp with rfl | rfl | rfl <;> norm_num

/-- A forecast that is certain of the category that occurs scores exactly zero. -/
theorem C170_perfect {r : ℝ → XF} (hr : Binary64 r) {T S : List XF → XF} (hT : ∀ xs, RSum r xs (T xs))
    (hS : ∀ xs, RSum r xs (S xs)) {K c : ℕ} (hc : 1 ≤ c) (hcK : c ≤ K) (hK : K ≤ 2 ^ 20) :
    Rnd.rps1 r T S ((List.range K).map fun j => if c = j + 1 then 1 else 0)
      ((List.range K).map fun j => if c = j + 1 then 1 else 0) = 0 ∧ rps (hotRow K c) c = 0 := by
  have eo : ((List.range K).map fun j => if c = j + 1 then (1 : XF) else 0) = (hotRow K c).map fin := by
    unfold hotRow
    rw [List.map_map]
    refine List.map_congr_left fun j _ => ?_
    simp only [Function.comp_apply]
    split_ifs <;> rfl
  have len : (hotRow K c).length = K := by simp [hotRow]
  have so : ∀ j < K, cum (hotRow K c) j ≤ 1 := fun j hj => by
    rw [hot_cum hc hj]; split_ifs <;> norm_num
  have hos : (hotRow K c).sum ≤ 1 := by
    have : (hotRow K c).sum = cum (hotRow K c) (K - 1) := by
      unfold cum
      rw [List.take_of_length_le (by rw [len]; omega)]
    rw [this]; exact so _ (by omega)
  constructor
  · rw [eo]
    unfold Rnd.rps1
    rw [rps_list r T rfl]
    refine (hS _).zeros hr fun x hx => ?_
    obtain ⟨j, _, rfl⟩ := List.mem_map.1 hx
    obtain ⟨b, e, _, _⟩ := cum_near hr hot_nonneg (hos.trans (one_le_pow₀ (by norm_num))) (by rw [len]; exact hK) j (hT _)
    have z : Rnd.rd r (fin 0) = fin 0 := hr.under (by rw [abs_zero]; positivity)
    rw [e, fin_sub, sub_self, z, fin_pow, zero_pow (by norm_num), z]
  · unfold rps
    rw [len]
    refine List.sum_eq_zero fun x hx => ?_
    obtain ⟨j, hj, rfl⟩ := List.mem_map.1 hx
    rw [brier_sq hc (List.mem_range.1 hj), sub_self, zero_pow (by norm_num)]

example : ∃ (T S : List XF → XF), (∀ xs, RSum rn64 xs (T xs)) ∧ (∀ xs, RSum rn64 xs (S xs)) ∧ Binary64 rn64 ∧ 1 ≤ 2 ∧
    2 ≤ 3 ∧ 3 ≤ 2 ^ 20 := by
  obtain ⟨S, hS⟩ := exists_rsum rn64
  exact ⟨S, S, hS, hS, rn64_nearest.toBinary64, by norm_num, by norm_num, by norm_num⟩

end Verif
