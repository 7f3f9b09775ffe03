import Verif.Model.RoundBrier
import Verif.Spec.Brier
import Verif.Lemmas.RoundVariogramLoop

/-! The ranked probability score with rounding. -/

noncomputable section

open scoped Classical

namespace Verif

open XF Py Spec

/-- the one-hot row of category `c` (counted from 1) -/
def hotRow (K c : ℕ) : List ℝ := (List.range K).map fun j => if c = j + 1 then 1 else 0

theorem hot_nonneg {K c : ℕ} : ∀ p ∈ hotRow K c, 0 ≤ p := by
  intro p hp
  obtain ⟨j, _, rfl⟩ := List.mem_map.1 hp
  split_ifs <;> norm_num

theorem hot_cum {K c j : ℕ} (hc : 1 ≤ c) (hj : j < K) : cum (hotRow K c) j = if c ≤ j + 1 then 1 else 0 := by
  unfold cum hotRow
  rw [← List.map_take, List.take_range, min_eq_left (by omega)]
  induction j with
  | zero =>
    have : c = 1 ↔ c ≤ 1 := by omega
    simp [this]
  | succ j ih =>
    rw [List.range_succ, List.map_append, List.sum_append, ih (by omega)]
    simp only [List.map_cons, List.map_nil, List.sum_singleton]
    split_ifs <;> first | omega | norm_num

theorem brier_sq {K c j : ℕ} (hc : 1 ≤ c) (hj : j < K) (p : ℝ) :
    brier p (decide (c ≤ j + 1)) = (p - cum (hotRow K c) j) ^ 2 := by
  rw [hot_cum hc hj]
  unfold brier
  by_cases h : c ≤ j + 1
  · simp [h]; ring
  · simp [h]

theorem cum_nonneg {f : List ℝ} (h : ∀ p ∈ f, 0 ≤ p) (j : ℕ) : 0 ≤ cum f j :=
  List.sum_nonneg fun p hp => h p (List.mem_of_mem_take hp)

theorem cum_le {f : List ℝ} (h : ∀ p ∈ f, 0 ≤ p) (j : ℕ) : cum f j ≤ f.sum := by
  have := List.sum_take_add_sum_drop f (j + 1)
  have h2 : 0 ≤ (f.drop (j + 1)).sum := List.sum_nonneg fun p hp => h p (List.mem_of_mem_drop hp)
  unfold cum
  linarith

section
variable {r : ℝ → XF} (hr : Binary64 r)
include hr

/-- a cumulative sum of numbers without sign -/
theorem cum_near {f : List ℝ} (h : ∀ p ∈ f, 0 ≤ p) (hs : f.sum ≤ 2 ^ 400) (hK : f.length ≤ 2 ^ 20) (j : ℕ) {s : XF}
    (hS : RSum r ((f.map fin).take (j + 1)) s) : SqNear (1 / 2 ^ 520) s (cum f j) (f.length + 2) 1 := by
  have hK' : (f.length : ℝ) ≤ 2 ^ 20 := by exact_mod_cast hK
  have hl : ((f.take (j + 1)).length : ℝ) ≤ f.length := by
    exact_mod_cast (List.length_take_le' _ _)
  rw [← List.map_take] at hS
  have n := hS.sqNear hr unit_nrm (k := 0) (m := 0) le_rfl (as := f.take (j + 1)) ?_ ?_ ?_ ?_
  · obtain ⟨b, e, h0, hb⟩ := n
    refine ⟨b, e, h0, hb.trans (add_le_add ?_ ?_)⟩
    · rw [List.length_map]
      refine mul_le_mul_of_nonneg_right (mul_le_mul_of_nonneg_right (by linarith) (by positivity)) (cum_nonneg h j)
    · rw [List.length_map, zero_add, one_mul, one_mul]
      calc ((f.take (j + 1)).length : ℝ) * (1 / 2 ^ 1060) ≤ 2 ^ 20 * (1 / 2 ^ 1060) :=
            mul_le_mul_of_nonneg_right (hl.trans hK') (by positivity)
        _ = 1 / 2 ^ 1040 := by
            rw [show (1060:ℕ) = 20 + 1040 from rfl, pow_add, mul_one_div, div_mul_eq_div_div, div_self (by positivity)]
        _ ≤ 1 / 2 ^ 520 := one_div_le_one_div_of_le (by positivity) (pow_le_pow_right₀ (by norm_num) (by norm_num))
  · rw [List.forall₂_map_left_iff, List.forall₂_same]
    intro p hp
    refine ⟨h p (List.mem_of_mem_take hp), p, rfl, h p (List.mem_of_mem_take hp), ?_⟩
    simp
  · exact ((cum_le h j).trans hs).trans (pow_le_pow_right₀ (by norm_num) (by norm_num))
  · rw [List.length_map]
    refine le_trans (by linarith : _ ≤ (2:ℝ) ^ 20) (pow_le_pow_right₀ (by norm_num) (by norm_num))
  · rw [List.length_map]
    refine le_trans (by linarith : _ ≤ (2:ℝ) ^ 20) (pow_le_pow_right₀ (by norm_num) (by norm_num))

/-- one squared difference -/
theorem dsq_near {x y : XF} {a b k : ℝ} (ha : 0 ≤ a) (hb : 0 ≤ b) (hA : a ≤ 2 ^ 400) (hB : b ≤ 2 ^ 400) (hk2 : 2 ≤ k)
    (hk : k ≤ 2 ^ 40) (hx : SqNear (1 / 2 ^ 520) x a k 1) (hy : SqNear (1 / 2 ^ 520) y b k 1) :
    Sized (Rnd.rd r (Rnd.rd r (x - y) ^ 2)) ((a - b) ^ 2) ((a + b + 1 / 2 ^ 469) ^ 2) (3 * k + 10) := by
  have l2 : (1:ℝ) / 2 ^ 938 = (1 / 2 ^ 469) ^ 2 := by rw [div_pow, one_pow, ← pow_mul]
  have l1 : (1:ℝ) / 2 ^ 1000 ≤ 1 / 2 ^ 938 :=
    one_div_le_one_div_of_le (by positivity) (pow_le_pow_right₀ (by norm_num) (by norm_num))
  have l3 : (1:ℝ) / 2 ^ 1000 ≤ 1 / 2 ^ 469 :=
    one_div_le_one_div_of_le (by positivity) (pow_le_pow_right₀ (by norm_num) (by norm_num))
  have l4 : (1:ℝ) / 2 ^ 520 = 1 / 2 ^ 51 * (1 / 2 ^ 469) := by rw [one_div_mul_one_div, ← pow_add]
  have l5 : (1:ℝ) / 2 ^ 469 ≤ 1 := by rw [div_le_one (by positivity)]; exact one_le_pow₀ (by norm_num)
  have hT0 : (0:ℝ) < 1 / 2 ^ 469 := by positivity
  have hk50 : k + 2 ≤ 2 ^ 50 := by norm_num at hk ⊢; linarith
  have h1 : Sized (x - y) (a - b) (a + b + 1 / 2 ^ 469) k := by
    obtain ⟨u, rfl, _, hu⟩ := hx
    obtain ⟨v, rfl, _, hv⟩ := hy
    rw [l4] at hu hv
    refine ⟨?_, ?_, u - v, fin_sub _ _, ?_⟩
    · rw [abs_le]; constructor <;> linarith
    · linarith
    · rw [show u - v - (a - b) = (u - a) - (v - b) by ring]
      refine (abs_sub _ _).trans ?_
      have e0 : 0 ≤ 1 / 2 ^ 51 * ((1:ℝ) / 2 ^ 469) := by positivity
      have e3 := mul_le_mul_of_nonneg_right hk2 e0
      generalize (1:ℝ) / 2 ^ 469 = T at *
      generalize (1:ℝ) / 2 ^ 51 = q at *
      linarith
  have hs : a + b + 1 / 2 ^ 469 ≤ 2 ^ 402 := by
    have : (2:ℝ) ^ 402 = 4 * 2 ^ 400 := by rw [show (402:ℕ) = 2 + 400 from rfl, pow_add]; norm_num
    rw [this]
    have h4 : (1:ℝ) ≤ 2 ^ 400 := one_le_pow₀ (by norm_num)
    clear l1 l2 l3 l4 h1 this hx hy
    generalize (2:ℝ) ^ 400 = P at *
    generalize (1:ℝ) / 2 ^ 469 = T at *
    linarith
  have hs0 : 0 ≤ a + b + 1 / 2 ^ 469 := h1.nonneg
  have hss : (a + b + 1 / 2 ^ 469) ^ 2 ≤ 2 ^ 804 := by
    calc (a + b + 1 / 2 ^ 469) ^ 2 ≤ (2 ^ 402) ^ 2 := pow_le_pow_left₀ hs0 hs 2
      _ = 2 ^ 804 := by rw [← pow_mul]
  have h2 := (h1.rd hr (hs.trans (pow_le_pow_right₀ (by norm_num) (by norm_num))) (by linarith)).sq
    (by linarith) (by linarith)
    (l1.trans (by rw [l2]; exact pow_le_pow_left₀ hT0.le (by linarith) 2))
  refine (h2.rd hr (hss.trans (pow_le_pow_right₀ (by norm_num) (by norm_num))) ?_).mono (by linarith)
  norm_num at hk ⊢; linarith

end

/-- the entries of the sum -/
theorem rps_list (r : ℝ → XF) (T : List XF → XF) {f o : List ℝ} (h : f.length = o.length) :
    zip2 (fun f o => Rnd.rd r (Rnd.rd r (f - o) ^ 2)) (Rnd.cumsum T (f.map fin)) (Rnd.cumsum T (o.map fin))
      = (List.range f.length).map fun j =>
        Rnd.rd r (Rnd.rd r (T ((f.map fin).take (j + 1)) - T ((o.map fin).take (j + 1))) ^ 2) := by
  unfold zip2 Rnd.cumsum
  rw [List.length_map, List.length_map, ← h, List.zipWith_map, List.zipWith_self]

theorem RSum.zeros {r : ℝ → XF} (hr : Binary64 r) {xs : List XF} {s : XF} (h : RSum r xs s) :
    (∀ x ∈ xs, x = fin 0) → s = fin 0 := by
  induction h with
  | nil => intro _; rfl
  | one x => intro h; exact h x (by simp)
  | append _ _ _ _ ih1 ih2 =>
    intro h
    rw [ih1 fun x hx => h x (by simp [hx]), ih2 fun x hx => h x (by simp [hx]), fin_add, add_zero]
    exact hr.under (by rw [abs_zero]; positivity)
  | perm hp _ ih => intro h; exact ih fun x hx => h x (hp.mem_iff.1 hx)

end Verif
