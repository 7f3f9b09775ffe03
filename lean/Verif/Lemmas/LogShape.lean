import Verif.Spec.LogShape
import Verif.Spec.Dens
import Mathlib.Analysis.SpecialFunctions.Pow.Real
import Mathlib.Analysis.SpecialFunctions.Log.Basic

/-!
# Densities with one peak
-/

noncomputable section

open scoped Classical

namespace Verif

open XF Spec

/-- `b` is smaller than `a`, or both are zero -/
def Less (a b : ℝ) : Prop := b < a ∨ (a = 0 ∧ b = 0)

/-- `f` falls on both sides of `c` -/
structure Peak (f : ℝ → ℝ) (c : ℝ) : Prop where
  nonneg : ∀ x, 0 ≤ f x
  right : ∀ y' y, c ≤ y' → y' < y → Less (f y') (f y)
  left : ∀ y' y, y < y' → y' ≤ c → Less (f y') (f y)

theorem Less.of_zero {a b : ℝ} (ha : 0 ≤ a) (hb : b = 0) : Less a b := by
  rcases ha.eq_or_lt with h | h
  · exact Or.inr ⟨h.symm, hb⟩
  · exact Or.inl (by rw [hb]; exact h)

theorem Less.div {a b k : ℝ} (h : Less a b) (hk : 0 < k) : Less (a / k) (b / k) := by
  rcases h with h | ⟨h1, h2⟩
  · exact Or.inl (div_lt_div_of_pos_right h hk)
  · exact Or.inr ⟨by simp [h1], by simp [h2]⟩

theorem worse_negLog {a b : ℝ} (hb : 0 ≤ b) (h : Less a b) : Worse (negLog a) (negLog b) := by
  rcases h with h | ⟨h1, h2⟩
  · left
    have ha : 0 < a := lt_of_le_of_lt hb h
    unfold negLog
    rw [if_neg ha.ne']
    split_ifs with h0
    · simp
    · rw [fin_lt]
      exact neg_lt_neg (Real.log_lt_log (lt_of_le_of_ne hb (Ne.symm h0)) h)
  · right
    simp [negLog, h1, h2]

theorem Peak.rises {f : ℝ → ℝ} {c : ℝ} (h : Peak f c) {s : ℝ → XF} (hs : ∀ y, s y = negLog (f y)) : RisesFrom s c :=
  ⟨fun y' y h1 h2 => by rw [hs, hs]; exact worse_negLog (h.nonneg y) (h.right y' y h1 h2),
    fun y' y h1 h2 => by rw [hs, hs]; exact worse_negLog (h.nonneg y) (h.left y' y h1 h2)⟩

theorem rises_right {f : ℝ → ℝ} {l : ℝ} (h0 : ∀ y, y ≤ l → f y = 0) (hp : ∀ y, l < y → 0 < f y)
    (h : ∀ y' y, l < y' → y' < y → f y < f y') {s : ℝ → XF} (hs : ∀ y, s y = negLog (f y)) : RisesRightOf s l :=
  ⟨fun y hy => by rw [hs, h0 y hy, negLog, if_pos rfl], fun y' y h1 h2 => by
    rw [hs, hs, negLog, negLog, if_neg (hp y' h1).ne', if_neg (hp y (h1.trans h2)).ne', fin_lt]
    exact neg_lt_neg (Real.log_lt_log (hp y (h1.trans h2)) (h y' y h1 h2))⟩

/-- location and scale -/
theorem Peak.scale {f : ℝ → ℝ} {c : ℝ} (h : Peak f c) (μ : ℝ) {σ : ℝ} (hσ : 0 < σ) :
    Peak (fun y => f ((y - μ) / σ) / σ) (μ + σ * c) where
  nonneg x := div_nonneg (h.nonneg _) hσ.le
  right y' y h1 h2 := (h.right _ _ (by rw [le_div_iff₀ hσ]; linarith) (div_lt_div_of_pos_right (by linarith) hσ)).div hσ
  left y' y h1 h2 := (h.left _ _ (div_lt_div_of_pos_right (by linarith) hσ) (by rw [div_le_iff₀ hσ]; linarith)).div hσ

/-- truncation moves the peak to the next admissible point -/
theorem Peak.trunc {f F : ℝ → ℝ} {c l u : ℝ} (h : Peak f c) (hF : F l < F u) :
    Peak (densTrunc f F l u) (max l (min c u)) := by
  have hn : ∀ x, 0 ≤ densTrunc f F l u x := fun x => by
    unfold densTrunc
    split_ifs
    · exact div_nonneg (h.nonneg _) (by linarith)
    · exact le_rfl
  refine ⟨hn, fun y' y h1 h2 => ?_, fun y' y h1 h2 => ?_⟩
  · by_cases hy : y ≤ u
    · have hl : l ≤ y' := (le_max_left _ _).trans h1
      have hc : c ≤ y' := by
        have := (le_max_right l (min c u)).trans h1
        rcases min_le_iff.1 this with h3 | h3
        · exact h3
        · linarith
      unfold densTrunc
      rw [if_pos ⟨hl, by linarith⟩, if_pos ⟨by linarith, hy⟩]
      exact (h.right _ _ hc h2).div (by linarith)
    · exact Less.of_zero (hn _) (if_neg fun hh => hy hh.2)
  · by_cases hy : l ≤ y
    · have hc : y' ≤ min c u := by
        rcases le_max_iff.1 h2 with h3 | h3
        · linarith
        · exact h3
      have h3 := hc.trans (min_le_left _ _)
      have h4 := hc.trans (min_le_right _ _)
      unfold densTrunc
      rw [if_pos ⟨by linarith, h4⟩, if_pos ⟨hy, by linarith⟩]
      exact (h.left _ _ h1 h3).div (by linarith)
    · exact Less.of_zero (hn _) (if_neg fun hh => hy hh.1)

theorem Peak.truncLo {f F : ℝ → ℝ} {c l : ℝ} (h : Peak f c) (hF : F l < 1) : Peak (densTruncLo f F l) (max l c) := by
  have hn : ∀ x, 0 ≤ densTruncLo f F l x := fun x => by
    unfold densTruncLo
    split_ifs
    · exact div_nonneg (h.nonneg _) (by linarith)
    · exact le_rfl
  refine ⟨hn, fun y' y h1 h2 => ?_, fun y' y h1 h2 => ?_⟩
  · have hl : l ≤ y' := (le_max_left _ _).trans h1
    unfold densTruncLo
    rw [if_pos hl, if_pos (by linarith)]
    exact (h.right _ _ ((le_max_right _ _).trans h1) h2).div (by linarith)
  · by_cases hy : l ≤ y
    · have hc : y' ≤ c := by
        rcases le_max_iff.1 h2 with h3 | h3
        · linarith
        · exact h3
      unfold densTruncLo
      rw [if_pos (by linarith), if_pos hy]
      exact (h.left _ _ h1 hc).div (by linarith)
    · exact Less.of_zero (hn _) (if_neg hy)

theorem Peak.truncUp {f F : ℝ → ℝ} {c u : ℝ} (h : Peak f c) (hF : 0 < F u) : Peak (densTruncUp f F u) (min c u) := by
  have hn : ∀ x, 0 ≤ densTruncUp f F u x := fun x => by
    unfold densTruncUp
    split_ifs
    · exact div_nonneg (h.nonneg _) (by linarith)
    · exact le_rfl
  refine ⟨hn, fun y' y h1 h2 => ?_, fun y' y h1 h2 => ?_⟩
  · by_cases hy : y ≤ u
    · have hc : c ≤ y' := by
        rcases min_le_iff.1 h1 with h3 | h3
        · exact h3
        · linarith
      unfold densTruncUp
      rw [if_pos (by linarith), if_pos hy]
      exact (h.right _ _ hc h2).div hF
    · exact Less.of_zero (hn _) (if_neg hy)
  · have h3 := h2.trans (min_le_left _ _)
    have h4 := h2.trans (min_le_right _ _)
    unfold densTruncUp
    rw [if_pos h4, if_pos (by linarith)]
    exact (h.left _ _ h1 h3).div hF

/-- law of `exp X` -/
theorem Peak.log {f : ℝ → ℝ} {c : ℝ} (h : Peak (fun t => f t * Real.exp (-t)) c) : Peak (densLog f) (Real.exp c) := by
  have e : ∀ x, 0 < x → densLog f x = f (Real.log x) * Real.exp (-Real.log x) := fun x hx => by
    rw [densLog, if_neg (not_le.2 hx), Real.exp_neg, Real.exp_log hx, div_eq_mul_inv]
  have hn : ∀ x, 0 ≤ densLog f x := fun x => by
    by_cases hx : 0 < x
    · rw [e x hx]; exact h.nonneg _
    · rw [densLog, if_pos (not_lt.1 hx)]
  refine ⟨hn, fun y' y h1 h2 => ?_, fun y' y h1 h2 => ?_⟩
  · have h0 : 0 < y' := (Real.exp_pos c).trans_le h1
    rw [e y' h0, e y (h0.trans h2)]
    exact h.right _ _ ((Real.le_log_iff_exp_le h0).2 h1) (Real.log_lt_log h0 h2)
  · by_cases hy : 0 < y
    · rw [e y' (hy.trans h1), e y hy]
      exact h.left _ _ (Real.log_lt_log hy h1) ((Real.log_le_iff_le_exp (hy.trans h1)).2 h2)
    · exact Less.of_zero (hn _) (if_pos (not_lt.1 hy))

/-- a positive multiple of an exponential -/
theorem peak_exp {f g : ℝ → ℝ} {c K : ℝ} (hK : 0 < K) (hf : ∀ x, f x = K * Real.exp (g x))
    (hr : ∀ y' y, c ≤ y' → y' < y → g y < g y') (hl : ∀ y' y, y < y' → y' ≤ c → g y < g y') : Peak f c where
  nonneg x := by rw [hf]; positivity
  right y' y h1 h2 := Or.inl (by rw [hf, hf]; exact mul_lt_mul_of_pos_left (Real.exp_lt_exp.2 (hr y' y h1 h2)) hK)
  left y' y h1 h2 := Or.inl (by rw [hf, hf]; exact mul_lt_mul_of_pos_left (Real.exp_lt_exp.2 (hl y' y h1 h2)) hK)

/-! ### `x ^ p * exp (-q x)` -/

theorem log_lt_div {x y : ℝ} (hx : 0 < x) (h : x < y) : Real.log y - Real.log x < (y - x) / x := by
  rw [← Real.log_div (hx.trans h).ne' hx.ne']
  have := Real.log_lt_sub_one_of_pos (div_pos (hx.trans h) hx) (by rw [ne_eq, div_eq_one_iff_eq hx.ne']; exact h.ne')
  rwa [sub_div, div_self hx.ne']

theorem div_lt_log {x y : ℝ} (hx : 0 < x) (h : x < y) : (y - x) / y < Real.log y - Real.log x := by
  have hy := hx.trans h
  have h1 := Real.log_lt_sub_one_of_pos (div_pos hx hy) (by rw [ne_eq, div_eq_one_iff_eq hy.ne']; exact h.ne)
  rw [Real.log_div hx.ne' hy.ne'] at h1
  rw [sub_div, div_self hy.ne']
  linarith

theorem gam_left {p q x y : ℝ} (hp : 0 < p) (hx : 0 < x) (h : x < y) (hy : q * y ≤ p) :
    p * Real.log x - q * x < p * Real.log y - q * y := by
  have h0 := hx.trans h
  have h1 := mul_lt_mul_of_pos_left (div_lt_log hx h) hp
  have h2 : q * (y - x) ≤ p * ((y - x) / y) := by
    rw [mul_div_assoc', le_div_iff₀ h0]
    nlinarith [mul_le_mul_of_nonneg_right hy (sub_nonneg.2 h.le)]
  linarith

theorem gam_right {p q x y : ℝ} (hp : 0 < p) (hx : 0 < x) (h : x < y) (hy : p ≤ q * x) :
    p * Real.log y - q * y < p * Real.log x - q * x := by
  have h1 := mul_lt_mul_of_pos_left (log_lt_div hx h) hp
  have h2 : p * ((y - x) / x) ≤ q * (y - x) := by
    rw [mul_div_assoc', div_le_iff₀ hx]
    nlinarith [mul_le_mul_of_nonneg_right hy (sub_nonneg.2 h.le)]
  linarith

/-! ### `x ^ a * (1 - x) ^ b` -/

theorem bet_left {a b x y : ℝ} (ha : 0 < a) (hb : 0 < b) (hx : 0 < x) (h : x < y) (hy1 : y < 1) (hy : (a + b) * y ≤ a) :
    a * Real.log x + b * Real.log (1 - x) < a * Real.log y + b * Real.log (1 - y) := by
  have h0 := hx.trans h
  have h1 := mul_lt_mul_of_pos_left (div_lt_log hx h) ha
  have h2 := mul_lt_mul_of_pos_left (log_lt_div (x := 1 - y) (y := 1 - x) (by linarith) (by linarith)) hb
  have h3 : b * ((1 - x - (1 - y)) / (1 - y)) ≤ a * ((y - x) / y) := by
    rw [mul_div_assoc', mul_div_assoc', div_le_div_iff₀ (by linarith) h0]
    have : b * y ≤ a * (1 - y) := by linarith
    nlinarith [mul_le_mul_of_nonneg_right this (sub_nonneg.2 h.le)]
  linarith

theorem bet_right {a b x y : ℝ} (ha : 0 < a) (hb : 0 < b) (hx : 0 < x) (h : x < y) (hy1 : y < 1) (hy : a ≤ (a + b) * x) :
    a * Real.log y + b * Real.log (1 - y) < a * Real.log x + b * Real.log (1 - x) := by
  have := bet_left hb ha (x := 1 - y) (y := 1 - x) (by linarith) (by linarith) (by linarith) (by linarith)
  simp only [sub_sub_cancel] at this
  linarith

end Verif
