import Verif.Lemmas.LogsFin
import Verif.Lemmas.Antideriv
import Verif.Model.Closed2

/-!
# Standardisation and rescaling on floats
-/

noncomputable section

open scoped Classical

namespace Verif

open XF Spec

theorem mul_pinf_pos {c : ℝ} (hc : 0 < c) : fin c * pinf = pinf := by
  show XF.mul (fin c) pinf = pinf
  simp [XF.mul, XF.infMul, hc, hc.ne']

theorem mul_ninf_pos {c : ℝ} (hc : 0 < c) : fin c * ninf = ninf := by
  show XF.mul (fin c) ninf = ninf
  simp [XF.mul, XF.infMul, hc, hc.ne']

/-- Standardised values do not change when location and scale are moved along. -/
theorem std_inv (a : ℝ) {c σ : ℝ} (hc : 0 < c) (hσ : 0 < σ) (μ : ℝ) (x : XF) :
    (fin a + fin c * x - fin (a + c * μ)) / fin (c * σ) = (x - fin μ) / fin σ := by
  have hcs : 0 < c * σ := mul_pos hc hσ
  cases x with
  | nan => simp
  | ninf =>
    rw [mul_ninf_pos hc, show fin a + ninf = ninf from rfl, ninf_sub_fin, ninf_sub_fin, ninf_div_pos hcs,
      ninf_div_pos hσ]
  | pinf =>
    rw [mul_pinf_pos hc, show fin a + pinf = pinf from rfl, pinf_sub_fin, pinf_sub_fin, pinf_div_pos hcs,
      pinf_div_pos hσ]
  | fin y =>
    simp only [fin_mul, fin_add, fin_sub, fin_div hcs.ne', fin_div hσ.ne', fin_inj]
    field_simp
    ring

theorem mul_mul_pos {c σ : ℝ} (hc : 0 < c) (hσ : 0 < σ) (X : XF) :
    fin (c * σ) * X = fin c * (fin σ * X) := by
  have hcs : 0 < c * σ := mul_pos hc hσ
  cases X with
  | nan => simp
  | ninf => rw [mul_ninf_pos hcs, mul_ninf_pos hσ, mul_ninf_pos hc]
  | pinf => rw [mul_pinf_pos hcs, mul_pinf_pos hσ, mul_pinf_pos hc]
  | fin x => simp [mul_assoc]

theorem fin_div_pos_sign {p b : ℝ} (hb : 0 < b) : (0 < p / b ↔ 0 < p) ∧ (p / b = 0 ↔ p = 0) := by
  constructor
  · constructor
    · intro h
      by_contra hn
      have := div_nonpos_of_nonpos_of_nonneg (not_lt.1 hn) hb.le
      linarith
    · intro h; positivity
  · rw [div_eq_zero_iff]
    constructor
    · rintro (h | h)
      · exact h
      · exact absurd h hb.ne'
    · exact Or.inl

theorem neg_log_div {c : ℝ} (hc : 0 < c) (p : ℝ) :
    -XF.log (fin (p / c)) = -XF.log (fin p) + fin (Real.log c) := by
  unfold XF.log
  simp only [(fin_div_pos_sign hc).1, (fin_div_pos_sign hc).2]
  split_ifs with h1 h2
  · rw [Real.log_div h1.ne' hc.ne', fin_neg, fin_neg, fin_add]
    congr 1; ring
  · rfl
  · rfl

/-- Dividing a density by a larger scale adds the logarithm of the factor to its score. -/
theorem neg_log_scale {c σ : ℝ} (hc : 0 < c) (hσ : 0 < σ) (p : XF) :
    -XF.log (p / fin (c * σ)) = -XF.log (p / fin σ) + fin (Real.log c) := by
  have hcs : 0 < c * σ := mul_pos hc hσ
  cases p with
  | nan => simp
  | ninf => rw [ninf_div_pos hcs, ninf_div_pos hσ]; rfl
  | pinf => rw [pinf_div_pos hcs, pinf_div_pos hσ]; rfl
  | fin p =>
    rw [fin_div hcs.ne', fin_div hσ.ne', ← neg_log_div hc, div_div, mul_comm]

theorem neg_log_scale2 {c σ : ℝ} (hc : 0 < c) (hσ : 0 < σ) (p d : XF) :
    -XF.log (p / fin (c * σ) / d) = -XF.log (p / fin σ / d) + fin (Real.log c) := by
  have hcs : 0 < c * σ := mul_pos hc hσ
  have inf : ∀ X : XF, (X = nan ∨ X = ninf ∨ X = pinf ∨ X = fin 0) →
      -XF.log X = -XF.log X + fin (Real.log c) := by
    rintro X (h | h | h | h) <;> subst h
    · rfl
    · rfl
    · rfl
    · simp [XF.log]; rfl
  cases p with
  | nan => simp
  | ninf =>
    rw [ninf_div_pos hcs, ninf_div_pos hσ]
    apply inf
    cases d with
    | nan => simp
    | ninf => exact Or.inl rfl
    | pinf => exact Or.inl rfl
    | fin d =>
      rw [div_def]
      simp only [XF.div]
      split_ifs <;> simp
  | pinf =>
    rw [pinf_div_pos hcs, pinf_div_pos hσ]
    apply inf
    cases d with
    | nan => simp
    | ninf => exact Or.inl rfl
    | pinf => exact Or.inl rfl
    | fin d =>
      rw [div_def]
      simp only [XF.div]
      split_ifs <;> simp
  | fin p =>
    rw [fin_div hcs.ne', fin_div hσ.ne']
    cases d with
    | nan => simp
    | ninf => exact inf (fin 0) (by simp)
    | pinf => exact inf (fin 0) (by simp)
    | fin d =>
      by_cases hd : d = 0
      · subst hd
        simp only [fin_div_zero, (fin_div_pos_sign hcs).1, (fin_div_pos_sign hcs).2,
          (fin_div_pos_sign hσ).1, (fin_div_pos_sign hσ).2]
        apply inf
        split_ifs <;> simp
      · rw [fin_div hd, fin_div hd, ← neg_log_div hc]
        congr 3
        field_simp

theorem negLog_div {c : ℝ} (hc : 0 < c) (p : ℝ) : negLog (p / c) = negLog p + fin (Real.log c) := by
  unfold negLog
  simp only [(fin_div_pos_sign hc).2]
  split_ifs with h
  · rfl
  · rw [Real.log_div h hc.ne', fin_add]
    congr 1; ring

/-- The CRPS integral under an increasing affine map. -/
theorem affine_crps (a : ℝ) {c : ℝ} (hc : 0 < c) (F : ℝ → ℝ) (y : ℝ) :
    Spec.crps (fun z => F ((z - a) / c)) (a + c * y) = c * Spec.crps F y := by
  rw [Spec.crps_scale F a hc]
  congr 2
  field_simp
  ring

end Verif
