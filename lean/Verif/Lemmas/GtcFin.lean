import Verif.Lemmas.LogsFin
import Verif.Model.Closed2

/-!
# Values of the generalised truncated and censored normal formula
-/

noncomputable section

open scoped Classical

namespace Verif

open XF Stats Spec

theorem normPdf_pinf : normPdf pinf = fin 0 := by
  unfold normPdf XF.pi
  simp only [XF.one_def, XF.ofNat_def, fin_mul]
  rw [fin_sqrt (by positivity), fin_div (by positivity)]
  have : (pinf : XF) ^ 2 = pinf := by rw [pow_two]; rfl
  rw [this]
  have h : (-pinf : XF) / fin 2 = ninf := by
    show ninf / fin 2 = ninf
    exact ninf_div_pos two_pos
  rw [h]
  show fin _ * fin 0 = fin 0
  rw [fin_mul, mul_zero]

theorem normPdf_ninf : normPdf ninf = fin 0 := by
  unfold normPdf XF.pi
  simp only [XF.one_def, XF.ofNat_def, fin_mul]
  rw [fin_sqrt (by positivity), fin_div (by positivity)]
  have : (ninf : XF) ^ 2 = pinf := by rw [pow_two]; rfl
  rw [this]
  have h : (-pinf : XF) / fin 2 = ninf := by
    show ninf / fin 2 = ninf
    exact ninf_div_pos two_pos
  rw [h]
  show fin _ * fin 0 = fin 0
  rw [fin_mul, mul_zero]

theorem max_fin_ninf (a : ℝ) : XF.max (fin a) ninf = fin a := by
  show (if fin a ≤ ninf then ninf else fin a) = fin a
  rw [if_neg (not_fin_le_ninf a)]

theorem min_fin_pinf (a : ℝ) : XF.min (fin a) pinf = fin a := by
  show (if fin a ≤ pinf then fin a else pinf) = fin a
  rw [if_pos (fin_le_pinf a)]

theorem feq_fin_pinf (a : ℝ) : XF.feq (fin a) pinf ↔ False :=
  ⟨fun h => by simp [XF.feq] at h, False.elim⟩
theorem feq_fin_ninf (a : ℝ) : XF.feq (fin a) ninf ↔ False :=
  ⟨fun h => by simp [XF.feq] at h, False.elim⟩
theorem feq_pinf_pinf : XF.feq pinf pinf ↔ True := by simp [XF.feq]
theorem feq_ninf_ninf : XF.feq ninf ninf ↔ True := by simp [XF.feq]

theorem pinf_mul_sqrt2 : (pinf : XF) * XF.sqrt 2 = pinf := by
  rw [sqrt2_fin, pinf_mul_fin]
  unfold XF.infMul
  have : (0:ℝ) < Real.sqrt 2 := Real.sqrt_pos.2 two_pos
  simp [this.ne', this]

theorem ninf_mul_sqrt2 : (ninf : XF) * XF.sqrt 2 = ninf := by
  rw [sqrt2_fin, ninf_mul_fin]
  unfold XF.infMul
  have : (0:ℝ) < Real.sqrt 2 := Real.sqrt_pos.2 two_pos
  simp [this.ne', this]

theorem sqrt2_fin' : XF.sqrt (fin 2) = fin (Real.sqrt 2) := sqrt2_fin
theorem pinf_mul_sqrt2' : (pinf : XF) * XF.sqrt (fin 2) = pinf := pinf_mul_sqrt2
theorem ninf_mul_sqrt2' : (ninf : XF) * XF.sqrt (fin 2) = ninf := ninf_mul_sqrt2
theorem pinf_mul_sqrt2'' : (pinf : XF) * fin (Real.sqrt 2) = pinf := by rw [← sqrt2_fin, pinf_mul_sqrt2]
theorem ninf_mul_sqrt2'' : (ninf : XF) * fin (Real.sqrt 2) = ninf := by rw [← sqrt2_fin, ninf_mul_sqrt2]

theorem sqrt_pi_fin : XF.sqrt XF.pi = fin (Real.sqrt Real.pi) := by
  unfold XF.pi; rw [fin_sqrt Real.pi_pos.le]

/-- Two finite bounds, in standard units. -/
theorem gtcnormal_fin {μ σ l u L U y : ℝ} (hσ : 0 < σ) (hlu : l < u) (hLU : L + U ≠ 1) :
    Closed.gtcnormal (fin y) (fin μ) (fin σ) (fin l) (fin u) (fin L) (fin U)
      = fin (let ω := (y - μ) / σ; let u := (u - μ) / σ; let l := (l - μ) / σ
          let z := min (max ω l) u
          let c := (1 - L - U) / (Φ u - Φ l)
          σ * (|ω - z| + u * U ^ 2 - l * L ^ 2
            + c * z * (2 * Φ z - ((1 - 2 * L) * Φ u + (1 - 2 * U) * Φ l) / (1 - L - U))
            + c * (2 * φ z - 2 * φ u * U - 2 * φ l * L)
            - c ^ 2 * (Φ (u * Real.sqrt 2) - Φ (l * Real.sqrt 2)) / Real.sqrt Real.pi)) := by
  unfold Closed.gtcnormal
  have h1 : (l - μ) / σ < (u - μ) / σ := by
    rw [div_lt_div_iff_of_pos_right hσ]; linarith
  have h2 : Φ ((u - μ) / σ) - Φ ((l - μ) / σ) ≠ 0 := (sub_pos.2 (Φ_strictMono h1)).ne'
  have h3 : 1 - L - U ≠ 0 := fun h => hLU (by linarith)
  have hp : Real.sqrt Real.pi ≠ 0 := (Real.sqrt_pos.2 Real.pi_pos).ne'
  simp only [fin_sub, fin_div hσ.ne', fin_max, fin_min, sqrt_pi_fin, sqrt2_fin', fin_mul, normCdf_fin,
    normPdf_fin, feq_fin_pinf, feq_fin_ninf, false_and, if_false, XF.one_def, XF.ofNat_def, fin_pow, fin_abs,
    fin_add, fin_div h2, fin_div h3, fin_div hp]

/-- Only an upper bound. -/
theorem gtcnormal_up {μ σ u U y : ℝ} (hσ : 0 < σ) (hU : U ≠ 1) :
    Closed.gtcnormal (fin y) (fin μ) (fin σ) ninf (fin u) (fin 0) (fin U)
      = fin (let ω := (y - μ) / σ; let u := (u - μ) / σ
          let z := min ω u
          let c := (1 - U) / Φ u
          σ * (|ω - z| + u * U ^ 2 + c * z * (2 * Φ z - Φ u / (1 - U)) + c * (2 * φ z - 2 * φ u * U)
            - c ^ 2 * Φ (u * Real.sqrt 2) / Real.sqrt Real.pi)) := by
  unfold Closed.gtcnormal
  have h2 : Φ ((u - μ) / σ) ≠ 0 := (Φ_pos _).ne'
  have h3 : 1 - U ≠ 0 := fun h => hU (by linarith)
  have hp : Real.sqrt Real.pi ≠ 0 := (Real.sqrt_pos.2 Real.pi_pos).ne'
  simp only [fin_sub, fin_div hσ.ne', ninf_sub_fin, ninf_div_pos hσ, ninf_mul_sqrt2'', max_fin_ninf, fin_min,
    sqrt_pi_fin, sqrt2_fin', fin_mul, normCdf_ninf, normPdf_ninf, feq_ninf_ninf, normCdf_fin,
    normPdf_fin, feq_fin_pinf, false_and, if_false, XF.one_def, XF.ofNat_def, fin_pow, fin_abs,
    XF.zero_def, fin_feq, true_and, if_true, fin_add, sub_zero, fin_div h2, fin_div h3, fin_div hp]
  simp only [mul_zero, sub_zero, add_zero, one_mul]

/-- Only a lower bound. -/
theorem gtcnormal_lo {μ σ l L y : ℝ} (hσ : 0 < σ) (hL : L ≠ 1) :
    Closed.gtcnormal (fin y) (fin μ) (fin σ) (fin l) pinf (fin L) (fin 0)
      = fin (let ω := (y - μ) / σ; let l := (l - μ) / σ
          let z := max ω l
          let c := (1 - L) / (1 - Φ l)
          σ * (|ω - z| - l * L ^ 2 + c * z * (2 * Φ z - ((1 - 2 * L) + Φ l) / (1 - L))
            + c * (2 * φ z - 2 * φ l * L)
            - c ^ 2 * (1 - Φ (l * Real.sqrt 2)) / Real.sqrt Real.pi)) := by
  unfold Closed.gtcnormal
  have h2 : 1 - Φ ((l - μ) / σ) ≠ 0 := by have := Φ_lt_one ((l - μ) / σ); linarith
  have h3 : 1 - L ≠ 0 := fun h => hL (by linarith)
  have hp : Real.sqrt Real.pi ≠ 0 := (Real.sqrt_pos.2 Real.pi_pos).ne'
  simp only [fin_sub, fin_div hσ.ne', pinf_sub_fin, pinf_div_pos hσ, pinf_mul_sqrt2'', min_fin_pinf, fin_max,
    sqrt_pi_fin, sqrt2_fin', fin_mul, normCdf_pinf, normPdf_pinf, feq_pinf_pinf, normCdf_fin,
    normPdf_fin, feq_fin_ninf, false_and, if_false, XF.one_def, XF.ofNat_def, fin_pow, fin_abs,
    XF.zero_def, fin_feq, true_and, if_true, fin_add, sub_zero, fin_div h2, fin_div h3, fin_div hp]
  simp only [mul_zero, sub_zero, add_zero, one_mul, mul_one]

/-- No bound. -/
theorem gtcnormal_none {μ σ y : ℝ} (hσ : 0 < σ) :
    Closed.gtcnormal (fin y) (fin μ) (fin σ) ninf pinf (fin 0) (fin 0)
      = fin (let ω := (y - μ) / σ
          σ * (ω * (2 * Φ ω - 1) + 2 * φ ω - 1 / Real.sqrt Real.pi)) := by
  unfold Closed.gtcnormal
  have hp : Real.sqrt Real.pi ≠ 0 := (Real.sqrt_pos.2 Real.pi_pos).ne'
  simp only [fin_sub, fin_div hσ.ne', pinf_sub_fin, pinf_div_pos hσ, pinf_mul_sqrt2'', min_fin_pinf,
    ninf_sub_fin, ninf_div_pos hσ, ninf_mul_sqrt2'', max_fin_ninf, normCdf_ninf, normPdf_ninf, feq_ninf_ninf,
    sqrt_pi_fin, sqrt2_fin', fin_mul, normCdf_pinf, normPdf_pinf, feq_pinf_pinf, normCdf_fin,
    normPdf_fin, false_and, if_false, XF.one_def, XF.ofNat_def, fin_pow, fin_abs,
    XF.zero_def, fin_feq, true_and, if_true, fin_add, sub_zero, fin_div one_ne_zero, fin_div hp]
  norm_num

end Verif
