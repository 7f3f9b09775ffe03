import Verif.Lemmas.RoundClosed
import Mathlib.Analysis.SpecialFunctions.Log.Deriv

/-!
# Rounding errors of logarithms of densities

A density is followed through the operations by its logarithm.
-/

noncomputable section

open scoped Classical

namespace Verif

open XF Spec

/-- the value `x` is a positive number whose logarithm is within `e` of `q` -/
def LNear (x : XF) (q e : ℝ) : Prop := ∃ b : ℝ, 0 < b ∧ x = fin b ∧ |Real.log b - q| ≤ e

theorem LNear.fin {a : ℝ} (h : 0 < a) : LNear (fin a) (Real.log a) 0 := ⟨a, h, rfl, by simp⟩

theorem LNear.mono {x : XF} {q e e' : ℝ} (h : LNear x q e) (he : e ≤ e') : LNear x q e' := by
  obtain ⟨b, h0, h1, h2⟩ := h
  exact ⟨b, h0, h1, h2.trans he⟩

theorem LNear.congr {x : XF} {q q' e : ℝ} (h : LNear x q e) (ha : q = q') : LNear x q' e := ha ▸ h

theorem LNear.nonneg {x : XF} {q e : ℝ} (h : LNear x q e) : 0 ≤ e := by
  obtain ⟨b, -, -, h2⟩ := h
  exact (abs_nonneg _).trans h2

theorem LNear.mul {x y : XF} {q p e f : ℝ} (h : LNear x q e) (h' : LNear y p f) : LNear (x * y) (q + p) (e + f) := by
  obtain ⟨b, b0, rfl, hb⟩ := h
  obtain ⟨c, c0, rfl, hc⟩ := h'
  refine ⟨b * c, mul_pos b0 c0, fin_mul _ _, ?_⟩
  rw [Real.log_mul b0.ne' c0.ne', show Real.log b + Real.log c - (q + p) = (Real.log b - q) + (Real.log c - p) by ring]
  exact (abs_add_le _ _).trans (add_le_add hb hc)

theorem LNear.div {x y : XF} {q p e f : ℝ} (h : LNear x q e) (h' : LNear y p f) : LNear (x / y) (q - p) (e + f) := by
  obtain ⟨b, b0, rfl, hb⟩ := h
  obtain ⟨c, c0, rfl, hc⟩ := h'
  refine ⟨b / c, div_pos b0 c0, fin_div c0.ne' _, ?_⟩
  rw [Real.log_div b0.ne' c0.ne', show Real.log b - Real.log c - (q - p) = (Real.log b - q) - (Real.log c - p) by ring]
  exact (abs_sub _ _).trans (add_le_add hb hc)

theorem LNear.sq {x : XF} {q e : ℝ} (h : LNear x q e) : LNear (x ^ 2) (2 * q) (2 * e) := by
  obtain ⟨b, b0, rfl, hb⟩ := h
  refine ⟨b ^ 2, by positivity, fin_pow _ _, ?_⟩
  rw [Real.log_pow, show ((2 : ℕ) : ℝ) * Real.log b - 2 * q = 2 * (Real.log b - q) by push_cast; ring, abs_mul,
    abs_of_pos (two_pos : (0:ℝ) < 2)]
  exact mul_le_mul_of_nonneg_left hb two_pos.le

theorem LNear.exp {x : XF} {a e : ℝ} (h : Near x a e) : LNear (XF.exp x) a e := by
  obtain ⟨b, rfl, hb⟩ := h
  exact ⟨Real.exp b, Real.exp_pos b, rfl, by rwa [Real.log_exp]⟩

theorem LNear.log {x : XF} {q e : ℝ} (h : LNear x q e) : Near (XF.log x) q e := by
  obtain ⟨b, b0, rfl, hb⟩ := h
  exact ⟨Real.log b, fin_log b0, hb⟩

theorem LNear.of_rel {x : XF} {a : ℝ} {k : ℕ} (h : Rel x a k) (ha : 0 < a) (hk : k ≤ 1000) :
    LNear x (Real.log a) (2 * k / 2 ^ 53) := by
  obtain ⟨b, rfl, hb⟩ := h
  obtain ⟨h1, h2⟩ := tail_log_rel ha hk hb
  exact ⟨b, h1, rfl, h2⟩

theorem log_one_add_exp_lip {p q : ℝ} (h : p ≤ q) :
    Real.log (1 + Real.exp p) ≤ Real.log (1 + Real.exp q) ∧
    Real.log (1 + Real.exp q) ≤ Real.log (1 + Real.exp p) + (q - p) := by
  have hp := Real.exp_pos p
  have hq := Real.exp_pos q
  have hpq := Real.exp_le_exp.2 h
  refine ⟨Real.log_le_log (by linarith) (by linarith), ?_⟩
  rw [← Real.log_exp (q - p), ← Real.log_mul (by linarith) (Real.exp_pos _).ne']
  refine Real.log_le_log (by linarith) ?_
  have h1 : Real.exp p * Real.exp (q - p) = Real.exp q := by rw [← Real.exp_add]; congr 1; ring
  have h2 : 1 ≤ Real.exp (q - p) := Real.one_le_exp (by linarith)
  nlinarith

theorem LNear.one_add {x : XF} {q e : ℝ} (h : LNear x q e) :
    LNear (XF.fin 1 + x) (Real.log (1 + Real.exp q)) e := by
  obtain ⟨b, b0, rfl, hb⟩ := h
  refine ⟨1 + b, by linarith, fin_add _ _, ?_⟩
  obtain ⟨t, rfl⟩ : ∃ t, b = Real.exp t := ⟨Real.log b, (Real.exp_log b0).symm⟩
  rw [Real.log_exp] at hb
  rw [abs_le] at hb ⊢
  rcases le_total t q with hl | hl
  · have := log_one_add_exp_lip hl
    constructor <;> linarith
  · have := log_one_add_exp_lip hl
    constructor <;> linarith

theorem exp_mid {t : ℝ} (h : |t| ≤ 691) : Mid (Real.exp t) := by
  rw [abs_le] at h
  have h2 := Real.log_two_gt_d9
  have e : (2:ℝ) ^ 1000 = Real.exp (1000 * Real.log 2) := by
    rw [show (1000 : ℝ) * Real.log 2 = ((1000 : ℕ) : ℝ) * Real.log 2 by norm_num, Real.exp_nat_mul,
      Real.exp_log two_pos]
  refine ⟨?_, ?_⟩
  · rw [e, one_div, ← Real.exp_neg]
    exact Real.exp_le_exp.2 (by linarith)
  · rw [e]
    exact Real.exp_le_exp.2 (by linarith)

variable {r : ℝ → XF} (hr : Binary64 r)
include hr

/-- Rounding moves the logarithm by at most `2 ^ -50`, if neither overflow nor underflow is near. -/
theorem LNear.rd {x : XF} {q e : ℝ} (h : LNear x q e) (hq : |q| ≤ 690) (he : e ≤ 1) :
    LNear (Rnd.rd r x) q (e + 2 * (1 / 2 ^ 51)) := by
  obtain ⟨b, b0, rfl, hb⟩ := h
  have hm : Mid |b| := by
    rw [abs_of_pos b0, ← Real.exp_log b0]
    apply exp_mid
    have := abs_sub_abs_le_abs_sub (Real.log b) q
    linarith
  obtain ⟨c, c0, hc, h2⟩ := LNear.of_rel (rd_rel hr hm) b0 (by norm_num)
  refine ⟨c, c0, hc, ?_⟩
  have e1 : (2 * ((4 : ℕ) : ℝ) / 2 ^ 53) = 2 * (1 / 2 ^ 51) := by norm_num
  rw [e1] at h2
  have := abs_sub_le (Real.log c) (Real.log b) q
  linarith

theorem LNear.rdS {x : XF} {q S K : ℝ} (h : LNear x q (K * S * (1 / 2 ^ 51))) (hS : 1 ≤ S) (hS' : S ≤ 690)
    (hq : |q| ≤ S) (hK : K ≤ 2 ^ 20) : LNear (Rnd.rd r x) q ((K + 2) * S * (1 / 2 ^ 51)) := by
  have hKS : K * S * (1 / 2 ^ 51) ≤ 1 := by
    have : K * S ≤ 2 ^ 20 * 690 := mul_le_mul hK hS' (by linarith) (by positivity)
    rw [mul_one_div, div_le_one (by positivity)]
    exact this.trans (by norm_num)
  refine (LNear.rd hr h (hq.trans hS') hKS).mono ?_
  have : (0:ℝ) < 1 / 2 ^ 51 := by positivity
  nlinarith

omit hr in
theorem mid_S {S : ℝ} (hS : 1 ≤ S) (hS' : S ≤ 690) : Mid S := by
  refine ⟨le_trans ?_ hS, hS'.trans ?_⟩
  · rw [div_le_one (by positivity)]; exact one_le_pow₀ (by norm_num)
  · exact le_trans (by norm_num : (690:ℝ) ≤ 2 ^ 10) (pow_le_pow_right₀ (by norm_num) (by norm_num))

omit hr in
theorem LNear.sqrt {x : XF} {q e : ℝ} (h : LNear x q e) : LNear (XF.sqrt x) (q / 2) (e / 2) := by
  obtain ⟨b, b0, rfl, hb⟩ := h
  refine ⟨Real.sqrt b, Real.sqrt_pos.2 b0, fin_sqrt b0.le, ?_⟩
  rw [Real.log_sqrt b0.le, ← sub_div, abs_div, abs_of_pos (two_pos : (0:ℝ) < 2)]
  exact div_le_div_of_nonneg_right hb two_pos.le

/-- The standardised observation, in units of a bound `S` of the score. -/
theorem std_nearS {y μ σ S : ℝ} (h : Moderate y μ σ) (hS : |(y - μ) / σ| + 1 ≤ S) :
    ∃ W : ℝ, Rnd.std r (fin y) (fin μ) (fin σ) = fin W ∧ |W - (y - μ) / σ| ≤ 2 * S * (1 / 2 ^ 51) := by
  obtain ⟨W, h1, h2⟩ := std_near hr h
  refine ⟨W, h1, h2.trans ?_⟩
  exact mul_le_mul_of_nonneg_right (by linarith) (by positivity)

/-- The final steps of every log score: divide by the scale, take the logarithm. -/
theorem logs_final {σ q S K : ℝ} {x : XF} (hσ : 0 < σ) (hx : LNear x q (K * S * (1 / 2 ^ 51))) (hS : 1 ≤ S)
    (hS' : S ≤ 690) (hq : |q| + |Real.log σ| ≤ S) (hK : K ≤ 2 ^ 20) :
    Near (Rnd.rd r (XF.log (Rnd.rd r (x / fin σ)))) (q - Real.log σ) ((K + 3) * S * (1 / 2 ^ 51)) := by
  have h1 := hx.div (LNear.fin hσ)
  have hq2 : |q - Real.log σ| ≤ S := (abs_sub _ _).trans hq
  have hKS : K * S * (1 / 2 ^ 51) ≤ 1 := by
    have : K * S ≤ 2 ^ 20 * 690 := mul_le_mul hK hS' (by linarith) (by positivity)
    rw [mul_one_div, div_le_one (by positivity)]
    exact this.trans (by norm_num)
  have h2 := LNear.rd hr h1 (hq2.trans hS') (by linarith)
  have hm := mid_S hS hS'
  have h3 := Near.rd hr h2.log hm hq2 (by
    have : (2:ℝ) * (1 / 2 ^ 51) ≤ 1 / 2 := by norm_num
    have : K * S * (1 / 2 ^ 51) ≤ 1 / 2 := by
      have : K * S ≤ 2 ^ 20 * 690 := mul_le_mul hK hS' (by linarith) (by positivity)
      rw [mul_one_div, div_le_iff₀ (by positivity)]
      exact this.trans (by norm_num)
    linarith)
  refine h3.mono ?_
  have : (0:ℝ) < 1 / 2 ^ 51 := by positivity
  nlinarith

end Verif
