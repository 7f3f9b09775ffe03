import Verif.Lemmas.Prim
import Mathlib.Probability.Distributions.Beta

/-!
# The beta kernel and its integral
-/

noncomputable section

open scoped Classical Topology
open MeasureTheory Filter Set

namespace Verif

/-- `t ^ (a - 1) (1 - t) ^ (b - 1)` on `(0, 1)`. -/
def bK (a b x : ℝ) : ℝ := if 0 < x ∧ x < 1 then x ^ (a - 1) * (1 - x) ^ (b - 1) else 0

/-- The beta function. -/
def betaF (a b : ℝ) : ℝ := Real.Gamma a * Real.Gamma b / Real.Gamma (a + b)

theorem betaF_pos {a b : ℝ} (ha : 0 < a) (hb : 0 < b) : 0 < betaF a b := ProbabilityTheory.beta_pos ha hb

theorem betaF_symm (a b : ℝ) : betaF a b = betaF b a := by
  unfold betaF; rw [mul_comm, add_comm]

theorem betaF_succ {a b : ℝ} (ha : 0 < a) (hb : 0 < b) : betaF (a + 1) b = a / (a + b) * betaF a b := by
  unfold betaF
  rw [show a + 1 + b = a + b + 1 by ring, Real.Gamma_add_one ha.ne', Real.Gamma_add_one (by positivity)]
  have := (Real.Gamma_pos_of_pos (add_pos ha hb)).ne'
  field_simp

theorem bK_nonneg (a b x : ℝ) : 0 ≤ bK a b x := by
  unfold bK
  split_ifs with h
  · exact mul_nonneg (Real.rpow_nonneg h.1.le _) (Real.rpow_nonneg (by linarith [h.2]) _)
  · exact le_rfl

theorem bK_eq {a b : ℝ} (ha : 0 < a) (hb : 0 < b) (x : ℝ) :
    bK a b x = betaF a b * ProbabilityTheory.betaPDFReal a b x := by
  unfold bK ProbabilityTheory.betaPDFReal
  have : ProbabilityTheory.beta a b ≠ 0 := (ProbabilityTheory.beta_pos ha hb).ne'
  change _ = ProbabilityTheory.beta a b * _
  split_ifs
  · field_simp
  · simp

theorem betaPDF_nonneg {a b : ℝ} (ha : 0 < a) (hb : 0 < b) (x : ℝ) :
    0 ≤ ProbabilityTheory.betaPDFReal a b x := by
  by_cases h : 0 < x ∧ x < 1
  · exact (ProbabilityTheory.betaPDFReal_pos h.1 h.2 ha hb).le
  · unfold ProbabilityTheory.betaPDFReal; rw [if_neg h]

theorem bK_integrable {a b : ℝ} (ha : 0 < a) (hb : 0 < b) : Integrable (bK a b) := by
  have : Integrable (ProbabilityTheory.betaPDFReal a b) := by
    refine ⟨(ProbabilityTheory.measurable_betaPDFReal a b).aestronglyMeasurable, ?_⟩
    rw [hasFiniteIntegral_iff_ofReal (ae_of_all _ (betaPDF_nonneg ha hb))]
    have := ProbabilityTheory.lintegral_betaPDF_eq_one ha hb
    unfold ProbabilityTheory.betaPDF at this
    rw [this]
    exact ENNReal.one_lt_top
  rw [show bK a b = fun x => betaF a b * ProbabilityTheory.betaPDFReal a b x from funext (bK_eq ha hb)]
  exact this.const_mul _

theorem bK_integral {a b : ℝ} (ha : 0 < a) (hb : 0 < b) : ∫ x, bK a b x = betaF a b := by
  simp only [bK_eq ha hb]
  rw [integral_const_mul, integral_eq_lintegral_of_nonneg_ae (ae_of_all _ (betaPDF_nonneg ha hb))
    (ProbabilityTheory.measurable_betaPDFReal a b).aestronglyMeasurable]
  have := ProbabilityTheory.lintegral_betaPDF_eq_one ha hb
  unfold ProbabilityTheory.betaPDF at this
  rw [this]
  simp

theorem bK_cont {a b x : ℝ} (h0 : x ≠ 0) (h1 : x ≠ 1) : ContinuousAt (bK a b) x := by
  rcases lt_or_gt_of_ne h0 with h | h
  · refine (continuousAt_const (y := (0:ℝ))).congr ?_
    filter_upwards [gt_mem_nhds h] with z hz
    unfold bK; rw [if_neg]; rintro ⟨h, -⟩; linarith
  rcases lt_or_gt_of_ne h1 with h' | h'
  · have : ContinuousAt (fun x : ℝ => x ^ (a - 1) * (1 - x) ^ (b - 1)) x := by
      refine (Real.continuousAt_rpow_const _ _ (Or.inl h0)).mul ?_
      refine ContinuousAt.rpow_const (by fun_prop) (Or.inl (by linarith))
    refine this.congr ?_
    filter_upwards [lt_mem_nhds h, gt_mem_nhds h'] with z hz hz'
    unfold bK; rw [if_pos ⟨hz, hz'⟩]
  · refine (continuousAt_const (y := (0:ℝ))).congr ?_
    filter_upwards [lt_mem_nhds h'] with z hz
    unfold bK; rw [if_neg]; rintro ⟨-, h⟩; linarith

theorem bK_of_mem {a b x : ℝ} (h0 : 0 < x) (h1 : x < 1) : bK a b x = x ^ (a - 1) * (1 - x) ^ (b - 1) :=
  if_pos ⟨h0, h1⟩

theorem prim_bK_neg {a b x : ℝ} (hx : x ≤ 0) : prim (bK a b) x = 0 := by
  unfold prim
  rw [setIntegral_congr_fun (g := fun _ => 0) measurableSet_Iic]
  · simp
  · intro t ht
    unfold bK; dsimp only; rw [if_neg]; rintro ⟨h, -⟩
    have : t ≤ x := ht
    linarith

theorem prim_bK {a b x : ℝ} (ha : 0 < a) (hb : 0 < b) (h0 : 0 ≤ x) (h1 : x ≤ 1) :
    prim (bK a b) x = ∫ t in (0:ℝ)..x, t ^ (a - 1) * (1 - t) ^ (b - 1) := by
  rw [prim_eq (bK_integrable ha hb), prim_bK_neg le_rfl, zero_add,
    intervalIntegral.integral_of_le h0, intervalIntegral.integral_of_le h0,
    integral_Ioc_eq_integral_Ioo, integral_Ioc_eq_integral_Ioo]
  refine setIntegral_congr_fun measurableSet_Ioo fun t ht => ?_
  exact bK_of_mem ht.1 (lt_of_lt_of_le ht.2 h1)

theorem prim_bK_one {a b x : ℝ} (ha : 0 < a) (hb : 0 < b) (hx : 1 ≤ x) : prim (bK a b) x = betaF a b := by
  have h := intervalIntegral.integral_Iic_add_Ioi (b := x) (bK_integrable ha hb).integrableOn
    (bK_integrable ha hb).integrableOn
  rw [bK_integral ha hb] at h
  have h0 : ∫ t in Ioi x, bK a b t = 0 := by
    rw [setIntegral_congr_fun (g := fun _ => 0) measurableSet_Ioi]
    · simp
    · intro t ht
      unfold bK; dsimp only; rw [if_neg]; rintro ⟨-, h⟩
      have : x < t := ht
      linarith
  unfold prim
  linarith

theorem prim_bK_nonneg (a b x : ℝ) : 0 ≤ prim (bK a b) x := integral_nonneg fun t => bK_nonneg a b t

theorem prim_bK_le {a b : ℝ} (ha : 0 < a) (hb : 0 < b) (x : ℝ) : prim (bK a b) x ≤ betaF a b := by
  rw [← bK_integral ha hb]
  exact setIntegral_le_integral (bK_integrable ha hb) (ae_of_all _ (bK_nonneg a b))

theorem betaIntegral_eq {a b : ℝ} (ha : 0 < a) (hb : 0 < b) :
    ∫ t in (0:ℝ)..1, t ^ (a - 1) * (1 - t) ^ (b - 1) = betaF a b := by
  rw [← prim_bK ha hb zero_le_one le_rfl, prim_bK_one ha hb le_rfl]

end Verif
