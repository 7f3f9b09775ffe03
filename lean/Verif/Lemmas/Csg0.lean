import Verif.Lemmas.GammaCrps
import Verif.Lemmas.DensCens
import Mathlib.Analysis.Calculus.Deriv.MeanValue

/-!
# CRPS of the censored, shifted gamma distribution
-/

noncomputable section

open scoped Classical Topology
open MeasureTheory Filter Set

namespace Verif

open Spec XF

theorem gF_sq_Iic {a : ℝ} (ha : 0 < a) (l : ℝ) :
    ∫ x in Iic l, gF a x ^ 2 = l * gF a l ^ 2 - 2 * (a * (gF (a + 1) l ^ 2 / 2
        + Real.Gamma (2 * a + 1) / ((2:ℝ) ^ (2 * a + 1) * Real.Gamma (a + 1) ^ 2) * gF (2 * a + 1) (2 * l))) := by
  have hG := Real.Gamma_pos_of_pos ha
  have h := (dens_sq_Iic (f := fun x => gK a x / Real.Gamma a) (countable_singleton 0)
    (fun x => div_nonneg (gK_nonneg a x) hG.le) ((gK_integrable ha).div_const _)
    (by rw [integral_div, gK_integral ha, div_self hG.ne']) (gF_mean ha).1
    (fun x hx => (gK_cont a x hx).div_const _) l).2
  rw [gF_prim] at h
  rw [h, gF_cross ha]

/-- The square of the recurrence term, at twice the argument. -/
theorem gF_sub_sq {a : ℝ} (ha : 0 < a) (l : ℝ) :
    (gF a l - gF (a + 1) l) ^ 2
      = 2 * (Real.Gamma (2 * a + 1) / ((2:ℝ) ^ (2 * a + 1) * Real.Gamma (a + 1) ^ 2))
        * (gF (2 * a) (2 * l) - gF (2 * a + 1) (2 * l)) := by
  have ha2 : 0 < 2 * a := by linarith
  rw [gF_sub ha, gF_sub ha2]
  have hG := Real.Gamma_pos_of_pos (show 0 < a + 1 by linarith)
  have hG2 := Real.Gamma_pos_of_pos (show 0 < 2 * a + 1 by linarith)
  have h2 : (0:ℝ) < 2 ^ (2 * a) := Real.rpow_pos_of_pos two_pos _
  have e : gT (2 * a) (2 * l) = 2 ^ (2 * a) * gT a l ^ 2 := by
    unfold gT
    by_cases h : 0 < l
    · rw [if_pos h, if_pos (by linarith), Real.mul_rpow two_pos.le h.le, two_mul l, neg_add, Real.exp_add,
        two_mul a, Real.rpow_add h]
      ring
    · rw [if_neg h, if_neg (by linarith)]; ring
  rw [e, Real.rpow_add_one two_ne_zero]
  field_simp

theorem betaF_half {a : ℝ} (ha : 0 < a) :
    a / Real.pi * betaF (1 / 2) (a + 1 / 2)
      = 2 * (a * (Real.Gamma (2 * a + 1) / ((2:ℝ) ^ (2 * a + 1) * Real.Gamma (a + 1) ^ 2))) := by
  have h := Real.Gamma_mul_Gamma_add_half (a + 1 / 2)
  have hG := Real.Gamma_pos_of_pos (show 0 < a + 1 by linarith)
  have hG2 := Real.Gamma_pos_of_pos (show 0 < 2 * a + 1 by linarith)
  have hG3 := Real.Gamma_pos_of_pos (show 0 < a + 1 / 2 by linarith)
  have hp : (0:ℝ) < Real.sqrt Real.pi := Real.sqrt_pos.2 Real.pi_pos
  rw [show a + 1 / 2 + 1 / 2 = a + 1 by ring, show 2 * (a + 1 / 2) = 2 * a + 1 by ring,
    show 1 - (2 * a + 1) = -(2 * a) by ring, Real.rpow_neg two_pos.le] at h
  unfold betaF
  rw [Real.Gamma_one_half_eq, Real.rpow_add_one two_ne_zero,
    show (1:ℝ) / 2 + (a + 1 / 2) = a + 1 by ring]
  have h2 : (0:ℝ) < 2 ^ (2 * a) := Real.rpow_pos_of_pos two_pos _
  have hs : Real.pi = Real.sqrt Real.pi * Real.sqrt Real.pi := (Real.mul_self_sqrt Real.pi_pos.le).symm
  have h' : Real.Gamma (a + 1 / 2) = Real.Gamma (2 * a + 1) * (2 ^ (2 * a))⁻¹ * Real.sqrt Real.pi / Real.Gamma (a + 1) := by
    field_simp at h ⊢; linarith
  rw [h']
  have hs' : Real.sqrt Real.pi ^ 2 = Real.pi := Real.sq_sqrt Real.pi_pos.le
  have := Real.pi_pos
  field_simp
  rw [hs']

/-- The value computed by the code, rate one. -/
def csgCode (a l y : ℝ) : ℝ :=
  y * (2 * gF a y - 1) - a / Real.pi * betaF (1 / 2) (a + 1 / 2) * (1 - gF (2 * a) (2 * l))
    + a * (1 + 2 * gF a l * gF (a + 1) l - gF a l ^ 2 - 2 * gF (a + 1) y) - l * gF a l ^ 2

/-- The value of the code is the CRPS of the uncensored distribution minus the censored part. -/
theorem csgCode_eq {a : ℝ} (ha : 0 < a) (l y : ℝ) :
    csgCode a l y = Spec.crps (gF a) y - ∫ x in Iic l, gF a x ^ 2 := by
  rw [(crps_gF ha y).2.2, gF_sq_Iic ha]
  have e : 1 / betaF (1 / 2) a = 2 * (1 / (2 * betaF (1 / 2) a)) := by
    have := (betaF_pos (show (0:ℝ) < 1 / 2 by norm_num) ha).ne'
    field_simp
  rw [e, ← gamma_dup ha, csgCode, betaF_half ha]
  have := gF_sub_sq ha l
  linear_combination -a * this

theorem cdfCsg0_eq {α β : ℝ} (hβ : 0 < β) (δ : ℝ) :
    cdfCsg0 α β δ = fun y => cdfCensLo (gF α) (β * δ) ((y - -δ) / β⁻¹) := by
  funext y
  unfold cdfCsg0 cdfCensLo
  have e : (y - -δ) / β⁻¹ = β * (y + δ) := by rw [sub_neg_eq_add, div_inv_eq_mul, mul_comm]
  rw [e, cdfGamma_eq hβ]
  have : β * (y + δ) < β * δ ↔ y < 0 := by rw [mul_lt_mul_iff_right₀ hβ]; constructor <;> intro h <;> linarith
  simp only [this]

theorem gF_pos {a x : ℝ} (ha : 0 < a) (hx : 0 < x) : 0 < gF a x := by
  have h := gF_sub ha x
  have h2 := gF_nonneg (show 0 < a + 1 by linarith) x
  have h3 : 0 < gT a x / Real.Gamma (a + 1) := by
    refine div_pos ?_ (Real.Gamma_pos_of_pos (by linarith))
    unfold gT; rw [if_pos hx]; positivity
  linarith

/-- The expected shortfall below `x` grows strictly. -/
theorem gH_strict {a x y : ℝ} (ha : 0 < a) (hxy : x < y) (hy : 0 < y) :
    x * gF a x - a * gF (a + 1) x < y * gF a y - a * gF (a + 1) y := by
  have ha1 : 0 < a + 1 := by linarith
  have hG := Real.Gamma_pos_of_pos ha
  have hm : StrictMonoOn (fun x => x * gF a x - a * gF (a + 1) x) (Ici 0) := by
    have hd : ∀ x, 0 < x → HasDerivAt (fun x => x * gF a x - a * gF (a + 1) x) (gF a x) x := by
      intro x hx
      have h1 := (prim_deriv (gK_integrable ha) (gK_cont a x hx.ne')).div_const (Real.Gamma a)
      have h2 := (prim_deriv (gK_integrable ha1) (gK_cont (a + 1) x hx.ne')).div_const (Real.Gamma (a + 1))
      refine (((hasDerivAt_id x).mul h1).sub (h2.const_mul a)).congr_deriv ?_
      rw [← gK_succ, Real.Gamma_add_one ha.ne']
      simp only [id]
      unfold gF
      field_simp
      ring
    refine strictMonoOn_of_deriv_pos (convex_Ici 0) ?_ fun x hx => ?_
    · unfold gF
      exact ((continuous_id.mul ((prim_cont (gK_integrable ha)).div_const _)).sub
        (continuous_const.mul ((prim_cont (gK_integrable ha1)).div_const _))).continuousOn
    · rw [interior_Ici] at hx
      rw [(hd x hx).deriv]
      exact gF_pos ha hx
  rcases le_total x 0 with h | h
  · have := hm (mem_Ici.2 le_rfl) (mem_Ici.2 hy.le) hy
    rw [gF_neg h, gF_neg h]
    simp only [gF_neg (le_refl (0:ℝ))] at this
    simpa using this
  · exact hm h hy.le hxy

/-- CRPS of the censored gamma distribution. -/
theorem crps_csg {a : ℝ} (ha : 0 < a) (l : ℝ) :
    (∀ y, HasCrps (cdfCensLo (gF a) l) y) ∧
    (∀ y, l ≤ y → Spec.crps (cdfCensLo (gF a) l) y = csgCode a l y) ∧
    (l ≤ 0 → ∀ y, Spec.crps (cdfCensLo (gF a) l) y = csgCode a l y) ∧
    (0 < l → ∀ y, y < l → csgCode a l y < Spec.crps (cdfCensLo (gF a) l) y) := by
  have h1 : ∀ y, l ≤ y → HasCrps (cdfCensLo (gF a) l) y ∧
      Spec.crps (cdfCensLo (gF a) l) y = csgCode a l y := by
    intro y hy
    rw [csgCode_eq ha]
    exact crps_censLo_ge (crps_gF ha y).1 hy
  have h2 : ∀ y, y ≤ l → HasCrps (cdfCensLo (gF a) l) y ∧
      Spec.crps (cdfCensLo (gF a) l) y = (l - y) + csgCode a l l := by
    intro y hy
    rw [← (h1 l le_rfl).2]
    exact crps_censLo_lt (h1 l le_rfl).1 hy
  refine ⟨fun y => ?_, fun y hy => (h1 y hy).2, fun hl y => ?_, fun hl y hy => ?_⟩
  · rcases le_total l y with h | h
    · exact (h1 y h).1
    · exact (h2 y h).1
  · rcases le_total l y with h | h
    · exact (h1 y h).2
    · rw [(h2 y h).2]
      unfold csgCode
      simp only [gF_neg hl, gF_neg (h.trans hl)]
      ring
  · rw [(h2 y hy.le).2]
    have := gH_strict ha hy hl
    unfold csgCode
    linarith

theorem crps_csg0 {α β : ℝ} (hα : 0 < α) (hβ : 0 < β) (δ : ℝ) :
    (∀ y, HasCrps (cdfCsg0 α β δ) y) ∧
    (∀ y, 0 ≤ y ∨ δ ≤ 0 → Spec.crps (cdfCsg0 α β δ) y = β⁻¹ * csgCode α (β * δ) (β * (y + δ))) ∧
    (0 < δ → ∀ y, y < 0 → β⁻¹ * csgCode α (β * δ) (β * (y + δ)) < Spec.crps (cdfCsg0 α β δ) y) := by
  rw [cdfCsg0_eq hβ]
  have hβ' := inv_pos.2 hβ
  obtain ⟨h1, h2, h3, h4⟩ := crps_csg hα (β * δ)
  have e : ∀ y, (y - -δ) / β⁻¹ = β * (y + δ) := fun y => by rw [sub_neg_eq_add, div_inv_eq_mul, mul_comm]
  refine ⟨fun y => (h1 _).scale hβ', fun y hy => ?_, fun hδ y hy => ?_⟩
  · rw [crps_scale _ _ hβ', e]
    congr 1
    rcases hy with hy | hy
    · exact h2 _ (by nlinarith)
    · exact h3 (by nlinarith) _
  · rw [crps_scale _ _ hβ', e]
    exact mul_lt_mul_of_pos_left (h4 (by positivity) _ (by nlinarith)) hβ'

theorem csg0_fin {α β : ℝ} (hα : 0 < α) (hβ : 0 < β) (δ y : ℝ) :
    Closed.csg0 (fin y) (fin α) (fin β) (fin δ) = fin (β⁻¹ * csgCode α (β * δ) (β * (y + δ))) := by
  unfold Closed.csg0
  have e1 : (2 : XF) * fin δ = fin (2 * δ) := by rw [XF.ofNat_def, fin_mul]
  have e2 : (2 : XF) * fin α = fin (2 * α) := by rw [XF.ofNat_def, fin_mul]
  have e3 : fin α + 1 = fin (α + 1) := by rw [XF.one_def, fin_add]
  have hbp : β * Real.pi ≠ 0 := mul_ne_zero hβ.ne' Real.pi_pos.ne'
  simp only [fin_add, e1, e2, e3, gammaCdf_fin hα hβ, gammaCdf_fin (show 0 < 2 * α by linarith) hβ,
    gammaCdf_fin (show 0 < α + 1 by linarith) hβ,
    beta_fin (show (0:ℝ) < 1 / 2 by norm_num) (show 0 < α + 1 / 2 by linarith), XF.pi, fin_mul,
    fin_div hβ.ne', fin_div hbp, XF.ofNat_def, XF.one_def, fin_sub, fin_pow, fin_inj]
  unfold csgCode
  rw [show β * (2 * δ) = 2 * (β * δ) by ring]
  field_simp

end Verif
