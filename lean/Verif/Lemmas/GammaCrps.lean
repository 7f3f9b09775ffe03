import Verif.Lemmas.GammaInt
import Verif.Lemmas.Antideriv
import Verif.Lemmas.ClosedScale
import Verif.Lemmas.BetaInt
import Verif.Spec.Special
import Verif.Model.Closed2

/-!
# CRPS of the gamma distribution
-/

noncomputable section

open scoped Classical Topology
open MeasureTheory Filter Set

namespace Verif

open Spec XF

/-- Distribution function of the gamma distribution with rate one. -/
def gF (a x : ℝ) : ℝ := prim (gK a) x / Real.Gamma a

theorem gF_neg {a x : ℝ} (hx : x ≤ 0) : gF a x = 0 := by rw [gF, prim_gK_neg hx, zero_div]

theorem gF_nonneg {a : ℝ} (ha : 0 < a) (x : ℝ) : 0 ≤ gF a x :=
  div_nonneg (prim_nonneg (gK_nonneg a) x) (Real.Gamma_pos_of_pos ha).le

theorem gF_le {a : ℝ} (ha : 0 < a) (x : ℝ) : gF a x ≤ 1 := by
  rw [gF, div_le_one (Real.Gamma_pos_of_pos ha), ← gK_integral ha]
  exact prim_le (gK_integrable ha) (gK_nonneg a) x

theorem gF_prim (a : ℝ) : prim (fun x => gK a x / Real.Gamma a) = gF a := by
  funext x
  unfold gF prim
  rw [integral_div]

theorem gF_sub {a : ℝ} (ha : 0 < a) (x : ℝ) : gF a x - gF (a + 1) x = gT a x / Real.Gamma (a + 1) := by
  have := (Real.Gamma_pos_of_pos ha).ne'
  unfold gF
  rw [prim_gK_succ ha, Real.Gamma_add_one ha.ne']
  field_simp
  ring

theorem densGamma_eq {α β : ℝ} (hβ : 0 < β) (x : ℝ) :
    densGamma α β x = β * (gK α (β * x) / Real.Gamma α) := by
  unfold densGamma
  split_ifs with h
  · rw [gK_neg _ (by nlinarith), zero_div, mul_zero]
  · have hx := not_le.1 h
    rw [gK_pos _ (by positivity), Real.mul_rpow hβ.le hx.le, Real.rpow_sub_one hβ.ne']
    field_simp

theorem cdfGamma_eq {α β : ℝ} (hβ : 0 < β) (y : ℝ) : cdfGamma α β y = gF α (β * y) := by
  unfold cdfGamma cdfOf
  simp only [densGamma_eq hβ]
  rw [integral_const_mul]
  have := prim_scale (fun t => gK α t / Real.Gamma α) hβ y
  unfold prim at this
  rw [this, ← gF_prim]
  unfold prim
  field_simp

theorem cdfGamma_eq' {α β : ℝ} (hβ : 0 < β) : cdfGamma α β = fun y => gF α ((y - 0) / β⁻¹) := by
  funext y
  rw [cdfGamma_eq hβ, sub_zero, div_inv_eq_mul, mul_comm]

theorem gF_cross {a : ℝ} (ha : 0 < a) (x : ℝ) :
    prim (fun x => x * (gK a x / Real.Gamma a) * gF a x) x
      = a * (gF (a + 1) x ^ 2 / 2
        + Real.Gamma (2 * a + 1) / ((2:ℝ) ^ (2 * a + 1) * Real.Gamma (a + 1) ^ 2) * gF (2 * a + 1) (2 * x)) := by
  have hG := Real.Gamma_pos_of_pos ha
  have hG2 := Real.Gamma_pos_of_pos (show 0 < 2 * a + 1 by linarith)
  have e : (fun x => x * (gK a x / Real.Gamma a) * gF a x)
      = fun x => (gK (a + 1) x * prim (gK a) x) / Real.Gamma a ^ 2 := by
    funext x
    unfold gF
    rw [← gK_succ]
    field_simp
  have h := (prim_gK_cross ha).2 x
  have e2 : prim (fun x => (gK (a + 1) x * prim (gK a) x) / Real.Gamma a ^ 2) x
      = prim (fun x => gK (a + 1) x * prim (gK a) x) x / Real.Gamma a ^ 2 := by
    unfold prim; rw [integral_div]
  rw [e, e2, h]
  unfold gF
  rw [Real.Gamma_add_one ha.ne', Real.rpow_neg two_pos.le, Real.rpow_add_one two_ne_zero]
  have : (0:ℝ) < 2 ^ (2 * a) := Real.rpow_pos_of_pos two_pos _
  field_simp

theorem gF_cross_integral {a : ℝ} (ha : 0 < a) :
    ∫ x, x * (gK a x / Real.Gamma a) * gF a x
      = a * (1 / 2 + Real.Gamma (2 * a + 1) / ((2:ℝ) ^ (2 * a + 1) * Real.Gamma (a + 1) ^ 2)) := by
  have hG := Real.Gamma_pos_of_pos ha
  have e : (fun x => x * (gK a x / Real.Gamma a) * gF a x)
      = fun x => (gK (a + 1) x * prim (gK a) x) / Real.Gamma a ^ 2 := by
    funext x
    unfold gF
    rw [← gK_succ]
    field_simp
  rw [e, integral_div, gK_cross_integral ha, Real.Gamma_add_one ha.ne', Real.rpow_neg two_pos.le,
    Real.rpow_add_one two_ne_zero]
  have : (0:ℝ) < 2 ^ (2 * a) := Real.rpow_pos_of_pos two_pos _
  field_simp

theorem gF_mean {a : ℝ} (ha : 0 < a) :
    Integrable (fun x => x * (gK a x / Real.Gamma a)) ∧ ∫ x, x * (gK a x / Real.Gamma a) = a ∧
      ∀ x, prim (fun x => x * (gK a x / Real.Gamma a)) x = a * gF (a + 1) x := by
  have hG := Real.Gamma_pos_of_pos ha
  have e : (fun x => x * (gK a x / Real.Gamma a)) = fun x => gK (a + 1) x / Real.Gamma a := by
    funext x; rw [← gK_succ]; ring
  rw [e]
  refine ⟨(gK_integrable (by linarith)).div_const _, ?_, fun x => ?_⟩
  · rw [integral_div, gK_integral (by linarith), Real.Gamma_add_one ha.ne']; field_simp
  · unfold gF prim
    rw [integral_div, Real.Gamma_add_one ha.ne']; field_simp

/-- The constant `Γ(2a+1) / (2^(2a) Γ(a+1)²)` in terms of the beta function. -/
theorem gamma_dup {a : ℝ} (ha : 0 < a) :
    a * (Real.Gamma (2 * a + 1) / ((2:ℝ) ^ (2 * a + 1) * Real.Gamma (a + 1) ^ 2))
      = 1 / (2 * betaF (1 / 2) a) := by
  have h := Real.Gamma_mul_Gamma_add_half (a + 1 / 2)
  have hG := Real.Gamma_pos_of_pos ha
  have hG2 := Real.Gamma_pos_of_pos (show 0 < 2 * a + 1 by linarith)
  have hG3 := Real.Gamma_pos_of_pos (show 0 < a + 1 / 2 by linarith)
  have hp : (0:ℝ) < Real.sqrt Real.pi := Real.sqrt_pos.2 Real.pi_pos
  rw [show a + 1 / 2 + 1 / 2 = a + 1 by ring, show 2 * (a + 1 / 2) = 2 * a + 1 by ring,
    show 1 - (2 * a + 1) = -(2 * a) by ring, Real.rpow_neg two_pos.le, Real.Gamma_add_one ha.ne'] at h
  unfold betaF
  rw [Real.Gamma_one_half_eq, Real.Gamma_add_one ha.ne', Real.rpow_add_one two_ne_zero,
    show (1:ℝ) / 2 + a = a + 1 / 2 by ring]
  have : (0:ℝ) < 2 ^ (2 * a) := Real.rpow_pos_of_pos two_pos _
  field_simp at h ⊢
  linarith

theorem crps_gF {a : ℝ} (ha : 0 < a) (y : ℝ) :
    HasCrps (gF a) y ∧ Integrable (fun x => x * (gK a x / Real.Gamma a) * gF a x) ∧
    Spec.crps (gF a) y = y * (2 * gF a y - 1) - a * (2 * gF (a + 1) y - 1) - 1 / betaF (1 / 2) a := by
  have hG := Real.Gamma_pos_of_pos ha
  obtain ⟨i1, m1, m2⟩ := gF_mean ha
  obtain ⟨h1, h2, h3⟩ := crps_dens (f := fun x => gK a x / Real.Gamma a) (countable_singleton 0)
    (fun x => div_nonneg (gK_nonneg a x) hG.le) ((gK_integrable ha).div_const _)
    (by rw [integral_div, gK_integral ha, div_self hG.ne']) i1
    (fun x hx => (gK_cont a x hx).div_const _) y
  rw [gF_prim] at h1 h2 h3
  refine ⟨h1, h2, h3.trans ?_⟩
  rw [m1, m2, gF_cross_integral ha]
  have := gamma_dup ha
  have e : 1 / betaF (1 / 2) a = 2 * (1 / (2 * betaF (1 / 2) a)) := by
    have := (betaF_pos (show (0:ℝ) < 1 / 2 by norm_num) ha).ne'
    field_simp
  rw [e, ← this]
  ring

theorem crps_gamma {α β : ℝ} (hα : 0 < α) (hβ : 0 < β) (y : ℝ) :
    HasCrps (cdfGamma α β) y ∧
    Spec.crps (cdfGamma α β) y = y * (2 * gF α (β * y) - 1) - α / β * (2 * gF (α + 1) (β * y) - 1)
      - 1 / (β * betaF (1 / 2) α) := by
  rw [cdfGamma_eq' hβ]
  have hβ' := inv_pos.2 hβ
  have h := crps_gF hα ((y - 0) / β⁻¹)
  refine ⟨h.1.scale hβ', ?_⟩
  rw [crps_scale _ _ hβ', h.2.2]
  have e : (y - 0) / β⁻¹ = β * y := by rw [sub_zero, div_inv_eq_mul, mul_comm]
  rw [e]
  have := (betaF_pos (show (0:ℝ) < 1 / 2 by norm_num) hα).ne'
  field_simp

/-! ### the code -/

theorem gammaCdf_fin {a β : ℝ} (ha : 0 < a) (hβ : 0 < β) (x : ℝ) :
    Stats.gammaCdf (fin x) (fin a) (fin β) = fin (gF a (β * x)) := by
  unfold Stats.gammaCdf
  have hx : (0:ℝ) ≤ β * max x 0 := mul_nonneg hβ.le (le_max_right _ _)
  simp only [XF.zero_def, fin_max, fin_mul, XF.gammainc]
  rw [if_pos ⟨ha, hx⟩]
  have : (∫ t in (0:ℝ)..(β * max x 0), t ^ (a - 1) * Real.exp (-t)) / Real.Gamma a = gF a (β * x) := by
    rw [← prim_gK ha hx]
    rcases le_total x 0 with h | h
    · rw [max_eq_right h, mul_zero, gF_neg (by nlinarith), prim_gK_neg le_rfl, zero_div]
    · rw [max_eq_left h, gF]
  rw [this, fin_max, max_eq_left (gF_nonneg ha _)]

theorem beta_fin {a b : ℝ} (ha : 0 < a) (hb : 0 < b) : XF.beta (fin a) (fin b) = fin (betaF a b) := by
  simp only [XF.beta]
  rw [if_pos ⟨ha, hb⟩]; rfl

end Verif
