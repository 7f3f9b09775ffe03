import Verif.Lemmas.TInt

/-!
# CRPS of the t distribution
-/

noncomputable section

open scoped Classical Topology
open MeasureTheory Filter Set

namespace Verif

open Spec XF

/-- Distribution function belonging to the kernel `tK s`. -/
def tF (s x : ℝ) : ℝ := prim (tK s) x / betaF (1 / 2) (s - 1 / 2)

theorem tB_pos {s : ℝ} (hs : 1 / 2 < s) : 0 < betaF (1 / 2) (s - 1 / 2) :=
  betaF_pos (by norm_num) (by linarith)

theorem tF_prim (s : ℝ) : prim (fun x => tK s x / betaF (1 / 2) (s - 1 / 2)) = tF s := by
  funext x
  unfold tF prim
  rw [integral_div]

theorem tF_nonneg {s : ℝ} (hs : 1 / 2 < s) (x : ℝ) : 0 ≤ tF s x :=
  div_nonneg (prim_nonneg (fun x => (tK_pos s x).le) x) (tB_pos hs).le

theorem tF_le {s : ℝ} (hs : 1 / 2 < s) (x : ℝ) : tF s x ≤ 1 := by
  rw [tF, div_le_one (tB_pos hs), ← tK_integral hs]
  exact prim_le (tK_integrable hs) (fun x => (tK_pos s x).le) x

theorem crps_tF {s : ℝ} (hs : 1 < s) (y : ℝ) :
    HasCrps (tF s) y ∧
    Spec.crps (tF s) y = y * (2 * tF s y - 1) + tK (s - 1) y / ((s - 1) * betaF (1 / 2) (s - 1 / 2))
      - betaF (1 / 2) (2 * s - 3 / 2) / ((s - 1) * betaF (1 / 2) (s - 1 / 2) ^ 2) := by
  have hs' : 1 / 2 < s := by linarith
  have hs1 : s - 1 ≠ 0 := by linarith
  have hB := tB_pos hs'
  obtain ⟨i1, z1, p1⟩ := tK_mean hs
  have e : (fun x => x * (tK s x / betaF (1 / 2) (s - 1 / 2)))
      = fun x => x * tK s x / betaF (1 / 2) (s - 1 / 2) := by
    funext x; ring
  obtain ⟨h1, h2, h3⟩ := crps_dens (f := fun x => tK s x / betaF (1 / 2) (s - 1 / 2)) countable_empty
    (fun x => div_nonneg (tK_pos s x).le hB.le) ((tK_integrable hs').div_const _)
    (by rw [integral_div, tK_integral hs', div_self hB.ne'])
    (by rw [e]; exact i1.div_const _)
    (fun x _ => (tK_cont s).continuousAt.div_const _) y
  rw [tF_prim] at h1 h2 h3
  refine ⟨h1, h3.trans ?_⟩
  have m1 : ∫ x, x * (tK s x / betaF (1 / 2) (s - 1 / 2)) = 0 := by
    rw [e, integral_div, z1, zero_div]
  have m2 : prim (fun x => x * (tK s x / betaF (1 / 2) (s - 1 / 2))) y
      = -(tK (s - 1) y / (2 * (s - 1))) / betaF (1 / 2) (s - 1 / 2) := by
    rw [e, ← p1]
    unfold prim
    rw [integral_div]
  have m3 : ∫ x, x * (tK s x / betaF (1 / 2) (s - 1 / 2)) * tF s x
      = betaF (1 / 2) (2 * s - 3 / 2) / (2 * (s - 1)) / betaF (1 / 2) (s - 1 / 2) ^ 2 := by
    have : (fun x => x * (tK s x / betaF (1 / 2) (s - 1 / 2)) * tF s x)
        = fun x => (x * tK s x * prim (tK s) x) / betaF (1 / 2) (s - 1 / 2) ^ 2 := by
      funext x; unfold tF; ring
    rw [this, integral_div, tK_cross hs]
  rw [m1, m2, m3]
  field_simp
  ring

/-- The usual constant of the density. -/
theorem tConst {ν : ℝ} (hν : 0 < ν) :
    Real.Gamma ((ν + 1) / 2) / (Real.sqrt (ν * Real.pi) * Real.Gamma (ν / 2))
      = 1 / (Real.sqrt ν * betaF (1 / 2) (ν / 2)) := by
  have h1 := Real.Gamma_pos_of_pos (show 0 < (ν + 1) / 2 by linarith)
  have h2 := Real.Gamma_pos_of_pos (show 0 < ν / 2 by linarith)
  have h3 : 0 < Real.sqrt ν := Real.sqrt_pos.2 hν
  have h4 : 0 < Real.sqrt Real.pi := Real.sqrt_pos.2 Real.pi_pos
  unfold betaF
  rw [Real.Gamma_one_half_eq, Real.sqrt_mul hν.le, show (1:ℝ) / 2 + ν / 2 = (ν + 1) / 2 by ring]
  field_simp

theorem tK_of_t {ν : ℝ} (hν : 0 < ν) (z : ℝ) :
    (1 + z ^ 2 / ν) ^ (-((ν + 1) / 2)) = tK ((ν + 1) / 2) (z / Real.sqrt ν) := by
  unfold tK
  rw [div_pow, Real.sq_sqrt hν.le]

theorem densT_eq {ν σ : ℝ} (hν : 0 < ν) (hσ : 0 < σ) (μ x : ℝ) :
    densT ν μ σ x = (σ * Real.sqrt ν)⁻¹ * ((fun z => tK ((ν + 1) / 2) z
      / betaF (1 / 2) ((ν + 1) / 2 - 1 / 2)) ((x - μ) / (σ * Real.sqrt ν))) := by
  have h3 : 0 < Real.sqrt ν := Real.sqrt_pos.2 hν
  unfold densT
  rw [tConst hν, tK_of_t hν, div_div (x - μ), show (ν + 1) / 2 - 1 / 2 = ν / 2 by ring]
  have := betaF_pos (show (0:ℝ) < 1 / 2 by norm_num) (show 0 < ν / 2 by linarith)
  dsimp only
  field_simp

theorem cdfT_eq {ν σ : ℝ} (hν : 0 < ν) (hσ : 0 < σ) (μ : ℝ) :
    cdfT ν μ σ = fun y => tF ((ν + 1) / 2) ((y - μ) / (σ * Real.sqrt ν)) := by
  have h3 : 0 < Real.sqrt ν := Real.sqrt_pos.2 hν
  funext y
  rw [← tF_prim, ← prim_affine _ (mul_pos hσ h3)]
  unfold cdfT cdfOf prim
  refine integral_congr_ae (ae_of_all _ fun t => densT_eq hν hσ μ t)

theorem crps_t {ν σ : ℝ} (hν : 1 < ν) (hσ : 0 < σ) (μ y : ℝ) :
    HasCrps (cdfT ν μ σ) y ∧
    Spec.crps (cdfT ν μ σ) y =
      (let z := (y - μ) / σ
       σ * (z * (2 * tF ((ν + 1) / 2) (z / Real.sqrt ν) - 1)
        + 2 * densT ν 0 1 z * ((ν + z ^ 2) / (ν - 1))
        - 2 * Real.sqrt ν / (ν - 1) * betaF (1 / 2) (ν - 1 / 2) / betaF (1 / 2) (ν / 2) ^ 2)) := by
  have hν0 : 0 < ν := by linarith
  have hν1 : ν - 1 ≠ 0 := by linarith
  have h3 : 0 < Real.sqrt ν := Real.sqrt_pos.2 hν0
  rw [cdfT_eq hν0 hσ]
  obtain ⟨h1, h2⟩ := crps_tF (show 1 < (ν + 1) / 2 by linarith) ((y - μ) / (σ * Real.sqrt ν))
  refine ⟨h1.scale (mul_pos hσ h3), ?_⟩
  rw [crps_scale _ _ (mul_pos hσ h3), h2]
  dsimp only
  have hB := betaF_pos (show (0:ℝ) < 1 / 2 by norm_num) (show 0 < ν / 2 by linarith)
  generalize hz : (y - μ) / σ = z
  have e0 : (y - μ) / (σ * Real.sqrt ν) = z / Real.sqrt ν := by rw [← div_div, hz]
  have e1 : tK ((ν + 1) / 2 - 1) (z / Real.sqrt ν)
      = (1 + z ^ 2 / ν) ^ (-((ν + 1) / 2)) * (1 + z ^ 2 / ν) := by
    have : 0 < 1 + z ^ 2 / ν := by positivity
    rw [← Real.rpow_add_one this.ne']
    unfold tK
    rw [div_pow, Real.sq_sqrt hν0.le]
    congr 1; ring
  have e2 : densT ν 0 1 z = (1 + z ^ 2 / ν) ^ (-((ν + 1) / 2)) / (Real.sqrt ν * betaF (1 / 2) (ν / 2)) := by
    unfold densT
    rw [tConst hν0, sub_zero, div_one, div_one]; ring
  have hsq : Real.sqrt ν ^ 2 = ν := Real.sq_sqrt hν0.le
  rw [e0, e1, e2, show (ν + 1) / 2 - 1 / 2 = ν / 2 by ring, show 2 * ((ν + 1) / 2) - 3 / 2 = ν - 1 / 2 by ring,
    show (ν + 1) / 2 - 1 = (ν - 1) / 2 by ring]
  generalize (1 + z ^ 2 / ν) ^ (-((ν + 1) / 2)) = k
  generalize betaF (1 / 2) (ν / 2) = B at *
  generalize betaF (1 / 2) (ν - 1 / 2) = B' at *
  generalize tF ((ν + 1) / 2) (z / Real.sqrt ν) = F at *
  have e3 : (1 + z ^ 2 / ν) = (ν + z ^ 2) / ν := by field_simp
  rw [e3]
  generalize hr : Real.sqrt ν = r at *
  subst hsq
  field_simp

/-! ### the code -/

theorem tCdf_tF {ν : ℝ} (hν : 0 < ν) (x : ℝ) :
    Stats.tCdf (fin x) (fin ν) = fin (tF ((ν + 1) / 2) (x / Real.sqrt ν)) := by
  have h3 : 0 < Real.sqrt ν := Real.sqrt_pos.2 hν
  have hd : x ^ 2 + ν ≠ 0 := by positivity
  have hs : 1 / 2 < (ν + 1) / 2 := by linarith
  have t0 : 0 ≤ ν / (x ^ 2 + ν) := by positivity
  have t1 : ν / (x ^ 2 + ν) ≤ 1 := by rw [div_le_one (by positivity)]; nlinarith [sq_nonneg x]
  have hv2 : (0:ℝ) < ν / 2 := by linarith
  have hB := betaF_pos hv2 (show (0:ℝ) < 1 / 2 by norm_num)
  have eA : tA ((ν + 1) / 2) (x / Real.sqrt ν) = bF (ν / 2) (1 / 2) (ν / (x ^ 2 + ν)) * betaF (ν / 2) (1 / 2) / 2 := by
    unfold tA bF
    rw [div_pow, Real.sq_sqrt hν.le, show (ν + 1) / 2 - 1 / 2 = ν / 2 by ring,
      show 1 / (1 + x ^ 2 / ν) = ν / (x ^ 2 + ν) by field_simp; ring]
    field_simp
  have hpos : 0 ≤ x / Real.sqrt ν ↔ 0 ≤ x := by rw [le_div_iff₀ h3, zero_mul]
  unfold Stats.tCdf
  simp only [fin_pow, fin_add, fin_div hd, XF.ofNat_def, fin_div (two_ne_zero' ℝ)]
  rw [betainc_fin hv2 (by norm_num) t0 t1]
  simp only [XF.zero_def, XF.one_def, fin_le, fin_mul, fin_sub]
  unfold tF
  rw [prim_tK hs, eA, show (ν + 1) / 2 - 1 / 2 = ν / 2 by ring, betaF_symm (1 / 2)]
  simp only [hpos]
  split_ifs
  · rw [fin_inj]; field_simp
  · rw [fin_inj]; field_simp

theorem tPdf_dens {ν : ℝ} (hν : 0 < ν) (x : ℝ) : Stats.tPdf (fin x) (fin ν) = fin (densT ν 0 1 x) := by
  have h3 : 0 < Real.sqrt ν := Real.sqrt_pos.2 hν
  have hB := betaF_pos (show (0:ℝ) < 1 / 2 by norm_num) (show 0 < ν / 2 by linarith)
  have hp : 0 < 1 + x ^ 2 / ν := by positivity
  have hm : Real.sqrt ν * betaF (1 / 2) (ν / 2) ≠ 0 := by positivity
  unfold Stats.tPdf
  have hinf : ¬ XF.feq (XF.abs (fin x)) pinf := by rw [fin_abs]; simp [XF.feq]
  simp only [if_neg hinf]
  simp only [XF.one_def, XF.ofNat_def, fin_pow, fin_add, fin_neg, fin_div hν.ne', fin_div (two_ne_zero' ℝ),
    pow_fin_pos hp, fin_sqrt hν.le, beta_fin (show (0:ℝ) < 1 / 2 by norm_num) (show 0 < ν / 2 by linarith),
    fin_mul, fin_div hm, fin_inj]
  unfold densT
  rw [tConst hν, sub_zero, div_one, div_one, neg_div]; ring

end Verif
