import Verif.Lemmas.Gtc
import Verif.Lemmas.NormalConv
import Verif.Props.NanCases

/-!
# C69, C70, C71: truncated, censored and two-piece families
-/

noncomputable section

open scoped Classical Topology
open MeasureTheory Filter Set

namespace Verif

open XF Spec

theorem ΦQ_deriv (x : ℝ) : HasDerivAt (fun z => -ΦP (-z)) ((1 - Φ x) ^ 2) x := by
  have := ((ΦP_deriv (-x)).comp x (hasDerivAt_neg x)).neg
  refine this.congr_deriv ?_
  rw [show 1 - Φ x = Φ (-x) by linarith [Φ_add_neg x]]; ring

theorem ΦQ_atTop : Tendsto (fun z => -ΦP (-z)) atTop (𝓝 0) := by
  simpa using (ΦP_atBot.comp tendsto_neg_atTop_atBot).neg

/-! ### C69: normal -/

/-- C69, two finite bounds: `crps_gtcnormal` is the CRPS of the normal distribution restricted to `[l, u]`
with point masses at the ends. -/
theorem C69_gtcnormal {σ l u L U : ℝ} (hσ : 0 < σ) (hlu : l < u) (hL : 0 ≤ L) (hU : 0 ≤ U)
    (hLU : L + U < 1) (μ y : ℝ) :
    HasCrps (cdfGtc (cdfNormal μ σ) l u L U) y ∧
    Closed.gtcnormal (fin y) (fin μ) (fin σ) (fin l) (fin u) (fin L) (fin U)
      = fin (Spec.crps (cdfGtc (cdfNormal μ σ) l u L U) y) := by
  have h1 : (l - μ) / σ < (u - μ) / σ := by rw [div_lt_div_iff_of_pos_right hσ]; linarith
  have e : cdfGtc (cdfNormal μ σ) l u L U = _ := cdfGtc_scale Φ μ hσ l u L U
  obtain ⟨hi, hv⟩ := crps_gtc Φ_strictMono.monotone Φ_cont.measurable Φ1_deriv ΦP_deriv h1
    (Φ_strictMono h1) hL hU hLU.le ((y - μ) / σ)
  rw [e]
  refine ⟨Spec.HasCrps.scale hσ hi, ?_⟩
  rw [Spec.crps_scale _ _ hσ, hv, gtcnormal_fin hσ hlu hLU.ne]
  dsimp only
  generalize min (max ((y - μ) / σ) ((l - μ) / σ)) ((u - μ) / σ) = z
  have h2 := sub_pos.2 (Φ_strictMono h1)
  generalize (l - μ) / σ = l at *
  generalize (u - μ) / σ = u at *
  have h3 : 1 - L - U ≠ 0 := by linarith
  have hp := Real.sqrt_pos.2 Real.pi_pos
  congr 2
  unfold Φ1 ΦP
  rw [mul_comm (Real.sqrt 2) u, mul_comm (Real.sqrt 2) l]
  obtain ⟨D, hD⟩ : ∃ D, D = Φ u - Φ l := ⟨_, rfl⟩
  have hu : Φ u = Φ l + D := by linarith
  rw [← hD] at h2 ⊢
  rw [hu]
  field_simp
  ring

/-- C69, an upper bound only. -/
theorem C69_gtcnormal_upper {σ U : ℝ} (hσ : 0 < σ) (hU : 0 ≤ U) (hU1 : U < 1) (μ u y : ℝ) :
    HasCrps (cdfGtcUp (cdfNormal μ σ) u U) y ∧
    Closed.gtcnormal (fin y) (fin μ) (fin σ) ninf (fin u) (fin 0) (fin U)
      = fin (Spec.crps (cdfGtcUp (cdfNormal μ σ) u U) y) := by
  have e : cdfGtcUp (cdfNormal μ σ) u U = _ := cdfGtcUp_scale Φ μ hσ u U
  obtain ⟨hi, hv⟩ := crps_gtcUp Φ_strictMono.monotone Φ_cont.measurable Φ_nonneg Φ1_deriv ΦP_deriv ΦP_atBot
    (Φ_pos ((u - μ) / σ)) hU hU1.le ((y - μ) / σ)
  rw [e]
  refine ⟨Spec.HasCrps.scale hσ hi, ?_⟩
  rw [Spec.crps_scale _ _ hσ, hv, gtcnormal_up hσ hU1.ne]
  dsimp only
  generalize min ((y - μ) / σ) ((u - μ) / σ) = z
  have h2 := Φ_pos ((u - μ) / σ)
  generalize (u - μ) / σ = u at *
  have h3 : 1 - U ≠ 0 := by linarith
  have hp := Real.sqrt_pos.2 Real.pi_pos
  congr 2
  unfold Φ1 ΦP
  rw [mul_comm (Real.sqrt 2) u]
  field_simp
  ring

/-- C69, a lower bound only. -/
theorem C69_gtcnormal_lower {σ L : ℝ} (hσ : 0 < σ) (hL : 0 ≤ L) (hL1 : L < 1) (μ l y : ℝ) :
    HasCrps (cdfGtcLo (cdfNormal μ σ) l L) y ∧
    Closed.gtcnormal (fin y) (fin μ) (fin σ) (fin l) pinf (fin L) (fin 0)
      = fin (Spec.crps (cdfGtcLo (cdfNormal μ σ) l L) y) := by
  have e : cdfGtcLo (cdfNormal μ σ) l L = _ := cdfGtcLo_scale Φ μ hσ l L
  obtain ⟨hi, hv⟩ := crps_gtcLo Φ_strictMono.monotone Φ_cont.measurable Φ_le_one Φ1_deriv ΦP_deriv ΦQ_deriv
    ΦQ_atTop (Φ_lt_one ((l - μ) / σ)) hL hL1.le ((y - μ) / σ)
  rw [e]
  refine ⟨Spec.HasCrps.scale hσ hi, ?_⟩
  rw [Spec.crps_scale _ _ hσ, hv, gtcnormal_lo hσ hL1.ne]
  dsimp only
  generalize max ((y - μ) / σ) ((l - μ) / σ) = z
  have h2 := sub_pos.2 (Φ_lt_one ((l - μ) / σ))
  generalize (l - μ) / σ = l at *
  have h3 : 1 - L ≠ 0 := by linarith
  have hp := Real.sqrt_pos.2 Real.pi_pos
  congr 2
  have e1 : Φ (-z) = 1 - Φ z := by linarith [Φ_add_neg z]
  have e2 : Φ (Real.sqrt 2 * -z) = 1 - Φ (z * Real.sqrt 2) := by
    rw [mul_neg, mul_comm]; linarith [Φ_add_neg (z * Real.sqrt 2)]
  simp only [Φ1, ΦP, e1, e2, φ_neg]
  rw [mul_comm (Real.sqrt 2) l, mul_comm (Real.sqrt 2) z]
  obtain ⟨D, hD⟩ : ∃ D, D = 1 - Φ l := ⟨_, rfl⟩
  have hl : Φ l = 1 - D := by linarith
  rw [← hD] at h2 ⊢
  rw [hl]
  field_simp
  ring

/-- C69: `crps_tnormal` is the CRPS of the truncated normal distribution, for two, one and no bounds. -/
theorem C69_tnormal {σ : ℝ} (hσ : 0 < σ) (μ y : ℝ) :
    (∀ l u : ℝ, l < u → Closed.tnormal (fin y) (fin μ) (fin σ) (fin l) (fin u)
      = fin (Spec.crps (cdfTrunc (cdfNormal μ σ) l u) y)) ∧
    (∀ l : ℝ, Closed.tnormal (fin y) (fin μ) (fin σ) (fin l) pinf
      = fin (Spec.crps (cdfTruncLo (cdfNormal μ σ) l) y)) ∧
    (∀ u : ℝ, Closed.tnormal (fin y) (fin μ) (fin σ) ninf (fin u)
      = fin (Spec.crps (cdfTruncUp (cdfNormal μ σ) u) y)) ∧
    Closed.tnormal (fin y) (fin μ) (fin σ) ninf pinf = fin (Spec.crps (cdfNormal μ σ) y) := by
  refine ⟨fun l u h => ?_, fun l => ?_, fun u => ?_, ?_⟩
  · rw [← cdfGtc_trunc, ← (C69_gtcnormal hσ h le_rfl le_rfl (by norm_num) μ y).2]; rfl
  · rw [← cdfGtcLo_trunc, ← (C69_gtcnormal_lower hσ le_rfl (by norm_num) μ l y).2]; rfl
  · rw [← cdfGtcUp_trunc, ← (C69_gtcnormal_upper hσ le_rfl (by norm_num) μ u y).2]; rfl
  · rw [(C52_gtcnormal_normal hσ μ y).2.1, (C50_normal hσ μ y).2]

/-- C69: `crps_cnormal` is the CRPS of the censored normal distribution, for two, one and no bounds. -/
theorem C69_cnormal {σ : ℝ} (hσ : 0 < σ) (μ y : ℝ) :
    (∀ l u : ℝ, l < u → Closed.cnormal (fin y) (fin μ) (fin σ) (fin l) (fin u)
      = fin (Spec.crps (cdfCens (cdfNormal μ σ) l u) y)) ∧
    (∀ l : ℝ, Closed.cnormal (fin y) (fin μ) (fin σ) (fin l) pinf
      = fin (Spec.crps (cdfCensLo (cdfNormal μ σ) l) y)) ∧
    (∀ u : ℝ, Closed.cnormal (fin y) (fin μ) (fin σ) ninf (fin u)
      = fin (Spec.crps (cdfCensUp (cdfNormal μ σ) u) y)) ∧
    Closed.cnormal (fin y) (fin μ) (fin σ) ninf pinf = fin (Spec.crps (cdfNormal μ σ) y) := by
  have hm : ∀ a b : ℝ, a < b → cdfNormal μ σ a < cdfNormal μ σ b := fun a b h =>
    Φ_strictMono (by rw [div_lt_div_iff_of_pos_right hσ]; linarith)
  have h0 : ∀ a, 0 < cdfNormal μ σ a := fun a => Φ_pos _
  have h1 : ∀ a, cdfNormal μ σ a < 1 := fun a => Φ_lt_one _
  refine ⟨fun l u h => ?_, fun l => ?_, fun u => ?_, ?_⟩
  · rw [← cdfGtc_cens (hm l u h), ← (C69_gtcnormal hσ h (h0 l).le (by linarith [h1 u])
      (by linarith [hm l u h]) μ y).2]
    unfold Closed.cnormal
    simp only [fin_sub, fin_div hσ.ne', normCdf_fin, XF.one_def]
    rfl
  · rw [← cdfGtcLo_cens (h1 l), ← (C69_gtcnormal_lower hσ (h0 l).le (h1 l) μ l y).2]
    unfold Closed.cnormal
    simp only [fin_sub, fin_div hσ.ne', normCdf_fin, XF.one_def, pinf_sub_fin, pinf_div_pos hσ, normCdf_pinf,
      sub_self]
    rfl
  · rw [← cdfGtcUp_cens (h0 u), ← (C69_gtcnormal_upper hσ (by linarith [h1 u]) (by linarith [h0 u]) μ u y).2]
    unfold Closed.cnormal
    simp only [fin_sub, fin_div hσ.ne', normCdf_fin, XF.one_def, ninf_sub_fin, ninf_div_pos hσ, normCdf_ninf]
    rfl
  · rw [(C52_gtcnormal_normal hσ μ y).2.2, (C50_normal hσ μ y).2]

theorem zero_mul_sub_div_zero (a b : ℝ) : fin 0 * (fin a - fin b / fin 0) = nan := by
  rw [fin_div_zero]
  split_ifs
  · simp
  · rw [show fin a - pinf = ninf from rfl]; simp [XF.infMul, fin_mul_ninf]
  · rw [show fin a - ninf = pinf from rfl]; simp [XF.infMul, fin_mul_pinf]

/-- Masses that add up to one leave nothing for the interior: the CRPS is that of two point masses, but the
code divides by zero and returns NaN.  This is why `L + U < 1` is assumed above. -/
theorem C69_full_mass_nan {σ l u L U : ℝ} (hσ : 0 < σ) (hlu : l < u) (hLU : L + U = 1) (μ y : ℝ) :
    Closed.gtcnormal (fin y) (fin μ) (fin σ) (fin l) (fin u) (fin L) (fin U) = nan := by
  unfold Closed.gtcnormal
  have h1 : (l - μ) / σ < (u - μ) / σ := by
    rw [div_lt_div_iff_of_pos_right hσ]; linarith
  have h2 : Φ ((u - μ) / σ) - Φ ((l - μ) / σ) ≠ 0 := (sub_pos.2 (Φ_strictMono h1)).ne'
  have h3 : 1 - L - U = 0 := by linarith
  have hp : Real.sqrt Real.pi ≠ 0 := (Real.sqrt_pos.2 Real.pi_pos).ne'
  simp only [fin_sub, fin_div hσ.ne', fin_max, fin_min, sqrt_pi_fin, sqrt2_fin', fin_mul, normCdf_fin,
    normPdf_fin, feq_fin_pinf, feq_fin_ninf, false_and, if_false, XF.one_def, XF.ofNat_def, fin_pow, fin_abs,
    fin_add, fin_div h2, h3, zero_div, zero_mul, zero_mul_sub_div_zero, add_nan, nan_add, nan_sub, mul_nan]

/-! ### C70: logistic with two bounds -/

theorem logis_log_neg (x : ℝ) : Real.log (logis (-x)) = -Real.log (1 + Real.exp x) := by
  unfold logis; rw [neg_neg, one_div, Real.log_inv]

theorem logis1_deriv (x : ℝ) : HasDerivAt (fun z => Real.log (1 + Real.exp z)) (logis x) x := by
  have p1 : 0 < 1 + Real.exp x := by positivity
  refine (((Real.hasDerivAt_exp x).const_add 1).log p1.ne').congr_deriv ?_
  unfold logis
  rw [Real.exp_neg]
  have := Real.exp_pos x
  field_simp
  ring

theorem logisP_deriv (x : ℝ) :
    HasDerivAt (fun z => Real.log (1 + Real.exp z) - logis z) (logis x ^ 2) x :=
  ((logis1_deriv x).sub (logis_deriv x)).congr_deriv (by ring)

/-- C70: with two finite bounds `crps_gtclogistic` is the CRPS of the logistic distribution restricted to
`[l, u]` with point masses at the ends.  One finite bound: C53. -/
theorem C70_gtclogistic {σ l u L U : ℝ} (hσ : 0 < σ) (hlu : l < u) (hL : 0 ≤ L) (hU : 0 ≤ U)
    (hLU : L + U < 1) (μ y : ℝ) :
    HasCrps (cdfGtc (cdfLogistic μ σ) l u L U) y ∧
    Closed.gtclogistic (fin y) (fin μ) (fin σ) (fin l) (fin u) (fin L) (fin U)
      = fin (Spec.crps (cdfGtc (cdfLogistic μ σ) l u L U) y) := by
  have h1 : (l - μ) / σ < (u - μ) / σ := by rw [div_lt_div_iff_of_pos_right hσ]; linarith
  have e : cdfGtc (cdfLogistic μ σ) l u L U = _ := cdfGtc_scale logis μ hσ l u L U
  have hm : Measurable logis := by unfold logis; fun_prop
  obtain ⟨hi, hv⟩ := crps_gtc logis_strictMono.monotone hm logis1_deriv logisP_deriv h1
    (logis_strictMono h1) hL hU hLU.le ((y - μ) / σ)
  rw [e]
  refine ⟨Spec.HasCrps.scale hσ hi, ?_⟩
  rw [Spec.crps_scale _ _ hσ, hv]
  have h2 := sub_pos.2 (logis_strictMono h1)
  have h3 : 1 - L - U ≠ 0 := by linarith
  unfold Closed.gtclogistic
  simp only [fin_sub, fin_div hσ.ne', fin_max, fin_min, fin_neg, logisCdf_fin, feq_fin_pinf, feq_fin_ninf,
    false_or, false_and, if_false, fin_log (logis_pos _), fin_mul, fin_add, fin_pow, XF.one_def,
    XF.ofNat_def, fin_div h2.ne', fin_div h3, fin_abs, logis_log_neg]
  generalize min (max ((y - μ) / σ) ((l - μ) / σ)) ((u - μ) / σ) = z
  generalize (l - μ) / σ = l at *
  generalize (u - μ) / σ = u at *
  congr 2
  obtain ⟨D, hD⟩ : ∃ D, D = logis u - logis l := ⟨_, rfl⟩
  have hu : logis u = logis l + D := by linarith
  rw [← hD] at h2 ⊢
  rw [hu]
  field_simp
  ring

/-- C70: `crps_tlogistic` and `crps_clogistic` are the CRPS of the truncated and of the censored logistic
distribution. -/
theorem C70_tlogistic_clogistic {σ l u : ℝ} (hσ : 0 < σ) (hlu : l < u) (μ y : ℝ) :
    Closed.tlogistic (fin y) (fin μ) (fin σ) (fin l) (fin u)
      = fin (Spec.crps (cdfTrunc (cdfLogistic μ σ) l u) y) ∧
    Closed.clogistic (fin y) (fin μ) (fin σ) (fin l) (fin u)
      = fin (Spec.crps (cdfCens (cdfLogistic μ σ) l u) y) := by
  have hm : cdfLogistic μ σ l < cdfLogistic μ σ u :=
    logis_strictMono (by rw [div_lt_div_iff_of_pos_right hσ]; linarith)
  have h0 : 0 < cdfLogistic μ σ l := logis_pos _
  have h1 : cdfLogistic μ σ u < 1 := logis_lt_one _
  constructor
  · rw [← cdfGtc_trunc, ← (C70_gtclogistic hσ hlu le_rfl le_rfl (by norm_num) μ y).2]; rfl
  · rw [← cdfGtc_cens hm, ← (C70_gtclogistic hσ hlu h0.le (by linarith) (by linarith) μ y).2]
    unfold Closed.clogistic
    simp only [fin_sub, fin_div hσ.ne', logisCdf_fin, XF.one_def]
    rfl

/-! ### C71: two-piece normal -/

/-- C71: `crps_2pnormal` is the CRPS of the two-piece normal distribution. -/
theorem C71_2pnormal {σ1 σ2 : ℝ} (h1 : 0 < σ1) (h2 : 0 < σ2) (μ y : ℝ) :
    HasCrps (cdf2pnormal σ1 σ2 μ) y ∧
    Closed.twopnormal (fin y) (fin σ1) (fin σ2) (fin μ) = fin (Spec.crps (cdf2pnormal σ1 σ2 μ) y) := by
  have hs : 0 < σ1 + σ2 := by positivity
  have i1 := C69_gtcnormal_upper (σ := 1) (U := σ2 / (σ1 + σ2)) one_pos (by positivity)
    (by rw [div_lt_one hs]; linarith) 0 0 (min 0 (y - μ) / σ1)
  have i2 := C69_gtcnormal_lower (σ := 1) (L := σ1 / (σ1 + σ2)) one_pos (by positivity)
    (by rw [div_lt_one hs]; linarith) 0 0 (max 0 (y - μ) / σ2)
  have e1 : min 0 (y - μ) / σ1 = (min μ y - μ) / σ1 := by
    rw [min_comm μ y, min_comm, ← min_sub_sub_right, sub_self]
  have e2 : max 0 (y - μ) / σ2 = (max μ y - μ) / σ2 := by
    rw [max_comm μ y, max_comm, ← max_sub_sub_right, sub_self]
  have j1 := i1.1
  have j2 := i2.1
  rw [e1] at j1
  rw [e2] at j2
  have k1 := Spec.HasCrps.scale h1 j1
  have k2 := Spec.HasCrps.scale h2 j2
  have pw : ∀ z, (cdf2pnormal σ1 σ2 μ z - if y ≤ z then 1 else 0) ^ 2
      = (cdfGtcUp (cdfNormal 0 1) 0 (σ2 / (σ1 + σ2)) ((z - μ) / σ1) - if min μ y ≤ z then 1 else 0) ^ 2
        + (cdfGtcLo (cdfNormal 0 1) 0 (σ1 / (σ1 + σ2)) ((z - μ) / σ2)
          - if max μ y ≤ z then 1 else 0) ^ 2 := by
    intro z
    have c1 : (z - μ) / σ1 < 0 ↔ z < μ := by rw [div_lt_iff₀ h1]; simp
    have c2 : (z - μ) / σ2 < 0 ↔ z < μ := by rw [div_lt_iff₀ h2]; simp
    unfold cdf2pnormal cdfGtcUp cdfGtcLo cdfNormal
    simp only [c1, c2, sub_zero, div_one, Φ_zero]
    by_cases h : z < μ
    · have m1 : min μ y ≤ z ↔ y ≤ z := by rw [min_le_iff]; simp [h]
      have m2 : ¬ max μ y ≤ z := by rw [max_le_iff]; simp [h]
      simp only [h, if_true, m1, m2, if_false, sub_zero]
      have : 2 * σ1 / (σ1 + σ2) = (1 - σ2 / (σ1 + σ2)) * 2 := by field_simp; ring
      rw [this]; ring
    · have m1 : min μ y ≤ z := by rw [min_le_iff]; exact Or.inl (not_lt.1 h)
      have m2 : max μ y ≤ z ↔ y ≤ z := by rw [max_le_iff]; simp [not_lt.1 h]
      simp only [h, if_false, m1, m2, if_true]
      have : (σ1 - σ2) / (σ1 + σ2) + 2 * σ2 / (σ1 + σ2) * Φ ((z - μ) / σ2)
          = σ1 / (σ1 + σ2) + (1 - σ1 / (σ1 + σ2)) * ((Φ ((z - μ) / σ2) - 1 / 2) / (1 - 1 / 2)) := by
        field_simp; ring
      rw [this]; ring
  constructor
  · unfold HasCrps
    simp only [pw]
    exact k1.add k2
  · unfold Closed.twopnormal
    simp only [XF.zero_def, XF.one_def, fin_sub, fin_min, fin_max, fin_add, fin_div hs.ne', fin_div h1.ne',
      fin_div h2.ne']
    rw [i1.2, i2.2, e1, e2, fin_mul, fin_mul, fin_add, ← Spec.crps_scale _ _ h1, ← Spec.crps_scale _ _ h2]
    unfold Spec.crps
    simp only [pw]
    rw [integral_add k1 k2]

/-! ### The hypotheses are met -/

example : Closed.gtcnormal (fin 3) (fin 1) (fin 2) (fin 0) (fin 2) (fin (1 / 4)) (fin (1 / 2))
    = fin (Spec.crps (cdfGtc (cdfNormal 1 2) 0 2 (1 / 4) (1 / 2)) 3) :=
  (C69_gtcnormal (by norm_num) (by norm_num) (by norm_num) (by norm_num) (by norm_num) 1 3).2

example : Closed.gtcnormal (fin 3) (fin 1) (fin 2) ninf (fin 2) (fin 0) (fin (1 / 2))
    = fin (Spec.crps (cdfGtcUp (cdfNormal 1 2) 2 (1 / 2)) 3) :=
  (C69_gtcnormal_upper (by norm_num) (by norm_num) (by norm_num) 1 2 3).2

example : Closed.gtcnormal (fin 3) (fin 1) (fin 2) (fin 0) pinf (fin (1 / 4)) (fin 0)
    = fin (Spec.crps (cdfGtcLo (cdfNormal 1 2) 0 (1 / 4)) 3) :=
  (C69_gtcnormal_lower (by norm_num) (by norm_num) (by norm_num) 1 0 3).2

example : Closed.tnormal (fin 3) (fin 1) (fin 2) (fin 0) pinf
    = fin (Spec.crps (cdfTruncLo (cdfNormal 1 2) 0) 3) :=
  (C69_tnormal (by norm_num) 1 3).2.1 0

example : Closed.cnormal (fin (-3)) (fin 1) (fin 2) (fin 0) (fin 1)
    = fin (Spec.crps (cdfCens (cdfNormal 1 2) 0 1) (-3)) :=
  (C69_cnormal (by norm_num) 1 (-3)).1 0 1 (by norm_num)

example : Closed.gtcnormal (fin 3) (fin 1) (fin 2) (fin 0) (fin 2) (fin (1 / 2)) (fin (1 / 2)) = nan :=
  C69_full_mass_nan (by norm_num) (by norm_num) (by norm_num) 1 3

example : Closed.gtclogistic (fin 3) (fin 1) (fin 2) (fin 0) (fin 2) (fin (1 / 4)) (fin (1 / 2))
    = fin (Spec.crps (cdfGtc (cdfLogistic 1 2) 0 2 (1 / 4) (1 / 2)) 3) :=
  (C70_gtclogistic (by norm_num) (by norm_num) (by norm_num) (by norm_num) (by norm_num) 1 3).2

example : Closed.clogistic (fin 3) (fin 1) (fin 2) (fin 0) (fin 2)
    = fin (Spec.crps (cdfCens (cdfLogistic 1 2) 0 2) 3) :=
  (C70_tlogistic_clogistic (by norm_num) (by norm_num) 1 3).2

example : Closed.twopnormal (fin 3) (fin 1) (fin 2) (fin (-1)) = fin (Spec.crps (cdf2pnormal 1 2 (-1)) 3) :=
  (C71_2pnormal (by norm_num) (by norm_num) (-1) 3).2

end Verif
