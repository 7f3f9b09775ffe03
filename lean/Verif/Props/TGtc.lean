import Verif.Lemmas.TGtc
import Verif.Props.TDist
import Verif.Props.NanCases

/-!
# C83: the generalised truncated and censored t distribution
-/

noncomputable section

open scoped Classical Topology
open MeasureTheory Filter Set

namespace Verif

open XF Spec

theorem bF_flip {a b : ℝ} (ha : 0 < a) (hb : 0 < b) (x : ℝ) : bF a b x = 1 - bF b a (1 - x) := by
  have hB := betaF_pos ha hb
  have h : prim (bK a b) x = betaF a b - prim (bK b a) (1 - x) := by
    refine prim_unique (P := fun x => betaF a b - prim (bK b a) (1 - x)) count01 (bK_integrable ha hb)
      (continuous_const.sub ((prim_cont (bK_integrable hb ha)).comp (by fun_prop))) (fun x hx => ?_) ?_ x
    · have hx0 : x ≠ 0 := fun h => hx (by simp [h])
      have hx1 : x ≠ 1 := fun h => hx (by simp [h])
      have h := ((prim_deriv (bK_integrable hb ha) (bK_cont (a := b) (b := a) (x := 1 - x)
        (by intro h; apply hx1; linarith) (by intro h; apply hx0; linarith))).comp x
          ((hasDerivAt_id x).const_sub 1)).const_sub (betaF a b)
      refine h.congr_deriv ?_
      unfold bK
      have e : (0 < 1 - x ∧ 1 - x < 1) ↔ (0 < x ∧ x < 1) := by constructor <;> rintro ⟨h, h'⟩ <;> constructor <;> linarith
      simp only [id, e]
      split_ifs
      · rw [sub_sub_cancel]; ring
      · ring
    · have h1 : Tendsto (fun x : ℝ => 1 - x) atBot atTop := by
        simpa [sub_eq_add_neg] using tendsto_atTop_add_const_left _ (1:ℝ) tendsto_neg_atBot_atTop
      have := ((prim_atTop (bK_integrable hb ha)).comp h1).const_sub (betaF a b)
      rw [bK_integral hb ha, betaF_symm b a, sub_self] at this
      exact this
  unfold bF
  rw [h, betaF_symm b a]
  field_simp

/-- The term of the code for the distribution function of the squared kernel. -/
theorem tH_code {ν x : ℝ} (hν : 1 < ν) (hx : x ≠ 0) :
    (x / |x| * bF (1 / 2) (ν - 1 / 2) (x ^ 2 / (ν + x ^ 2)) + 1) / 2 = tH ν x := by
  have hν0 : 0 < ν := by linarith
  have h3 : 0 < Real.sqrt ν := Real.sqrt_pos.2 hν0
  have hd : 0 < ν + x ^ 2 := by positivity
  have hB := betaF_pos (show (0:ℝ) < 1 / 2 by norm_num) (show 0 < ν - 1 / 2 by linarith)
  have hB' := hB
  rw [betaF_symm] at hB'
  have eA : tA ν (x / Real.sqrt ν) = bF (ν - 1 / 2) (1 / 2) (1 - x ^ 2 / (ν + x ^ 2)) * betaF (1 / 2) (ν - 1 / 2) / 2 := by
    unfold tA bF
    rw [div_pow, Real.sq_sqrt hν0.le, show 1 / (1 + x ^ 2 / ν) = 1 - x ^ 2 / (ν + x ^ 2) by field_simp; ring,
      betaF_symm (1 / 2)]
    rw [div_mul_cancel₀ _ hB'.ne']
  have hpos : 0 ≤ x / Real.sqrt ν ↔ 0 ≤ x := by rw [le_div_iff₀ h3, zero_mul]
  unfold tH tF
  rw [prim_tK (by linarith), eA, bF_flip (by norm_num) (by linarith)]
  simp only [hpos]
  generalize betaF (1 / 2) (ν - 1 / 2) = b at *
  generalize bF (ν - 1 / 2) (1 / 2) (1 - x ^ 2 / (ν + x ^ 2)) = c
  rcases lt_or_gt_of_ne hx with h | h
  · rw [abs_of_neg h, if_neg (by linarith), div_neg, div_self hx]; field_simp; ring
  · rw [abs_of_pos h, if_pos h.le, div_self hx]; field_simp; ring

theorem gtct_fin {ν μ σ l u L U y : ℝ} (hν : 1 < ν) (hσ : 0 < σ) (hlu : l < u) (hLU : L + U ≠ 1)
    (hl : l ≠ μ) (hu : u ≠ μ) :
    Closed.gtct (fin y) (fin ν) (fin μ) (fin σ) (fin l) (fin u) (fin L) (fin U)
      = fin (let ω := (y - μ) / σ; let u := (u - μ) / σ; let l := (l - μ) / σ
          let z := min (max ω l) u
          let c := (1 - L - U) / (tT ν u - tT ν l)
          σ * (|ω - z| + u * U ^ 2 - l * L ^ 2
            + c * z * (2 * tT ν z - ((1 - 2 * L) * tT ν u + (1 - 2 * U) * tT ν l) / (1 - L - U))
            - 2 * c * (-tG ν z - -tG ν u * U - -tG ν l * L)
            - c ^ 2 * tBbar ν * (tH ν u - tH ν l))) := by
  have hν0 : 0 < ν := by linarith
  have h1 : (l - μ) / σ < (u - μ) / σ := by rw [div_lt_div_iff_of_pos_right hσ]; linarith
  have hl0 : (l - μ) / σ ≠ 0 := div_ne_zero (sub_ne_zero.2 hl) hσ.ne'
  have hu0 : (u - μ) / σ ≠ 0 := div_ne_zero (sub_ne_zero.2 hu) hσ.ne'
  unfold Closed.gtct
  simp only [fin_sub, fin_div hσ.ne']
  generalize (l - μ) / σ = l at *
  generalize (u - μ) / σ = u at *
  generalize (y - μ) / σ = ω
  have h2 : tT ν u - tT ν l ≠ 0 := (sub_pos.2 (tT_strictMono hν0 h1)).ne'
  have h3 : 1 - L - U ≠ 0 := fun h => hLU (by linarith)
  have du : ν + u ^ 2 ≠ 0 := by positivity
  have dl : ν + l ^ 2 ≠ 0 := by positivity
  have b0 : ∀ x : ℝ, 0 ≤ x ^ 2 / (ν + x ^ 2) := fun x => by positivity
  have b1 : ∀ x : ℝ, x ^ 2 / (ν + x ^ 2) ≤ 1 := fun x => by
    rw [div_le_one (by positivity)]; linarith
  have hT : ∀ x : ℝ, Stats.tCdf (fin x) (fin ν) = fin (tT ν x) := fun x => tCdf_tF hν0 x
  have hB := betaF_pos (show (0:ℝ) < 1 / 2 by norm_num) (show 0 < ν / 2 by linarith)
  simp only [fin_sub, fin_max, fin_min, hT, tPdf_dens hν0, feq_fin_pinf, feq_fin_ninf, false_and, if_false,
    XF.one_def, XF.ofNat_def, fin_neg, fin_pow, fin_mul, fin_add, fin_abs, fin_div (abs_ne_zero.2 hl0),
    fin_div (abs_ne_zero.2 hu0), fin_div du, fin_div dl,
    betainc_fin (show (0:ℝ) < 1 / 2 by norm_num) (show 0 < ν - 1 / 2 by linarith) (b0 _) (b1 _),
    beta_fin (show (0:ℝ) < 1 / 2 by norm_num) (show 0 < ν - 1 / 2 by linarith),
    fin_div (show ν - 1 ≠ 0 by linarith), fin_div (two_ne_zero' ℝ), fin_sqrt hν0.le,
    beta_fin (show (0:ℝ) < 1 / 2 by norm_num) (show 0 < ν / 2 by linarith),
    fin_div (pow_pos hB 2).ne', fin_div h2, fin_div h3, tH_code hν hl0, tH_code hν hu0, fin_inj]
  unfold tG tBbar
  simp only [neg_mul, neg_div]

/-- Only an upper bound. -/
theorem gtct_up {ν μ σ u U y : ℝ} (hν : 1 < ν) (hσ : 0 < σ) (hU : U ≠ 1) (hu : u ≠ μ) :
    Closed.gtct (fin y) (fin ν) (fin μ) (fin σ) ninf (fin u) (fin 0) (fin U)
      = fin (let ω := (y - μ) / σ; let u := (u - μ) / σ
          let z := min ω u
          let c := (1 - U) / tT ν u
          σ * (|ω - z| + u * U ^ 2 + c * z * (2 * tT ν z - tT ν u / (1 - U))
            - 2 * c * (-tG ν z - -tG ν u * U) - c ^ 2 * tBbar ν * tH ν u)) := by
  have hν0 : 0 < ν := by linarith
  have hu0 : (u - μ) / σ ≠ 0 := div_ne_zero (sub_ne_zero.2 hu) hσ.ne'
  unfold Closed.gtct
  simp only [fin_sub, fin_div hσ.ne', ninf_sub_fin, ninf_div_pos hσ]
  generalize (u - μ) / σ = u at *
  generalize (y - μ) / σ = ω
  have h2 : tT ν u ≠ 0 := (tT_pos hν0 u).ne'
  have h3 : 1 - U ≠ 0 := fun h => hU (by linarith)
  have du : ν + u ^ 2 ≠ 0 := by positivity
  have b0 : ∀ x : ℝ, 0 ≤ x ^ 2 / (ν + x ^ 2) := fun x => by positivity
  have b1 : ∀ x : ℝ, x ^ 2 / (ν + x ^ 2) ≤ 1 := fun x => by
    rw [div_le_one (by positivity)]; linarith
  have hT : ∀ x : ℝ, Stats.tCdf (fin x) (fin ν) = fin (tT ν x) := fun x => tCdf_tF hν0 x
  have hB := betaF_pos (show (0:ℝ) < 1 / 2 by norm_num) (show 0 < ν / 2 by linarith)
  simp only [fin_sub, max_fin_ninf, fin_min, hT, tCdf_ninf hν0, tPdf_dens hν0, feq_fin_pinf, feq_ninf_ninf,
    false_and, if_false, XF.zero_def, fin_feq, true_and, if_true, sub_zero,
    XF.one_def, XF.ofNat_def, fin_neg, fin_pow, fin_mul, fin_add, fin_abs,
    fin_div (abs_ne_zero.2 hu0), fin_div du,
    betainc_fin (show (0:ℝ) < 1 / 2 by norm_num) (show 0 < ν - 1 / 2 by linarith) (b0 _) (b1 _),
    beta_fin (show (0:ℝ) < 1 / 2 by norm_num) (show 0 < ν - 1 / 2 by linarith),
    fin_div (show ν - 1 ≠ 0 by linarith), fin_div (two_ne_zero' ℝ), fin_sqrt hν0.le,
    beta_fin (show (0:ℝ) < 1 / 2 by norm_num) (show 0 < ν / 2 by linarith),
    fin_div (pow_pos hB 2).ne', fin_div h2, fin_div h3, tH_code hν hu0, fin_inj]
  unfold tG tBbar
  simp only [neg_mul, neg_div, mul_zero, sub_zero, add_zero, one_mul, mul_one]
  norm_num

/-- Only a lower bound. -/
theorem gtct_lo {ν μ σ l L y : ℝ} (hν : 1 < ν) (hσ : 0 < σ) (hL : L ≠ 1) (hl : l ≠ μ) :
    Closed.gtct (fin y) (fin ν) (fin μ) (fin σ) (fin l) pinf (fin L) (fin 0)
      = fin (let ω := (y - μ) / σ; let l := (l - μ) / σ
          let z := max ω l
          let c := (1 - L) / (1 - tT ν l)
          σ * (|ω - z| - l * L ^ 2 + c * z * (2 * tT ν z - ((1 - 2 * L) + tT ν l) / (1 - L))
            - 2 * c * (-tG ν z - -tG ν l * L) - c ^ 2 * tBbar ν * (1 - tH ν l))) := by
  have hν0 : 0 < ν := by linarith
  have hl0 : (l - μ) / σ ≠ 0 := div_ne_zero (sub_ne_zero.2 hl) hσ.ne'
  unfold Closed.gtct
  simp only [fin_sub, fin_div hσ.ne', pinf_sub_fin, pinf_div_pos hσ]
  generalize (l - μ) / σ = l at *
  generalize (y - μ) / σ = ω
  have h2 : 1 - tT ν l ≠ 0 := by have := tT_lt_one hν0 l; linarith
  have h3 : 1 - L ≠ 0 := fun h => hL (by linarith)
  have dl : ν + l ^ 2 ≠ 0 := by positivity
  have b0 : ∀ x : ℝ, 0 ≤ x ^ 2 / (ν + x ^ 2) := fun x => by positivity
  have b1 : ∀ x : ℝ, x ^ 2 / (ν + x ^ 2) ≤ 1 := fun x => by
    rw [div_le_one (by positivity)]; linarith
  have hT : ∀ x : ℝ, Stats.tCdf (fin x) (fin ν) = fin (tT ν x) := fun x => tCdf_tF hν0 x
  have hB := betaF_pos (show (0:ℝ) < 1 / 2 by norm_num) (show 0 < ν / 2 by linarith)
  simp only [fin_sub, min_fin_pinf, fin_max, hT, tCdf_pinf hν0, tPdf_dens hν0, feq_fin_ninf, feq_pinf_pinf,
    false_and, if_false, XF.zero_def, fin_feq, true_and, if_true, sub_zero,
    XF.one_def, XF.ofNat_def, fin_neg, fin_pow, fin_mul, fin_add, fin_abs,
    fin_div (abs_ne_zero.2 hl0), fin_div dl,
    betainc_fin (show (0:ℝ) < 1 / 2 by norm_num) (show 0 < ν - 1 / 2 by linarith) (b0 _) (b1 _),
    beta_fin (show (0:ℝ) < 1 / 2 by norm_num) (show 0 < ν - 1 / 2 by linarith),
    fin_div (show ν - 1 ≠ 0 by linarith), fin_div (two_ne_zero' ℝ), fin_sqrt hν0.le,
    beta_fin (show (0:ℝ) < 1 / 2 by norm_num) (show 0 < ν / 2 by linarith),
    fin_div (pow_pos hB 2).ne', fin_div h2, fin_div h3, tH_code hν hl0, fin_inj]
  unfold tG tBbar
  simp only [neg_mul, neg_div, mul_zero, sub_zero, add_zero, one_mul, mul_one]
  norm_num

/-- What is proved of C83, two finite bounds: `crps_gtct` is the CRPS of the t distribution restricted to
`[l, u]` with point masses at the ends.  Missing: a bound equal to the location, where it is false
(`C83_false`). -/
theorem C83_gtct_partial {ν σ l u L U : ℝ} (hν : 1 < ν) (hσ : 0 < σ) (hlu : l < u) (hL : 0 ≤ L) (hU : 0 ≤ U)
    (hLU : L + U < 1) {μ : ℝ} (hl : l ≠ μ) (hu : u ≠ μ) (y : ℝ) :
    HasCrps (cdfGtc (cdfT ν μ σ) l u L U) y ∧
    Closed.gtct (fin y) (fin ν) (fin μ) (fin σ) (fin l) (fin u) (fin L) (fin U)
      = fin (Spec.crps (cdfGtc (cdfT ν μ σ) l u L U) y) := by
  have hν0 : 0 < ν := by linarith
  have h1 : (l - μ) / σ < (u - μ) / σ := by rw [div_lt_div_iff_of_pos_right hσ]; linarith
  have e := cdfGtc_scale (tT ν) μ hσ l u L U
  rw [← cdfT_tT hν0 hσ] at e
  obtain ⟨hi, hv⟩ := crps_gtc (tT_strictMono hν0).monotone (tT_cont hν0).measurable (tp_deriv hν) (tP_deriv hν) h1
    (tT_strictMono hν0 h1) hL hU hLU.le ((y - μ) / σ)
  rw [e]
  refine ⟨Spec.HasCrps.scale hσ hi, ?_⟩
  rw [Spec.crps_scale _ _ hσ, hv, gtct_fin hν hσ hlu hLU.ne hl hu]
  dsimp only
  generalize min (max ((y - μ) / σ) ((l - μ) / σ)) ((u - μ) / σ) = z
  have h2 := sub_pos.2 (tT_strictMono hν0 h1)
  generalize (l - μ) / σ = l at *
  generalize (u - μ) / σ = u at *
  have h3 : 1 - L - U ≠ 0 := by linarith
  congr 2
  unfold tp tP
  obtain ⟨D, hD⟩ : ∃ D, D = tT ν u - tT ν l := ⟨_, rfl⟩
  have hu : tT ν u = tT ν l + D := by linarith
  rw [← hD] at h2 ⊢
  rw [hu]
  field_simp
  ring

/-- What is proved of C83, an upper bound only.  Missing: a bound equal to the location, where it is false
(`C83_false`). -/
theorem C83_gtct_upper_partial {ν σ U : ℝ} (hν : 1 < ν) (hσ : 0 < σ) (hU : 0 ≤ U) (hU1 : U < 1) {μ u : ℝ}
    (hu : u ≠ μ) (y : ℝ) :
    HasCrps (cdfGtcUp (cdfT ν μ σ) u U) y ∧
    Closed.gtct (fin y) (fin ν) (fin μ) (fin σ) ninf (fin u) (fin 0) (fin U)
      = fin (Spec.crps (cdfGtcUp (cdfT ν μ σ) u U) y) := by
  have hν0 : 0 < ν := by linarith
  have e := cdfGtcUp_scale (tT ν) μ hσ u U
  rw [← cdfT_tT hν0 hσ] at e
  obtain ⟨hi, hv⟩ := crps_gtcUp (tT_strictMono hν0).monotone (tT_cont hν0).measurable (tT_nonneg hν0)
    (tp_deriv hν) (tP_deriv hν) (tP_atBot hν) (tT_pos hν0 ((u - μ) / σ)) hU hU1.le ((y - μ) / σ)
  rw [e]
  refine ⟨Spec.HasCrps.scale hσ hi, ?_⟩
  rw [Spec.crps_scale _ _ hσ, hv, gtct_up hν hσ hU1.ne hu]
  dsimp only
  generalize min ((y - μ) / σ) ((u - μ) / σ) = z
  have h2 := tT_pos hν0 ((u - μ) / σ)
  generalize (u - μ) / σ = u at *
  have h3 : 1 - U ≠ 0 := by linarith
  congr 2
  unfold tp tP
  field_simp
  ring

/-- What is proved of C83, a lower bound only.  Missing: a bound equal to the location, where it is false
(`C83_false`). -/
theorem C83_gtct_lower_partial {ν σ L : ℝ} (hν : 1 < ν) (hσ : 0 < σ) (hL : 0 ≤ L) (hL1 : L < 1) {μ l : ℝ}
    (hl : l ≠ μ) (y : ℝ) :
    HasCrps (cdfGtcLo (cdfT ν μ σ) l L) y ∧
    Closed.gtct (fin y) (fin ν) (fin μ) (fin σ) (fin l) pinf (fin L) (fin 0)
      = fin (Spec.crps (cdfGtcLo (cdfT ν μ σ) l L) y) := by
  have hν0 : 0 < ν := by linarith
  have e := cdfGtcLo_scale (tT ν) μ hσ l L
  rw [← cdfT_tT hν0 hσ] at e
  obtain ⟨hi, hv⟩ := crps_gtcLo (tT_strictMono hν0).monotone (tT_cont hν0).measurable (tT_le hν0)
    (tp_deriv hν) (tP_deriv hν) (tQ_deriv hν) (tQ_atTop hν) (tT_lt_one hν0 ((l - μ) / σ)) hL hL1.le
    ((y - μ) / σ)
  rw [e]
  refine ⟨Spec.HasCrps.scale hσ hi, ?_⟩
  rw [Spec.crps_scale _ _ hσ, hv, gtct_lo hν hσ hL1.ne hl]
  dsimp only
  generalize max ((y - μ) / σ) ((l - μ) / σ) = z
  have h2 := sub_pos.2 (tT_lt_one hν0 ((l - μ) / σ))
  generalize (l - μ) / σ = l at *
  have h3 : 1 - L ≠ 0 := by linarith
  congr 2
  simp only [tp, tP, tT_neg hν0, tH_neg hν, tG_neg]
  obtain ⟨D, hD⟩ : ∃ D, D = 1 - tT ν l := ⟨_, rfl⟩
  have hl : tT ν l = 1 - D := by linarith
  rw [← hD] at h2 ⊢
  rw [hl]
  field_simp
  ring

/-- What is proved of C83 for `crps_tt`, the truncated t distribution: two, one and no bounds.  Missing: a
bound equal to the location, where it is false (`C83_false`). -/
theorem C83_tt_partial {ν σ : ℝ} (hν : 1 < ν) (hσ : 0 < σ) (μ y : ℝ) :
    (∀ l u : ℝ, l < u → l ≠ μ → u ≠ μ → Closed.tt (fin y) (fin ν) (fin μ) (fin σ) (fin l) (fin u)
      = fin (Spec.crps (cdfTrunc (cdfT ν μ σ) l u) y)) ∧
    (∀ l : ℝ, l ≠ μ → Closed.tt (fin y) (fin ν) (fin μ) (fin σ) (fin l) pinf
      = fin (Spec.crps (cdfTruncLo (cdfT ν μ σ) l) y)) ∧
    (∀ u : ℝ, u ≠ μ → Closed.tt (fin y) (fin ν) (fin μ) (fin σ) ninf (fin u)
      = fin (Spec.crps (cdfTruncUp (cdfT ν μ σ) u) y)) ∧
    Closed.tt (fin y) (fin ν) (fin μ) (fin σ) ninf pinf = fin (Spec.crps (cdfT ν μ σ) y) := by
  refine ⟨fun l u h hl hu => ?_, fun l hl => ?_, fun u hu => ?_, ?_⟩
  · rw [← cdfGtc_trunc, ← (C83_gtct_partial hν hσ h le_rfl le_rfl (by norm_num) hl hu y).2]; rfl
  · rw [← cdfGtcLo_trunc, ← (C83_gtct_lower_partial hν hσ le_rfl (by norm_num) hl y).2]; rfl
  · rw [← cdfGtcUp_trunc, ← (C83_gtct_upper_partial hν hσ le_rfl (by norm_num) hu y).2]; rfl
  · rw [(C52_gtct_t hσ hν μ y).2.1, (C78_t hν hσ μ y).2]

/-- What is proved of C83 for `crps_ct`, the censored t distribution: two, one and no bounds.  Missing: a
bound equal to the location, where it is false (`C83_false`). -/
theorem C83_ct_partial {ν σ : ℝ} (hν : 1 < ν) (hσ : 0 < σ) (μ y : ℝ) :
    (∀ l u : ℝ, l < u → l ≠ μ → u ≠ μ → Closed.ct (fin y) (fin ν) (fin μ) (fin σ) (fin l) (fin u)
      = fin (Spec.crps (cdfCens (cdfT ν μ σ) l u) y)) ∧
    (∀ l : ℝ, l ≠ μ → Closed.ct (fin y) (fin ν) (fin μ) (fin σ) (fin l) pinf
      = fin (Spec.crps (cdfCensLo (cdfT ν μ σ) l) y)) ∧
    (∀ u : ℝ, u ≠ μ → Closed.ct (fin y) (fin ν) (fin μ) (fin σ) ninf (fin u)
      = fin (Spec.crps (cdfCensUp (cdfT ν μ σ) u) y)) ∧
    Closed.ct (fin y) (fin ν) (fin μ) (fin σ) ninf pinf = fin (Spec.crps (cdfT ν μ σ) y) := by
  have hν0 : 0 < ν := by linarith
  have hm : ∀ a b : ℝ, a < b → cdfT ν μ σ a < cdfT ν μ σ b := fun a b h => cdfT_strictMono hν0 hσ μ h
  have h0 : ∀ a, 0 < cdfT ν μ σ a := fun a => by rw [cdfT_tT hν0 hσ]; exact tT_pos hν0 _
  have h1 : ∀ a, cdfT ν μ σ a < 1 := fun a => by rw [cdfT_tT hν0 hσ]; exact tT_lt_one hν0 _
  refine ⟨fun l u h hl hu => ?_, fun l hl => ?_, fun u hu => ?_, ?_⟩
  · rw [← cdfGtc_cens (hm l u h), ← (C83_gtct_partial hν hσ h (h0 l).le (by linarith [h1 u])
      (by linarith [hm l u h]) hl hu y).2]
    unfold Closed.ct
    simp only [fin_sub, fin_div hσ.ne', cdfT_std hν0 hσ, XF.one_def]
  · rw [← cdfGtcLo_cens (h1 l), ← (C83_gtct_lower_partial hν hσ (h0 l).le (h1 l) hl y).2]
    unfold Closed.ct
    simp only [fin_sub, fin_div hσ.ne', cdfT_std hν0 hσ, XF.one_def, pinf_sub_fin, pinf_div_pos hσ,
      tCdf_pinf hν0, sub_self]
  · rw [← cdfGtcUp_cens (h0 u), ← (C83_gtct_upper_partial hν hσ (by linarith [h1 u]) (by linarith [h0 u]) hu y).2]
    unfold Closed.ct
    simp only [fin_sub, fin_div hσ.ne', cdfT_std hν0 hσ, XF.one_def, ninf_sub_fin, ninf_div_pos hσ,
      tCdf_ninf hν0]
  · rw [(C52_gtct_t hσ hν μ y).2.2, (C78_t hν hσ μ y).2]

/-- C83 fails with a bound at the location: the t distribution with 5 degrees of freedom truncated to its
positive half has a CRPS at 1, the code returns NaN. -/
theorem C83_false : HasCrps (cdfTruncLo (cdfT 5 0 1) 0) 1 ∧
    Closed.tt (fin 1) (fin 5) (fin 0) (fin 1) (fin 0) pinf
      ≠ fin (Spec.crps (cdfTruncLo (cdfT 5 0 1) 0) 1) := by
  constructor
  · have h5 : (0:ℝ) < 5 := by norm_num
    obtain ⟨hi, -⟩ := crps_gtcLo (tT_strictMono h5).monotone (tT_cont h5).measurable (tT_le h5)
      (tp_deriv (by norm_num)) (tP_deriv (by norm_num)) (tQ_deriv (by norm_num)) (tQ_atTop (by norm_num))
      (tT_lt_one h5 0) (le_refl (0:ℝ)) zero_le_one 1
    rw [← cdfGtcLo_trunc, cdfT_tT h5 one_pos]
    simpa using hi
  · rw [(C54_false_truncated one_pos 0 _ _ _).1]
    exact fun h => by cases h

/-- What holds of C54 with bounds: away from the location the score is a number.  Missing: a bound at the
location, where it is false. -/
theorem C54_bounds_partial {ν σ l u L U : ℝ} (hν : 1 < ν) (hσ : 0 < σ) (hlu : l < u) (hLU : L + U ≠ 1) {μ : ℝ}
    (hl : l ≠ μ) (hu : u ≠ μ) (y : ℝ) :
    (∃ s : ℝ, Closed.gtct (fin y) (fin ν) (fin μ) (fin σ) (fin l) (fin u) (fin L) (fin U) = fin s) ∧
    (L ≠ 1 → ∃ s : ℝ, Closed.gtct (fin y) (fin ν) (fin μ) (fin σ) (fin l) pinf (fin L) (fin 0) = fin s) ∧
    (U ≠ 1 → ∃ s : ℝ, Closed.gtct (fin y) (fin ν) (fin μ) (fin σ) ninf (fin u) (fin 0) (fin U) = fin s) :=
  ⟨⟨_, gtct_fin hν hσ hlu hLU hl hu⟩, fun h => ⟨_, gtct_lo hν hσ h hl⟩, fun h => ⟨_, gtct_up hν hσ h hu⟩⟩

example : Closed.tt (fin 1) (fin 5) (fin 0) (fin 1) (fin (-1)) (fin 2)
    = fin (Spec.crps (cdfTrunc (cdfT 5 0 1) (-1) 2) 1) :=
  (C83_tt_partial (by norm_num) one_pos 0 1).1 _ _ (by norm_num) (by norm_num) (by norm_num)

example : Closed.ct (fin 1) (fin 5) (fin 0) (fin 1) (fin (-1)) pinf
    = fin (Spec.crps (cdfCensLo (cdfT 5 0 1) (-1)) 1) :=
  (C83_ct_partial (by norm_num) one_pos 0 1).2.1 _ (by norm_num)

/-- `C83_gtct_upper_partial`, `C83_gtct_lower_partial` -/
example : Closed.gtct (fin 1) (fin 5) (fin 0) (fin 1) ninf (fin 2) (fin 0) (fin (1 / 8))
      = fin (Spec.crps (cdfGtcUp (cdfT 5 0 1) 2 (1 / 8)) 1) ∧
    Closed.gtct (fin 1) (fin 5) (fin 0) (fin 1) (fin (-1)) pinf (fin (1 / 4)) (fin 0)
      = fin (Spec.crps (cdfGtcLo (cdfT 5 0 1) (-1) (1 / 4)) 1) :=
  ⟨(C83_gtct_upper_partial (by norm_num) one_pos (by norm_num) (by norm_num) (by norm_num) 1).2,
    (C83_gtct_lower_partial (by norm_num) one_pos (by norm_num) (by norm_num) (by norm_num) 1).2⟩

example : Closed.gtct (fin 1) (fin 5) (fin 0) (fin 1) (fin (-1)) (fin 2) (fin (1 / 4)) (fin (1 / 8))
    = fin (Spec.crps (cdfGtc (cdfT 5 0 1) (-1) 2 (1 / 4) (1 / 8)) 1) :=
  (C83_gtct_partial (by norm_num) one_pos (by norm_num) (by norm_num) (by norm_num) (by norm_num)
    (by norm_num) (by norm_num) 1).2

end Verif
