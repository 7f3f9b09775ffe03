import Verif.Lemmas.TCrps
import Verif.Lemmas.LogsFin
import Verif.Model.Closed2
import Verif.Model.Logs

/-!
# C57 (t, truncated t), C78: Student's t distribution
-/

noncomputable section

open scoped Classical Topology
open MeasureTheory Filter Set

namespace Verif

open XF Spec

/-! ### C78: CRPS -/

/-- C78: `crps_t` is the CRPS of the t distribution at every observation, if the mean exists. -/
theorem C78_t {ν σ : ℝ} (hν : 1 < ν) (hσ : 0 < σ) (μ y : ℝ) :
    HasCrps (cdfT ν μ σ) y ∧
    Closed.t (fin y) (fin ν) (fin μ) (fin σ) = fin (Spec.crps (cdfT ν μ σ) y) := by
  obtain ⟨h1, h2⟩ := crps_t hν hσ μ y
  refine ⟨h1, ?_⟩
  rw [h2]
  have hν0 : 0 < ν := by linarith
  have hν1 : ν - 1 ≠ 0 := by linarith
  have hb := betaF_pos (show (0:ℝ) < 1 / 2 by norm_num) (show 0 < ν / 2 by linarith)
  unfold Closed.t
  simp only [fin_sub, fin_div hσ.ne', tCdf_tF hν0, tPdf_dens hν0, XF.ofNat_def, XF.one_def, fin_div (two_ne_zero' ℝ),
    beta_fin (show (0:ℝ) < 1 / 2 by norm_num) (show 0 < ν / 2 by linarith),
    beta_fin (show (0:ℝ) < 1 / 2 by norm_num) (show 0 < ν - 1 / 2 by linarith), fin_sqrt hν0.le, fin_mul,
    fin_pow, fin_add, fin_div hν1, fin_div (pow_ne_zero 2 hb.ne')]

example : HasCrps (cdfT 3 1 2) 5 := (C78_t (by norm_num) two_pos 1 5).1

/-- Student's t distribution with three degrees of freedom at its centre: half of the mass is below. -/
example : cdfT 3 0 1 0 = 1 / 2 := by
  rw [cdfT_eq three_pos one_pos]
  have hB := tB_pos (show (1:ℝ) / 2 < (3 + 1) / 2 by norm_num)
  have h := tA_zero (show (1:ℝ) / 2 < (3 + 1) / 2 by norm_num)
  simp only [sub_zero, zero_div, tF, prim_tK (show (1:ℝ) / 2 < (3 + 1) / 2 by norm_num), if_pos le_rfl, h]
  rw [betaF_symm ((3 + 1) / 2 - 1 / 2)]
  generalize betaF (1 / 2) ((3 + 1) / 2 - 1 / 2) = B at *
  field_simp
  norm_num

/-! ### C57: logarithmic score -/

theorem densT_pos {ν σ : ℝ} (hν : 0 < ν) (hσ : 0 < σ) (μ x : ℝ) : 0 < densT ν μ σ x := by
  rw [densT_eq hν hσ]
  have h3 : 0 < Real.sqrt ν := Real.sqrt_pos.2 hν
  exact mul_pos (inv_pos.2 (mul_pos hσ h3)) (div_pos (tK_pos _ _) (tB_pos (by linarith)))

theorem densT_std (ν μ σ x : ℝ) : densT ν μ σ x = densT ν 0 1 ((x - μ) / σ) / σ := by
  simp only [densT, sub_zero, div_one]

theorem dist_t {ν σ : ℝ} (hν : 0 < ν) (hσ : 0 < σ) (μ : ℝ) : DiffDist (densT ν μ σ) (cdfT ν μ σ) := by
  have h3 : 0 < Real.sqrt ν := Real.sqrt_pos.2 hν
  have hs : (1:ℝ) / 2 < (ν + 1) / 2 := by linarith
  have hB := tB_pos hs
  have hi := (tK_integrable hs).div_const (betaF (1 / 2) ((ν + 1) / 2 - 1 / 2))
  have h : DiffDist (fun z => tK ((ν + 1) / 2) z / betaF (1 / 2) ((ν + 1) / 2 - 1 / 2)) (tF ((ν + 1) / 2)) := by
    rw [← tF_prim]
    refine ⟨fun x => (div_pos (tK_pos _ _) hB).le, prim_cont hi, ⟨∅, finite_empty, fun x _ => ?_⟩, prim_atBot hi, ?_⟩
    · exact prim_deriv hi ((tK_cont _).continuousAt.div_const _)
    · have := prim_atTop hi
      rwa [integral_div, tK_integral hs, div_self hB.ne'] at this
  have h2 := h.scale μ (mul_pos hσ h3)
  rw [cdfT_eq hν hσ]
  have e : densT ν μ σ = fun x => tK ((ν + 1) / 2) ((x - μ) / (σ * Real.sqrt ν))
      / betaF (1 / 2) ((ν + 1) / 2 - 1 / 2) / (σ * Real.sqrt ν) := by
    funext x
    rw [densT_eq hν hσ]
    dsimp only
    rw [mul_comm]; rfl
  rw [e]
  exact h2

theorem cdfT_strictMono {ν σ : ℝ} (hν : 0 < ν) (hσ : 0 < σ) (μ : ℝ) : StrictMono (cdfT ν μ σ) := by
  have hd : ∀ x, HasDerivAt (cdfT ν μ σ) (densT ν μ σ x) x := by
    intro x
    have h3 : 0 < Real.sqrt ν := Real.sqrt_pos.2 hν
    have hs : (1:ℝ) / 2 < (ν + 1) / 2 := by linarith
    have hi : Integrable (densT ν μ σ) := (dist_t hν hσ μ).isDensity.integrable
    refine prim_deriv hi (Continuous.continuousAt ?_)
    have e : densT ν μ σ = fun x => (σ * Real.sqrt ν)⁻¹ * (tK ((ν + 1) / 2) ((x - μ) / (σ * Real.sqrt ν))
      / betaF (1 / 2) ((ν + 1) / 2 - 1 / 2)) := funext (densT_eq hν hσ μ)
    rw [e]
    exact (((tK_cont _).comp (by fun_prop)).div_const _).const_mul _
  exact strictMono_of_hasDerivAt_pos hd fun x => densT_pos hν hσ μ x

/-- `logs_t`, for every positive number of degrees of freedom. -/
theorem C57_t {ν σ : ℝ} (hν : 0 < ν) (hσ : 0 < σ) (μ : ℝ) :
    IsDensity (densT ν μ σ) (cdfT ν μ σ) ∧
    ∀ y, Logs.t (fin y) (fin ν) (fin μ) (fin σ) = negLog (densT ν μ σ y) := by
  refine ⟨(dist_t hν hσ μ).isDensity, fun y => ?_⟩
  unfold Logs.t
  simp only [fin_sub, fin_div hσ.ne', tPdf_dens hν]
  rw [← densT_std, ← log_fin_nonneg (densT_pos hν hσ μ y).le]

example : Logs.t (fin 7) (fin 3) (fin 1) (fin 2) = fin (-Real.log (densT 3 1 2 7)) := by
  rw [(C57_t three_pos two_pos 1).2, negLog, if_neg (densT_pos three_pos two_pos 1 7).ne']

theorem cdfT_std {ν σ : ℝ} (hν : 0 < ν) (hσ : 0 < σ) (μ x : ℝ) :
    Stats.tCdf (fin ((x - μ) / σ)) (fin ν) = fin (cdfT ν μ σ x) := by
  rw [tCdf_tF hν, cdfT_eq hν hσ, div_div]

theorem tCdf_top {ν : ℝ} (hν : 0 < ν) : Stats.tCdf pinf (fin ν) = fin 1 := by
  have hv2 : (0:ℝ) < ν / 2 := by linarith
  unfold Stats.tCdf
  have e : (fin ν : XF) / (pinf ^ 2 + fin ν) = fin 0 := by
    rw [pow_two]; rfl
  rw [e, XF.ofNat_def, fin_div (two_ne_zero' ℝ)]
  simp only [betainc_fin hv2 (show (0:ℝ) < 1 / 2 by norm_num) le_rfl zero_le_one]
  have h0 : bF (ν / 2) (1 / 2) 0 = 0 := by
    unfold bF; rw [prim_bK_neg le_rfl, zero_div]
  rw [h0]
  have h1 : (0:XF) ≤ pinf := trivial
  simp only [if_pos h1, XF.one_def, fin_mul, fin_sub]
  norm_num

theorem tCdf_bot {ν : ℝ} (hν : 0 < ν) : Stats.tCdf ninf (fin ν) = fin 0 := by
  have hv2 : (0:ℝ) < ν / 2 := by linarith
  unfold Stats.tCdf
  have e : (fin ν : XF) / (ninf ^ 2 + fin ν) = fin 0 := by
    rw [pow_two]; rfl
  rw [e, XF.ofNat_def, fin_div (two_ne_zero' ℝ)]
  simp only [betainc_fin hv2 (show (0:ℝ) < 1 / 2 by norm_num) le_rfl zero_le_one]
  have h0 : bF (ν / 2) (1 / 2) 0 = 0 := by
    unfold bF; rw [prim_bK_neg le_rfl, zero_div]
  rw [h0]
  have h1 : ¬ (0:XF) ≤ ninf := id
  simp only [if_neg h1, fin_mul]
  norm_num

/-- Truncation to finite bounds: `logs_tt`. -/
theorem C57_tt {ν σ l u : ℝ} (hν : 0 < ν) (hσ : 0 < σ) (hlu : l < u) (μ : ℝ) :
    IsDensity (densTrunc (densT ν μ σ) (cdfT ν μ σ) l u) (cdfTrunc (cdfT ν μ σ) l u) ∧
    ∀ y, Logs.tt (fin y) (fin ν) (fin μ) (fin σ) (fin l) (fin u)
      = negLog (densTrunc (densT ν μ σ) (cdfT ν μ σ) l u y) := by
  have hF : cdfT ν μ σ l < cdfT ν μ σ u := cdfT_strictMono hν hσ μ hlu
  have h := (dist_t hν hσ μ).trunc hlu hF
  refine ⟨h.isDensity, fun y => ?_⟩
  have hd : cdfT ν μ σ u - cdfT ν μ σ l ≠ 0 := (sub_pos.2 hF).ne'
  unfold Logs.tt
  simp only [fin_sub, fin_div hσ.ne', tPdf_dens hν, cdfT_std hν hσ, fin_lt, fin_div hd, ← densT_std,
    div_lt_div_iff_of_pos_right hσ, sub_lt_sub_iff_right]
  by_cases hy : y < l ∨ u < y
  · rw [if_pos hy, densTrunc, if_neg, negLog, if_pos rfl]
    rintro ⟨h2, h3⟩
    rcases hy with h1 | h1 <;> linarith
  · have hy' : l ≤ y ∧ y ≤ u := ⟨not_lt.1 fun hh => hy (Or.inl hh), not_lt.1 fun hh => hy (Or.inr hh)⟩
    rw [if_neg hy, ← log_fin_nonneg (h.nonneg y), densTrunc, if_pos hy']

theorem cdfT_lt_one {ν σ : ℝ} (hν : 0 < ν) (hσ : 0 < σ) (μ x : ℝ) : cdfT ν μ σ x < 1 := by
  refine (cdfT_strictMono hν hσ μ (lt_add_one x)).trans_le ?_
  rw [cdfT_eq hν hσ]
  exact tF_le (by linarith) _

theorem cdfT_pos {ν σ : ℝ} (hν : 0 < ν) (hσ : 0 < σ) (μ x : ℝ) : 0 < cdfT ν μ σ x := by
  refine lt_of_le_of_lt ?_ (cdfT_strictMono hν hσ μ (sub_one_lt x))
  rw [cdfT_eq hν hσ]
  exact tF_nonneg (by linarith) _

/-- Lower bound only: `logs_tt` with the default `upper = inf`. -/
theorem C57_tt_lower {ν σ : ℝ} (hν : 0 < ν) (hσ : 0 < σ) (μ l : ℝ) :
    IsDensity (densTruncLo (densT ν μ σ) (cdfT ν μ σ) l) (cdfTruncLo (cdfT ν μ σ) l) ∧
    ∀ y, Logs.tt (fin y) (fin ν) (fin μ) (fin σ) (fin l) pinf
      = negLog (densTruncLo (densT ν μ σ) (cdfT ν μ σ) l y) := by
  have hF := cdfT_lt_one hν hσ μ l
  have h := (dist_t hν hσ μ).truncLo hF
  refine ⟨h.isDensity, fun y => ?_⟩
  have hd : 1 - cdfT ν μ σ l ≠ 0 := (sub_pos.2 hF).ne'
  have e : ((pinf : XF) - fin μ) / fin σ = pinf := by rw [pinf_sub_fin, pinf_div_pos hσ]
  unfold Logs.tt
  simp only [e, tCdf_top hν, fin_sub, fin_div hσ.ne', tPdf_dens hν, cdfT_std hν hσ, fin_lt, fin_div hd, pinf_lt_fin,
    or_false, ← densT_std, div_lt_div_iff_of_pos_right hσ, sub_lt_sub_iff_right]
  by_cases hy : y < l
  · rw [if_pos hy, densTruncLo, if_neg (not_le.2 hy), negLog, if_pos rfl]
  · rw [if_neg hy, ← log_fin_nonneg (h.nonneg y), densTruncLo, if_pos (not_lt.1 hy)]

/-- Upper bound only: `logs_tt` with the default `lower = -inf`. -/
theorem C57_tt_upper {ν σ : ℝ} (hν : 0 < ν) (hσ : 0 < σ) (μ u : ℝ) :
    IsDensity (densTruncUp (densT ν μ σ) (cdfT ν μ σ) u) (cdfTruncUp (cdfT ν μ σ) u) ∧
    ∀ y, Logs.tt (fin y) (fin ν) (fin μ) (fin σ) ninf (fin u)
      = negLog (densTruncUp (densT ν μ σ) (cdfT ν μ σ) u y) := by
  have hF := cdfT_pos hν hσ μ u
  have h := (dist_t hν hσ μ).truncUp hF
  refine ⟨h.isDensity, fun y => ?_⟩
  have e : ((ninf : XF) - fin μ) / fin σ = ninf := by rw [ninf_sub_fin, ninf_div_pos hσ]
  unfold Logs.tt
  simp only [e, tCdf_bot hν, fin_sub, fin_div hσ.ne', tPdf_dens hν, cdfT_std hν hσ, fin_lt, sub_zero, fin_div hF.ne',
    fin_lt_ninf, false_or, ← densT_std, div_lt_div_iff_of_pos_right hσ, sub_lt_sub_iff_right]
  by_cases hy : u < y
  · rw [if_pos hy, densTruncUp, if_neg (not_le.2 hy), negLog, if_pos rfl]
  · rw [if_neg hy, ← log_fin_nonneg (h.nonneg y), densTruncUp, if_pos (not_lt.1 hy)]

example : Logs.tt (fin 3) (fin 4) (fin 0) (fin 1) (fin (-1)) (fin 2) = pinf
    ∧ Logs.tt (fin (-3)) (fin 4) (fin 0) (fin 1) (fin (-1)) pinf = pinf
    ∧ Logs.tt (fin 3) (fin 4) (fin 0) (fin 1) ninf (fin 2) = pinf := by
  rw [(C57_tt four_pos one_pos (by norm_num) 0).2, (C57_tt_lower four_pos one_pos 0 (-1)).2,
    (C57_tt_upper four_pos one_pos 0 2).2]
  norm_num [densTrunc, densTruncLo, densTruncUp, negLog]

end Verif
