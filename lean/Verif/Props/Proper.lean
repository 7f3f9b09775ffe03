import Verif.Lemmas.Proper
import Verif.Props.Closed
import Verif.Props.Gtc
import Verif.Props.LogCrps
import Verif.Props.MixCrps
import Verif.Props.TDist
import Verif.Props.TGtc
import Verif.Props.Beta
import Verif.Props.Gamma
import Verif.Props.Gev
import Verif.Props.Poisson
import Verif.Props.Negbinom
import Verif.Props.Discrete
import Verif.Props.Logs
import Verif.Props.Crps
import Mathlib.MeasureTheory.Integral.Gamma

/-!
# C101: the CRPS functions are strictly proper

For every law of the observation with a finite mean the expected score of the code is the entropy of the
law plus the squared distance of the two distribution functions.
-/

noncomputable section

open scoped Classical
open MeasureTheory

namespace Verif

open XF Py Spec


theorem integrable_lawOf_normal : Integrable (fun y => y) (lawOf (densNormal 0 1)) := by
  rw [integrable_lawOf (C57_normal 0 one_pos).1]
  have := (integrable_mul_exp_neg_mul_sq (b := 1 / 2) (by norm_num)).div_const (Real.sqrt (2 * Real.pi))
  refine this.congr (Filter.Eventually.of_forall fun x => ?_)
  simp only [densNormal, φ, sub_zero, div_one]
  rw [show -(1 / 2 : ℝ) * x ^ 2 = -x ^ 2 / 2 by ring]
  ring

theorem integrable_abs_exp_neg_abs : Integrable fun x : ℝ => |x| * Real.exp (-|x|) := by
  have h3 : IntegrableOn (fun x : ℝ => |x| * Real.exp (-|x|)) (Set.Ioi 0) := by
    have h := Real.GammaIntegral_convergent (s := 2) two_pos
    have e : Set.EqOn (fun x : ℝ => Real.exp (-x) * x ^ ((2:ℝ) - 1)) (fun x : ℝ => |x| * Real.exp (-|x|))
        (Set.Ioi 0) := fun x hx => by
      have hx : 0 < x := hx
      change Real.exp (-x) * x ^ ((2:ℝ) - 1) = |x| * Real.exp (-|x|)
      rw [abs_of_pos hx, show (2:ℝ) - 1 = 1 by norm_num, Real.rpow_one, mul_comm]
    exact h.congr_fun e measurableSet_Ioi
  have h4 : IntegrableOn (fun x : ℝ => |x| * Real.exp (-|x|)) (Set.Iic 0) := by
    rw [← Measure.map_neg_eq_self (volume : Measure ℝ)]
    let m : MeasurableEmbedding fun x : ℝ => -x := (Homeomorph.neg ℝ).measurableEmbedding
    rw [m.integrableOn_map_iff]
    simp_rw [Function.comp_def, abs_neg, Set.neg_preimage, Set.neg_Iic, neg_zero]
    exact Iff.mpr integrableOn_Ici_iff_integrableOn_Ioi h3
  have := h4.union h3
  rwa [Set.Iic_union_Ioi, integrableOn_univ] at this

theorem integrable_lawOf_logistic : Integrable (fun y => y) (lawOf (densLogistic 0 1)) := by
  rw [integrable_lawOf (C57_logistic 0 one_pos).1]
  have h2 := integrable_abs_exp_neg_abs
  refine h2.mono' ?_ (Filter.Eventually.of_forall fun x => ?_)
  · exact (((C57_logistic 0 one_pos).1.integrable.aestronglyMeasurable).mul
      measurable_id.aestronglyMeasurable)
  · simp only [densLogistic, sub_zero, div_one, one_mul]
    rw [Real.norm_eq_abs, abs_mul, mul_comm]
    refine mul_le_mul_of_nonneg_left ?_ (abs_nonneg x)
    rw [abs_of_nonneg (by positivity)]
    rcases le_total 0 x with hx | hx
    · rw [abs_of_nonneg hx]
      exact div_le_self (Real.exp_nonneg _) (one_le_pow₀ (by linarith [Real.exp_pos (-x)]))
    · rw [abs_of_nonpos hx, neg_neg, div_le_iff₀ (by positivity)]
      have h5 : Real.exp x * Real.exp (-x) = 1 := by rw [← Real.exp_add]; simp
      have h6 := Real.exp_pos x
      have h7 := Real.exp_pos (-x)
      nlinarith [mul_pos h6 h7]

theorem cdfGtc_rightCont {F : ℝ → ℝ} (h : Continuous F) (l u L U : ℝ) : RightCont (cdfGtc F l u L U) :=
  RightCont.ite (rightCont_const 0) (RightCont.ite (Continuous.rightCont (by fun_prop)) (rightCont_const 1) u) l

theorem cdfGtcLo_rightCont {F : ℝ → ℝ} (h : Continuous F) (l L : ℝ) : RightCont (cdfGtcLo F l L) :=
  RightCont.ite (rightCont_const 0) (Continuous.rightCont (by fun_prop)) l

theorem cdfGtcUp_rightCont {F : ℝ → ℝ} (h : Continuous F) (u U : ℝ) : RightCont (cdfGtcUp F u U) :=
  RightCont.ite (Continuous.rightCont (by fun_prop)) (rightCont_const 1) u

theorem cdfGpd_rightCont (M ξ μ : ℝ) {σ : ℝ} (hσ : 0 < σ) : RightCont (cdfGpd M ξ μ σ) := by
  have e : cdfGpd M ξ μ σ = fun z => if z < μ then 0 else M + (1 - M) * cdfGpd 0 ξ μ σ z := by
    funext z
    have h1 : (z - μ) / σ < 0 ↔ z < μ := by
      rw [div_lt_iff₀ hσ, zero_mul, sub_neg]
    unfold cdfGpd cdfGpd0
    simp only [h1]
    split_ifs <;> ring
  rw [e]
  exact RightCont.ite (rightCont_const 0) (RightCont.comp (fun x => M + (1 - M) * x) (by fun_prop)
    (Continuous.rightCont (isDensity_continuous (C57_gpd ξ μ hσ).1))) μ

theorem aemeasurable_csg0 {α β : ℝ} (hα : 0 < α) (hβ : 0 < β) (δ : ℝ) : AEMeasurable (cdfCsg0 α β δ) :=
  (Measurable.ite measurableSet_Iio measurable_const
    ((isDensity_continuous (dist_gamma hα hβ)).comp (continuous_id.add continuous_const)).measurable
    ).aemeasurable

/-- C101: `crps_uniform`. -/
theorem C101_uniform {l u L U : ℝ} (hlu : l < u) (hL : 0 ≤ L) (hU : 0 ≤ U) (hLU : L + U < 1) :
    CrpsProper Set.univ (fun y => Closed.uniform (fin y) (fin l) (fin u) (fin L) (fin U)) (cdfUniform l u L U) :=
  crpsProper_of (RightCont.ite (rightCont_const 0) (RightCont.ite (Continuous.rightCont (by fun_prop)) (rightCont_const 1) u) l)
    (fun y => (C43_uniform hlu hL hU hLU y).1) fun y hy => (C43_uniform hlu hL hU hLU y).2

/-- point masses at both ends -/
example : (0:ℝ) < 2 ∧ (0:ℝ) ≤ 1 / 4 ∧ (1 / 4 : ℝ) + 1 / 2 < 1 := by norm_num

/-- C101: `crps_exponential`. -/
theorem C101_exponential {rate : ℝ} (hr : 0 < rate) :
    CrpsProper Set.univ (fun y => Closed.exponential (fin y) (fin rate)) (cdfExp rate) :=
  crpsProper_of (Continuous.rightCont (isDensity_continuous (C57_exponential hr).1))
    (fun y => (C44_exponential hr y).1) fun y hy => (C44_exponential hr y).2

/-- a rate -/
example : (0:ℝ) < 3 := by norm_num

/-- C101: `crps_exponentialM`. -/
theorem C101_exponentialM {M μ σ : ℝ} (hσ : 0 < σ) (h0 : 0 ≤ M) (h1 : M ≤ 1) :
    CrpsProper Set.univ (fun y => Closed.exponentialM (fin y) (fin M) (fin μ) (fin σ)) (cdfExpM M μ σ) :=
  crpsProper_of (RightCont.ite (rightCont_const 0) (Continuous.rightCont (by fun_prop)) μ)
    (fun y => (C45_exponentialM hσ h0 h1 y).1) fun y hy => (C45_exponentialM hσ h0 h1 y).2

/-- a point mass of one fifth -/
example : (0:ℝ) < 3 ∧ (0:ℝ) ≤ 1 / 5 ∧ (1 / 5 : ℝ) ≤ 1 := by norm_num

/-- C101: `crps_laplace`. -/
theorem C101_laplace {σ : ℝ} (hσ : 0 < σ) (μ : ℝ) :
    CrpsProper Set.univ (fun y => Closed.laplace (fin y) (fin μ) (fin σ)) (cdfLaplace μ σ) :=
  crpsProper_of (Continuous.rightCont (isDensity_continuous (C57_laplace μ hσ).1))
    (fun y => (C46_laplace hσ μ y).1) fun y hy => (C46_laplace hσ μ y).2

/-- a scale -/
example : (0:ℝ) < 3 := by norm_num

/-- C101: `crps_2pexponential`. -/
theorem C101_2pexponential {a b : ℝ} (ha : 0 < a) (hb : 0 < b) (μ : ℝ) :
    CrpsProper Set.univ (fun y => Closed.twopexponential (fin y) (fin a) (fin b) (fin μ)) (cdf2pexp a b μ) :=
  crpsProper_of (Continuous.rightCont (isDensity_continuous (C57_2pexponential μ ha hb).1))
    (fun y => (C47_2pexponential ha hb μ y).1) fun y hy => (C47_2pexponential ha hb μ y).2

/-- two scales -/
example : (0:ℝ) < 3 ∧ (0:ℝ) < 2 := by norm_num

/-- C101: `crps_logistic`. -/
theorem C101_logistic {σ : ℝ} (hσ : 0 < σ) (μ : ℝ) :
    CrpsProper Set.univ (fun y => Closed.logistic (fin y) (fin μ) (fin σ)) (cdfLogistic μ σ) :=
  crpsProper_of (Continuous.rightCont (isDensity_continuous (C57_logistic μ hσ).1))
    (fun y => (C48_logistic hσ μ y).1) fun y hy => (C48_logistic hσ μ y).2

/-- a scale -/
example : (0:ℝ) < 3 := by norm_num

/-- C101: `crps_normal`. -/
theorem C101_normal {σ : ℝ} (hσ : 0 < σ) (μ : ℝ) :
    CrpsProper Set.univ (fun y => Closed.normal (fin y) (fin μ) (fin σ)) (cdfNormal μ σ) :=
  crpsProper_of (Continuous.rightCont (isDensity_continuous (C57_normal μ hσ).1))
    (fun y => (C50_normal hσ μ y).1) fun y hy => (C50_normal hσ μ y).2

/-- a scale -/
example : (0:ℝ) < 3 := by norm_num

/-- C101: `crps_gpd`. -/
theorem C101_gpd {M ξ σ : ℝ} (hσ : 0 < σ) (hξ : ξ < 1) (h0 : 0 ≤ M) (h1 : M ≤ 1) (μ : ℝ) :
    CrpsProper Set.univ (fun y => Closed.gpd (fin y) (fin ξ) (fin μ) (fin σ) (fin M)) (cdfGpd M ξ μ σ) :=
  crpsProper_of (cdfGpd_rightCont M ξ μ hσ)
    (fun y => (C49_gpd hσ hξ h0 h1 μ y).1) fun y hy => (C49_gpd hσ hξ h0 h1 μ y).2

/-- a bounded tail and a point mass -/
example : (0:ℝ) < 3 ∧ (-1 / 2 : ℝ) < 1 ∧ (0:ℝ) ≤ 1 / 5 ∧ (1 / 5 : ℝ) ≤ 1 := by norm_num

/-- C101: `crps_gamma`. -/
theorem C101_gamma {α β : ℝ} (hα : 0 < α) (hβ : 0 < β) :
    CrpsProper Set.univ (fun y => Closed.gamma (fin y) (fin α) (fin β)) (cdfGamma α β) :=
  crpsProper_of (Continuous.rightCont (isDensity_continuous (dist_gamma hα hβ)))
    (fun y => (C75_gamma hα hβ y).1) fun y hy => (C75_gamma hα hβ y).2

/-- a shape below one -/
example : (0:ℝ) < 1 / 2 ∧ (0:ℝ) < 3 := by norm_num

/-- C101: `crps_gev` except for shape zero, where the code uses 35 digits of Euler's constant (C82). -/
theorem C101_gev {ξ σ : ℝ} (μ : ℝ) (hξ : ξ ≠ 0) (h1 : ξ < 1) (hσ : 0 < σ) :
    CrpsProper Set.univ (fun y => Closed.gev (fin y) (fin ξ) (fin μ) (fin σ)) (cdfGev ξ μ σ) :=
  crpsProper_of (Continuous.rightCont (isDensity_continuous (C57_gev ξ μ hσ).1))
    (fun y => (C82_gev μ y hξ h1 hσ).1) fun y hy => (C82_gev μ y hξ h1 hσ).2

/-- a negative shape -/
example : (-1 / 2 : ℝ) ≠ 0 ∧ (-1 / 2 : ℝ) < 1 ∧ (0:ℝ) < 3 := by norm_num

/-- C101: `crps_gtcnormal` with two finite bounds. -/
theorem C101_gtcnormal {σ l u L U : ℝ} (hσ : 0 < σ) (hlu : l < u) (hL : 0 ≤ L) (hU : 0 ≤ U) (hLU : L + U < 1) (μ : ℝ) :
    CrpsProper Set.univ (fun y => Closed.gtcnormal (fin y) (fin μ) (fin σ) (fin l) (fin u) (fin L)
      (fin U)) (cdfGtc (cdfNormal μ σ) l u L U) :=
  crpsProper_of (cdfGtc_rightCont (isDensity_continuous (C57_normal μ hσ).1) l u L U)
    (fun y => (C69_gtcnormal hσ hlu hL hU hLU μ y).1) fun y hy => (C69_gtcnormal hσ hlu hL hU hLU μ y).2

/-- point masses at both ends -/
example : (0:ℝ) < 3 ∧ (0:ℝ) < 2 ∧ (0:ℝ) ≤ 1 / 4 ∧ (1 / 4 : ℝ) + 1 / 2 < 1 := by norm_num

/-- C101: `crps_gtcnormal` with an upper bound. -/
theorem C101_gtcnormal_upper {σ U : ℝ} (hσ : 0 < σ) (hU : 0 ≤ U) (hU1 : U < 1) (μ u : ℝ) :
    CrpsProper Set.univ (fun y => Closed.gtcnormal (fin y) (fin μ) (fin σ) ninf (fin u) (fin 0) (fin U)) (cdfGtcUp (cdfNormal μ σ) u U) :=
  crpsProper_of (cdfGtcUp_rightCont (isDensity_continuous (C57_normal μ hσ).1) u U)
    (fun y => (C69_gtcnormal_upper hσ hU hU1 μ u y).1) fun y hy => (C69_gtcnormal_upper hσ hU hU1 μ u y).2

/-- a point mass at the bound -/
example : (0:ℝ) < 3 ∧ (0:ℝ) ≤ 1 / 4 ∧ (1 / 4 : ℝ) < 1 := by norm_num

/-- C101: `crps_gtcnormal` with a lower bound. -/
theorem C101_gtcnormal_lower {σ L : ℝ} (hσ : 0 < σ) (hL : 0 ≤ L) (hL1 : L < 1) (μ l : ℝ) :
    CrpsProper Set.univ (fun y => Closed.gtcnormal (fin y) (fin μ) (fin σ) (fin l) pinf (fin L) (fin 0)) (cdfGtcLo (cdfNormal μ σ) l L) :=
  crpsProper_of (cdfGtcLo_rightCont (isDensity_continuous (C57_normal μ hσ).1) l L)
    (fun y => (C69_gtcnormal_lower hσ hL hL1 μ l y).1) fun y hy => (C69_gtcnormal_lower hσ hL hL1 μ l y).2

/-- a point mass at the bound -/
example : (0:ℝ) < 3 ∧ (0:ℝ) ≤ 1 / 4 ∧ (1 / 4 : ℝ) < 1 := by norm_num

/-- C101: `crps_gtclogistic` with two finite bounds. -/
theorem C101_gtclogistic {σ l u L U : ℝ} (hσ : 0 < σ) (hlu : l < u) (hL : 0 ≤ L) (hU : 0 ≤ U) (hLU : L + U < 1) (μ : ℝ) :
    CrpsProper Set.univ (fun y => Closed.gtclogistic (fin y) (fin μ) (fin σ) (fin l) (fin u) (fin L)
      (fin U)) (cdfGtc (cdfLogistic μ σ) l u L U) :=
  crpsProper_of (cdfGtc_rightCont (isDensity_continuous (C57_logistic μ hσ).1) l u L U)
    (fun y => (C70_gtclogistic hσ hlu hL hU hLU μ y).1) fun y hy => (C70_gtclogistic hσ hlu hL hU hLU μ y).2

/-- point masses at both ends -/
example : (0:ℝ) < 3 ∧ (0:ℝ) < 2 ∧ (0:ℝ) ≤ 1 / 4 ∧ (1 / 4 : ℝ) + 1 / 2 < 1 := by norm_num

/-- C101: `crps_2pnormal`. -/
theorem C101_2pnormal {σ1 σ2 : ℝ} (h1 : 0 < σ1) (h2 : 0 < σ2) (μ : ℝ) :
    CrpsProper Set.univ (fun y => Closed.twopnormal (fin y) (fin σ1) (fin σ2) (fin μ)) (cdf2pnormal σ1 σ2 μ) :=
  crpsProper_of (Continuous.rightCont (isDensity_continuous (C57_2pnormal μ h1 h2).1))
    (fun y => (C71_2pnormal h1 h2 μ y).1) fun y hy => (C71_2pnormal h1 h2 μ y).2

/-- two scales -/
example : (0:ℝ) < 3 ∧ (0:ℝ) < 2 := by norm_num

/-- C101: `crps_mixnorm`. -/
theorem C101_mixnorm (l : List (ℝ × ℝ × ℝ)) (hs : ∀ p ∈ l, 0 < p.2.1) (hw : ∀ p ∈ l, 0 ≤ p.2.2)
    (h1 : (l.map fun p => p.2.2).sum = 1) :
    CrpsProper Set.univ (fun y => Closed.mixnorm (fin y) (l.map fun p => fin p.1)
      (l.map fun p => fin p.2.1) (l.map fun p => fin p.2.2)) (cdfMix l) :=
  crpsProper_of (Continuous.rightCont (isDensity_continuous (C57_mixnorm l hs hw h1).1))
    (fun y => (C72_mixnorm l hs hw h1 y).1) fun y hy => (C72_mixnorm l hs hw h1 y).2

/-- two components -/
example : ∃ l : List (ℝ × ℝ × ℝ), l.length = 2 ∧ (∀ p ∈ l, 0 < p.2.1) ∧ (∀ p ∈ l, 0 ≤ p.2.2) ∧
    (l.map fun p => p.2.2).sum = 1 :=
  ⟨[(0, 1, 1 / 4), (5, 2, 3 / 4)], rfl, by simp, by simp; norm_num, by norm_num⟩

/-- C101: `crps_t` with more than one degree of freedom. -/
theorem C101_t {ν σ : ℝ} (hν : 1 < ν) (hσ : 0 < σ) (μ : ℝ) :
    CrpsProper Set.univ (fun y => Closed.t (fin y) (fin ν) (fin μ) (fin σ)) (cdfT ν μ σ) :=
  crpsProper_of (Continuous.rightCont (isDensity_continuous (C57_t (by linarith) hσ μ).1))
    (fun y => (C78_t hν hσ μ y).1) fun y hy => (C78_t hν hσ μ y).2

/-- infinite variance -/
example : (1:ℝ) < 3 / 2 ∧ (0:ℝ) < 3 := by norm_num

/-- C101: `crps_gtct` with two finite bounds, neither of them at the location (C83). -/
theorem C101_gtct {ν σ l u L U : ℝ} (hν : 1 < ν) (hσ : 0 < σ) (hlu : l < u) (hL : 0 ≤ L) (hU : 0 ≤ U)
    (hLU : L + U < 1) {μ : ℝ} (hl : l ≠ μ) (hu : u ≠ μ) :
    CrpsProper Set.univ (fun y => Closed.gtct (fin y) (fin ν) (fin μ) (fin σ) (fin l) (fin u)
      (fin L) (fin U)) (cdfGtc (cdfT ν μ σ) l u L U) :=
  crpsProper_of (cdfGtc_rightCont (isDensity_continuous (C57_t (by linarith) hσ μ).1) l u L U)
    (fun y => (C83_gtct_partial hν hσ hlu hL hU hLU hl hu y).1) fun y hy => (C83_gtct_partial hν hσ hlu hL hU hLU hl hu y).2

/-- point masses at both ends, location one -/
example : (1:ℝ) < 5 ∧ (0:ℝ) < 3 ∧ (0:ℝ) < 2 ∧ (0:ℝ) ≤ 1 / 4 ∧ (1 / 4 : ℝ) + 1 / 2 < 1 ∧ (0:ℝ) ≠ 1 ∧ (2:ℝ) ≠ 1 := by
  norm_num

/-- C101: `crps_lognormal` for observations that are never negative (C73). -/
theorem C101_lognormal (μ : ℝ) {σ : ℝ} (hσ : 0 < σ) :
    CrpsProper (Set.Ici 0) (fun y => Closed.lognormal (fin y) (fin μ) (fin σ)) (cdfLog (cdfNormal μ σ)) :=
  crpsProper_of (Continuous.rightCont (isDensity_continuous (C57_lognormal μ hσ).1))
    (fun y => hasCrps_all (isDensity_continuous (C57_lognormal μ hσ).1).measurable.aemeasurable
      (C73_partial μ hσ le_rfl).1 y) fun y hy => (C73_partial μ hσ hy).2

/-- a scale -/
example : (0:ℝ) < 3 := by norm_num

/-- C101: `crps_loglogistic` for observations that are never negative (C74). -/
theorem C101_loglogistic (μ : ℝ) {σ : ℝ} (hσ : 0 < σ) (hσ1 : σ < 1) :
    CrpsProper (Set.Ici 0) (fun y => Closed.loglogistic (fin y) (fin μ) (fin σ)) (cdfLog (cdfLogistic μ σ)) :=
  crpsProper_of (Continuous.rightCont (isDensity_continuous (C57_loglogistic μ hσ).1))
    (fun y => hasCrps_all (isDensity_continuous (C57_loglogistic μ hσ).1).measurable.aemeasurable
      (C74_partial μ hσ hσ1 le_rfl).1 y) fun y hy => (C74_partial μ hσ hσ1 hy).2

/-- a scale below one -/
example : (0:ℝ) < 1 / 2 ∧ (1 / 2 : ℝ) < 1 := by norm_num

/-- C101: `crps_loglaplace` for positive observations (C56). -/
theorem C101_loglaplace (μ : ℝ) {σ : ℝ} (hσ : 0 < σ) (hσ1 : σ < 1) :
    CrpsProper (Set.Ioi 0) (fun y => Closed.loglaplace (fin y) (fin μ) (fin σ)) (cdfLog (cdfLaplace μ σ)) :=
  crpsProper_of (Continuous.rightCont (isDensity_continuous (C57_loglaplace μ hσ).1))
    (fun y => hasCrps_all (isDensity_continuous (C57_loglaplace μ hσ).1).measurable.aemeasurable
      (C56_crps_partial μ hσ hσ1 one_pos).1 y) fun y hy => (C56_crps_partial μ hσ hσ1 hy).2

/-- a scale below one -/
example : (0:ℝ) < 1 / 2 ∧ (1 / 2 : ℝ) < 1 := by norm_num

/-- C101: `crps_csg0` for observations that are never negative (C76). -/
theorem C101_csg0 {α β δ : ℝ} (hα : 0 < α) (hβ : 0 < β) :
    CrpsProper (Set.Ici 0) (fun y => Closed.csg0 (fin y) (fin α) (fin β) (fin δ)) (cdfCsg0 α β δ) :=
  crpsProper_of (RightCont.ite (rightCont_const 0) (Continuous.rightCont
    ((isDensity_continuous (dist_gamma hα hβ)).comp (continuous_id.add continuous_const))) 0)
    (fun y => hasCrps_all (aemeasurable_csg0 hα hβ δ) (C76_partial hα hβ (Or.inl le_rfl)).1 y) fun y hy => (C76_partial hα hβ (Or.inl hy)).2

/-- a shape and a rate -/
example : (0:ℝ) < 1 / 2 ∧ (0:ℝ) < 3 := by norm_num

/-- C101: `crps_poisson`. -/
theorem C101_poisson {μ : ℝ} (h : 0 ≤ μ) :
    CrpsProper Set.univ (fun y => Closed.poisson (fin y) (fin μ)) (cdfPmf (pmfPois μ)) :=
  crpsProper_of (cdfPmf_rightCont _)
    (fun y => (C80_poisson h y).2.1) fun y hy => (C80_poisson h y).2.2

/-- a mean -/
example : (0:ℝ) ≤ 5 / 2 := by norm_num

/-- C101: `crps_hypergeometric` when the code's sum covers the support (C55). -/
theorem C101_hypergeometric {m n K : ℕ} (h : K ≤ m + n) (hs : min m K ≤ n) :
    CrpsProper Set.univ (fun y => Closed.hypergeometric (fin y) m n K) (cdfPmf (pmfHypergeo m n K)) :=
  crpsProper_of (cdfPmf_rightCont _)
    (fun y => (C55_partial h hs y).2.1) fun y hy => (C55_partial h hs y).2.2

/-- four draws from three successes and six failures -/
example : (4:ℕ) ≤ 3 + 6 ∧ min 3 4 ≤ 6 := by norm_num

/-- C101: `crps_negbinom`. -/
theorem C101_negbinom {r p : ℝ} (hr : 0 < r) (h0 : 0 < p) (h1 : p ≤ 1) :
    ∃ S : ℝ → XF, (∀ y, Api.crpsNegbinom (fin y) (fin r) (some (fin p)) none = .ok (S y)) ∧
      CrpsProper Set.univ S (cdfPmf (pmfNegbinom r p)) :=
  ⟨fun y => fin (crps (cdfPmf (pmfNegbinom r p)) y), fun y => (C81_negbinom hr h0 h1 y).2.2,
    crpsProper_of (cdfPmf_rightCont _) (fun y => (C81_negbinom hr h0 h1 y).2.1) fun _ _ => rfl⟩

/-- a size that is not an integer -/
example : (0:ℝ) < 5 / 2 ∧ (0:ℝ) < 1 / 3 ∧ (1 / 3 : ℝ) ≤ 1 := by norm_num

/-- C101: `crps_beta` for observations between the bounds (C77). -/
theorem C101_beta {a b l u : ℝ} (ha : 0 < a) (hb : 0 < b) (hlu : l < u) :
    ∃ S : ℝ → XF, (∀ y ∈ Set.Icc l u, Closed.beta (fin y) (fin a) (fin b) (fin l) (fin u) = .ok (S y)) ∧
      CrpsProper (Set.Icc l u) S (cdfBeta a b l u) :=
  ⟨fun y => fin (crps (cdfBeta a b l u) y), fun y hy => (C77_partial ha hb hlu hy).2,
    crpsProper_of (Continuous.rightCont (isDensity_continuous (dist_beta ha hb hlu)))
      (fun y => hasCrps_all (isDensity_continuous (dist_beta ha hb hlu)).measurable.aemeasurable
        (C77_partial ha hb hlu ⟨le_rfl, hlu.le⟩).1 y) fun _ _ => rfl⟩

/-- an unbounded density on `[-1, 2]` -/
example : (0:ℝ) < 1 / 2 ∧ (0:ℝ) < 3 ∧ (-1:ℝ) < 2 := by norm_num

theorem wcdf_normalise (l : List (ℝ × ℝ)) (h : (l.map Prod.snd).sum ≠ 0) :
    wcdf (l.map fun p => (p.1, p.2 / (l.map Prod.snd).sum)) = wcdf l ∧
    wtot (l.map fun p => (p.1, p.2 / (l.map Prod.snd).sum)) = 1 := by
  have h1 : ∀ (k : List (ℝ × ℝ)) (c : ℝ),
      (((k.map fun p => (p.1, p.2 / c)).map Prod.snd)).sum = (k.map Prod.snd).sum / c := by
    intro k c
    induction k with
    | nil => simp
    | cons p k ih => simp only [List.map_cons, List.sum_cons, ih, add_div]
  constructor
  · funext z
    unfold wcdf
    rw [h1, div_self h, div_one, List.filter_map]
    exact h1 _ _
  · unfold wtot
    rw [h1, div_self h]

theorem hasCrps_wcdf' {l : List (ℝ × ℝ)} (h : (l.map Prod.snd).sum ≠ 0) (y : ℝ) : HasCrps (wcdf l) y := by
  rw [← (wcdf_normalise l h).1]
  exact hasCrps_wcdf y _ (wcdf_normalise l h).2

theorem wcdf_rightCont (l : List (ℝ × ℝ)) : RightCont (wcdf l) :=
  RightCont.comp (fun x => x / (l.map Prod.snd).sum) (by fun_prop) (rightCont_steps l)

/-- C101: `crps_ensemble` with the default estimator, for every law of the observation. -/
theorem C101_ensemble (path : Path) (sorted : Bool) {xs : List ℝ} (h : xs ≠ []) :
    ∃ S : ℝ → XF, (∀ y, Api.crps1 path "nrg" sorted "propagate" (fin y) (xs.map fin) none = .ok (S y)) ∧
      CrpsProper Set.univ S (ecdf xs) :=
  ⟨fun y => fin (crps (ecdf xs) y), fun y => C01_nrg_is_integral path sorted y xs h, by
    rw [← wcdf_uw h]
    exact crpsProper_of (wcdf_rightCont _) (hasCrps_wcdf' (by
      have : ((uw xs).map Prod.snd).sum = 1 := wtot_uw h
      rw [this]; exact one_ne_zero)) fun _ _ => rfl⟩

/-- three members -/
example : ([1, 4, 2] : List ℝ) ≠ [] := by simp

/-- C101: `crps_ensemble` with weights. -/
theorem C101_ensemble_weighted (path : Path) (sorted : Bool) {l : List (ℝ × ℝ)}
    (hw : ∀ p ∈ l, 0 ≤ p.2) (ht : 0 < (l.map Prod.snd).sum) :
    ∃ S : ℝ → XF, (∀ y, Api.crps1 path "nrg" sorted "propagate" (fin y) (l.map fun p => fin p.1)
        (some (l.map fun p => fin p.2)) = .ok (S y)) ∧
      CrpsProper Set.univ S (wcdf l) :=
  ⟨fun y => fin (crps (wcdf l) y), fun y => C01_nrg_weighted_is_integral path sorted y l hw ht,
    crpsProper_of (wcdf_rightCont _) (hasCrps_wcdf' ht.ne') fun _ _ => rfl⟩

/-- two members, one of them without weight -/
example : ∃ l : List (ℝ × ℝ), l.length = 2 ∧ (∀ p ∈ l, 0 ≤ p.2) ∧ 0 < (l.map Prod.snd).sum :=
  ⟨[(1, 2), (4, 0)], rfl, by simp, by norm_num⟩

/-- The score of the true distribution has the smallest expectation, and any other distribution a larger
one. -/
theorem C101_truth_wins {A : Set ℝ} {S S' : ℝ → XF} {G G' : ℝ → ℝ} (h : CrpsProper A S G)
    (h' : CrpsProper A S' G') {P : Measure ℝ} [IsProbabilityMeasure P] (hi : Integrable (fun y => y) P)
    (hA : ∀ᵐ y ∂P, y ∈ A) (hG : distr P = G) :
    ∃ e e', HasMean P S e ∧ HasMean P S' e' ∧ e ≤ e' ∧ (e = e' ↔ G = G') := by
  obtain ⟨h1, h2⟩ := h P inferInstance hi hA
  obtain ⟨h3, h4⟩ := h' P inferInstance hi hA
  refine ⟨_, _, h1, h3, ?_, ?_⟩
  · rw [h2.2 hG]
    linarith [cramer_nonneg G' (distr P)]
  · rw [h2.2 hG, ← hG, ← h4]
    constructor <;> intro h <;> linarith

/-- two normal forecasts for a standard normal observation -/
example : CrpsProper Set.univ (fun y => Closed.normal (fin y) (fin 0) (fin 1)) (cdfNormal 0 1) ∧
    CrpsProper Set.univ (fun y => Closed.normal (fin y) (fin 1) (fin 2)) (cdfNormal 1 2) ∧
    ∃ P : Measure ℝ, IsProbabilityMeasure P ∧ Integrable (fun y => y) P ∧ distr P = cdfNormal 0 1 :=
  ⟨C101_normal one_pos 0, C101_normal two_pos 1, lawOf (densNormal 0 1), lawOf_prob (C57_normal 0 one_pos).1,
    integrable_lawOf_normal, lawOf_distr (C57_normal 0 one_pos).1⟩

theorem affine_unique {μ σ μ' σ' : ℝ} (hσ : 0 < σ) (hσ' : 0 < σ')
    (h : ∀ z, (z - μ) / σ = (z - μ') / σ') : μ = μ' ∧ σ = σ' := by
  have h1 : μ = μ' := by
    have := h μ
    rw [sub_self, zero_div, eq_comm, div_eq_zero_iff] at this
    rcases this with h | h <;> linarith
  subst h1
  refine ⟨rfl, ?_⟩
  have := h (μ + 1)
  rw [add_sub_cancel_left, div_eq_div_iff hσ.ne' hσ'.ne'] at this
  linarith

/-- C101: for a normal law the expected `crps_normal` is smallest at the true mean and standard deviation,
and only there. -/
theorem C101_normal_parameters {μ σ μ' σ' : ℝ} (hσ : 0 < σ) (hσ' : 0 < σ') {P : Measure ℝ}
    [IsProbabilityMeasure P] (hi : Integrable (fun y => y) P) (hP : distr P = cdfNormal μ σ) :
    ∃ e e', HasMean P (fun y => Closed.normal (fin y) (fin μ) (fin σ)) e ∧
      HasMean P (fun y => Closed.normal (fin y) (fin μ') (fin σ')) e' ∧ e ≤ e' ∧
      (e = e' ↔ μ = μ' ∧ σ = σ') := by
  obtain ⟨e, e', h1, h2, h3, h4⟩ := C101_truth_wins (C101_normal hσ μ) (C101_normal hσ' μ') hi
    (Filter.Eventually.of_forall fun _ => trivial) hP
  refine ⟨e, e', h1, h2, h3, h4.trans ⟨fun h => ?_, fun h => by rw [h.1, h.2]⟩⟩
  exact affine_unique hσ hσ' fun z => Φ_strictMono.injective (congrFun h z)

/-- the standard normal law -/
example : ∃ P : Measure ℝ, IsProbabilityMeasure P ∧ Integrable (fun y => y) P ∧ distr P = cdfNormal 0 1 :=
  ⟨lawOf (densNormal 0 1), lawOf_prob (C57_normal 0 one_pos).1, integrable_lawOf_normal,
    lawOf_distr (C57_normal 0 one_pos).1⟩

/-- C101: the same for the logistic distribution. -/
theorem C101_logistic_parameters {μ σ μ' σ' : ℝ} (hσ : 0 < σ) (hσ' : 0 < σ') {P : Measure ℝ}
    [IsProbabilityMeasure P] (hi : Integrable (fun y => y) P) (hP : distr P = cdfLogistic μ σ) :
    ∃ e e', HasMean P (fun y => Closed.logistic (fin y) (fin μ) (fin σ)) e ∧
      HasMean P (fun y => Closed.logistic (fin y) (fin μ') (fin σ')) e' ∧ e ≤ e' ∧
      (e = e' ↔ μ = μ' ∧ σ = σ') := by
  obtain ⟨e, e', h1, h2, h3, h4⟩ := C101_truth_wins (C101_logistic hσ μ) (C101_logistic hσ' μ') hi
    (Filter.Eventually.of_forall fun _ => trivial) hP
  refine ⟨e, e', h1, h2, h3, h4.trans ⟨fun h => ?_, fun h => by rw [h.1, h.2]⟩⟩
  refine affine_unique hσ hσ' fun z => ?_
  have := congrFun h z
  unfold cdfLogistic at this
  rw [div_eq_div_iff (by positivity) (by positivity)] at this
  have := Real.exp_injective (by linarith : Real.exp (-((z - μ) / σ)) = Real.exp (-((z - μ') / σ')))
  linarith

/-- a logistic law concentrated enough to have a mean -/
example : ∃ P : Measure ℝ, IsProbabilityMeasure P ∧ Integrable (fun y => y) P ∧ distr P = cdfLogistic 0 1 :=
  ⟨lawOf (densLogistic 0 1), lawOf_prob (C57_logistic 0 one_pos).1, integrable_lawOf_logistic,
    lawOf_distr (C57_logistic 0 one_pos).1⟩

end Verif
