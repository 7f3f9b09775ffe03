import Verif.Lemmas.CrpsShape
import Verif.Props.Proper
import Verif.Props.Binomial

/-!
# Property C119: how the closed-form CRPS depends on the observation
-/

noncomputable section

open scoped Classical
open MeasureTheory

namespace Verif

open XF Py Api Spec

theorem cdfGpd_mono {M ξ μ σ : ℝ} (hσ : 0 < σ) (h0 : 0 ≤ M) (h1 : M ≤ 1) : Monotone (cdfGpd M ξ μ σ) := by
  have hd := (C57_gpd ξ μ hσ).1
  have e : cdfGpd M ξ μ σ = fun z => if z < μ then 0 else M + (1 - M) * cdfGpd 0 ξ μ σ z := by
    funext z
    have h1 : (z - μ) / σ < 0 ↔ z < μ := by
      rw [div_lt_iff₀ hσ, zero_mul, sub_neg]
    unfold cdfGpd cdfGpd0
    simp only [h1]
    split_ifs <;> ring
  rw [e]
  refine monotone_ite (fun x y _ hxy => ?_) fun x _ => ?_
  · have := isDensity_mono hd hxy
    nlinarith
  · have := (isDensity_bounds hd x).1
    nlinarith

theorem cdfCsg0_mono {α β : ℝ} (hα : 0 < α) (hβ : 0 < β) (δ : ℝ) : Monotone (cdfCsg0 α β δ) :=
  monotone_ite (G := fun y => cdfGamma α β (y + δ))
    (fun _ _ _ hxy => isDensity_mono (dist_gamma hα hβ) (by linarith))
    fun _ _ => (isDensity_bounds (dist_gamma hα hβ) _).1

/-- C119: the score is convex in the observation. -/
theorem C119_convex {A : Set ℝ} (hA : Convex ℝ A) {S : ℝ → XF} {F : ℝ → ℝ} (h : CrpsShape A S F) :
    ∃ s : ℝ → ℝ, (∀ y ∈ A, S y = fin (s y)) ∧ ConvexOn ℝ A s := by
  obtain ⟨s, hs, h⟩ := h
  refine ⟨s, hs, convexOn_of_slope_mono_adjacent hA fun {x y z} hx hz hxy hyz => ?_⟩
  have hy : y ∈ A := hA.ordConnected.out hx hz ⟨hxy.le, hyz.le⟩
  have h1 := (h x hx y hy hxy.le).2.1
  have h2 := (h y hy z hz hyz.le).1
  rw [div_le_div_iff₀ (by linarith) (by linarith)]
  have a1 : 0 < y - x := by linarith
  have a2 : 0 < z - y := by linarith
  nlinarith

/-- observations that are not negative -/
example : Convex ℝ (Set.Ici (0:ℝ)) := convex_Ici 0

/-- C119: an observation at a median of the forecast gets the smallest score. -/
theorem C119_median {A : Set ℝ} (hA : Convex ℝ A) {S : ℝ → XF} {F : ℝ → ℝ} (h : CrpsShape A S F) {m : ℝ}
    (hm : m ∈ A) (hmed : IsMedian F m) :
    ∃ v : ℝ, S m = fin v ∧ ∀ y ∈ A, ∃ s : ℝ, S y = fin s ∧ v ≤ s := by
  obtain ⟨s, hs, h⟩ := h
  refine ⟨s m, hs m hm, fun y hy => ⟨s y, hs y hy, ?_⟩⟩
  rcases lt_trichotomy y m with hlt | rfl | hlt
  · apply le_of_forall_pos_le_add
    intro ε hε
    set δ := min ε ((m - y) / 2) with hδ
    have d1 : 0 < δ := lt_min hε (by linarith)
    have d2 : δ ≤ (m - y) / 2 := min_le_right _ _
    have hz : m - δ ∈ A := hA.ordConnected.out hy hm ⟨by linarith, by linarith⟩
    have h1 := (h y hy (m - δ) hz (by linarith)).2.1
    have h2 := (h (m - δ) hz m hm (by linarith)).2.2
    have h3 := hmed.1 (m - δ) (by linarith)
    have h4 := (abs_le.1 h2).2
    have h5 : (2 * F (m - δ) - 1) * (m - δ - y) ≤ 0 :=
      mul_nonpos_of_nonpos_of_nonneg (by linarith) (by linarith)
    have h6 : δ ≤ ε := min_le_left _ _
    linarith
  · exact le_rfl
  · have h1 := (h m hm y hy hlt.le).1
    have h2 := hmed.2
    have h3 : 0 ≤ (2 * F m - 1) * (y - m) := mul_nonneg (by linarith) (by linarith)
    linarith

/-- the median of the standard exponential law -/
example : IsMedian (cdfExp 1) (Real.log 2) := by
  have h2 : 0 < Real.log 2 := Real.log_pos (by norm_num)
  constructor
  · intro z hz
    unfold cdfExp
    split_ifs with h
    · norm_num
    · have : Real.exp (-Real.log 2) ≤ Real.exp (-(1 * z)) := Real.exp_le_exp.2 (by linarith)
      rw [Real.exp_neg, Real.exp_log (by norm_num)] at this
      linarith
  · unfold cdfExp
    rw [if_neg (by linarith), one_mul, Real.exp_neg, Real.exp_log (by norm_num)]
    norm_num

/-- C119: `crps_uniform`. -/
theorem C119_uniform {l u L U : ℝ} (hlu : l < u) (hL : 0 ≤ L) (hU : 0 ≤ U) (hLU : L + U < 1) :
    CrpsShape Set.univ (fun y => Closed.uniform (fin y) (fin l) (fin u) (fin L) (fin U)) (cdfUniform l u L U) :=
  crpsShape_of (cdfUniform_mono hlu.le hL hU hLU.le) (fun y _ => (C43_uniform hlu hL hU hLU y).1) fun y _ => (C43_uniform hlu hL hU hLU y).2

/-- point masses at both ends -/
example : (0:ℝ) < 2 ∧ (0:ℝ) ≤ 1 / 4 ∧ (1 / 4 : ℝ) + 1 / 2 < 1 := by norm_num

/-- C119: `crps_exponential`. -/
theorem C119_exponential {rate : ℝ} (hr : 0 < rate) :
    CrpsShape Set.univ (fun y => Closed.exponential (fin y) (fin rate)) (cdfExp rate) :=
  crpsShape_of (isDensity_mono (C57_exponential hr).1) (fun y _ => (C44_exponential hr y).1) fun y _ => (C44_exponential hr y).2

/-- a rate -/
example : (0:ℝ) < 3 := by norm_num

/-- C119: `crps_exponentialM`. -/
theorem C119_exponentialM {M μ σ : ℝ} (hσ : 0 < σ) (h0 : 0 ≤ M) (h1 : M ≤ 1) :
    CrpsShape Set.univ (fun y => Closed.exponentialM (fin y) (fin M) (fin μ) (fin σ)) (cdfExpM M μ σ) :=
  crpsShape_of (cdfExpM_mono hσ h0 h1) (fun y _ => (C45_exponentialM hσ h0 h1 y).1) fun y _ => (C45_exponentialM hσ h0 h1 y).2

/-- a point mass of one fifth -/
example : (0:ℝ) < 3 ∧ (0:ℝ) ≤ 1 / 5 ∧ (1 / 5 : ℝ) ≤ 1 := by norm_num

/-- C119: `crps_laplace`. -/
theorem C119_laplace {σ : ℝ} (hσ : 0 < σ) (μ : ℝ) :
    CrpsShape Set.univ (fun y => Closed.laplace (fin y) (fin μ) (fin σ)) (cdfLaplace μ σ) :=
  crpsShape_of (isDensity_mono (C57_laplace μ hσ).1) (fun y _ => (C46_laplace hσ μ y).1) fun y _ => (C46_laplace hσ μ y).2

/-- a scale -/
example : (0:ℝ) < 3 := by norm_num

/-- C119: `crps_2pexponential`. -/
theorem C119_2pexponential {a b : ℝ} (ha : 0 < a) (hb : 0 < b) (μ : ℝ) :
    CrpsShape Set.univ (fun y => Closed.twopexponential (fin y) (fin a) (fin b) (fin μ)) (cdf2pexp a b μ) :=
  crpsShape_of (isDensity_mono (C57_2pexponential μ ha hb).1) (fun y _ => (C47_2pexponential ha hb μ y).1) fun y _ => (C47_2pexponential ha hb μ y).2

/-- two scales -/
example : (0:ℝ) < 3 ∧ (0:ℝ) < 2 := by norm_num

/-- C119: `crps_logistic`. -/
theorem C119_logistic {σ : ℝ} (hσ : 0 < σ) (μ : ℝ) :
    CrpsShape Set.univ (fun y => Closed.logistic (fin y) (fin μ) (fin σ)) (cdfLogistic μ σ) :=
  crpsShape_of (isDensity_mono (C57_logistic μ hσ).1) (fun y _ => (C48_logistic hσ μ y).1) fun y _ => (C48_logistic hσ μ y).2

/-- a scale -/
example : (0:ℝ) < 3 := by norm_num

/-- C119: `crps_normal`. -/
theorem C119_normal {σ : ℝ} (hσ : 0 < σ) (μ : ℝ) :
    CrpsShape Set.univ (fun y => Closed.normal (fin y) (fin μ) (fin σ)) (cdfNormal μ σ) :=
  crpsShape_of (isDensity_mono (C57_normal μ hσ).1) (fun y _ => (C50_normal hσ μ y).1) fun y _ => (C50_normal hσ μ y).2

/-- a scale -/
example : (0:ℝ) < 3 := by norm_num

/-- C119: `crps_gpd`. -/
theorem C119_gpd {M ξ σ : ℝ} (hσ : 0 < σ) (hξ : ξ < 1) (h0 : 0 ≤ M) (h1 : M ≤ 1) (μ : ℝ) :
    CrpsShape Set.univ (fun y => Closed.gpd (fin y) (fin ξ) (fin μ) (fin σ) (fin M)) (cdfGpd M ξ μ σ) :=
  crpsShape_of (cdfGpd_mono hσ h0 h1) (fun y _ => (C49_gpd hσ hξ h0 h1 μ y).1) fun y _ => (C49_gpd hσ hξ h0 h1 μ y).2

/-- a bounded tail and a point mass -/
example : (0:ℝ) < 3 ∧ (-1 / 2 : ℝ) < 1 ∧ (0:ℝ) ≤ 1 / 5 ∧ (1 / 5 : ℝ) ≤ 1 := by norm_num

/-- C119: `crps_gamma`. -/
theorem C119_gamma {α β : ℝ} (hα : 0 < α) (hβ : 0 < β) :
    CrpsShape Set.univ (fun y => Closed.gamma (fin y) (fin α) (fin β)) (cdfGamma α β) :=
  crpsShape_of (isDensity_mono (dist_gamma hα hβ)) (fun y _ => (C75_gamma hα hβ y).1) fun y _ => (C75_gamma hα hβ y).2

/-- a shape below one -/
example : (0:ℝ) < 1 / 2 ∧ (0:ℝ) < 3 := by norm_num

/-- C119: `crps_gev` except for shape zero, where the code uses 35 digits of Euler's constant (C82). -/
theorem C119_gev {ξ σ : ℝ} (μ : ℝ) (hξ : ξ ≠ 0) (h1 : ξ < 1) (hσ : 0 < σ) :
    CrpsShape Set.univ (fun y => Closed.gev (fin y) (fin ξ) (fin μ) (fin σ)) (cdfGev ξ μ σ) :=
  crpsShape_of (isDensity_mono (C57_gev ξ μ hσ).1) (fun y _ => (C82_gev μ y hξ h1 hσ).1) fun y _ => (C82_gev μ y hξ h1 hσ).2

/-- a negative shape -/
example : (-1 / 2 : ℝ) ≠ 0 ∧ (-1 / 2 : ℝ) < 1 ∧ (0:ℝ) < 3 := by norm_num

/-- C119: `crps_gev` with shape zero. The code's decimal for the Euler-Mascheroni constant moves every score by the
same amount (C82), so the shape is that of the CRPS. -/
theorem C119_gumbel {σ : ℝ} (μ : ℝ) (hσ : 0 < σ) :
    CrpsShape Set.univ (fun y => Closed.gev (fin y) (fin 0) (fin μ) (fin σ)) (cdfGev 0 μ σ) := by
  obtain ⟨s, hs, h⟩ := crpsShape_of (A := Set.univ) (S := fun y => fin (Spec.crps (cdfGev 0 μ σ) y))
    (isDensity_mono (C57_gev 0 μ hσ).1) (fun y _ => (C82_gumbel μ y hσ).1) fun _ _ => rfl
  refine ⟨fun y => s y + σ * (57721566490153286060651209008240243 / 10 ^ 35 - Real.eulerMascheroniConstant),
    fun y hy => ?_, fun y hy y' hy' hyy => ?_⟩
  · simp only [(C82_gumbel μ y hσ).2, fin.inj (hs y hy)]
  · simp only
    rw [add_sub_add_right_eq_sub]
    exact h y hy y' hy' hyy

/-- scale 3 -/
example : (0:ℝ) < 3 := by norm_num

/-- C119: `crps_gtcnormal` with two finite bounds. -/
theorem C119_gtcnormal {σ l u L U : ℝ} (hσ : 0 < σ) (hlu : l < u) (hL : 0 ≤ L) (hU : 0 ≤ U) (hLU : L + U < 1) (μ : ℝ) :
    CrpsShape Set.univ (fun y => Closed.gtcnormal (fin y) (fin μ) (fin σ) (fin l) (fin u) (fin L)
      (fin U)) (cdfGtc (cdfNormal μ σ) l u L U) :=
  crpsShape_of (cdfGtc_mono (isDensity_mono (C57_normal μ hσ).1) hlu.le hL hU hLU.le) (fun y _ => (C69_gtcnormal hσ hlu hL hU hLU μ y).1) fun y _ => (C69_gtcnormal hσ hlu hL hU hLU μ y).2

/-- point masses at both ends -/
example : (0:ℝ) < 3 ∧ (0:ℝ) < 2 ∧ (0:ℝ) ≤ 1 / 4 ∧ (1 / 4 : ℝ) + 1 / 2 < 1 := by norm_num

/-- C119: `crps_gtcnormal` with an upper bound. -/
theorem C119_gtcnormal_upper {σ U : ℝ} (hσ : 0 < σ) (hU : 0 ≤ U) (hU1 : U < 1) (μ u : ℝ) :
    CrpsShape Set.univ (fun y => Closed.gtcnormal (fin y) (fin μ) (fin σ) ninf (fin u) (fin 0) (fin U)) (cdfGtcUp (cdfNormal μ σ) u U) :=
  crpsShape_of (cdfGtcUp_mono (isDensity_mono (C57_normal μ hσ).1) (isDensity_bounds (C57_normal μ hσ).1 u).1 hU hU1.le) (fun y _ => (C69_gtcnormal_upper hσ hU hU1 μ u y).1) fun y _ => (C69_gtcnormal_upper hσ hU hU1 μ u y).2

/-- a point mass at the bound -/
example : (0:ℝ) < 3 ∧ (0:ℝ) ≤ 1 / 4 ∧ (1 / 4 : ℝ) < 1 := by norm_num

/-- C119: `crps_gtcnormal` with a lower bound. -/
theorem C119_gtcnormal_lower {σ L : ℝ} (hσ : 0 < σ) (hL : 0 ≤ L) (hL1 : L < 1) (μ l : ℝ) :
    CrpsShape Set.univ (fun y => Closed.gtcnormal (fin y) (fin μ) (fin σ) (fin l) pinf (fin L) (fin 0)) (cdfGtcLo (cdfNormal μ σ) l L) :=
  crpsShape_of (cdfGtcLo_mono (isDensity_mono (C57_normal μ hσ).1) (isDensity_bounds (C57_normal μ hσ).1 l).2 hL hL1.le) (fun y _ => (C69_gtcnormal_lower hσ hL hL1 μ l y).1) fun y _ => (C69_gtcnormal_lower hσ hL hL1 μ l y).2

/-- a point mass at the bound -/
example : (0:ℝ) < 3 ∧ (0:ℝ) ≤ 1 / 4 ∧ (1 / 4 : ℝ) < 1 := by norm_num

/-- C119: `crps_gtclogistic` with two finite bounds. -/
theorem C119_gtclogistic {σ l u L U : ℝ} (hσ : 0 < σ) (hlu : l < u) (hL : 0 ≤ L) (hU : 0 ≤ U) (hLU : L + U < 1) (μ : ℝ) :
    CrpsShape Set.univ (fun y => Closed.gtclogistic (fin y) (fin μ) (fin σ) (fin l) (fin u) (fin L)
      (fin U)) (cdfGtc (cdfLogistic μ σ) l u L U) :=
  crpsShape_of (cdfGtc_mono (isDensity_mono (C57_logistic μ hσ).1) hlu.le hL hU hLU.le) (fun y _ => (C70_gtclogistic hσ hlu hL hU hLU μ y).1) fun y _ => (C70_gtclogistic hσ hlu hL hU hLU μ y).2

/-- point masses at both ends -/
example : (0:ℝ) < 3 ∧ (0:ℝ) < 2 ∧ (0:ℝ) ≤ 1 / 4 ∧ (1 / 4 : ℝ) + 1 / 2 < 1 := by norm_num

/-- C119: `crps_2pnormal`. -/
theorem C119_2pnormal {σ1 σ2 : ℝ} (h1 : 0 < σ1) (h2 : 0 < σ2) (μ : ℝ) :
    CrpsShape Set.univ (fun y => Closed.twopnormal (fin y) (fin σ1) (fin σ2) (fin μ)) (cdf2pnormal σ1 σ2 μ) :=
  crpsShape_of (isDensity_mono (C57_2pnormal μ h1 h2).1) (fun y _ => (C71_2pnormal h1 h2 μ y).1) fun y _ => (C71_2pnormal h1 h2 μ y).2

/-- two scales -/
example : (0:ℝ) < 3 ∧ (0:ℝ) < 2 := by norm_num

/-- C119: `crps_mixnorm`. -/
theorem C119_mixnorm (l : List (ℝ × ℝ × ℝ)) (hs : ∀ p ∈ l, 0 < p.2.1) (hw : ∀ p ∈ l, 0 ≤ p.2.2)
    (h1 : (l.map fun p => p.2.2).sum = 1) :
    CrpsShape Set.univ (fun y => Closed.mixnorm (fin y) (l.map fun p => fin p.1)
      (l.map fun p => fin p.2.1) (l.map fun p => fin p.2.2)) (cdfMix l) :=
  crpsShape_of (isDensity_mono (C57_mixnorm l hs hw h1).1) (fun y _ => (C72_mixnorm l hs hw h1 y).1) fun y _ => (C72_mixnorm l hs hw h1 y).2

/-- two components -/
example : ∃ l : List (ℝ × ℝ × ℝ), l.length = 2 ∧ (∀ p ∈ l, 0 < p.2.1) ∧ (∀ p ∈ l, 0 ≤ p.2.2) ∧
    (l.map fun p => p.2.2).sum = 1 :=
  ⟨[(0, 1, 1 / 4), (5, 2, 3 / 4)], rfl, by simp, by simp; norm_num, by norm_num⟩

/-- C119: `crps_t` with more than one degree of freedom. -/
theorem C119_t {ν σ : ℝ} (hν : 1 < ν) (hσ : 0 < σ) (μ : ℝ) :
    CrpsShape Set.univ (fun y => Closed.t (fin y) (fin ν) (fin μ) (fin σ)) (cdfT ν μ σ) :=
  crpsShape_of (isDensity_mono (C57_t (by linarith) hσ μ).1) (fun y _ => (C78_t hν hσ μ y).1) fun y _ => (C78_t hν hσ μ y).2

/-- infinite variance -/
example : (1:ℝ) < 3 / 2 ∧ (0:ℝ) < 3 := by norm_num

/-- C119: `crps_gtct` with two finite bounds, neither of them at the location (C83). -/
theorem C119_gtct {ν σ l u L U : ℝ} (hν : 1 < ν) (hσ : 0 < σ) (hlu : l < u) (hL : 0 ≤ L) (hU : 0 ≤ U)
    (hLU : L + U < 1) {μ : ℝ} (hl : l ≠ μ) (hu : u ≠ μ) :
    CrpsShape Set.univ (fun y => Closed.gtct (fin y) (fin ν) (fin μ) (fin σ) (fin l) (fin u)
      (fin L) (fin U)) (cdfGtc (cdfT ν μ σ) l u L U) :=
  crpsShape_of (cdfGtc_mono (isDensity_mono (C57_t (by linarith) hσ μ).1) hlu.le hL hU hLU.le) (fun y _ => (C83_gtct_partial hν hσ hlu hL hU hLU hl hu y).1) fun y _ => (C83_gtct_partial hν hσ hlu hL hU hLU hl hu y).2

/-- point masses at both ends, location one -/
example : (1:ℝ) < 5 ∧ (0:ℝ) < 3 ∧ (0:ℝ) < 2 ∧ (0:ℝ) ≤ 1 / 4 ∧ (1 / 4 : ℝ) + 1 / 2 < 1 ∧ (0:ℝ) ≠ 1 ∧ (2:ℝ) ≠ 1 := by
  norm_num

/-- C119: `crps_lognormal` for observations that are never negative (C73). -/
theorem C119_lognormal (μ : ℝ) {σ : ℝ} (hσ : 0 < σ) :
    CrpsShape (Set.Ici 0) (fun y => Closed.lognormal (fin y) (fin μ) (fin σ)) (cdfLog (cdfNormal μ σ)) :=
  crpsShape_of (isDensity_mono (C57_lognormal μ hσ).1) (fun y _ => hasCrps_all (isDensity_continuous (C57_lognormal μ hσ).1).measurable.aemeasurable
      (C73_partial μ hσ le_rfl).1 y) fun y hy => (C73_partial μ hσ hy).2

/-- a scale -/
example : (0:ℝ) < 3 := by norm_num

/-- C119: `crps_loglogistic` for observations that are never negative (C74). -/
theorem C119_loglogistic (μ : ℝ) {σ : ℝ} (hσ : 0 < σ) (hσ1 : σ < 1) :
    CrpsShape (Set.Ici 0) (fun y => Closed.loglogistic (fin y) (fin μ) (fin σ)) (cdfLog (cdfLogistic μ σ)) :=
  crpsShape_of (isDensity_mono (C57_loglogistic μ hσ).1) (fun y _ => hasCrps_all (isDensity_continuous (C57_loglogistic μ hσ).1).measurable.aemeasurable
      (C74_partial μ hσ hσ1 le_rfl).1 y) fun y hy => (C74_partial μ hσ hσ1 hy).2

/-- a scale below one -/
example : (0:ℝ) < 1 / 2 ∧ (1 / 2 : ℝ) < 1 := by norm_num

/-- C119: `crps_loglaplace` for positive observations (C56). -/
theorem C119_loglaplace (μ : ℝ) {σ : ℝ} (hσ : 0 < σ) (hσ1 : σ < 1) :
    CrpsShape (Set.Ioi 0) (fun y => Closed.loglaplace (fin y) (fin μ) (fin σ)) (cdfLog (cdfLaplace μ σ)) :=
  crpsShape_of (isDensity_mono (C57_loglaplace μ hσ).1) (fun y _ => hasCrps_all (isDensity_continuous (C57_loglaplace μ hσ).1).measurable.aemeasurable
      (C56_crps_partial μ hσ hσ1 one_pos).1 y) fun y hy => (C56_crps_partial μ hσ hσ1 hy).2

/-- a scale below one -/
example : (0:ℝ) < 1 / 2 ∧ (1 / 2 : ℝ) < 1 := by norm_num

/-- C119: `crps_csg0` for observations that are never negative (C76). -/
theorem C119_csg0 {α β δ : ℝ} (hα : 0 < α) (hβ : 0 < β) :
    CrpsShape (Set.Ici 0) (fun y => Closed.csg0 (fin y) (fin α) (fin β) (fin δ)) (cdfCsg0 α β δ) :=
  crpsShape_of (cdfCsg0_mono hα hβ δ) (fun y _ => hasCrps_all (aemeasurable_csg0 hα hβ δ) (C76_partial hα hβ (Or.inl le_rfl)).1 y) fun y hy => (C76_partial hα hβ (Or.inl hy)).2

/-- a shape and a rate -/
example : (0:ℝ) < 1 / 2 ∧ (0:ℝ) < 3 := by norm_num

/-- C119: `crps_poisson`. -/
theorem C119_poisson {μ : ℝ} (h : 0 ≤ μ) :
    CrpsShape Set.univ (fun y => Closed.poisson (fin y) (fin μ)) (cdfPmf (pmfPois μ)) :=
  crpsShape_of (cdfPmf_mono (C80_poisson h 0).1) (fun y _ => (C80_poisson h y).2.1) fun y _ => (C80_poisson h y).2.2

/-- a mean -/
example : (0:ℝ) ≤ 5 / 2 := by norm_num

/-- C119: `crps_hypergeometric` when the code's sum covers the support (C55). -/
theorem C119_hypergeometric {m n K : ℕ} (h : K ≤ m + n) (hs : min m K ≤ n) :
    CrpsShape Set.univ (fun y => Closed.hypergeometric (fin y) m n K) (cdfPmf (pmfHypergeo m n K)) :=
  crpsShape_of (cdfPmf_mono (C55_partial h hs 0).1) (fun y _ => (C55_partial h hs y).2.1) fun y _ => (C55_partial h hs y).2.2

/-- four draws from three successes and six failures -/
example : (4:ℕ) ≤ 3 + 6 ∧ min 3 4 ≤ 6 := by norm_num

/-- C119: `crps_negbinom`. -/
theorem C119_negbinom {r p : ℝ} (hr : 0 < r) (h0 : 0 < p) (h1 : p ≤ 1) :
    ∃ S : ℝ → XF, (∀ y, Api.crpsNegbinom (fin y) (fin r) (some (fin p)) none = .ok (S y)) ∧
      CrpsShape Set.univ S (cdfPmf (pmfNegbinom r p)) :=
  ⟨fun y => fin (crps (cdfPmf (pmfNegbinom r p)) y), fun y => (C81_negbinom hr h0 h1 y).2.2,
    crpsShape_of (cdfPmf_mono (C81_negbinom hr h0 h1 0).1) (fun y _ => (C81_negbinom hr h0 h1 y).2.1) fun _ _ => rfl⟩

/-- a size that is not an integer -/
example : (0:ℝ) < 5 / 2 ∧ (0:ℝ) < 1 / 3 ∧ (1 / 3 : ℝ) ≤ 1 := by norm_num

/-- C119: `crps_beta` for observations between the bounds (C77). -/
theorem C119_beta {a b l u : ℝ} (ha : 0 < a) (hb : 0 < b) (hlu : l < u) :
    ∃ S : ℝ → XF, (∀ y ∈ Set.Icc l u, Closed.beta (fin y) (fin a) (fin b) (fin l) (fin u) = .ok (S y)) ∧
      CrpsShape (Set.Icc l u) S (cdfBeta a b l u) :=
  ⟨fun y => fin (crps (cdfBeta a b l u) y), fun y hy => (C77_partial ha hb hlu hy).2,
    crpsShape_of (isDensity_mono (dist_beta ha hb hlu)) (fun y _ => hasCrps_all (isDensity_continuous (dist_beta ha hb hlu)).measurable.aemeasurable
        (C77_partial ha hb hlu ⟨le_rfl, hlu.le⟩).1 y) fun y _ => rfl⟩

/-- an unbounded density on `[-1, 2]` -/
example : (0:ℝ) < 1 / 2 ∧ (0:ℝ) < 3 ∧ (-1:ℝ) < 2 := by norm_num

/-- C119 is false for `crps_binomial` with probability one: there the score changes three times as fast as the
observation, so it is not the score of any distribution function in the sense of `CrpsShape`. -/
theorem C119_binomial_false (n : ℕ) (F : ℝ → ℝ) :
    ¬ CrpsShape Set.univ (fun y => Closed.binomial (fin y) n (fin 1)) F := by
  rintro ⟨s, hs, h⟩
  have e : ∀ t : ℝ, 0 < t → s (n - t) = 3 * t := by
    intro t ht
    have h1 := hs (n - t) trivial
    simp only [(C79_prob_one_fails n ((n:ℝ) - t)).1 (by linarith)] at h1
    rw [sub_sub_cancel, abs_of_pos ht] at h1
    exact (fin.inj h1).symm
  have h1 := (h (n - 2) trivial (n - 1) trivial (by linarith)).2.2
  rw [e 2 two_pos, e 1 one_pos] at h1
  norm_num at h1

/-- the forecast that is certain of three successes -/
example : ¬ CrpsShape Set.univ (fun y => Closed.binomial (fin y) 3 (fin 1)) (cdfPmf (pmfBinom 3 1)) :=
  C119_binomial_false 3 _

end Verif
