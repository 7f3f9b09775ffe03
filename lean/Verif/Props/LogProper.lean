import Verif.Lemmas.LogProper
import Verif.Lemmas.NormalConv
import Verif.Props.Logs
import Verif.Props.LogsDiscrete
import Verif.Props.TDist
import Verif.Props.Beta
import Verif.Props.Gamma
import Verif.Props.Gev
import Verif.Props.Proper
import Mathlib.Probability.Distributions.Gaussian.Real

/-!
# C102: the logarithmic scores are strictly proper

For every law of the observation with a density the expected score is at least the entropy of the law, with
equality only for the forecast that is the law itself.
-/

noncomputable section

open scoped Classical
open MeasureTheory

namespace Verif

open XF Py Spec

/-! ### The uniform law on `[1, 2]`, used in the examples -/

theorem hasMean_unif {S : ℝ → XF} {s : ℝ → ℝ} (hs : ContinuousOn s (Set.Icc 1 2))
    (hS : ∀ y ∈ Set.Icc (1:ℝ) 2, S y = fin (s y)) :
    HasMean (lawOf (densUniform 1 2)) S (∫ y in Set.Icc 1 2, s y) := by
  have hU := (C57_uniform (by norm_num : (1:ℝ) < 2)).1
  have e : (fun y => densUniform 1 2 y * s y) = (Set.Icc (1:ℝ) 2).indicator s := by
    funext y
    unfold densUniform Set.indicator
    norm_num
  refine ⟨s, ?_, ?_, ?_⟩
  · rw [ae_lawOf hU]
    refine Filter.Eventually.of_forall fun y hy => hS y ?_
    unfold densUniform at hy
    by_contra h
    exact hy (if_neg h)
  · rw [integrable_lawOf hU, e, integrable_indicator_iff measurableSet_Icc]
    exact hs.integrableOn_Icc
  · rw [integral_lawOf hU, e, integral_indicator measurableSet_Icc]

theorem Spec.LogProper.unif {S : ℝ → XF} {G g h : ℝ → ℝ} {c : ℝ} (hp : LogProper S G)
    (hS : ∀ y, S y = negLog (g y)) (hc : 0 < c) (hg : ∀ y ∈ Set.Icc (1:ℝ) 2, g y = h y / c)
    (hh : ContinuousOn h (Set.Icc 1 2)) (h0 : ∀ y ∈ Set.Icc (1:ℝ) 2, 0 < h y) :
    ∃ e, HasMean (lawOf (densUniform 1 2)) S e ∧ 0 ≤ e := by
  have h1 : HasMean (lawOf (densUniform 1 2)) S (∫ y in Set.Icc 1 2, -Real.log (h y / c)) := by
    refine hasMean_unif ?_ fun y hy => ?_
    · exact ((hh.div_const c).log fun y hy => (div_pos (h0 y hy) hc).ne').neg
    · rw [hS, negLog, hg y hy, if_neg (div_pos (h0 y hy) hc).ne']
  have h2 : HasMean (lawOf (densUniform 1 2)) (fun y => negLog (densUniform 1 2 y)) 0 := by
    have := hasMean_unif (S := fun y => negLog (densUniform 1 2 y)) (s := fun _ => 0) continuousOn_const
      fun y hy => by
        have : densUniform 1 2 y = 1 := by
          unfold densUniform
          rw [if_pos ⟨hy.1, hy.2⟩]
          norm_num
        simp [negLog, this]
    simpa using this
  exact ⟨_, h1, (hp _ _ (C57_uniform (by norm_num : (1:ℝ) < 2)).1 _ _ h2 h1).1⟩

theorem ex_φ : Continuous φ := by unfold φ; fun_prop
theorem ex_ne : ∀ y ∈ Set.Icc (1:ℝ) 2, id y ≠ 0 := fun y hy => by have := hy.1; simp; linarith
theorem ex_log : ContinuousOn Real.log (Set.Icc 1 2) := continuousOn_id.log ex_ne
theorem ex_normal_cont : Continuous (densNormal 0 1) :=
  (ex_φ.comp (by fun_prop : Continuous fun y : ℝ => (y - 0) / 1)).div_const 1
theorem ex_normal_dpos (y : ℝ) : 0 < densNormal 0 1 y := div_pos (φ_pos _) one_pos
theorem ex_laplace_cont : Continuous (densLaplace 0 1) := by unfold densLaplace; fun_prop
theorem ex_laplace_dpos (y : ℝ) : 0 < densLaplace 0 1 y := by unfold densLaplace; positivity
theorem ex_logistic_cont : Continuous (densLogistic 0 1) := by
  unfold densLogistic
  refine Continuous.div (by fun_prop) (by fun_prop) fun y => by positivity
theorem ex_logistic_dpos (y : ℝ) : 0 < densLogistic 0 1 y := by unfold densLogistic; positivity
theorem ex_t_cont : Continuous (densT 1 0 1) := by
  unfold densT
  refine Continuous.div_const (Continuous.mul continuous_const ?_) _
  exact Continuous.rpow_const (by fun_prop) fun y => .inl (by positivity)
theorem ex_t_dpos (y : ℝ) : 0 < densT 1 0 1 y := by
  unfold densT
  have := Real.Gamma_pos_of_pos (show (0:ℝ) < (1 + 1) / 2 by norm_num)
  have := Real.Gamma_pos_of_pos (show (0:ℝ) < 1 / 2 by norm_num)
  positivity
theorem ex_normal {x y : ℝ} (h : x < y) : cdfNormal 0 1 x < cdfNormal 0 1 y := Φ_strictMono (by simpa using h)
theorem ex_normal_pos (x : ℝ) : 0 < cdfNormal 0 1 x := Φ_pos _
theorem ex_normal_lt (x : ℝ) : cdfNormal 0 1 x < 1 := Φ_lt_one _
theorem ex_logistic {x y : ℝ} (h : x < y) : cdfLogistic 0 1 x < cdfLogistic 0 1 y :=
  logis_strictMono (by simpa using h)
theorem ex_logistic_pos (x : ℝ) : 0 < cdfLogistic 0 1 x := by unfold cdfLogistic; positivity
theorem ex_logistic_lt (x : ℝ) : cdfLogistic 0 1 x < 1 := by
  unfold cdfLogistic
  rw [div_lt_one (by positivity)]
  linarith [Real.exp_pos (-((x - 0) / 1))]
theorem ex_t {x y : ℝ} (h : x < y) : cdfT 1 0 1 x < cdfT 1 0 1 y := cdfT_strictMono one_pos one_pos 0 h
theorem ex_t_pos (x : ℝ) : 0 < cdfT 1 0 1 x := cdfT_pos one_pos one_pos 0 x
theorem ex_t_lt (x : ℝ) : cdfT 1 0 1 x < 1 := cdfT_lt_one one_pos one_pos 0 x

/-! ### Continuous families -/

/-- C102: `logs_exponential`. -/
theorem C102_exponential {r : ℝ} (hr : 0 < r) :
    LogProper (fun y => Logs.exponential (fin y) (fin r)) (cdfExp r) :=
  logProper_of (C57_exponential hr).1 (.of_forall (C57_exponential hr).2)

example : ∃ e, HasMean (lawOf (densUniform 1 2)) (fun y => Logs.exponential (fin y) (fin 1)) e ∧ 0 ≤ e :=
  (C102_exponential one_pos).unif ((C57_exponential one_pos).2) one_pos (h := (fun y => 1 * Real.exp (-(1 * y))))
    (fun y hy => by simp [densExp, show ¬ y < 0 by linarith [hy.1]])
    (by fun_prop)
    (fun y hy => by positivity)

/-- C102: `logs_exponential2`. -/
theorem C102_exponential2 (μ : ℝ) {σ : ℝ} (hσ : 0 < σ) :
    LogProper (fun y => Logs.exponential2 (fin y) (fin μ) (fin σ)) (cdfExpM 0 μ σ) :=
  logProper_of (C57_exponential2 μ hσ).1 (.of_forall (C57_exponential2 μ hσ).2)

example : ∃ e, HasMean (lawOf (densUniform 1 2)) (fun y => Logs.exponential2 (fin y) (fin 0) (fin 1)) e ∧ 0 ≤ e :=
  (C102_exponential2 0 one_pos).unif ((C57_exponential2 0 one_pos).2) one_pos (h := (fun y => Real.exp (-((y - 0) / 1)) / 1))
    (fun y hy => by simp [densExp2, show ¬ y < 0 by linarith [hy.1]])
    (by fun_prop)
    (fun y hy => by positivity)

/-- C102: `logs_2pexponential`. -/
theorem C102_2pexponential {a b : ℝ} (μ : ℝ) (ha : 0 < a) (hb : 0 < b) :
    LogProper (fun y => Logs.twopexponential (fin y) (fin a) (fin b) (fin μ)) (cdf2pexp a b μ) :=
  logProper_of (C57_2pexponential μ ha hb).1 (.of_forall (C57_2pexponential μ ha hb).2)

example : ∃ e, HasMean (lawOf (densUniform 1 2)) (fun y => Logs.twopexponential (fin y) (fin 1) (fin 2) (fin 0)) e ∧ 0 ≤ e :=
  (C102_2pexponential 0 one_pos two_pos).unif ((C57_2pexponential 0 one_pos two_pos).2) one_pos (h := (fun y => Real.exp (-((y - 0) / 2)) / (1 + 2)))
    (fun y hy => by simp [dens2pexp, show ¬ y < 0 by linarith [hy.1]])
    (by fun_prop)
    (fun y hy => by positivity)

/-- C102: `logs_laplace`. -/
theorem C102_laplace (μ : ℝ) {σ : ℝ} (hσ : 0 < σ) :
    LogProper (fun y => Logs.laplace (fin y) (fin μ) (fin σ)) (cdfLaplace μ σ) :=
  logProper_of (C57_laplace μ hσ).1 (.of_forall (C57_laplace μ hσ).2)

example : ∃ e, HasMean (lawOf (densUniform 1 2)) (fun y => Logs.laplace (fin y) (fin 0) (fin 1)) e ∧ 0 ≤ e :=
  (C102_laplace 0 one_pos).unif ((C57_laplace 0 one_pos).2) one_pos (h := (fun y => Real.exp (-|(y - 0) / 1|) / (2 * 1)))
    (fun y hy => by simp [densLaplace])
    (ex_laplace_cont.continuousOn)
    (fun y hy => by positivity)

/-- C102: `logs_logistic`. -/
theorem C102_logistic (μ : ℝ) {σ : ℝ} (hσ : 0 < σ) :
    LogProper (fun y => Logs.logistic (fin y) (fin μ) (fin σ)) (cdfLogistic μ σ) :=
  logProper_of (C57_logistic μ hσ).1 (.of_forall (C57_logistic μ hσ).2)

example : ∃ e, HasMean (lawOf (densUniform 1 2)) (fun y => Logs.logistic (fin y) (fin 0) (fin 1)) e ∧ 0 ≤ e :=
  (C102_logistic 0 one_pos).unif ((C57_logistic 0 one_pos).2) one_pos (h := (fun y => Real.exp (-((y - 0) / 1)) / (1 * (1 + Real.exp (-((y - 0) / 1))) ^ 2)))
    (fun y hy => by simp [densLogistic])
    (ex_logistic_cont.continuousOn)
    (fun y hy => by positivity)

/-- C102: `logs_uniform`. -/
theorem C102_uniform {l u : ℝ} (h : l < u) :
    LogProper (fun y => Logs.uniform (fin y) (fin l) (fin u)) (cdfUniform l u 0 0) :=
  logProper_of (C57_uniform h).1 (.of_forall (C57_uniform h).2)

example : ∃ e, HasMean (lawOf (densUniform 1 2)) (fun y => Logs.uniform (fin y) (fin 0) (fin 4)) e ∧ 0 ≤ e :=
  (C102_uniform (by norm_num : (0:ℝ) < 4)).unif ((C57_uniform (by norm_num : (0:ℝ) < 4)).2) one_pos (h := (fun _ => 1 / (4 - 0)))
    (fun y hy => by simp [densUniform, show (0:ℝ) ≤ y by linarith [hy.1], show y ≤ 4 by linarith [hy.2]])
    (by fun_prop)
    (fun y hy => by norm_num)

/-- C102: `logs_gpd`. -/
theorem C102_gpd (ξ μ : ℝ) {σ : ℝ} (hσ : 0 < σ) :
    LogProper (fun y => Logs.gpd (fin y) (fin ξ) (fin μ) (fin σ)) (cdfGpd 0 ξ μ σ) := by
  refine logProper_of (C57_gpd ξ μ hσ).1 ?_
  filter_upwards [Measure.ae_ne volume (μ + σ * (-1 / ξ))] with y hy
  refine (C57_gpd ξ μ hσ).2 y fun h => hy ?_
  rw [← h.2]
  field_simp
  ring

example : ∃ e, HasMean (lawOf (densUniform 1 2)) (fun y => Logs.gpd (fin y) (fin 1) (fin 0) (fin 1)) e ∧ 0 ≤ e :=
  (C102_gpd 1 0 one_pos).unif (fun y => (C57_gpd 1 0 one_pos).2 y (by norm_num)) one_pos (h := (fun y => (1 + 1 * ((y - 0) / 1)) ^ (-((1:ℝ) + 1) / 1) / 1))
    (fun y hy => by simp [densGpd, show ¬ y < 0 by linarith [hy.1]])
    (((by fun_prop : Continuous fun y : ℝ => 1 + 1 * ((y - 0) / 1)).continuousOn.rpow_const fun y hy => .inl (by
      have := hy.1
      simp only [sub_zero, div_one]
      linarith)).div_const 1)
    (fun y hy => by
      have := hy.1
      have : 0 < 1 + 1 * ((y - 0) / 1) := by
        simp only [sub_zero, div_one]
        linarith
      positivity)

/-- C102: `logs_normal`. -/
theorem C102_normal (μ : ℝ) {σ : ℝ} (hσ : 0 < σ) :
    LogProper (fun y => Logs.normal (fin y) (fin μ) (fin σ) true) (cdfNormal μ σ) :=
  logProper_of (C57_normal μ hσ).1 (.of_forall fun y => ((C57_normal μ hσ).2 y).1)

example : ∃ e, HasMean (lawOf (densUniform 1 2)) (fun y => Logs.normal (fin y) (fin 0) (fin 1) true) e ∧ 0 ≤ e :=
  (C102_normal 0 one_pos).unif (fun y => ((C57_normal 0 one_pos).2 y).1) one_pos (h := (fun y => φ ((y - 0) / 1) / 1))
    (fun y hy => by simp [densNormal])
    (ex_normal_cont.continuousOn)
    (fun y hy => ex_normal_dpos y)

/-- C102: `logs_lognormal`. -/
theorem C102_lognormal (μ : ℝ) {σ : ℝ} (hσ : 0 < σ) :
    LogProper (fun y => Logs.lognormal (fin y) (fin μ) (fin σ)) (cdfLog (cdfNormal μ σ)) :=
  logProper_of (C57_lognormal μ hσ).1 (.of_forall (C57_lognormal μ hσ).2)

example : ∃ e, HasMean (lawOf (densUniform 1 2)) (fun y => Logs.lognormal (fin y) (fin 0) (fin 1)) e ∧ 0 ≤ e :=
  (C102_lognormal 0 one_pos).unif ((C57_lognormal 0 one_pos).2) one_pos (h := (fun y => φ ((Real.log y - 0) / 1) / 1 / y))
    (fun y hy => by simp [densLog, densNormal, show ¬ y ≤ 0 by linarith [hy.1]])
    ((((ex_φ.comp_continuousOn ((ex_log.sub continuousOn_const).div_const 1))).div_const 1).div continuousOn_id ex_ne)
    (fun y hy => div_pos (by have := φ_pos ((Real.log y - 0) / 1); positivity) (by linarith [hy.1]))

/-- C102: `logs_loglogistic`. -/
theorem C102_loglogistic (μ : ℝ) {σ : ℝ} (hσ : 0 < σ) :
    LogProper (fun y => Logs.loglogistic (fin y) (fin μ) (fin σ)) (cdfLog (cdfLogistic μ σ)) :=
  logProper_of (C57_loglogistic μ hσ).1 (.of_forall (C57_loglogistic μ hσ).2)

example : ∃ e, HasMean (lawOf (densUniform 1 2)) (fun y => Logs.loglogistic (fin y) (fin 0) (fin 1)) e ∧ 0 ≤ e :=
  (C102_loglogistic 0 one_pos).unif ((C57_loglogistic 0 one_pos).2) one_pos (h := (fun y => densLogistic 0 1 (Real.log y) / y))
    (fun y hy => by simp [densLog, show ¬ y ≤ 0 by linarith [hy.1]])
    ((ex_logistic_cont.comp_continuousOn ex_log).div continuousOn_id ex_ne)
    (fun y hy => div_pos (ex_logistic_dpos _) (by linarith [hy.1]))

/-- C102: `logs_loglaplace`. -/
theorem C102_loglaplace (μ : ℝ) {σ : ℝ} (hσ : 0 < σ) :
    LogProper (fun y => Logs.loglaplace (fin y) (fin μ) (fin σ)) (cdfLog (cdfLaplace μ σ)) :=
  logProper_of (C57_loglaplace μ hσ).1 (.of_forall (C57_loglaplace μ hσ).2)

example : ∃ e, HasMean (lawOf (densUniform 1 2)) (fun y => Logs.loglaplace (fin y) (fin 0) (fin 1)) e ∧ 0 ≤ e :=
  (C102_loglaplace 0 one_pos).unif ((C57_loglaplace 0 one_pos).2) one_pos (h := (fun y => densLaplace 0 1 (Real.log y) / y))
    (fun y hy => by simp [densLog, show ¬ y ≤ 0 by linarith [hy.1]])
    ((ex_laplace_cont.comp_continuousOn ex_log).div continuousOn_id ex_ne)
    (fun y hy => div_pos (ex_laplace_dpos _) (by linarith [hy.1]))

/-- C102: `logs_2pnormal`. -/
theorem C102_2pnormal {a b : ℝ} (μ : ℝ) (ha : 0 < a) (hb : 0 < b) :
    LogProper (fun y => Logs.twopnormal (fin y) (fin a) (fin b) (fin μ)) (cdf2pnormal a b μ) :=
  logProper_of (C57_2pnormal μ ha hb).1 (.of_forall (C57_2pnormal μ ha hb).2)

example : ∃ e, HasMean (lawOf (densUniform 1 2)) (fun y => Logs.twopnormal (fin y) (fin 1) (fin 2) (fin 0)) e ∧ 0 ≤ e :=
  (C102_2pnormal 0 one_pos two_pos).unif ((C57_2pnormal 0 one_pos two_pos).2) one_pos (h := (fun y => 2 / (1 + 2) * φ ((y - 0) / 2)))
    (fun y hy => by simp [dens2pnormal, show ¬ y < 0 by linarith [hy.1]])
    (((ex_φ.comp (by fun_prop : Continuous fun y : ℝ => (y - 0) / 2)).const_mul _).continuousOn)
    (fun y hy => by have := φ_pos ((y - 0) / 2); positivity)

/-- C102: `logs_mixnorm`. -/
theorem C102_mixnorm (l : List (ℝ × ℝ × ℝ)) (hs : ∀ p ∈ l, 0 < p.2.1) (hw : ∀ p ∈ l, 0 ≤ p.2.2)
    (h1 : (l.map fun p => p.2.2).sum = 1) :
    LogProper (fun y => Logs.mixnorm (fin y) (l.map fun p => fin p.1) (l.map fun p => fin p.2.1)
      (l.map fun p => fin p.2.2)) (cdfMix l) :=
  logProper_of (C57_mixnorm l hs hw h1).1 (.of_forall (C57_mixnorm l hs hw h1).2)

example : ∃ e, HasMean (lawOf (densUniform 1 2)) (fun y => Logs.mixnorm (fin y) [fin 0, fin 1] [fin 1, fin 2] [fin (1 / 2), fin (1 / 2)]) e ∧ 0 ≤ e :=
  (C102_mixnorm [(0, 1, 1 / 2), (1, 2, 1 / 2)] (by simp) (by simp) (by norm_num)).unif ((C57_mixnorm [(0, 1, 1 / 2), (1, 2, 1 / 2)] (by simp) (by simp) (by norm_num)).2) one_pos (h := (fun y => 1 / 2 * (φ ((y - 0) / 1) / 1) + 1 / 2 * (φ ((y - 1) / 2) / 2)))
    (fun y hy => by simp [densMix, densNormal])
    (((((ex_φ.comp (by fun_prop : Continuous fun y : ℝ => (y - 0) / 1)).div_const 1).const_mul _).add
      (((ex_φ.comp (by fun_prop : Continuous fun y : ℝ => (y - 1) / 2)).div_const 2).const_mul _)).continuousOn)
    (fun y hy => by have := φ_pos ((y - 0) / 1); have := φ_pos ((y - 1) / 2); positivity)

/-- C102: `logs_tnormal`. -/
theorem C102_tnormal (μ : ℝ) {σ l u : ℝ} (hσ : 0 < σ) (hlu : l < u) :
    LogProper (fun y => Logs.tnormal (fin y) (fin μ) (fin σ) (fin l) (fin u)) (cdfTrunc (cdfNormal μ σ) l u) :=
  logProper_of (C57_tnormal μ hσ hlu).1 (.of_forall (C57_tnormal μ hσ hlu).2)

example : ∃ e, HasMean (lawOf (densUniform 1 2)) (fun y => Logs.tnormal (fin y) (fin 0) (fin 1) (fin 0) (fin 4)) e ∧ 0 ≤ e :=
  (C102_tnormal 0 one_pos (by norm_num : (0:ℝ) < 4)).unif ((C57_tnormal 0 one_pos (by norm_num : (0:ℝ) < 4)).2) (sub_pos.2 (ex_normal (by norm_num : (0:ℝ) < 4))) (h := (densNormal 0 1))
    (fun y hy => by simp [densTrunc, densTruncLo, densTruncUp, show (0:ℝ) ≤ y by linarith [hy.1], show y ≤ 4 by linarith [hy.2]])
    (ex_normal_cont.continuousOn)
    (fun y hy => ex_normal_dpos y)

/-- C102: `logs_tlogistic`. -/
theorem C102_tlogistic (μ : ℝ) {σ l u : ℝ} (hσ : 0 < σ) (hlu : l < u) :
    LogProper (fun y => Logs.tlogistic (fin y) (fin μ) (fin σ) (fin l) (fin u)) (cdfTrunc (cdfLogistic μ σ) l u) :=
  logProper_of (C57_tlogistic μ hσ hlu).1 (.of_forall (C57_tlogistic μ hσ hlu).2)

example : ∃ e, HasMean (lawOf (densUniform 1 2)) (fun y => Logs.tlogistic (fin y) (fin 0) (fin 1) (fin 0) (fin 4)) e ∧ 0 ≤ e :=
  (C102_tlogistic 0 one_pos (by norm_num : (0:ℝ) < 4)).unif ((C57_tlogistic 0 one_pos (by norm_num : (0:ℝ) < 4)).2) (sub_pos.2 (ex_logistic (by norm_num : (0:ℝ) < 4))) (h := (densLogistic 0 1))
    (fun y hy => by simp [densTrunc, densTruncLo, densTruncUp, show (0:ℝ) ≤ y by linarith [hy.1], show y ≤ 4 by linarith [hy.2]])
    (ex_logistic_cont.continuousOn)
    (fun y hy => ex_logistic_dpos y)

/-- C102: `logs_tnormal` with a lower bound only. -/
theorem C102_tnormal_lower (μ : ℝ) {σ : ℝ} (l : ℝ) (hσ : 0 < σ) :
    LogProper (fun y => Logs.tnormal (fin y) (fin μ) (fin σ) (fin l) pinf) (cdfTruncLo (cdfNormal μ σ) l) :=
  logProper_of (C57_tnormal_lower μ l hσ).1 (.of_forall (C57_tnormal_lower μ l hσ).2)

example : ∃ e, HasMean (lawOf (densUniform 1 2)) (fun y => Logs.tnormal (fin y) (fin 0) (fin 1) (fin 0) pinf) e ∧ 0 ≤ e :=
  (C102_tnormal_lower 0 0 one_pos).unif ((C57_tnormal_lower 0 0 one_pos).2) (sub_pos.2 (ex_normal_lt 0)) (h := (densNormal 0 1))
    (fun y hy => by simp [densTrunc, densTruncLo, densTruncUp, show (0:ℝ) ≤ y by linarith [hy.1], show y ≤ 4 by linarith [hy.2]])
    (ex_normal_cont.continuousOn)
    (fun y hy => ex_normal_dpos y)

/-- C102: `logs_tnormal` with a upper bound only. -/
theorem C102_tnormal_upper (μ : ℝ) {σ : ℝ} (u : ℝ) (hσ : 0 < σ) :
    LogProper (fun y => Logs.tnormal (fin y) (fin μ) (fin σ) ninf (fin u)) (cdfTruncUp (cdfNormal μ σ) u) :=
  logProper_of (C57_tnormal_upper μ u hσ).1 (.of_forall (C57_tnormal_upper μ u hσ).2)

example : ∃ e, HasMean (lawOf (densUniform 1 2)) (fun y => Logs.tnormal (fin y) (fin 0) (fin 1) ninf (fin 4)) e ∧ 0 ≤ e :=
  (C102_tnormal_upper 0 4 one_pos).unif ((C57_tnormal_upper 0 4 one_pos).2) (ex_normal_pos 4) (h := (densNormal 0 1))
    (fun y hy => by simp [densTrunc, densTruncLo, densTruncUp, show (0:ℝ) ≤ y by linarith [hy.1], show y ≤ 4 by linarith [hy.2]])
    (ex_normal_cont.continuousOn)
    (fun y hy => ex_normal_dpos y)

/-- C102: `logs_tlogistic` with a lower bound only. -/
theorem C102_tlogistic_lower (μ : ℝ) {σ : ℝ} (l : ℝ) (hσ : 0 < σ) :
    LogProper (fun y => Logs.tlogistic (fin y) (fin μ) (fin σ) (fin l) pinf) (cdfTruncLo (cdfLogistic μ σ) l) :=
  logProper_of (C57_tlogistic_lower μ l hσ).1 (.of_forall (C57_tlogistic_lower μ l hσ).2)

example : ∃ e, HasMean (lawOf (densUniform 1 2)) (fun y => Logs.tlogistic (fin y) (fin 0) (fin 1) (fin 0) pinf) e ∧ 0 ≤ e :=
  (C102_tlogistic_lower 0 0 one_pos).unif ((C57_tlogistic_lower 0 0 one_pos).2) (sub_pos.2 (ex_logistic_lt 0)) (h := (densLogistic 0 1))
    (fun y hy => by simp [densTrunc, densTruncLo, densTruncUp, show (0:ℝ) ≤ y by linarith [hy.1], show y ≤ 4 by linarith [hy.2]])
    (ex_logistic_cont.continuousOn)
    (fun y hy => ex_logistic_dpos y)

/-- C102: `logs_tlogistic` with a upper bound only. -/
theorem C102_tlogistic_upper (μ : ℝ) {σ : ℝ} (u : ℝ) (hσ : 0 < σ) :
    LogProper (fun y => Logs.tlogistic (fin y) (fin μ) (fin σ) ninf (fin u)) (cdfTruncUp (cdfLogistic μ σ) u) :=
  logProper_of (C57_tlogistic_upper μ u hσ).1 (.of_forall (C57_tlogistic_upper μ u hσ).2)

example : ∃ e, HasMean (lawOf (densUniform 1 2)) (fun y => Logs.tlogistic (fin y) (fin 0) (fin 1) ninf (fin 4)) e ∧ 0 ≤ e :=
  (C102_tlogistic_upper 0 4 one_pos).unif ((C57_tlogistic_upper 0 4 one_pos).2) (ex_logistic_pos 4) (h := (densLogistic 0 1))
    (fun y hy => by simp [densTrunc, densTruncLo, densTruncUp, show (0:ℝ) ≤ y by linarith [hy.1], show y ≤ 4 by linarith [hy.2]])
    (ex_logistic_cont.continuousOn)
    (fun y hy => ex_logistic_dpos y)

/-- C102: `logs_gev`. -/
theorem C102_gev (ξ μ : ℝ) {σ : ℝ} (hσ : 0 < σ) :
    LogProper (fun y => Logs.gev (fin y) (fin ξ) (fin μ) (fin σ)) (cdfGev ξ μ σ) :=
  logProper_of (C57_gev ξ μ hσ).1 (.of_forall (C57_gev ξ μ hσ).2)

example : ∃ e, HasMean (lawOf (densUniform 1 2)) (fun y => Logs.gev (fin y) (fin 0) (fin 0) (fin 1)) e ∧ 0 ≤ e :=
  (C102_gev 0 0 one_pos).unif ((C57_gev 0 0 one_pos).2) one_pos (h := (fun y => Real.exp (-y) * Real.exp (-Real.exp (-y))))
    (fun y hy => by simp [densGev, densGev0])
    (by fun_prop)
    (fun y hy => by positivity)

/-- C102: `logs_t`. -/
theorem C102_t {ν σ : ℝ} (hν : 0 < ν) (hσ : 0 < σ) (μ : ℝ) :
    LogProper (fun y => Logs.t (fin y) (fin ν) (fin μ) (fin σ)) (cdfT ν μ σ) :=
  logProper_of (C57_t hν hσ μ).1 (.of_forall (C57_t hν hσ μ).2)

example : ∃ e, HasMean (lawOf (densUniform 1 2)) (fun y => Logs.t (fin y) (fin 1) (fin 0) (fin 1)) e ∧ 0 ≤ e :=
  (C102_t one_pos one_pos 0).unif ((C57_t one_pos one_pos 0).2) one_pos (h := (fun y => densT 1 0 1 y))
    (fun y hy => by simp)
    (ex_t_cont.continuousOn)
    (fun y hy => ex_t_dpos y)

/-- C102: `logs_tt`. -/
theorem C102_tt {ν σ l u : ℝ} (hν : 0 < ν) (hσ : 0 < σ) (hlu : l < u) (μ : ℝ) :
    LogProper (fun y => Logs.tt (fin y) (fin ν) (fin μ) (fin σ) (fin l) (fin u)) (cdfTrunc (cdfT ν μ σ) l u) :=
  logProper_of (C57_tt hν hσ hlu μ).1 (.of_forall (C57_tt hν hσ hlu μ).2)

example : ∃ e, HasMean (lawOf (densUniform 1 2)) (fun y => Logs.tt (fin y) (fin 1) (fin 0) (fin 1) (fin 0) (fin 4)) e ∧ 0 ≤ e :=
  (C102_tt one_pos one_pos (by norm_num : (0:ℝ) < 4) 0).unif ((C57_tt one_pos one_pos (by norm_num : (0:ℝ) < 4) 0).2) (sub_pos.2 (ex_t (by norm_num : (0:ℝ) < 4))) (h := (densT 1 0 1))
    (fun y hy => by simp [densTrunc, densTruncLo, densTruncUp, show (0:ℝ) ≤ y by linarith [hy.1], show y ≤ 4 by linarith [hy.2]])
    (ex_t_cont.continuousOn)
    (fun y hy => ex_t_dpos y)

/-- C102: `logs_tt` with a lower bound only. -/
theorem C102_tt_lower {ν σ : ℝ} (hν : 0 < ν) (hσ : 0 < σ) (μ l : ℝ) :
    LogProper (fun y => Logs.tt (fin y) (fin ν) (fin μ) (fin σ) (fin l) pinf) (cdfTruncLo (cdfT ν μ σ) l) :=
  logProper_of (C57_tt_lower hν hσ μ l).1 (.of_forall (C57_tt_lower hν hσ μ l).2)

example : ∃ e, HasMean (lawOf (densUniform 1 2)) (fun y => Logs.tt (fin y) (fin 1) (fin 0) (fin 1) (fin 0) pinf) e ∧ 0 ≤ e :=
  (C102_tt_lower one_pos one_pos 0 0).unif ((C57_tt_lower one_pos one_pos 0 0).2) (sub_pos.2 (ex_t_lt 0)) (h := (densT 1 0 1))
    (fun y hy => by simp [densTrunc, densTruncLo, densTruncUp, show (0:ℝ) ≤ y by linarith [hy.1], show y ≤ 4 by linarith [hy.2]])
    (ex_t_cont.continuousOn)
    (fun y hy => ex_t_dpos y)

/-- C102: `logs_tt` with a upper bound only. -/
theorem C102_tt_upper {ν σ : ℝ} (hν : 0 < ν) (hσ : 0 < σ) (μ u : ℝ) :
    LogProper (fun y => Logs.tt (fin y) (fin ν) (fin μ) (fin σ) ninf (fin u)) (cdfTruncUp (cdfT ν μ σ) u) :=
  logProper_of (C57_tt_upper hν hσ μ u).1 (.of_forall (C57_tt_upper hν hσ μ u).2)

example : ∃ e, HasMean (lawOf (densUniform 1 2)) (fun y => Logs.tt (fin y) (fin 1) (fin 0) (fin 1) ninf (fin 4)) e ∧ 0 ≤ e :=
  (C102_tt_upper one_pos one_pos 0 4).unif ((C57_tt_upper one_pos one_pos 0 4).2) (ex_t_pos 4) (h := (densT 1 0 1))
    (fun y hy => by simp [densTrunc, densTruncLo, densTruncUp, show (0:ℝ) ≤ y by linarith [hy.1], show y ≤ 4 by linarith [hy.2]])
    (ex_t_cont.continuousOn)
    (fun y hy => ex_t_dpos y)

/-- C102: `logs_gamma`, called with a rate. -/
theorem C102_gamma {α β : ℝ} (hα : 0 < α) (hβ : 0 < β) {S : ℝ → XF}
    (hS : ∀ y, Api.logsGamma (fin y) (fin α) (some (fin β)) none = .ok (S y)) :
    LogProper S (cdfGamma α β) :=
  logProper_of (C57_gamma hα hβ).1
    (.of_forall fun y => by simpa using (hS y).symm.trans ((C57_gamma hα hβ).2 y))

example : ∃ S : ℝ → XF, (∀ y, Api.logsGamma (fin y) (fin 1) (some (fin 1)) none = .ok (S y)) ∧
    ∃ e, HasMean (lawOf (densUniform 1 2)) S e ∧ 0 ≤ e :=
  ⟨_, (C57_gamma one_pos one_pos).2,
    (C102_gamma one_pos one_pos (C57_gamma one_pos one_pos).2).unif (fun _ => rfl) one_pos
      (h := fun y => Real.exp (-y))
      (fun y hy => by simp [densGamma, show ¬ y ≤ 0 by linarith [hy.1]])
      (by fun_prop) (fun y _ => Real.exp_pos _)⟩

/-- C102: `logs_beta`. -/
theorem C102_beta {a b l u : ℝ} (ha : 0 < a) (hb : 0 < b) (hlu : l < u) :
    LogProper (fun y => Logs.beta (fin y) (fin a) (fin b) (fin l) (fin u)) (cdfBeta a b l u) := by
  refine logProper_of (C57_beta ha hb hlu).1 ?_
  filter_upwards [Measure.ae_ne volume l, Measure.ae_ne volume u] with y h1 h2
  exact (C57_beta ha hb hlu).2 y h1 h2

example : ∃ e, HasMean (lawOf (densUniform 1 2))
    (fun y => Logs.beta (fin y) (fin 1) (fin 1) (fin 0) (fin 4)) e ∧ 0 ≤ e := by
  have h1 : HasMean (lawOf (densUniform 1 2))
      (fun y => Logs.beta (fin y) (fin 1) (fin 1) (fin 0) (fin 4))
      (∫ y in Set.Icc (1:ℝ) 2, -Real.log (1 / 4)) := by
    refine hasMean_unif continuousOn_const fun y hy => ?_
    have h3 : 0 < y := by linarith [hy.1]
    have h4 : y < 4 := by linarith [hy.2]
    rw [(C57_beta one_pos one_pos (by norm_num : (0:ℝ) < 4)).2 y h3.ne' h4.ne]
    have : densBeta 1 1 0 4 y = 1 / 4 := by
      unfold densBeta
      rw [if_pos ⟨h3, h4⟩]
      have : Real.Gamma 2 = 1 := by simpa using Real.Gamma_nat_eq_factorial 1
      norm_num [this]
    rw [this, negLog, if_neg (by norm_num)]
  refine ⟨_, h1, ?_⟩
  rw [setIntegral_const, smul_eq_mul, Real.log_div one_ne_zero four_ne_zero, Real.log_one]
  have := Real.log_nonneg (show (1:ℝ) ≤ 4 by norm_num)
  have := measureReal_nonneg (μ := volume) (s := Set.Icc (1:ℝ) 2)
  have : 0 ≤ -(0 - Real.log 4) := by linarith
  positivity

/-! ### The normal family in closed form -/

theorem lawOf_normal (μ : ℝ) {σ : ℝ} (hσ : 0 < σ) : lawOf (densNormal μ σ) = gauss μ σ := by
  have hv : Real.toNNReal (σ ^ 2) ≠ 0 := (Real.toNNReal_pos.2 (by positivity)).ne'
  unfold lawOf gauss
  rw [ProbabilityTheory.gaussianReal_of_var_ne_zero _ hv]
  congr 1
  funext x
  rw [ProbabilityTheory.gaussianPDF, gauss_pdf hσ, densNormal]

theorem gauss_sq (μ m : ℝ) (σ : ℝ) :
    Integrable (fun y => (y - m) ^ 2) (gauss μ σ) ∧ ∫ y, (y - m) ^ 2 ∂(gauss μ σ) = σ ^ 2 + (μ - m) ^ 2 := by
  have hL : MemLp (fun y : ℝ => y) 2 (gauss μ σ) := ProbabilityTheory.memLp_id_gaussianReal 2
  have h2 : Integrable (fun y : ℝ => y ^ 2) (gauss μ σ) := hL.integrable_sq
  have h1 : Integrable (fun y : ℝ => y) (gauss μ σ) := hL.integrable (by norm_num)
  have hm : ∫ y, y ∂(gauss μ σ) = μ := ProbabilityTheory.integral_id_gaussianReal
  have hv : ∫ y, y ^ 2 ∂(gauss μ σ) = σ ^ 2 + μ ^ 2 := by
    have h3 := ProbabilityTheory.variance_eq_sub hL
    have h4 : ProbabilityTheory.variance (fun y : ℝ => y) (gauss μ σ) = σ ^ 2 := by
      unfold gauss
      rw [ProbabilityTheory.variance_fun_id_gaussianReal, Real.coe_toNNReal _ (sq_nonneg σ)]
    rw [h4, hm] at h3
    have h5 : ∫ y, ((fun y : ℝ => y) ^ 2) y ∂(gauss μ σ) = ∫ y, y ^ 2 ∂(gauss μ σ) := rfl
    rw [h5] at h3
    linarith
  have e : (fun y : ℝ => (y - m) ^ 2) = fun y => y ^ 2 - 2 * m * y + m ^ 2 := by funext y; ring
  have h6 : Integrable (fun y : ℝ => y ^ 2 - 2 * m * y) (gauss μ σ) := h2.sub (h1.const_mul _)
  rw [e]
  refine ⟨h6.add (integrable_const _), ?_⟩
  rw [integral_add h6 (integrable_const _), integral_sub h2 (h1.const_mul _), integral_const_mul, hm, hv,
    integral_const]
  simp
  ring

/-- C102: under the normal law with mean `μ` and standard deviation `σ` the mean logarithmic score of the
normal forecast `μ'`, `σ'` is `log σ' + log (2π) / 2 + (σ² + (μ - μ')²) / (2 σ'²)`. -/
theorem C102_normal_mean (μ μ' : ℝ) {σ σ' : ℝ} (hσ : 0 < σ) (hσ' : 0 < σ') :
    HasMean (lawOf (densNormal μ σ)) (fun y => Logs.normal (fin y) (fin μ') (fin σ') true)
      (Real.log σ' + Real.log (2 * Real.pi) / 2 + (σ ^ 2 + (μ - μ') ^ 2) / (2 * σ' ^ 2)) := by
  obtain ⟨hi, he⟩ := gauss_sq μ μ' σ
  rw [lawOf_normal μ hσ]
  refine ⟨fun y => Real.log σ' + Real.log (2 * Real.pi) / 2 + (y - μ') ^ 2 / (2 * σ' ^ 2),
    .of_forall fun y => ?_, (integrable_const _).add (hi.div_const _), ?_⟩
  · have hφ := φ_pos ((y - μ') / σ')
    have h0 : densNormal μ' σ' y ≠ 0 := (div_pos hφ hσ').ne'
    change Logs.normal (fin y) (fin μ') (fin σ') true = _
    rw [((C57_normal μ' hσ').2 y).1, negLog, if_neg h0]
    congr 1
    unfold densNormal φ
    rw [Real.log_div (by positivity) hσ'.ne', Real.log_div (by positivity) (by positivity), Real.log_exp,
      Real.log_sqrt (by positivity)]
    field_simp
    ring
  · rw [integral_add (integrable_const _) (hi.div_const _), integral_div, he, integral_const]
    simp

example : HasMean (lawOf (densNormal 0 1)) (fun y => Logs.normal (fin y) (fin 1) (fin 1) true)
    (Real.log (2 * Real.pi) / 2 + 1) := by
  have := C102_normal_mean 0 1 one_pos one_pos
  norm_num at this
  exact this

/-- C102: under a normal law the mean logarithmic score singles out the parameters of the law. -/
theorem C102_normal_parameters (μ μ' : ℝ) {σ σ' : ℝ} (hσ : 0 < σ) (hσ' : 0 < σ') :
    ∃ e e', HasMean (lawOf (densNormal μ σ)) (fun y => Logs.normal (fin y) (fin μ) (fin σ) true) e ∧
      HasMean (lawOf (densNormal μ σ)) (fun y => Logs.normal (fin y) (fin μ') (fin σ') true) e' ∧ e ≤ e' ∧
      (e = e' ↔ μ = μ' ∧ σ = σ') := by
  have h1 := C102_normal_mean μ μ hσ hσ
  have h2 := C102_normal_mean μ μ' hσ hσ'
  refine ⟨_, _, h1, h2, ?_⟩
  have h1' : HasMean (lawOf (densNormal μ σ)) (fun y => negLog (densNormal μ σ y))
      (Real.log σ + Real.log (2 * Real.pi) / 2 + (σ ^ 2 + (μ - μ) ^ 2) / (2 * σ ^ 2)) := by
    have e : (fun y => negLog (densNormal μ σ y)) = fun y => Logs.normal (fin y) (fin μ) (fin σ) true := by
      funext y
      exact ((C57_normal μ hσ).2 y).1.symm
    rw [e]
    exact h1
  obtain ⟨h3, h4⟩ := C102_normal μ' hσ' _ _ (C57_normal μ hσ).1 _ _ h1' h2
  refine ⟨h3, h4.trans ⟨fun h => ?_, fun h => by rw [h.1, h.2]⟩⟩
  exact affine_unique hσ hσ' fun z => Φ_strictMono.injective (congrFun h z)

example : (0:ℝ) < 1 ∧ (0:ℝ) < 2 ∧ ¬ ((0:ℝ) = 0 ∧ (1:ℝ) = 2) := by norm_num

/-! ### Discrete families -/

theorem binomial_nan_above {n k : ℕ} (h : n < k) :
    Logs.binomial (fin (k : ℝ)) (fin (n : ℝ)) (fin 1) = nan := by
  have hlt : (n : ℝ) - k < 0 := sub_neg.2 (Nat.cast_lt.2 h)
  have e : XF.pow (fin 0) (fin ((n : ℝ) - k)) = pinf := pow_fin_zero_neg hlt
  have e2 : Stats.binomPdf (fin (k : ℝ)) (fin (n : ℝ)) (fin 1) = nan := by
    unfold Stats.binomPdf
    rw [comb_nat, pow_fin_nat zero_le_one]
    simp only [XF.one_def, fin_sub, fin_mul]
    rw [show (1:ℝ) - 1 = 0 by norm_num, e, Nat.choose_eq_zero_of_lt h]
    simp only [Nat.cast_zero, zero_mul]
    show XF.mul (fin 0) pinf = nan
    simp [XF.mul, XF.infMul]
  unfold Logs.binomial
  simp only [XF.zero_def, fin_lt, fin_natCast_neg, if_false, e2]
  rfl

/-- The fair coin, used in the examples. -/
theorem hasMeanN_coin {S : ℕ → XF} {a b : ℝ} (h0 : S 0 = fin a) (h1 : S 1 = fin b) :
    HasMeanN (pmfBinom 1 (1 / 2)) S ((a + b) / 2) := by
  have hz : ∀ k, 2 ≤ k → pmfBinom 1 (1 / 2) k = 0 := fun k hk => by
    unfold pmfBinom
    rw [Nat.choose_eq_zero_of_lt (by omega)]
    simp
  refine ⟨fun k => if k = 0 then a else b, fun k hk => ?_, ?_⟩
  · match k with
    | 0 => simpa using h0
    | 1 => simpa using h1
    | k + 2 => exact absurd (hz _ (by omega)) hk
  · have := hasSum_sum_of_ne_finset_zero (L := .unconditional ℕ)
      (f := fun k => pmfBinom 1 (1 / 2) k * if k = 0 then a else b)
      (s := Finset.range 2) fun k hk => by
        simp only [Finset.mem_range, not_lt] at hk
        simp only [hz k hk, zero_mul]
    convert this using 1
    rw [Finset.sum_range_succ, Finset.sum_range_one]
    norm_num [pmfBinom]
    ring

theorem Spec.LogProperN.coin {S : ℕ → XF} {g : ℕ → ℝ} {a b : ℝ} (hp : LogProperN S g)
    (h0 : S 0 = fin a) (h1 : S 1 = fin b) :
    HasMeanN (pmfBinom 1 (1 / 2)) S ((a + b) / 2) ∧ Real.log 2 ≤ (a + b) / 2 := by
  have h2 := hasMeanN_coin h0 h1
  have e : ∀ k, k ≤ 1 → negLog (pmfBinom 1 (1 / 2) k) = fin (Real.log 2) := fun k hk => by
    have : pmfBinom 1 (1 / 2) k = 1 / 2 := by
      unfold pmfBinom
      interval_cases k <;> norm_num
    rw [this, negLog, if_neg (by norm_num), one_div, Real.log_inv, neg_neg]
  have h3 := hasMeanN_coin (S := fun k => negLog (pmfBinom 1 (1 / 2) k)) (e 0 (by norm_num)) (e 1 le_rfl)
  have := (hp _ (C58_binomial_partial 1 (by norm_num) (by norm_num)).1 _ _ h3 h2).1
  exact ⟨h2, by linarith⟩

/-- C102: `logs_binomial` at the non-negative integers. -/
theorem C102_binomial (n : ℕ) {p : ℝ} (h0 : 0 ≤ p) (h1 : p ≤ 1) :
    LogProperN (fun k => Logs.binomial (fin (k : ℝ)) (fin (n : ℝ)) (fin p)) (pmfBinom n p) := by
  refine logProperN_of (C58_binomial_partial n h0 h1).1 fun k s h => ?_
  by_cases hk : p < 1 ∨ k ≤ n
  · rw [← (C58_binomial_partial n h0 h1).2.1 k hk]
    exact h
  · push Not at hk
    obtain rfl : p = 1 := le_antisymm h1 hk.1
    have h : Logs.binomial (fin (k : ℝ)) (fin (n : ℝ)) (fin 1) = fin s := h
    rw [binomial_nan_above hk.2] at h
    cases h

/-- a forecast with one success in four on a fair coin -/
example : HasMeanN (pmfBinom 1 (1 / 2))
    (fun k => Logs.binomial (fin (k : ℝ)) (fin ((1 : ℕ) : ℝ)) (fin (1 / 4)))
    ((-Real.log (3 / 4) + -Real.log (1 / 4)) / 2) ∧
    Real.log 2 ≤ (-Real.log (3 / 4) + -Real.log (1 / 4)) / 2 := by
  have h := (C58_binomial_partial 1 (p := 1 / 4) (by norm_num) (by norm_num)).2.1
  refine (C102_binomial 1 (by norm_num) (by norm_num)).coin ((h 0 (by norm_num)).trans ?_)
    ((h 1 (by norm_num)).trans ?_)
  all_goals
    norm_num [pmfBinom, negLog]

/-- C102: `logs_poisson` at the non-negative integers. -/
theorem C102_poisson {μ : ℝ} (h : 0 ≤ μ) :
    LogProperN (fun k => Logs.poisson (fin (k : ℝ)) (fin μ)) (pmfPois μ) :=
  logProperN_of (C58_poisson h).1 fun k _ h' => ((C58_poisson h).2.1 k).symm.trans h'

example : HasMeanN (pmfBinom 1 (1 / 2)) (fun k => Logs.poisson (fin (k : ℝ)) (fin 1)) ((1 + 1) / 2) ∧
    Real.log 2 ≤ (1 + 1) / 2 := by
  have h := (C58_poisson zero_le_one).2.1
  refine (C102_poisson zero_le_one).coin ((h 0).trans ?_) ((h 1).trans ?_)
  all_goals
    norm_num [pmfPois, negLog]

/-- C102: `logs_negbinom` at the non-negative integers, for sizes from one on (for smaller sizes the score is
always infinite, C58). -/
theorem C102_negbinom {r p : ℝ} (hr : 1 ≤ r) (h0 : 0 < p) (h1 : p ≤ 1) :
    LogProperN (fun k => Logs.negbinom (fin (k : ℝ)) (fin r) (fin p)) (pmfNegbinom r p) :=
  logProperN_of (C58_negbinom_partial hr h0 h1).1
    fun k _ h' => ((C58_negbinom_partial hr h0 h1).2.1 k).symm.trans h'

example : HasMeanN (pmfBinom 1 (1 / 2)) (fun k => Logs.negbinom (fin (k : ℝ)) (fin 1) (fin (1 / 2)))
    ((-Real.log (1 / 2) + -Real.log (1 / 4)) / 2) ∧
    Real.log 2 ≤ (-Real.log (1 / 2) + -Real.log (1 / 4)) / 2 := by
  have h := (C58_negbinom_partial (le_refl (1:ℝ)) (p := 1 / 2) (by norm_num) (by norm_num)).2.1
  refine (C102_negbinom (le_refl (1:ℝ)) (by norm_num) (by norm_num)).coin ((h 0).trans ?_) ((h 1).trans ?_)
  all_goals
    norm_num [pmfNegbinom, negLog]

/-- C102: `logs_hypergeometric` at the non-negative integers. -/
theorem C102_hypergeometric {m n K : ℕ} (h : K ≤ m + n) :
    LogProperN (fun k => Logs.hypergeometric (fin (k : ℝ)) (fin (m : ℝ)) (fin (n : ℝ)) (fin (K : ℝ)))
      (pmfHypergeo m n K) :=
  logProperN_of (C58_hypergeometric_partial h).1
    fun k _ h' => ((C58_hypergeometric_partial h).2.1 k).symm.trans h'

example : HasMeanN (pmfBinom 1 (1 / 2))
    (fun k => Logs.hypergeometric (fin (k : ℝ)) (fin ((1 : ℕ) : ℝ)) (fin ((3 : ℕ) : ℝ)) (fin ((1 : ℕ) : ℝ)))
    ((-Real.log (3 / 4) + -Real.log (1 / 4)) / 2) ∧
    Real.log 2 ≤ (-Real.log (3 / 4) + -Real.log (1 / 4)) / 2 := by
  have h := (C58_hypergeometric_partial (show 1 ≤ 1 + 3 by norm_num)).2.1
  refine (C102_hypergeometric (show 1 ≤ 1 + 3 by norm_num)).coin ((h 0).trans ?_) ((h 1).trans ?_)
  all_goals
    norm_num [pmfHypergeo, negLog]

end Verif
