import Verif.Lemmas.Gev
import Mathlib.NumberTheory.Harmonic.GammaDeriv
import Mathlib.MeasureTheory.Integral.IntegralEqImproper

/-!
# The exponential integral, Euler's constant and the CRPS of the Gumbel distribution
-/

noncomputable section

open scoped Classical Topology
open MeasureTheory Filter Set

namespace Verif

open Spec

/-- The exponential integral `E₁`. -/
def E1 (w : ℝ) : ℝ := ∫ t in Ioi w, Real.exp (-t) / t

theorem logExp_integral :
    ∫ t in Ioi (0:ℝ), Real.log t * Real.exp (-t) = -Real.eulerMascheroniConstant := by
  have h := Complex.hasDerivAt_GammaIntegral (s := 1) (by simp)
  have h2 : HasDerivAt Complex.Gamma (∫ t : ℝ in Ioi 0, (t:ℂ) ^ ((1:ℂ) - 1) * (Real.log t * Real.exp (-t))) 1 := by
    refine h.congr_of_eventuallyEq ?_
    have : {s : ℂ | 0 < s.re} ∈ 𝓝 (1:ℂ) :=
      (isOpen_lt continuous_const Complex.continuous_re).mem_nhds (by simp)
    filter_upwards [this] with s hs
    exact Complex.Gamma_eq_integral hs
  have h3 := h2.unique Complex.hasDerivAt_Gamma_one
  simp only [sub_self, Complex.cpow_zero, one_mul] at h3
  have h4 : (∫ t : ℝ in Ioi 0, ((Real.log t * Real.exp (-t) : ℝ) : ℂ)) = ((-Real.eulerMascheroniConstant : ℝ) : ℂ) := by
    push_cast at h3 ⊢
    exact h3
  rw [integral_complex_ofReal] at h4
  exact_mod_cast h4

theorem logExp_integrable : IntegrableOn (fun t => Real.log t * Real.exp (-t)) (Ioi (0:ℝ)) := by
  by_contra h
  have := integral_undef h
  rw [logExp_integral] at this
  linarith [Real.one_half_lt_eulerMascheroniConstant]

theorem E1_integrable {w : ℝ} (hw : 0 < w) : IntegrableOn (fun t => Real.exp (-t) / t) (Ioi w) := by
  have h := (exp_neg_integrableOn_Ioi w one_pos).div_const w
  refine Integrable.mono' h (ContinuousOn.aestronglyMeasurable ?_ measurableSet_Ioi) ?_
  · refine ContinuousOn.div (by fun_prop) continuousOn_id fun t ht => (hw.trans ht).ne'
  · refine (ae_restrict_iff' measurableSet_Ioi).2 (ae_of_all _ fun t ht => ?_)
    have ht : w < t := ht
    have h0 : 0 < t := hw.trans ht
    rw [Real.norm_of_nonneg (by positivity), neg_one_mul]
    exact div_le_div_of_nonneg_left (Real.exp_pos _).le hw ht.le

theorem E1_atTop : Tendsto E1 atTop (𝓝 0) := tendsto_integral_Ioi_zero tendsto_id

theorem E1_deriv {w : ℝ} (hw : 0 < w) : HasDerivAt E1 (-(Real.exp (-w) / w)) w := by
  have hc : ∀ t : ℝ, 0 < t → ContinuousAt (fun t => Real.exp (-t) / t) t := fun t ht =>
    ContinuousAt.div (by fun_prop) continuousAt_id ht.ne'
  have hI : ∀ z, 0 < z → IntervalIntegrable (fun t => Real.exp (-t) / t) volume (w / 2) z := by
    intro z hz
    refine ContinuousOn.intervalIntegrable fun t ht => (hc t ?_).continuousWithinAt
    exact lt_of_lt_of_le (lt_min (half_pos hw) hz) ht.1
  have e : E1 =ᶠ[𝓝 w] fun z => E1 (w / 2) - ∫ t in (w / 2)..z, Real.exp (-t) / t := by
    filter_upwards [lt_mem_nhds hw] with z hz
    have := intervalIntegral.integral_interval_add_Ioi' (hI z hz) (E1_integrable hz)
    unfold E1
    rw [← this]; ring
  refine HasDerivAt.congr_of_eventuallyEq ?_ e
  refine HasDerivAt.const_sub _ (intervalIntegral.integral_hasDerivAt_right (hI w hw) ?_ (hc w hw))
  exact ContinuousAt.stronglyMeasurableAtFilter isOpen_Ioi (fun t ht => hc t ht) w hw

theorem E1_parts {w : ℝ} (hw : 0 < w) :
    E1 w = -(Real.log w * Real.exp (-w)) + ∫ t in Ioi w, Real.log t * Real.exp (-t) := by
  have hi2 : IntegrableOn (fun t => Real.log t * Real.exp (-t)) (Ioi w) :=
    logExp_integrable.mono_set (Ioi_subset_Ioi hw.le)
  have hd : ∀ t ∈ Ici w, HasDerivAt (fun t => Real.log t * Real.exp (-t))
      (Real.exp (-t) / t - Real.log t * Real.exp (-t)) t := by
    intro t ht
    have h0 : 0 < t := hw.trans_le ht
    refine ((Real.hasDerivAt_log h0.ne').mul (hasDerivAt_neg t).exp).congr_deriv ?_
    ring
  have ht : Tendsto (fun t : ℝ => Real.log t * Real.exp (-t)) atTop (𝓝 0) := by
    have h1 : Tendsto (fun t : ℝ => t ^ (1:ℝ) * Real.exp (-1 * t)) atTop (𝓝 0) :=
      tendsto_rpow_mul_exp_neg_mul_atTop_nhds_zero 1 1 one_pos
    refine squeeze_zero' ?_ ?_ h1
    · filter_upwards [eventually_ge_atTop 1] with t ht
      exact mul_nonneg (Real.log_nonneg ht) (Real.exp_pos _).le
    · filter_upwards [eventually_ge_atTop 1] with t ht
      rw [Real.rpow_one, neg_one_mul]
      refine mul_le_mul_of_nonneg_right ?_ (Real.exp_pos _).le
      linarith [Real.log_le_sub_one_of_pos (show 0 < t by linarith)]
  have := integral_Ioi_of_hasDerivAt_of_tendsto' hd ((E1_integrable hw).sub hi2) ht
  rw [integral_sub (E1_integrable hw) hi2] at this
  unfold E1
  linarith

theorem E1_log : Tendsto (fun w => E1 w + Real.log w) (𝓝[>] 0) (𝓝 (-Real.eulerMascheroniConstant)) := by
  set g : ℝ → ℝ := (Ioi 0).indicator fun t => Real.log t * Real.exp (-t) with hg
  have hi : Integrable g := (integrable_indicator_iff measurableSet_Ioi).2 logExp_integrable
  have hI : ∫ t, g t = -Real.eulerMascheroniConstant := by
    rw [hg, integral_indicator measurableSet_Ioi, logExp_integral]
  have h0 : prim g 0 = 0 := by
    unfold prim
    rw [setIntegral_congr_fun (g := fun _ => 0) measurableSet_Iic]
    · simp
    · intro t ht
      exact indicator_of_notMem (not_lt.2 ht) _
  have hc : Tendsto (fun w => (∫ t, g t) - prim g w) (𝓝[>] 0) (𝓝 (-Real.eulerMascheroniConstant)) := by
    have := ((prim_cont hi).tendsto 0).const_sub (∫ t, g t)
    rw [h0, sub_zero, hI] at this
    rw [hI]
    exact this.mono_left nhdsWithin_le_nhds
  have hl : Tendsto (fun w => Real.log w * (1 - Real.exp (-w))) (𝓝[>] 0) (𝓝 0) := by
    refine squeeze_zero_norm' ?_ (by simpa using (tendsto_log_mul_rpow_nhdsGT_zero zero_lt_one).norm)
    filter_upwards [self_mem_nhdsWithin] with w hw
    have hw : 0 < w := hw
    have b0 : Real.exp (-w) ≤ 1 := Real.exp_le_one_iff.2 (by linarith)
    rw [norm_mul, Real.norm_of_nonneg (by linarith : 0 ≤ 1 - Real.exp (-w)), Real.norm_eq_abs, abs_of_pos hw]
    refine mul_le_mul_of_nonneg_left ?_ (abs_nonneg _)
    linarith [Real.add_one_le_exp (-w)]
  have := hl.add hc
  rw [zero_add] at this
  refine this.congr' ?_
  filter_upwards [self_mem_nhdsWithin] with w hw
  have hw : 0 < w := hw
  rw [E1_parts hw, ← prim_compl hi]
  have : ∫ t in Ioi w, g t = ∫ t in Ioi w, Real.log t * Real.exp (-t) :=
    setIntegral_congr_fun measurableSet_Ioi fun t ht => indicator_of_mem (hw.trans ht) _
  rw [this]; ring

/-- Primitive of the `c`-th power of the Gumbel distribution function. -/
theorem gumbel_deriv {c : ℝ} (hc : 0 < c) (x : ℝ) :
    HasDerivAt (fun x => E1 (c * Real.exp (-x))) (Real.exp (-(c * Real.exp (-x)))) x := by
  have hp : 0 < c * Real.exp (-x) := mul_pos hc (Real.exp_pos _)
  have h1 : HasDerivAt (fun x : ℝ => c * Real.exp (-x)) (c * (Real.exp (-x) * -1)) x :=
    (hasDerivAt_neg x).exp.const_mul c
  refine ((E1_deriv hp).comp x h1).congr_deriv ?_
  have := Real.exp_ne_zero (-x)
  have := hc.ne'
  field_simp

theorem gumbel_atBot {c : ℝ} (hc : 0 < c) : Tendsto (fun x => E1 (c * Real.exp (-x))) atBot (𝓝 0) :=
  E1_atTop.comp ((Real.tendsto_exp_atTop.comp tendsto_neg_atBot_atTop).const_mul_atTop hc)

theorem gumbel_atTop {c : ℝ} (hc : 0 < c) :
    Tendsto (fun x => E1 (c * Real.exp (-x)) - x) atTop (𝓝 (-Real.eulerMascheroniConstant - Real.log c)) := by
  have h1 : Tendsto (fun x : ℝ => c * Real.exp (-x)) atTop (𝓝[>] 0) := by
    refine tendsto_nhdsWithin_iff.2 ⟨?_, Eventually.of_forall fun x => mul_pos hc (Real.exp_pos _)⟩
    simpa using (Real.tendsto_exp_atBot.comp tendsto_neg_atTop_atBot).const_mul c
  refine ((E1_log.comp h1).sub_const (Real.log c)).congr fun x => ?_
  simp only [Function.comp]
  rw [Real.log_mul hc.ne' (Real.exp_ne_zero _), Real.log_exp]; ring

/-- The CRPS of the standard Gumbel distribution. -/
theorem crps_gumbel (y : ℝ) :
    HasCrps (cdfGev0 0) y ∧ Spec.crps (cdfGev0 0) y
      = -y + 2 * E1 (Real.exp (-y)) + Real.eulerMascheroniConstant - Real.log 2 := by
  have hF : cdfGev0 0 = fun x => Real.exp (-Real.exp (-x)) := by funext x; simp [cdfGev0]
  have dP : ∀ x, HasDerivAt (fun x => E1 (2 * Real.exp (-x))) (cdfGev0 0 x ^ 2) x := by
    intro x
    refine (gumbel_deriv two_pos x).congr_deriv ?_
    rw [hF]
    dsimp only
    rw [← Real.exp_nat_mul]; push_cast; ring_nf
  have d1 : ∀ x, HasDerivAt (fun x => E1 (Real.exp (-x))) (cdfGev0 0 x) x := by
    intro x
    have := gumbel_deriv one_pos x
    rw [hF]
    simpa only [one_mul, Function.comp] using this
  have dQ : ∀ x, HasDerivAt (fun x => x - 2 * E1 (Real.exp (-x)) + E1 (2 * Real.exp (-x)))
      ((1 - cdfGev0 0 x) ^ 2) x := by
    intro x
    refine (((hasDerivAt_id x).sub ((d1 x).const_mul 2)).add (dP x)).congr_deriv ?_
    ring
  have key := crps_of_antideriv (F := cdfGev0 0) (P := fun x => E1 (2 * Real.exp (-x)))
    (Q := fun x => x - 2 * E1 (Real.exp (-x)) + E1 (2 * Real.exp (-x))) (p := 0)
    (q := Real.eulerMascheroniConstant - Real.log 2) (s := ∅) countable_empty
    (by rw [hF]; fun_prop)
    (fun x => by rw [hF]; positivity)
    (fun x => by rw [hF]; exact Real.exp_le_one_iff.2 (neg_nonpos.2 (Real.exp_pos _).le))
    (continuous_iff_continuousAt.2 fun x => (dP x).continuousAt) (fun x _ => dP x)
    (continuous_iff_continuousAt.2 fun x => (dQ x).continuousAt) (fun x _ => dQ x)
    (gumbel_atBot two_pos)
    (by
      have h := (gumbel_atTop two_pos).sub ((gumbel_atTop one_pos).const_mul 2)
      simp only [one_mul, Real.log_one] at h
      rw [show -Real.eulerMascheroniConstant - Real.log 2 - 2 * (-Real.eulerMascheroniConstant - 0)
        = Real.eulerMascheroniConstant - Real.log 2 by ring] at h
      exact h.congr fun x => by ring) y
  refine ⟨key.1, key.2.trans ?_⟩
  ring

theorem diff_gumbel : DiffDist (densGev0 0) (cdfGev0 0) := by
  have hF : cdfGev0 0 = fun x => Real.exp (-Real.exp (-x)) := by funext x; simp [cdfGev0]
  have hf : densGev0 0 = fun x => Real.exp (-x) * Real.exp (-Real.exp (-x)) := by funext x; simp [densGev0]
  have hd : ∀ x, HasDerivAt (cdfGev0 0) (densGev0 0 x) x := by
    intro x
    rw [hF, hf]
    refine ((hasDerivAt_neg x).exp.neg.exp).congr_deriv ?_
    simp only [Pi.neg_apply]; ring
  refine ⟨fun x => by rw [hf]; positivity, continuous_iff_continuousAt.2 fun x => (hd x).continuousAt,
    ⟨∅, finite_empty, fun x _ => hd x⟩, ?_, ?_⟩
  · rw [hF]
    have := exp_neg_atTop one_pos (Real.tendsto_exp_atTop.comp tendsto_neg_atBot_atTop)
    simpa only [one_mul, Function.comp] using this
  · rw [hF]
    have := exp_neg_zero 1 (Real.tendsto_exp_atBot.comp tendsto_neg_atTop_atBot)
    simpa only [one_mul, Function.comp] using this

end Verif
