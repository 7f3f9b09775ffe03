import Verif.Spec.Gev
import Verif.Spec.Gtc
import Verif.Spec.Dens
import Verif.Spec.LimitCase
import Verif.Lemmas.ClosedScale
import Verif.Lemmas.Gev
import Mathlib.MeasureTheory.Integral.DominatedConvergence
import Mathlib.Analysis.SpecialFunctions.JapaneseBracket
import Mathlib.Analysis.Convex.SpecificFunctions.Basic

/-!
# Limits of the CRPS under pointwise convergence of the distribution functions
-/

noncomputable section

open scoped Classical Topology
open MeasureTheory Filter Set

namespace Verif

open XF Spec

theorem crps_tendsto {ι : Type} {l : Filter ι} [l.IsCountablyGenerated] {F : ι → ℝ → ℝ} {G g : ℝ → ℝ} {y R : ℝ}
    (hm : ∀ᶠ t in l, AEStronglyMeasurable fun z => (F t z - if y ≤ z then 1 else 0) ^ 2)
    (h0 : ∀ᶠ t in l, ∀ z, 0 ≤ F t z ∧ F t z ≤ 1) (hlo : ∀ᶠ t in l, ∀ z < -R, F t z ^ 2 ≤ g z)
    (hhi : ∀ᶠ t in l, ∀ z > R, (1 - F t z) ^ 2 ≤ g z) (hg : Integrable g) (hp : ∀ z, 0 ≤ g z)
    (hl : ∀ᵐ z, Tendsto (fun t => F t z) l (𝓝 (G z))) :
    Tendsto (fun t => crps (F t) y) l (𝓝 (crps G y)) := by
  unfold crps
  have hi : Integrable ((Icc (-(|R| + |y|)) (|R| + |y|)).indicator fun _ => (1 : ℝ)) :=
    (integrable_indicator_iff measurableSet_Icc).2 (integrableOn_const (by simp))
  refine tendsto_integral_filter_of_dominated_convergence
    (fun z => g z + (Icc (-(|R| + |y|)) (|R| + |y|)).indicator (fun _ => (1 : ℝ)) z) hm ?_ (hg.add hi) ?_
  · filter_upwards [h0, hlo, hhi] with t h0 h1 h2
    refine Eventually.of_forall fun z => ?_
    rw [Real.norm_of_nonneg (sq_nonneg _)]
    have hR := abs_nonneg R
    have hR1 := le_abs_self R
    have hR2 := neg_le_abs R
    have hy1 := le_abs_self y
    have hy2 := neg_le_abs y
    have hy := abs_nonneg y
    obtain ⟨a, b⟩ := h0 z
    have hb : (F t z - if y ≤ z then 1 else 0) ^ 2 ≤ 1 := by
      split_ifs <;> nlinarith
    by_cases hz : z ∈ Icc (-(|R| + |y|)) (|R| + |y|)
    · rw [indicator_of_mem hz]; linarith [hp z]
    · rw [indicator_of_notMem hz, add_zero]
      rw [mem_Icc, not_and_or, not_le, not_le] at hz
      rcases hz with hz | hz
      · rw [if_neg (by linarith), sub_zero]; exact h1 z (by linarith)
      · rw [if_pos (by linarith)]
        have := h2 z (by linarith)
        nlinarith
  · filter_upwards [hl] with z hz
    exact (hz.sub_const _).pow 2

/-! ### Shape parameters -/

theorem pow_shape_ge {ξ x : ℝ} (hξ : ξ ≠ 0) (h : |ξ| ≤ 1 / 4) (hx : 0 ≤ x) (hp : 0 < 1 + ξ * x) :
    (1 + x / 4) ^ 4 ≤ (1 + ξ * x) ^ (1 / ξ) := by
  rcases hξ.lt_or_gt with hn | hn
  · have h1 : Real.exp x ≤ (1 + ξ * x) ^ (1 / ξ) := by
      rw [Real.rpow_def_of_pos hp]
      apply Real.exp_le_exp.2
      have := Real.log_le_sub_one_of_pos hp
      rw [mul_one_div, le_div_iff_of_neg hn]
      linarith
    have h2 : (1 + x / 4) ^ 4 ≤ Real.exp x := by
      have : Real.exp x = Real.exp (x / 4) ^ 4 := by rw [← Real.exp_nat_mul]; congr 1; push_cast; ring
      rw [this]
      exact pow_le_pow_left₀ (by linarith) (by linarith [Real.add_one_le_exp (x / 4)]) 4
    exact h2.trans h1
  · rw [abs_of_pos hn] at h
    have hb := one_add_mul_self_le_rpow_one_add (s := ξ * x) (by linarith [mul_nonneg hn.le hx]) (p := 1 / (4 * ξ))
      (by rw [le_div_iff₀ (by linarith)]; linarith)
    have e : 1 / (4 * ξ) * (ξ * x) = x / 4 := by field_simp
    rw [e] at hb
    have : (1 + ξ * x) ^ (1 / ξ) = ((1 + ξ * x) ^ (1 / (4 * ξ))) ^ 4 := by
      rw [← Real.rpow_natCast, ← Real.rpow_mul hp.le]; congr 1; field_simp; norm_num
    rw [this]
    exact pow_le_pow_left₀ (by linarith) hb 4

/-- Bound for the tails, uniform in small shapes. -/
def tailB (z : ℝ) : ℝ := ((1 + |z| / 4) ^ 4)⁻¹

theorem tailB_pos (z : ℝ) : 0 < tailB z := by unfold tailB; positivity

theorem tailB_le (z : ℝ) : tailB z ≤ 1 := by
  unfold tailB
  apply inv_le_one_of_one_le₀
  exact one_le_pow₀ (by linarith [abs_nonneg z])

theorem tailB_integrable : Integrable tailB := by
  have h := (integrable_one_add_norm (E := ℝ) (μ := volume) (r := 4) (by norm_num)).const_mul 256
  refine h.mono' (by unfold tailB; exact (by fun_prop : Measurable fun z : ℝ => ((1 + |z| / 4) ^ 4)⁻¹).aestronglyMeasurable)
    (Eventually.of_forall fun z => ?_)
  rw [Real.norm_of_nonneg (tailB_pos z).le, Real.norm_eq_abs]
  have hz := abs_nonneg z
  have e : (1 + |z|) ^ (-4 : ℝ) = ((1 + |z|) ^ 4)⁻¹ := by
    rw [Real.rpow_neg (by linarith)]; norm_cast
  rw [e]
  unfold tailB
  have h4 : (1 + |z|) ^ 4 ≤ 256 * (1 + |z| / 4) ^ 4 := by
    have := pow_le_pow_left₀ (by linarith) (by linarith : 1 + |z| ≤ 4 * (1 + |z| / 4)) 4
    rw [mul_pow] at this; linarith
  rw [inv_eq_one_div, inv_eq_one_div, mul_one_div, div_le_div_iff₀ (by positivity) (by positivity)]
  linarith

theorem sq_le_tailB {a z : ℝ} (h0 : 0 ≤ a) (h : a ≤ tailB z) : a ^ 2 ≤ tailB z := by
  have := h.trans (tailB_le z)
  nlinarith

theorem pow_shape_le {ξ x : ℝ} (hξ : ξ ≠ 0) (h : |ξ| ≤ 1 / 4) (hx : 0 ≤ x) (hp : 0 < 1 + ξ * x) :
    (1 + ξ * x) ^ (-1 / ξ) ≤ tailB x := by
  have := pow_shape_ge hξ h hx hp
  unfold tailB
  rw [abs_of_nonneg hx, neg_div, Real.rpow_neg hp.le]
  exact inv_anti₀ (by positivity) this

theorem shape_pos (x : ℝ) : ∀ᶠ ξ in 𝓝[≠] (0 : ℝ), 0 < 1 + ξ * x := by
  have : Tendsto (fun ξ : ℝ => 1 + ξ * x) (𝓝 0) (𝓝 (1 + 0 * x)) := by
    exact (continuous_const.add (continuous_id.mul continuous_const)).tendsto _
  rw [zero_mul, add_zero] at this
  exact (this.mono_left nhdsWithin_le_nhds).eventually (lt_mem_nhds one_pos)

theorem shape_small {c : ℝ} (hc : 0 < c) : ∀ᶠ ξ in 𝓝[≠] (0 : ℝ), |ξ| ≤ c := by
  have : Tendsto (fun ξ : ℝ => |ξ|) (𝓝 0) (𝓝 |0|) := continuous_abs.tendsto _
  rw [abs_zero] at this
  filter_upwards [(this.mono_left nhdsWithin_le_nhds).eventually (gt_mem_nhds hc)] with ξ h using le_of_lt h

theorem shape_ne : ∀ᶠ ξ in 𝓝[≠] (0 : ℝ), ξ ≠ 0 := eventually_mem_nhdsWithin

theorem log_shape_tendsto (x : ℝ) : Tendsto (fun ξ : ℝ => Real.log (1 + ξ * x) / ξ) (𝓝[≠] 0) (𝓝 x) := by
  have hd : HasDerivAt (fun ξ : ℝ => Real.log (1 + ξ * x)) x 0 := by
    have h1 : HasDerivAt (fun ξ : ℝ => 1 + ξ * x) x 0 := by
      simpa using ((hasDerivAt_id (0 : ℝ)).mul_const x).const_add 1
    have := h1.log (by simp)
    simpa using this
  have := hasDerivAt_iff_tendsto_slope.1 hd
  refine this.congr fun ξ => ?_
  simp [slope_def_field]

theorem pow_shape_tendsto (x : ℝ) :
    Tendsto (fun ξ : ℝ => (1 + ξ * x) ^ (-1 / ξ)) (𝓝[≠] 0) (𝓝 (Real.exp (-x))) := by
  have := (Real.continuous_exp.tendsto (-x)).comp (log_shape_tendsto x).neg
  refine this.congr' ?_
  filter_upwards [shape_pos x, shape_ne] with ξ h h0
  simp only [Function.comp]
  rw [Real.rpow_def_of_pos h]; congr 1; field_simp

theorem cdfGpd0_tendsto (M x : ℝ) : Tendsto (fun ξ => cdfGpd0 M ξ x) (𝓝[≠] 0) (𝓝 (cdfGpd0 M 0 x)) := by
  unfold cdfGpd0
  by_cases hx : x < 0
  · simp only [if_pos hx]; exact tendsto_const_nhds
  · simp only [if_neg hx, if_true]
    have := ((pow_shape_tendsto x).const_sub 1).const_mul (1 - M) |>.const_add M
    refine this.congr' ?_
    filter_upwards [shape_pos x, shape_ne] with ξ h h0
    rw [if_neg h0, if_neg]
    rintro ⟨h1, h2⟩
    rw [div_lt_iff_of_neg h1] at h2
    linarith

theorem crps_gpd0_tendsto {M : ℝ} (h0 : 0 ≤ M) (h1 : M ≤ 1) (y : ℝ) :
    Tendsto (fun ξ => crps (cdfGpd0 M ξ) y) (𝓝[≠] 0) (𝓝 (crps (cdfGpd0 M 0) y)) := by
  have key : ∀ᶠ ξ in 𝓝[≠] (0 : ℝ), ∀ z, 0 ≤ z → 0 ≤ 1 - cdfGpd0 M ξ z ∧ 1 - cdfGpd0 M ξ z ≤ tailB z := by
    filter_upwards [shape_small (by norm_num : (0 : ℝ) < 1 / 4), shape_ne] with ξ h hn z hz
    unfold cdfGpd0
    rw [if_neg (not_lt.2 hz), if_neg hn]
    split_ifs with hc
    · exact ⟨by simp, by simpa using (tailB_pos z).le⟩
    · have hp : 0 ≤ 1 + ξ * z := by
        rcases hn.lt_or_gt with hn | hn
        · have : z ≤ -1 / ξ := not_lt.1 fun h => hc ⟨hn, h⟩
          rw [le_div_iff_of_neg hn] at this; linarith
        · nlinarith
      have hb : (1 + ξ * z) ^ (-1 / ξ) ≤ tailB z := by
        rcases hp.eq_or_lt with e | hp
        · rw [← e, Real.zero_rpow (by simpa using hn)]; exact (tailB_pos z).le
        · exact pow_shape_le hn h hz hp
      have hq := Real.rpow_nonneg hp (-1 / ξ)
      have hM : 0 ≤ 1 - M := by linarith
      constructor <;> nlinarith [tailB_pos z]
  have key2 : ∀ᶠ ξ in 𝓝[≠] (0 : ℝ), ∀ z < 0, cdfGpd0 M ξ z = 0 :=
    Eventually.of_forall fun ξ z hz => by unfold cdfGpd0; rw [if_pos hz]
  refine crps_tendsto (R := 0) ?_ ?_ ?_ ?_ tailB_integrable (fun z => (tailB_pos z).le)
    (Eventually.of_forall (cdfGpd0_tendsto M))
  · filter_upwards [shape_small (by norm_num : (0 : ℝ) < 1 / 4)] with ξ h
    exact (crps_gpd0 h0 h1 (by linarith [le_abs_self ξ]) y).1.aestronglyMeasurable
  · filter_upwards [key, key2] with ξ ha hb z
    rcases lt_or_ge z 0 with hz | hz
    · rw [hb z hz]; norm_num
    · obtain ⟨p, q⟩ := ha z hz; have := tailB_le z; constructor <;> linarith
  · filter_upwards [key2] with ξ hb z hz
    rw [hb z (by linarith)]; simpa using (tailB_pos z).le
  · filter_upwards [key] with ξ ha z hz
    obtain ⟨p, q⟩ := ha z hz.le
    exact sq_le_tailB p q

theorem cdfGev0_tendsto (x : ℝ) : Tendsto (fun ξ => cdfGev0 ξ x) (𝓝[≠] 0) (𝓝 (cdfGev0 0 x)) := by
  have := (Real.continuous_exp.tendsto _).comp (pow_shape_tendsto x).neg
  unfold cdfGev0
  simp only [if_true]
  refine this.congr' ?_
  filter_upwards [shape_pos x, shape_ne] with ξ h h0
  rw [if_neg h0, if_pos h]; rfl

theorem cdfGev0_range (ξ z : ℝ) : 0 ≤ cdfGev0 ξ z ∧ cdfGev0 ξ z ≤ 1 := by
  unfold cdfGev0
  split_ifs with a b c
  · exact ⟨(Real.exp_pos _).le, Real.exp_le_one_iff.2 (neg_nonpos.2 (Real.exp_pos _).le)⟩
  · exact ⟨(Real.exp_pos _).le, Real.exp_le_one_iff.2 (neg_nonpos.2 (Real.rpow_nonneg b.le _))⟩
  · norm_num
  · norm_num

theorem crps_gev0_tendsto' {ξ : ℝ} (h : |ξ| ≤ 1 / 4) (hn : ξ ≠ 0) {z : ℝ} (hz : 0 ≤ z) :
    1 - cdfGev0 ξ z ≤ tailB z ∧ cdfGev0 ξ (-z) ≤ tailB z := by
  unfold cdfGev0
  rw [if_neg hn, if_neg hn]
  constructor
  · split_ifs with hp hs
    · have := Real.add_one_le_exp (-(1 + ξ * z) ^ (-1 / ξ))
      have := pow_shape_le hn h hz hp
      linarith
    · nlinarith
    · simpa using (tailB_pos z).le
  · split_ifs with hp hs
    · have e : 1 + ξ * -z = 1 + (-ξ) * z := by ring
      have e2 : -1 / ξ = 1 / -ξ := by rw [div_neg, neg_div]
      rw [e] at hp ⊢
      rw [e2]
      have h1 := pow_shape_ge (neg_ne_zero.2 hn) (by rwa [abs_neg]) hz hp
      generalize (1 + -ξ * z) ^ (1 / -ξ) = G at h1 ⊢
      unfold tailB
      rw [abs_of_nonneg hz, Real.exp_neg]
      apply inv_anti₀ (by positivity)
      linarith [Real.add_one_le_exp G]
    · exact (tailB_pos z).le
    · rw [not_lt] at hp hs
      have := lt_of_le_of_ne hs hn
      nlinarith

theorem crps_gev0_tendsto (y : ℝ) :
    Tendsto (fun ξ => crps (cdfGev0 ξ) y) (𝓝[≠] 0) (𝓝 (crps (cdfGev0 0) y)) := by
  refine crps_tendsto (R := 0) ?_ (Eventually.of_forall fun ξ => cdfGev0_range ξ) ?_ ?_ tailB_integrable
    (fun z => (tailB_pos z).le) (Eventually.of_forall cdfGev0_tendsto)
  · filter_upwards [shape_small (by norm_num : (0 : ℝ) < 1 / 4), shape_ne] with ξ h hn
    exact (crps_gev0 hn (by linarith [le_abs_self ξ]) y).1.aestronglyMeasurable
  · filter_upwards [shape_small (by norm_num : (0 : ℝ) < 1 / 4), shape_ne] with ξ h hn z hz
    have := (crps_gev0_tendsto' h hn (z := -z) (by linarith)).2
    rw [neg_neg, show tailB (-z) = tailB z by simp [tailB]] at this
    exact sq_le_tailB (cdfGev0_range ξ z).1 this
  · filter_upwards [shape_small (by norm_num : (0 : ℝ) < 1 / 4), shape_ne] with ξ h hn z hz
    exact sq_le_tailB (by linarith [(cdfGev0_range ξ z).2]) (crps_gev0_tendsto' h hn hz.le).1

/-! ### Bounds that move away -/

theorem crps_tendsto_dom {ι : Type} {l : Filter ι} [l.IsCountablyGenerated] {F G : ℝ → ℝ} {T : ι → ℝ → ℝ}
    (hc : HasCrps F 0) (y C R : ℝ) (hR : 0 ≤ R) (hm : ∀ᶠ t in l, Measurable (T t))
    (h0 : ∀ᶠ t in l, ∀ z, 0 ≤ T t z ∧ T t z ≤ 1) (hlo : ∀ᶠ t in l, ∀ z < -R, T t z ≤ C * F z)
    (hhi : ∀ᶠ t in l, ∀ z > R, 1 - T t z ≤ C * (1 - F z))
    (hl : ∀ᵐ z, Tendsto (fun t => T t z) l (𝓝 (G z))) :
    Tendsto (fun t => crps (T t) y) l (𝓝 (crps G y)) := by
  refine crps_tendsto (R := R) (g := fun z => C ^ 2 * (F z - if (0 : ℝ) ≤ z then 1 else 0) ^ 2) ?_ h0 ?_ ?_
    (hc.const_mul _) (fun z => by positivity) hl
  · filter_upwards [hm] with t h
    have : Measurable fun z : ℝ => if y ≤ z then (1 : ℝ) else 0 :=
      Measurable.ite measurableSet_Ici measurable_const measurable_const
    exact ((h.sub this).pow_const 2).aestronglyMeasurable
  · filter_upwards [h0, hlo] with t h0 h z hz
    rw [if_neg (by linarith), sub_zero, ← mul_pow]
    exact pow_le_pow_left₀ (h0 z).1 (h z hz) 2
  · filter_upwards [h0, hhi] with t h0 h z hz
    rw [if_pos (by linarith), ← neg_sub 1 (F z), neg_sq, ← mul_pow]
    exact pow_le_pow_left₀ (by linarith [(h0 z).2]) (h z hz) 2

/-- A distribution function that increases everywhere and has a CRPS. -/
structure FullCdf (F : ℝ → ℝ) : Prop where
  mono : StrictMono F
  bot : Tendsto F atBot (𝓝 0)
  top : Tendsto F atTop (𝓝 1)
  crps : HasCrps F 0

namespace FullCdf

variable {F : ℝ → ℝ} (h : FullCdf F)

include h

theorem pos (x : ℝ) : 0 < F x :=
  (le_of_tendsto h.bot (by filter_upwards [eventually_le_atBot (x - 1)] with z hz using h.mono.monotone hz)).trans_lt
    (h.mono (sub_one_lt x))

theorem lt_one (x : ℝ) : F x < 1 :=
  (h.mono (lt_add_one x)).trans_le
    (ge_of_tendsto h.top (by filter_upwards [eventually_ge_atTop (x + 1)] with z hz using h.mono.monotone hz))

theorem meas : Measurable F := h.mono.monotone.measurable

theorem trunc_meas (l u : ℝ) : Measurable (cdfTrunc F l u) := by
  have := h.meas
  unfold cdfTrunc
  exact Measurable.ite measurableSet_Iio measurable_const
    (Measurable.ite measurableSet_Iio (by fun_prop) measurable_const)

theorem truncLo_meas (l : ℝ) : Measurable (cdfTruncLo F l) := by
  have := h.meas
  unfold cdfTruncLo
  exact Measurable.ite measurableSet_Iio measurable_const (by fun_prop)

theorem truncUp_meas (u : ℝ) : Measurable (cdfTruncUp F u) := by
  have := h.meas
  unfold cdfTruncUp
  exact Measurable.ite measurableSet_Iio (by fun_prop) measurable_const

theorem cens_meas (l u : ℝ) : Measurable (cdfCens F l u) := by
  have := h.meas
  unfold cdfCens
  exact Measurable.ite measurableSet_Iio measurable_const
    (Measurable.ite measurableSet_Iio (by fun_prop) measurable_const)

theorem censLo_meas (l : ℝ) : Measurable (cdfCensLo F l) := by
  have := h.meas
  unfold cdfCensLo
  exact Measurable.ite measurableSet_Iio measurable_const (by fun_prop)

theorem censUp_meas (u : ℝ) : Measurable (cdfCensUp F u) := by
  have := h.meas
  unfold cdfCensUp
  exact Measurable.ite measurableSet_Iio (by fun_prop) measurable_const

/-- Truncation raises neither tail by more than the mass of the bound on its side. -/
theorem trunc_bounds {l u : ℝ} (hlu : l < u) (z : ℝ) :
    0 ≤ cdfTrunc F l u z ∧ cdfTrunc F l u z ≤ 1 ∧ (z < u → cdfTrunc F l u z ≤ (F u)⁻¹ * F z) ∧
    (l ≤ z → 1 - cdfTrunc F l u z ≤ (1 - F l)⁻¹ * (1 - F z)) := by
  have h1 := h.pos l
  have h2 := h.lt_one u
  have h3 := h.mono hlu
  have h4 := h.pos z
  have h5 := h.lt_one z
  have hd : 0 < F u - F l := by linarith
  have p1 : 0 ≤ (F u)⁻¹ * F z := mul_nonneg (inv_nonneg.2 (by linarith)) h4.le
  have p2 : 0 ≤ (1 - F l)⁻¹ * (1 - F z) := mul_nonneg (inv_nonneg.2 (by linarith)) (by linarith)
  unfold cdfTrunc
  split_ifs with a b
  · exact ⟨le_rfl, zero_le_one, fun _ => p1, fun hz => absurd a (not_lt.2 hz)⟩
  · have ha : F l ≤ F z := h.mono.monotone (not_lt.1 a)
    have hb : F z ≤ F u := h.mono.monotone b.le
    refine ⟨div_nonneg (by linarith) hd.le, (div_le_one hd).2 (by linarith), fun _ => ?_, fun _ => ?_⟩
    · rw [← div_eq_inv_mul, div_le_div_iff₀ hd (by linarith)]; nlinarith
    · rw [← div_eq_inv_mul, one_sub_div hd.ne', div_le_div_iff₀ hd (by linarith)]; nlinarith
  · exact ⟨zero_le_one, le_rfl, fun hz => absurd hz b, fun _ => by simpa using p2⟩

theorem truncLo_bounds (l z : ℝ) : 0 ≤ cdfTruncLo F l z ∧ cdfTruncLo F l z ≤ 1 ∧ cdfTruncLo F l z ≤ F z ∧
    (l ≤ z → 1 - cdfTruncLo F l z ≤ (1 - F l)⁻¹ * (1 - F z)) := by
  have h1 := h.pos l
  have h2 := h.lt_one l
  have h4 := h.pos z
  have h5 := h.lt_one z
  have hd : 0 < 1 - F l := by linarith
  unfold cdfTruncLo
  split_ifs with a
  · exact ⟨le_rfl, zero_le_one, h4.le, fun hz => absurd a (not_lt.2 hz)⟩
  · have ha : F l ≤ F z := h.mono.monotone (not_lt.1 a)
    refine ⟨div_nonneg (by linarith) hd.le, (div_le_one hd).2 (by linarith), ?_, fun _ => le_of_eq ?_⟩
    · rw [div_le_iff₀ hd]; nlinarith
    · field_simp; ring

theorem truncUp_bounds (u z : ℝ) : 0 ≤ cdfTruncUp F u z ∧ cdfTruncUp F u z ≤ 1 ∧
    (z < u → cdfTruncUp F u z ≤ (F u)⁻¹ * F z) ∧ 1 - cdfTruncUp F u z ≤ 1 - F z := by
  have h1 := h.pos u
  have h2 := h.lt_one u
  have h4 := h.pos z
  have h5 := h.lt_one z
  unfold cdfTruncUp
  split_ifs with a
  · have ha : F z ≤ F u := h.mono.monotone a.le
    refine ⟨div_nonneg h4.le h1.le, (div_le_one h1).2 ha, fun _ => le_of_eq (div_eq_inv_mul _ _), ?_⟩
    have : F z ≤ F z / F u := by rw [le_div_iff₀ h1]; nlinarith
    linarith
  · exact ⟨zero_le_one, le_rfl, fun hz => absurd hz a, by linarith⟩

/-- A lower bound that moves away, beside a fixed upper bound. -/
theorem trunc_atBot (u y : ℝ) :
    Tendsto (fun l => Spec.crps (cdfTrunc F l u) y) atBot (𝓝 (Spec.crps (cdfTruncUp F u) y)) := by
  refine crps_tendsto_dom h.crps y (F u)⁻¹ |u| (abs_nonneg u) (Eventually.of_forall fun l => h.trunc_meas l u)
    ?_ ?_ ?_ (Eventually.of_forall fun z => ?_)
  · filter_upwards [eventually_lt_atBot u] with l hl z using ⟨(h.trunc_bounds hl z).1, (h.trunc_bounds hl z).2.1⟩
  · filter_upwards [eventually_lt_atBot u] with l hl z hz
    exact (h.trunc_bounds hl z).2.2.1 (by linarith [neg_abs_le u])
  · filter_upwards [eventually_lt_atBot u] with l hl z hz
    have hu := le_abs_self u
    unfold cdfTrunc
    rw [if_neg (by linarith), if_neg (by linarith), sub_self]
    exact mul_nonneg (inv_nonneg.2 (h.pos u).le) (by linarith [h.lt_one z])
  · have : Tendsto (fun l => if z < u then (F z - F l) / (F u - F l) else 1) atBot (𝓝 (cdfTruncUp F u z)) := by
      unfold cdfTruncUp
      split_ifs
      · have := (h.bot.const_sub (F z)).div (h.bot.const_sub (F u)) (by simpa using (h.pos u).ne')
        rw [sub_zero, sub_zero] at this; exact this
      · exact tendsto_const_nhds
    refine this.congr' ?_
    filter_upwards [eventually_le_atBot z] with l hl
    unfold cdfTrunc; rw [if_neg (not_lt.2 hl)]

/-- An upper bound that moves away, beside a fixed lower bound. -/
theorem trunc_atTop (l y : ℝ) :
    Tendsto (fun u => Spec.crps (cdfTrunc F l u) y) atTop (𝓝 (Spec.crps (cdfTruncLo F l) y)) := by
  refine crps_tendsto_dom h.crps y (1 - F l)⁻¹ |l| (abs_nonneg l) (Eventually.of_forall fun u => h.trunc_meas l u)
    ?_ ?_ ?_ (Eventually.of_forall fun z => ?_)
  · filter_upwards [eventually_gt_atTop l] with u hl z using ⟨(h.trunc_bounds hl z).1, (h.trunc_bounds hl z).2.1⟩
  · filter_upwards [eventually_gt_atTop l] with u hl z hz
    unfold cdfTrunc
    rw [if_pos (by linarith [neg_abs_le l])]
    exact mul_nonneg (inv_nonneg.2 (by linarith [h.lt_one l])) (h.pos z).le
  · filter_upwards [eventually_gt_atTop l] with u hl z hz
    exact (h.trunc_bounds hl z).2.2.2 (by linarith [le_abs_self l])
  · have : Tendsto (fun u => if z < l then 0 else (F z - F l) / (F u - F l)) atTop (𝓝 (cdfTruncLo F l z)) := by
      unfold cdfTruncLo
      split_ifs
      · exact tendsto_const_nhds
      · exact (tendsto_const_nhds (x := F z - F l)).div (h.top.sub_const (F l)) (by linarith [h.lt_one l])
    refine this.congr' ?_
    filter_upwards [eventually_gt_atTop z] with u hl
    unfold cdfTrunc; rw [if_pos hl]

theorem truncLo_atBot (y : ℝ) :
    Tendsto (fun l => Spec.crps (cdfTruncLo F l) y) atBot (𝓝 (Spec.crps F y)) := by
  have hC : 1 ≤ (1 - F 0)⁻¹ := (one_le_inv₀ (by linarith [h.lt_one 0])).2 (by linarith [h.pos 0])
  refine crps_tendsto_dom h.crps y (1 - F 0)⁻¹ 0 le_rfl (Eventually.of_forall fun l => h.truncLo_meas l)
    ?_ ?_ ?_ (Eventually.of_forall fun z => ?_)
  · exact Eventually.of_forall fun l z => ⟨(h.truncLo_bounds l z).1, (h.truncLo_bounds l z).2.1⟩
  · refine Eventually.of_forall fun l z _ => (h.truncLo_bounds l z).2.2.1.trans ?_
    exact le_mul_of_one_le_left (h.pos z).le hC
  · filter_upwards [eventually_le_atBot 0] with l hl z hz
    refine ((h.truncLo_bounds l z).2.2.2 (by linarith)).trans ?_
    refine mul_le_mul_of_nonneg_right (inv_anti₀ (by linarith [h.lt_one 0]) ?_) (by linarith [h.lt_one z])
    linarith [h.mono.monotone hl]
  · have := (h.bot.const_sub (F z)).div (h.bot.const_sub 1) (by norm_num)
    simp only [sub_zero, div_one] at this
    refine this.congr' ?_
    filter_upwards [eventually_le_atBot z] with l hl
    unfold cdfTruncLo; rw [if_neg (not_lt.2 hl)]; rfl

theorem truncUp_atTop (y : ℝ) :
    Tendsto (fun u => Spec.crps (cdfTruncUp F u) y) atTop (𝓝 (Spec.crps F y)) := by
  have hC : 1 ≤ (F 0)⁻¹ := (one_le_inv₀ (h.pos 0)).2 (h.lt_one 0).le
  refine crps_tendsto_dom h.crps y (F 0)⁻¹ 0 le_rfl (Eventually.of_forall fun u => h.truncUp_meas u)
    ?_ ?_ ?_ (Eventually.of_forall fun z => ?_)
  · exact Eventually.of_forall fun u z => ⟨(h.truncUp_bounds u z).1, (h.truncUp_bounds u z).2.1⟩
  · filter_upwards [eventually_ge_atTop 0] with u hl z hz
    refine ((h.truncUp_bounds u z).2.2.1 (by linarith)).trans ?_
    exact mul_le_mul_of_nonneg_right (inv_anti₀ (h.pos 0) (h.mono.monotone hl)) (h.pos z).le
  · refine Eventually.of_forall fun u z _ => (h.truncUp_bounds u z).2.2.2.trans ?_
    exact le_mul_of_one_le_left (by linarith [h.lt_one z]) hC
  · have := (tendsto_const_nhds (x := F z)).div h.top one_ne_zero
    simp only [div_one] at this
    refine this.congr' ?_
    filter_upwards [eventually_gt_atTop z] with u hl
    unfold cdfTruncUp; rw [if_pos hl]; rfl

theorem trunc_both (y : ℝ) :
    Tendsto (fun b : ℝ × ℝ => Spec.crps (cdfTrunc F b.1 b.2) y) (atBot ×ˢ atTop) (𝓝 (Spec.crps F y)) := by
  have hl : ∀ a, ∀ᶠ b : ℝ × ℝ in atBot ×ˢ atTop, b.1 < a := fun a => tendsto_fst.eventually (eventually_lt_atBot a)
  have hu : ∀ a, ∀ᶠ b : ℝ × ℝ in atBot ×ˢ atTop, a < b.2 := fun a => tendsto_snd.eventually (eventually_gt_atTop a)
  have ha : 0 < (F 0)⁻¹ := inv_pos.2 (h.pos 0)
  have hb : 0 < (1 - F 0)⁻¹ := inv_pos.2 (by linarith [h.lt_one 0])
  refine crps_tendsto_dom h.crps y ((F 0)⁻¹ + (1 - F 0)⁻¹) 0 le_rfl
    (Eventually.of_forall fun b => h.trunc_meas b.1 b.2) ?_ ?_ ?_ (Eventually.of_forall fun z => ?_)
  · filter_upwards [hl 0, hu 0] with b h1 h2 z
    have := h.trunc_bounds (h1.trans h2) z
    exact ⟨this.1, this.2.1⟩
  · filter_upwards [hl 0, hu 0] with b h1 h2 z hz
    refine ((h.trunc_bounds (h1.trans h2) z).2.2.1 (by linarith)).trans ?_
    refine mul_le_mul_of_nonneg_right ?_ (h.pos z).le
    linarith [inv_anti₀ (h.pos 0) (h.mono.monotone h2.le)]
  · filter_upwards [hl 0, hu 0] with b h1 h2 z hz
    refine ((h.trunc_bounds (h1.trans h2) z).2.2.2 (by linarith)).trans ?_
    refine mul_le_mul_of_nonneg_right ?_ (by linarith [h.lt_one z])
    have := inv_anti₀ (by linarith [h.lt_one 0] : 0 < 1 - F 0)
      (by linarith [h.mono.monotone h1.le] : 1 - F 0 ≤ 1 - F b.1)
    linarith
  · have h1 : Tendsto (fun b : ℝ × ℝ => F b.1) (atBot ×ˢ atTop) (𝓝 0) := h.bot.comp tendsto_fst
    have h2 : Tendsto (fun b : ℝ × ℝ => F b.2) (atBot ×ˢ atTop) (𝓝 1) := h.top.comp tendsto_snd
    have := (h1.const_sub (F z)).div (h2.sub h1) (by norm_num)
    simp only [sub_zero, div_one] at this
    refine this.congr' ?_
    filter_upwards [hl z, hu z] with b h1 h2
    unfold cdfTrunc; rw [if_neg (not_lt.2 h1.le), if_pos h2]; rfl

/-! Censoring changes nothing between the bounds. -/

theorem cens_bounds (l u z : ℝ) : 0 ≤ cdfCens F l u z ∧ cdfCens F l u z ≤ 1 ∧
    (z < u → cdfCens F l u z ≤ 1 * F z) ∧ (l ≤ z → 1 - cdfCens F l u z ≤ 1 * (1 - F z)) := by
  have h4 := h.pos z
  have h5 := h.lt_one z
  unfold cdfCens
  split_ifs with a b
  · exact ⟨le_rfl, zero_le_one, fun _ => by linarith, fun hz => absurd a (not_lt.2 hz)⟩
  · exact ⟨h4.le, h5.le, fun _ => by linarith, fun _ => by linarith⟩
  · exact ⟨zero_le_one, le_rfl, fun hz => absurd hz b, fun _ => by linarith⟩

theorem cens_atBot (u y : ℝ) :
    Tendsto (fun l => Spec.crps (cdfCens F l u) y) atBot (𝓝 (Spec.crps (cdfCensUp F u) y)) := by
  refine crps_tendsto_dom h.crps y 1 |u| (abs_nonneg u) (Eventually.of_forall fun l => h.cens_meas l u)
    (Eventually.of_forall fun l z => ⟨(h.cens_bounds l u z).1, (h.cens_bounds l u z).2.1⟩)
    (Eventually.of_forall fun l z hz => (h.cens_bounds l u z).2.2.1 (by linarith [neg_abs_le u])) ?_
    (Eventually.of_forall fun z => ?_)
  · filter_upwards [eventually_lt_atBot u] with l hl z hz
    exact (h.cens_bounds l u z).2.2.2 (by linarith [le_abs_self u])
  · refine tendsto_const_nhds.congr' ?_
    filter_upwards [eventually_le_atBot z] with l hl
    unfold cdfCens cdfCensUp; rw [if_neg (not_lt.2 hl)]

theorem cens_atTop (l y : ℝ) :
    Tendsto (fun u => Spec.crps (cdfCens F l u) y) atTop (𝓝 (Spec.crps (cdfCensLo F l) y)) := by
  refine crps_tendsto_dom h.crps y 1 |l| (abs_nonneg l) (Eventually.of_forall fun u => h.cens_meas l u)
    (Eventually.of_forall fun u z => ⟨(h.cens_bounds l u z).1, (h.cens_bounds l u z).2.1⟩) ?_
    (Eventually.of_forall fun u z hz => (h.cens_bounds l u z).2.2.2 (by linarith [le_abs_self l]))
    (Eventually.of_forall fun z => ?_)
  · filter_upwards [eventually_gt_atTop l] with u hl z hz
    exact (h.cens_bounds l u z).2.2.1 (by linarith [neg_abs_le l])
  · refine tendsto_const_nhds.congr' ?_
    filter_upwards [eventually_gt_atTop z] with u hl
    unfold cdfCens cdfCensLo; rw [if_pos hl]

theorem censLo_atBot (y : ℝ) :
    Tendsto (fun l => Spec.crps (cdfCensLo F l) y) atBot (𝓝 (Spec.crps F y)) := by
  refine crps_tendsto_dom h.crps y 1 0 le_rfl (Eventually.of_forall fun l => h.censLo_meas l) ?_ ?_ ?_
    (Eventually.of_forall fun z => ?_)
  · refine Eventually.of_forall fun l z => ?_
    have h4 := h.pos z
    have h5 := h.lt_one z
    unfold cdfCensLo; split_ifs
    · exact ⟨le_rfl, zero_le_one⟩
    · exact ⟨h4.le, h5.le⟩
  · refine Eventually.of_forall fun l z _ => ?_
    have h4 := h.pos z
    unfold cdfCensLo; split_ifs <;> linarith
  · filter_upwards [eventually_le_atBot 0] with l hl z hz
    unfold cdfCensLo; rw [if_neg (by linarith), one_mul]
  · refine tendsto_const_nhds.congr' ?_
    filter_upwards [eventually_le_atBot z] with l hl
    unfold cdfCensLo; rw [if_neg (not_lt.2 hl)]

theorem censUp_atTop (y : ℝ) :
    Tendsto (fun u => Spec.crps (cdfCensUp F u) y) atTop (𝓝 (Spec.crps F y)) := by
  refine crps_tendsto_dom h.crps y 1 0 le_rfl (Eventually.of_forall fun u => h.censUp_meas u) ?_ ?_ ?_
    (Eventually.of_forall fun z => ?_)
  · refine Eventually.of_forall fun u z => ?_
    have h4 := h.pos z
    have h5 := h.lt_one z
    unfold cdfCensUp; split_ifs
    · exact ⟨h4.le, h5.le⟩
    · exact ⟨zero_le_one, le_rfl⟩
  · filter_upwards [eventually_ge_atTop 0] with u hl z hz
    unfold cdfCensUp; rw [if_pos (by linarith), one_mul]
  · refine Eventually.of_forall fun u z _ => ?_
    have h4 := h.lt_one z
    unfold cdfCensUp; split_ifs <;> linarith
  · refine tendsto_const_nhds.congr' ?_
    filter_upwards [eventually_gt_atTop z] with u hl
    unfold cdfCensUp; rw [if_pos hl]

theorem cens_both (y : ℝ) :
    Tendsto (fun b : ℝ × ℝ => Spec.crps (cdfCens F b.1 b.2) y) (atBot ×ˢ atTop) (𝓝 (Spec.crps F y)) := by
  have hl : ∀ a, ∀ᶠ b : ℝ × ℝ in atBot ×ˢ atTop, b.1 < a := fun a => tendsto_fst.eventually (eventually_lt_atBot a)
  have hu : ∀ a, ∀ᶠ b : ℝ × ℝ in atBot ×ˢ atTop, a < b.2 := fun a => tendsto_snd.eventually (eventually_gt_atTop a)
  refine crps_tendsto_dom h.crps y 1 0 le_rfl (Eventually.of_forall fun b => h.cens_meas b.1 b.2)
    (Eventually.of_forall fun b z => ⟨(h.cens_bounds b.1 b.2 z).1, (h.cens_bounds b.1 b.2 z).2.1⟩) ?_ ?_
    (Eventually.of_forall fun z => ?_)
  · filter_upwards [hu 0] with b h2 z hz
    exact (h.cens_bounds b.1 b.2 z).2.2.1 (by linarith)
  · filter_upwards [hl 0] with b h2 z hz
    exact (h.cens_bounds b.1 b.2 z).2.2.2 (by linarith)
  · refine tendsto_const_nhds.congr' ?_
    filter_upwards [hl z, hu z] with b h1 h2
    unfold cdfCens; rw [if_neg (not_lt.2 h1.le), if_pos h2]

end FullCdf

end Verif
