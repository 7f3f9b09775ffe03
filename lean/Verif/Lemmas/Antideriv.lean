import Verif.Spec.Crps
import Mathlib.MeasureTheory.Integral.IntegralEqImproper
import Mathlib.MeasureTheory.Integral.DivergenceTheorem
import Mathlib.MeasureTheory.Measure.Haar.NormedSpace
import Mathlib.Analysis.SpecialFunctions.ExpDeriv
import Mathlib.Analysis.SpecialFunctions.Log.Deriv

/-!
# Computing the CRPS of a distribution function from antiderivatives
-/

noncomputable section

open scoped Classical Topology
open MeasureTheory Filter Set

namespace Verif

theorem Spec.crps_scale (F : ℝ → ℝ) (μ : ℝ) {σ : ℝ} (hσ : 0 < σ) (y : ℝ) :
    Spec.crps (fun z => F ((z - μ) / σ)) y = σ * Spec.crps F ((y - μ) / σ) := by
  unfold Spec.crps
  have e : ∀ z, (F ((z - μ) / σ) - if y ≤ z then 1 else 0) ^ 2
      = (fun w => (F w - if (y - μ) / σ ≤ w then 1 else 0) ^ 2) (σ⁻¹ • (z - μ)) := by
    intro z
    have h1 : σ⁻¹ • (z - μ) = (z - μ) / σ := by rw [smul_eq_mul, div_eq_inv_mul]
    have h2 : (y - μ) / σ ≤ (z - μ) / σ ↔ y ≤ z := by
      rw [div_le_div_iff_of_pos_right hσ, sub_le_sub_iff_right]
    simp only [h1, h2]
  simp only [e]
  rw [integral_sub_right_eq_self (fun z => (fun w => (F w - if (y - μ) / σ ≤ w then 1 else 0) ^ 2)
    (σ⁻¹ • z)) μ]
  refine (Measure.integral_comp_inv_smul_of_nonneg volume
    (fun w => (F w - if (y - μ) / σ ≤ w then 1 else 0) ^ 2) hσ.le).trans ?_
  simp

/-- Improper fundamental theorem of calculus to the right, with countably many exceptional points and
a bounded measurable non-negative derivative. -/
theorem ftc_Ioi {f P : ℝ → ℝ} {y q C : ℝ} {s : Set ℝ} (hs : s.Countable) (hf : Measurable f)
    (h0 : ∀ x, 0 ≤ f x) (hC : ∀ x, f x ≤ C) (hc : ContinuousOn P (Ici y))
    (hd : ∀ x, y < x → x ∉ s → HasDerivAt P (f x) x) (hq : Tendsto P atTop (𝓝 q)) :
    IntegrableOn f (Ioi y) ∧ ∫ x in Ioi y, f x = q - P y := by
  have hloc : ∀ a b : ℝ, IntervalIntegrable f volume a b := by
    intro a b
    refine intervalIntegrable_const (c := C) |>.mono_fun hf.aestronglyMeasurable ?_
    refine ae_of_all _ fun x => ?_
    dsimp only
    rw [Real.norm_of_nonneg (h0 x), Real.norm_eq_abs]
    exact (hC x).trans (le_abs_self C)
  have hval : ∀ b, y ≤ b → ∫ x in y..b, f x = P b - P y := by
    intro b hb
    exact integral_eq_of_hasDerivAt_off_countable_of_le P f hb hs (hc.mono Icc_subset_Ici_self)
      (fun x hx => hd x hx.1.1 hx.2) (hloc y b)
  have ht : Tendsto (fun b : ℝ => ∫ x in y..b, f x) atTop (𝓝 (q - P y)) := by
    refine (hq.sub_const (P y)).congr' ?_
    filter_upwards [eventually_ge_atTop y] with b hb
    rw [hval b hb]
  have hi : IntegrableOn f (Ioi y) := by
    refine integrableOn_Ioi_of_intervalIntegral_norm_tendsto (l := atTop) (b := id) (q - P y) y
      (fun b => (hloc y b).1) tendsto_id ?_
    refine ht.congr fun b => ?_
    simp only [id, Real.norm_of_nonneg (h0 _)]
  exact ⟨hi, tendsto_nhds_unique (intervalIntegral_tendsto_integral_Ioi y hi tendsto_id) ht⟩

theorem ftc_Iic {f P : ℝ → ℝ} {y p C : ℝ} {s : Set ℝ} (hs : s.Countable) (hf : Measurable f)
    (h0 : ∀ x, 0 ≤ f x) (hC : ∀ x, f x ≤ C) (hc : ContinuousOn P (Iic y))
    (hd : ∀ x, x < y → x ∉ s → HasDerivAt P (f x) x) (hp : Tendsto P atBot (𝓝 p)) :
    IntegrableOn f (Iic y) ∧ ∫ x in Iic y, f x = P y - p := by
  have hloc : ∀ a b : ℝ, IntervalIntegrable f volume a b := by
    intro a b
    refine intervalIntegrable_const (c := C) |>.mono_fun hf.aestronglyMeasurable ?_
    refine ae_of_all _ fun x => ?_
    dsimp only
    rw [Real.norm_of_nonneg (h0 x), Real.norm_eq_abs]
    exact (hC x).trans (le_abs_self C)
  have hval : ∀ a, a ≤ y → ∫ x in a..y, f x = P y - P a := by
    intro a ha
    exact integral_eq_of_hasDerivAt_off_countable_of_le P f ha hs (hc.mono Icc_subset_Iic_self)
      (fun x hx => hd x hx.1.2 hx.2) (hloc a y)
  have ht : Tendsto (fun a : ℝ => ∫ x in a..y, f x) atBot (𝓝 (P y - p)) := by
    refine (hp.const_sub (P y)).congr' ?_
    filter_upwards [eventually_le_atBot y] with a ha
    rw [hval a ha]
  have hi : IntegrableOn f (Iic y) := by
    refine integrableOn_Iic_of_intervalIntegral_norm_tendsto (l := atBot) (a := id) (P y - p) y
      (fun a => (hloc a y).1) tendsto_id ?_
    refine ht.congr fun b => ?_
    simp only [id, Real.norm_of_nonneg (h0 _)]
  exact ⟨hi, tendsto_nhds_unique (intervalIntegral_tendsto_integral_Iic y hi tendsto_id) ht⟩

/-- The CRPS of a distribution function from antiderivatives of its square on the left and of the
square of its complement on the right. -/
theorem crps_of_antideriv {F P Q : ℝ → ℝ} {p q : ℝ} {s : Set ℝ} (hs : s.Countable)
    (hF : Measurable F) (h0 : ∀ x, 0 ≤ F x) (h1 : ∀ x, F x ≤ 1)
    (hPc : Continuous P) (hP : ∀ x, x ∉ s → HasDerivAt P (F x ^ 2) x)
    (hQc : Continuous Q) (hQ : ∀ x, x ∉ s → HasDerivAt Q ((1 - F x) ^ 2) x)
    (hp : Tendsto P atBot (𝓝 p)) (hq : Tendsto Q atTop (𝓝 q)) (y : ℝ) :
    Integrable (fun z => (F z - if y ≤ z then 1 else 0) ^ 2) ∧
      Spec.crps F y = P y - p + (q - Q y) := by
  obtain ⟨i1, e1⟩ := ftc_Iic (y := y) (C := 1) hs (hF.pow_const 2) (fun x => sq_nonneg _)
    (fun x => pow_le_one₀ (h0 x) (h1 x)) hPc.continuousOn (fun x _ => hP x) hp
  obtain ⟨i2, e2⟩ := ftc_Ioi (y := y) (C := 1) (f := fun x => (1 - F x) ^ 2) hs
    ((measurable_const.sub hF).pow_const 2)
    (fun x => sq_nonneg _)
    (fun x => pow_le_one₀ (by linarith [h1 x]) (by linarith [h0 x])) hQc.continuousOn
    (fun x _ => hQ x) hq
  have c1 : ∀ᵐ z ∂(volume.restrict (Iic y)), F z ^ 2 = (F z - if y ≤ z then 1 else 0) ^ 2 := by
    rw [ae_restrict_iff' measurableSet_Iic]
    filter_upwards [measure_eq_zero_iff_ae_notMem.1 (measure_singleton (μ := volume) y)] with z hz hzy
    rw [if_neg, sub_zero]
    intro h
    exact hz (le_antisymm hzy h)
  have c2 : ∀ᵐ z ∂(volume.restrict (Ioi y)), (1 - F z) ^ 2 = (F z - if y ≤ z then 1 else 0) ^ 2 := by
    rw [ae_restrict_iff' measurableSet_Ioi]
    refine ae_of_all _ fun z hz => ?_
    rw [if_pos (le_of_lt hz)]; ring
  have j1 : IntegrableOn (fun z => (F z - if y ≤ z then 1 else 0) ^ 2) (Iic y) := i1.congr c1
  have j2 : IntegrableOn (fun z => (F z - if y ≤ z then 1 else 0) ^ 2) (Ioi y) := i2.congr c2
  refine ⟨?_, ?_⟩
  · rw [← integrableOn_univ, ← Iic_union_Ioi (a := y)]
    exact j1.union j2
  · unfold Spec.crps
    rw [← intervalIntegral.integral_Iic_add_Ioi j1 j2, ← integral_congr_ae c1, ← integral_congr_ae c2,
      e1, e2]

/-! ### pieces -/

/-- Replacing the argument by its positive part. -/
theorem hasDerivAt_ppart {p : ℝ → ℝ} {d x : ℝ} (hx : 0 < x) (h : HasDerivAt p d x) :
    HasDerivAt (fun z => p (max z 0)) d x := by
  refine h.congr_of_eventuallyEq ?_
  filter_upwards [lt_mem_nhds hx] with z hz
  rw [max_eq_left hz.le]

theorem hasDerivAt_ppart' {p : ℝ → ℝ} {x : ℝ} (hx : x < 0) :
    HasDerivAt (fun z => p (max z 0)) 0 x := by
  refine (hasDerivAt_const x (p 0)).congr_of_eventuallyEq ?_
  filter_upwards [gt_mem_nhds hx] with z hz
  rw [max_eq_right (le_of_lt hz)]

theorem hasDerivAt_npart {p : ℝ → ℝ} {d x : ℝ} (hx : x < 0) (h : HasDerivAt p d x) :
    HasDerivAt (fun z => p (min z 0)) d x := by
  refine h.congr_of_eventuallyEq ?_
  filter_upwards [gt_mem_nhds hx] with z hz
  rw [min_eq_left (le_of_lt hz)]

theorem hasDerivAt_npart' {p : ℝ → ℝ} {x : ℝ} (hx : 0 < x) :
    HasDerivAt (fun z => p (min z 0)) 0 x := by
  refine (hasDerivAt_const x (p 0)).congr_of_eventuallyEq ?_
  filter_upwards [lt_mem_nhds hx] with z hz
  rw [min_eq_right (le_of_lt hz)]

theorem tendsto_pos_atBot (p : ℝ → ℝ) : Tendsto (fun z => p (max z 0)) atBot (𝓝 (p 0)) := by
  refine tendsto_const_nhds.congr' ?_
  filter_upwards [eventually_le_atBot 0] with z hz
  rw [max_eq_right hz]

theorem tendsto_neg_atTop (p : ℝ → ℝ) : Tendsto (fun z => p (min z 0)) atTop (𝓝 (p 0)) := by
  refine tendsto_const_nhds.congr' ?_
  filter_upwards [eventually_ge_atTop 0] with z hz
  rw [min_eq_right hz]

theorem tendsto_pos_atTop {p : ℝ → ℝ} {q : ℝ} (h : Tendsto p atTop (𝓝 q)) :
    Tendsto (fun z => p (max z 0)) atTop (𝓝 q) := by
  refine h.congr' ?_
  filter_upwards [eventually_ge_atTop 0] with z hz
  rw [max_eq_left hz]

theorem tendsto_neg_atBot {p : ℝ → ℝ} {q : ℝ} (h : Tendsto p atBot (𝓝 q)) :
    Tendsto (fun z => p (min z 0)) atBot (𝓝 q) := by
  refine h.congr' ?_
  filter_upwards [eventually_le_atBot 0] with z hz
  rw [min_eq_left hz]

theorem hasDerivAt_expc (c x : ℝ) : HasDerivAt (fun z => Real.exp (c * z)) (c * Real.exp (c * x)) x := by
  have := ((hasDerivAt_id x).const_mul c).exp
  simpa [mul_comm] using this

theorem tendsto_exp_neg {c : ℝ} (hc : c < 0) : Tendsto (fun z => Real.exp (c * z)) atTop (𝓝 0) :=
  Real.tendsto_exp_atBot.comp (tendsto_id.const_mul_atTop_of_neg hc)

theorem tendsto_exp_pos {c : ℝ} (hc : 0 < c) : Tendsto (fun z => Real.exp (c * z)) atBot (𝓝 0) :=
  Real.tendsto_exp_atBot.comp (tendsto_id.const_mul_atBot hc)

end Verif
