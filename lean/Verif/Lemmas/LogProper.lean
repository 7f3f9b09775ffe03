import Verif.Lemmas.Proper
import Mathlib.Analysis.SpecialFunctions.Log.Deriv
import Mathlib.MeasureTheory.Function.AEEqOfIntegral

/-!
# Gibbs' inequality for densities and mass functions
-/

noncomputable section

open scoped Classical
open MeasureTheory

namespace Verif

open Spec

theorem negLog_fin {p s : ℝ} (h : negLog p = XF.fin s) : p ≠ 0 ∧ s = -Real.log p := by
  unfold negLog at h
  split_ifs at h with h0
  exact ⟨h0, (XF.fin.inj h).symm⟩

theorem lawOf_ac (f : ℝ → ℝ) : lawOf f ≪ volume := withDensity_absolutelyContinuous _ _

theorem integral_lawOf {f F : ℝ → ℝ} (h : IsDensity f F) (g : ℝ → ℝ) :
    ∫ x, g x ∂(lawOf f) = ∫ x, f x * g x := by
  unfold lawOf
  rw [integral_withDensity_eq_integral_toReal_smul₀
    h.integrable.aestronglyMeasurable.aemeasurable.ennreal_ofReal
    (Filter.Eventually.of_forall fun _ => ENNReal.ofReal_lt_top)]
  simp only [ENNReal.toReal_ofReal (h.nonneg _), smul_eq_mul]

theorem ae_lawOf {f F : ℝ → ℝ} (h : IsDensity f F) {q : ℝ → Prop} :
    (∀ᵐ x ∂(lawOf f), q x) ↔ ∀ᵐ x, f x ≠ 0 → q x := by
  unfold lawOf
  rw [ae_withDensity_iff' h.integrable.aestronglyMeasurable.aemeasurable.ennreal_ofReal]
  have : ∀ x, ENNReal.ofReal (f x) ≠ 0 ↔ f x ≠ 0 := fun x => by
    rw [Ne, ENNReal.ofReal_eq_zero, not_le]
    exact ⟨fun h => h.ne', fun h' => lt_of_le_of_ne (h.nonneg x) (Ne.symm h')⟩
  simp only [this]

/-- Densities of the same distribution agree almost everywhere. -/
theorem isDensity_unique {p g F G : ℝ → ℝ} (hp : IsDensity p F) (hg : IsDensity g G) :
    p =ᵐ[volume] g ↔ F = G := by
  constructor
  · intro h
    funext y
    rw [← hp.cdf y, ← hg.cdf y]
    exact integral_congr_ae (ae_restrict_of_ae h)
  · intro h
    have := lawOf_prob hp
    have := lawOf_prob hg
    have he : lawOf p = lawOf g := by
      refine Measure.eq_of_cdf _ _ ?_
      refine StieltjesFunction.ext fun z => ?_
      rw [ProbabilityTheory.cdf_eq_real, ProbabilityTheory.cdf_eq_real]
      have h1 := congrFun (lawOf_distr hp) z
      have h2 := congrFun (lawOf_distr hg) z
      unfold distr at h1 h2
      rw [h1, h2, h]
    have h3 := (withDensity_eq_iff (μ := volume)
      hp.integrable.aestronglyMeasurable.aemeasurable.ennreal_ofReal
      hg.integrable.aestronglyMeasurable.aemeasurable.ennreal_ofReal (by
        rw [← ofReal_integral_eq_lintegral_ofReal hp.integrable (Filter.Eventually.of_forall hp.nonneg)]
        exact ENNReal.ofReal_ne_top)).1 he
    filter_upwards [h3] with x hx
    have := congrArg ENNReal.toReal hx
    rwa [ENNReal.toReal_ofReal (hp.nonneg x), ENNReal.toReal_ofReal (hg.nonneg x)] at this

theorem log_gap {p g : ℝ} (hp : 0 < p) (hg : 0 < g) :
    p - g ≤ p * (Real.log p - Real.log g) ∧ (p * (Real.log p - Real.log g) = p - g → p = g) := by
  have hd : 0 < g / p := div_pos hg hp
  have e : Real.log p - Real.log g = -Real.log (g / p) := by
    rw [Real.log_div hg.ne' hp.ne']; ring
  have h1 := Real.log_le_sub_one_of_pos hd
  have h2 : p * (g / p) = g := by field_simp
  constructor
  · rw [e]; nlinarith
  · intro h
    by_contra hne
    have : g / p ≠ 1 := fun h => hne (by rw [div_eq_one_iff_eq hp.ne'] at h; exact h.symm)
    have h3 := Real.log_lt_sub_one_of_pos hd this
    rw [e] at h
    nlinarith

/-- The negative logarithm of a density is a strictly proper score. -/
theorem logProper_of {S : ℝ → XF} {g G : ℝ → ℝ} (hg : IsDensity g G)
    (hS : ∀ᵐ y, S y = negLog (g y)) : LogProper S G := by
  intro p F hp e₀ e h₀ h₁
  rw [← isDensity_unique hp hg]
  have hback : p =ᵐ[volume] g → e₀ = e := by
    intro h
    refine HasMean.unique h₀ ?_
    obtain ⟨s, hs, hi, he⟩ := h₁
    refine ⟨s, ?_, hi, he⟩
    filter_upwards [hs, lawOf_ac p hS, lawOf_ac p h] with y h1 h2 h3
    rw [h3, ← h2, h1]
  obtain ⟨s₀, a₀, i₀, rfl⟩ := h₀
  obtain ⟨s, a, i, rfl⟩ := h₁
  rw [integral_lawOf hp, integral_lawOf hp] at *
  rw [integrable_lawOf hp] at i₀ i
  rw [ae_lawOf hp] at a₀ a
  have hkey : ∀ᵐ y, p y ≠ 0 → 0 < g y ∧ s₀ y = -Real.log (p y) ∧ s y = -Real.log (g y) := by
    filter_upwards [a₀, a, hS] with y h1 h2 h3 h
    have h4 := negLog_fin (h1 h)
    have h5 := negLog_fin (h3.symm.trans (h2 h))
    exact ⟨lt_of_le_of_ne (hg.nonneg y) (Ne.symm h5.1), h4.2, h5.2⟩
  have hle : ∀ᵐ y, p y - g y ≤ p y * s y - p y * s₀ y := by
    filter_upwards [hkey] with y h
    by_cases h0 : p y = 0
    · rw [h0]; simpa using hg.nonneg y
    · obtain ⟨h1, h2, h3⟩ := h h0
      have := (log_gap (lt_of_le_of_ne (hp.nonneg y) (Ne.symm h0)) h1).1
      rw [h2, h3]
      linarith
  have hint : ∫ y, (p y - g y) = 0 := by
    rw [integral_sub hp.integrable hg.integrable, hp.total, hg.total, sub_self]
  have hmono := integral_mono_ae (hp.integrable.sub hg.integrable) (i.sub i₀) hle
  have hsub : ∫ y, (p y * s y - p y * s₀ y) =
      (∫ y, p y * s y) - ∫ y, p y * s₀ y := integral_sub i i₀
  change ∫ y, (p y - g y) ≤ ∫ y, (p y * s y - p y * s₀ y) at hmono
  rw [hint, hsub] at hmono
  refine ⟨by linarith, fun heq => ?_, hback⟩
  have hz : ∫ y, ((p y * s y - p y * s₀ y) - (p y - g y)) = 0 := by
    have h1 := integral_sub (i.sub i₀) (hp.integrable.sub hg.integrable)
    simp only [Pi.sub_apply] at h1
    rw [h1, hint, hsub]
    linarith
  have hz' := (integral_eq_zero_iff_of_nonneg_ae
    (f := fun y => (p y * s y - p y * s₀ y) - (p y - g y)) (by
      filter_upwards [hle] with y h
      simpa using h) ((i.sub i₀).sub (hp.integrable.sub hg.integrable))).1 hz
  filter_upwards [hz', hkey] with y h h'
  have h : (p y * s y - p y * s₀ y) - (p y - g y) = 0 := h
  by_cases h0 : p y = 0
  · rw [h0] at h ⊢
    linarith
  · obtain ⟨h1, h2, h3⟩ := h' h0
    refine (log_gap (lt_of_le_of_ne (hp.nonneg y) (Ne.symm h0)) h1).2 ?_
    rw [h2, h3] at h
    linarith

/-- The same for mass functions. -/
theorem logProperN_of {S : ℕ → XF} {g : ℕ → ℝ} (hg : IsPmf g)
    (hS : ∀ k s, S k = XF.fin s → negLog (g k) = XF.fin s) : LogProperN S g := by
  intro f hf e₀ e ⟨s₀, a₀, i₀⟩ ⟨s, a, i⟩
  have hkey : ∀ k, f k ≠ 0 → 0 < g k ∧ s₀ k = -Real.log (f k) ∧ s k = -Real.log (g k) := by
    intro k h
    have h4 := negLog_fin (a₀ k h)
    have h5 := negLog_fin (hS k _ (a k h))
    exact ⟨lt_of_le_of_ne (hg.nonneg k) (Ne.symm h5.1), h4.2, h5.2⟩
  have hle : ∀ k, f k - g k ≤ f k * s k - f k * s₀ k := by
    intro k
    by_cases h0 : f k = 0
    · rw [h0]; simpa using hg.nonneg k
    · obtain ⟨h1, h2, h3⟩ := hkey k h0
      have := (log_gap (lt_of_le_of_ne (hf.nonneg k) (Ne.symm h0)) h1).1
      rw [h2, h3]
      linarith
  have hfg := hf.total.sub hg.total
  have hss := i.sub i₀
  have hmono := hasSum_le hle hfg hss
  refine ⟨by linarith, fun heq => ?_, ?_⟩
  · have hz := hss.sub hfg
    rw [heq, sub_self, sub_self, sub_self] at hz
    have h0 := (hasSum_zero_iff_of_nonneg (fun k => by simpa using hle k)).1 hz
    funext k
    have h : (f k * s k - f k * s₀ k) - (f k - g k) = 0 := congrFun h0 k
    by_cases h0 : f k = 0
    · rw [h0] at h ⊢
      linarith
    · obtain ⟨h1, h2, h3⟩ := hkey k h0
      refine (log_gap (lt_of_le_of_ne (hf.nonneg k) (Ne.symm h0)) h1).2 ?_
      rw [h2, h3] at h
      linarith
  · rintro rfl
    refine i₀.unique ?_
    convert i using 2 with k
    by_cases h0 : f k = 0
    · rw [h0]; simp
    · rw [(hkey k h0).2.1, (hkey k h0).2.2]

end Verif
