import Verif.Lemmas.Discrete
import Mathlib.MeasureTheory.Integral.DominatedConvergence
import Mathlib.MeasureTheory.Constructions.BorelSpace.Order

/-!
# The CRPS of a distribution on the non-negative integers with finite mean
-/

noncomputable section

open scoped Classical
open MeasureTheory

namespace Verif

open Spec

theorem hasSum_of_eq {ι : Type} {f g : ι → ℝ} {a b : ℝ} (h : HasSum f a) (e : ∀ i, g i = f i) (hab : b = a) :
    HasSum g b := by
  rw [hab, funext e]; exact h

/-- A pointwise sum of non-negative integrable functions with summable integrals is integrable. -/
theorem integrable_hasSum {ι : Type} [Countable ι] {F : ι → ℝ → ℝ} {g : ℝ → ℝ} (h0 : ∀ i z, 0 ≤ F i z)
    (hi : ∀ i, Integrable (F i)) (hs : Summable fun i => ∫ z, F i z)
    (hm : AEStronglyMeasurable g) (hg : ∀ z, HasSum (fun i => F i z) (g z)) : Integrable g := by
  refine ⟨hm, ?_⟩
  unfold HasFiniteIntegral
  have e : ∀ z, ‖g z‖ₑ = ∑' i, ENNReal.ofReal (F i z) := by
    intro z
    rw [Real.enorm_eq_ofReal ((hg z).nonneg fun i => h0 i z), ← (hg z).tsum_eq,
      ENNReal.ofReal_tsum_of_nonneg (fun i => h0 i z) (hg z).summable]
  simp only [e]
  rw [lintegral_tsum fun i => (hi i).1.aemeasurable.ennreal_ofReal]
  have e2 : ∀ i, ∫⁻ z, ENNReal.ofReal (F i z) = ENNReal.ofReal (∫ z, F i z) := fun i =>
    (ofReal_integral_eq_lintegral_ofReal (hi i) (Filter.Eventually.of_forall (h0 i))).symm
  simp only [e2]
  rw [← ENNReal.ofReal_tsum_of_nonneg (fun i => integral_nonneg (h0 i)) hs]
  exact ENNReal.ofReal_lt_top

theorem integral_hasSum {ι : Type} [Countable ι] {F : ι → ℝ → ℝ} {g : ℝ → ℝ} (h0 : ∀ i z, 0 ≤ F i z)
    (hi : ∀ i, Integrable (F i)) (hs : Summable fun i => ∫ z, F i z)
    (hg : ∀ z, HasSum (fun i => F i z) (g z)) : HasSum (fun i => ∫ z, F i z) (∫ z, g z) := by
  have h := hasSum_integral_of_summable_integral_norm hi (by
    refine hs.congr fun i => ?_
    refine integral_congr_ae (Filter.Eventually.of_forall fun z => ?_)
    exact (Real.norm_of_nonneg (h0 i z)).symm)
  have e : (fun z => ∑' i, F i z) = g := funext fun z => (hg z).tsum_eq
  rwa [e] at h

theorem step_prod_nonneg (c a b z : ℝ) : 0 ≤ (step a z - step c z) * (step b z - step c z) := by
  rw [step_prod]
  exact add_nonneg (Set.indicator_nonneg (fun _ _ => zero_le_one) _)
    (Set.indicator_nonneg (fun _ _ => zero_le_one) _)

theorem hasSum_cdfPmf {f : ℕ → ℝ} (h : IsPmf f) (z : ℝ) :
    HasSum (fun k : ℕ => f k * step k z) (cdfPmf f z) := by
  have e : ∀ k : ℕ, f k * step k z = if (k:ℝ) ≤ z then f k else 0 := by
    intro k; unfold step; split_ifs <;> simp
  simp only [e]
  refine Summable.hasSum (Summable.of_nonneg_of_le (fun k => ?_) (fun k => ?_) h.total.summable)
  · split_ifs
    · exact h.nonneg k
    · exact le_rfl
  · split_ifs
    · exact le_rfl
    · exact h.nonneg k

theorem cdfPmf_mono {f : ℕ → ℝ} (h : IsPmf f) : Monotone (cdfPmf f) := by
  intro a b hab
  refine hasSum_le (fun k => ?_) (hasSum_cdfPmf h a) (hasSum_cdfPmf h b)
  refine mul_le_mul_of_nonneg_left ?_ (h.nonneg k)
  unfold step
  split_ifs with h1 h2
  · exact le_rfl
  · exact absurd (h1.trans hab) h2
  · exact zero_le_one
  · exact le_rfl

theorem summable_absdev {f : ℕ → ℝ} (h : IsPmf f) (hm : Summable fun k : ℕ => (k:ℝ) * f k) (y : ℝ) :
    Summable fun k : ℕ => f k * |(k:ℝ) - y| := by
  refine Summable.of_nonneg_of_le (fun k => mul_nonneg (h.nonneg k) (abs_nonneg _)) (fun k => ?_)
    (hm.add (h.total.summable.mul_left |y|))
  have h1 : |(k:ℝ) - y| ≤ k + |y| := by
    have := abs_sub (k:ℝ) y
    rwa [abs_of_nonneg (Nat.cast_nonneg k : (0:ℝ) ≤ k)] at this
  nlinarith [h.nonneg k, mul_le_mul_of_nonneg_left h1 (h.nonneg k)]

theorem summable_pair {f : ℕ → ℝ} (h : IsPmf f) (hm : Summable fun k : ℕ => (k:ℝ) * f k) :
    Summable fun p : ℕ × ℕ => f p.1 * f p.2 * |(p.1:ℝ) - p.2| := by
  have h1 : Summable fun p : ℕ × ℕ => (p.1:ℝ) * f p.1 * f p.2 :=
    hm.mul_of_nonneg h.total.summable (fun k => mul_nonneg (Nat.cast_nonneg k) (h.nonneg k)) h.nonneg
  have h2 : Summable fun p : ℕ × ℕ => f p.1 * ((p.2:ℝ) * f p.2) :=
    h.total.summable.mul_of_nonneg hm h.nonneg (fun k => mul_nonneg (Nat.cast_nonneg k) (h.nonneg k))
  refine Summable.of_nonneg_of_le
    (fun p => mul_nonneg (mul_nonneg (h.nonneg _) (h.nonneg _)) (abs_nonneg _)) (fun p => ?_) (h1.add h2)
  have h3 : |(p.1:ℝ) - p.2| ≤ p.1 + p.2 := by
    have := abs_sub (p.1:ℝ) p.2
    rwa [abs_of_nonneg (Nat.cast_nonneg p.1 : (0:ℝ) ≤ p.1),
      abs_of_nonneg (Nat.cast_nonneg p.2 : (0:ℝ) ≤ p.2)] at this
  nlinarith [mul_le_mul_of_nonneg_left h3 (mul_nonneg (h.nonneg p.1) (h.nonneg p.2))]

theorem hasSum_sq {u : ℕ → ℝ} {s : ℝ} (h : HasSum u s) (hn : Summable fun k => ‖u k‖) :
    HasSum (fun p : ℕ × ℕ => u p.1 * u p.2) (s ^ 2) := by
  rw [pow_two]
  exact HasSum.mul h h (summable_mul_of_summable_norm hn hn)

/-- The energy form of the CRPS for a mass function on the non-negative integers with finite mean. -/
theorem crps_pmf_energy {f : ℕ → ℝ} (h : IsPmf f) (hm : Summable fun k : ℕ => (k:ℝ) * f k) (y : ℝ) :
    HasCrps (cdfPmf f) y ∧
    crps (cdfPmf f) y = (∑' k : ℕ, f k * |(k:ℝ) - y|)
      - (∑' p : ℕ × ℕ, f p.1 * f p.2 * |(p.1:ℝ) - p.2|) / 2 := by
  set F : ℕ × ℕ → ℝ → ℝ := fun p z => f p.1 * f p.2 *
    ((step p.1 z - step y z) * (step p.2 z - step y z)) with hF
  have h0 : ∀ p z, 0 ≤ F p z := fun p z =>
    mul_nonneg (mul_nonneg (h.nonneg _) (h.nonneg _)) (step_prod_nonneg _ _ _ _)
  have hi : ∀ p, Integrable (F p) := fun p => (integrable_step_prod y p.1 p.2).const_mul _
  have hv : ∀ p, ∫ z, F p z = f p.1 * f p.2 * crossK y p.1 p.2 := by
    intro p
    rw [hF]; dsimp only
    rw [integral_const_mul, integral_step_prod]
  have hA := (summable_absdev h hm y).hasSum
  have hP := (summable_pair h hm).hasSum
  have hs : HasSum (fun p => ∫ z, F p z) ((∑' k : ℕ, f k * |(k:ℝ) - y|)
      - (∑' p : ℕ × ℕ, f p.1 * f p.2 * |(p.1:ℝ) - p.2|) / 2) := by
    have nn : ∀ k : ℕ, 0 ≤ f k * |(k:ℝ) - y| := fun k => mul_nonneg (h.nonneg k) (abs_nonneg _)
    have s1 := hA.mul h.total (hA.summable.mul_of_nonneg h.total.summable nn h.nonneg)
    have s2 := h.total.mul hA (h.total.summable.mul_of_nonneg hA.summable h.nonneg nn)
    have s3 := ((s1.add s2).sub hP).div_const 2
    simp only [hv]
    refine hasSum_of_eq s3 (fun p => ?_) ?_
    · unfold crossK; ring
    · ring
  have hg : ∀ z, HasSum (fun p => F p z) ((cdfPmf f z - if y ≤ z then 1 else 0) ^ 2) := by
    intro z
    have a1 : HasSum (fun k : ℕ => f k * (step k z - step y z)) (cdfPmf f z - step y z) := by
      have := (hasSum_cdfPmf h z).sub (h.total.mul_right (step y z))
      rw [one_mul] at this
      exact hasSum_of_eq this (fun k => by ring) rfl
    have a2 : Summable fun k : ℕ => ‖f k * (step k z - step y z)‖ := by
      refine Summable.of_nonneg_of_le (fun k => norm_nonneg _) (fun k => ?_) h.total.summable
      rw [norm_mul, Real.norm_of_nonneg (h.nonneg k)]
      refine mul_le_of_le_one_right (h.nonneg k) ?_
      unfold step
      split_ifs <;> simp
    refine hasSum_of_eq (hasSum_sq a1 a2) (fun p => ?_) rfl
    rw [hF]; dsimp only; ring
  have hmeas : AEStronglyMeasurable fun z => (cdfPmf f z - if y ≤ z then 1 else 0) ^ 2 := by
    have m1 : Measurable (cdfPmf f) := (cdfPmf_mono h).measurable
    have m2 : Measurable fun z : ℝ => if y ≤ z then (1:ℝ) else 0 :=
      Measurable.ite measurableSet_Ici measurable_const measurable_const
    exact ((m1.sub m2).pow_const 2).aestronglyMeasurable
  refine ⟨integrable_hasSum h0 hi hs.summable hmeas hg, ?_⟩
  exact (integral_hasSum h0 hi hs.summable hg).unique hs

end Verif
