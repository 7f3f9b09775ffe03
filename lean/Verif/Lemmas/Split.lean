import Verif.Lemmas.Antideriv
import Verif.Spec.Dist

/-!
# The CRPS as an expected absolute error less half an expected absolute difference
-/

noncomputable section

open scoped Classical Topology
open MeasureTheory Filter Set

namespace Verif

open Spec

/-- `∫ (F - 1{y ≤ x})^2` from an antiderivative of `F` and the integral of `F (1 - F)`. -/
theorem crps_split {F p : ℝ → ℝ} {p0 q0 : ℝ} {s : Set ℝ} (hs : s.Countable) (hF : Measurable F)
    (h0 : ∀ x, 0 ≤ F x) (h1 : ∀ x, F x ≤ 1) (hpc : Continuous p) (hp : ∀ x, x ∉ s → HasDerivAt p (F x) x)
    (hbot : Tendsto p atBot (𝓝 p0)) (htop : Tendsto (fun x => x - p x) atTop (𝓝 q0)) (y : ℝ) :
    HasCrps F y ∧ Integrable (fun x => F x * (1 - F x)) ∧
    Spec.crps F y = 2 * p y - y - p0 + q0 - ∫ x, F x * (1 - F x) := by
  have hF' : Measurable fun x => 1 - F x := measurable_const.sub hF
  obtain ⟨i1, e1⟩ := ftc_Iic (y := y) (C := 1) hs hF h0 h1 hpc.continuousOn (fun x _ => hp x) hbot
  obtain ⟨i2, e2⟩ := ftc_Ioi (y := y) (C := 1) (f := fun x => 1 - F x) (P := fun x => x - p x) hs hF'
    (fun x => by linarith [h1 x]) (fun x => by linarith [h0 x]) (by fun_prop)
    (fun x _ hx => (hasDerivAt_id x).sub (hp x hx)) htop
  have m : AEStronglyMeasurable (fun x => F x * (1 - F x)) volume := (hF.mul hF').aestronglyMeasurable
  have nn : ∀ x, 0 ≤ F x * (1 - F x) := fun x => mul_nonneg (h0 x) (by linarith [h1 x])
  have b1 : IntegrableOn (fun x => F x * (1 - F x)) (Iic y) := by
    refine Integrable.mono i1 m.restrict (ae_of_all _ fun x => ?_)
    rw [Real.norm_of_nonneg (nn x), Real.norm_of_nonneg (h0 x)]
    nlinarith [h0 x, h1 x]
  have b2 : IntegrableOn (fun x => F x * (1 - F x)) (Ioi y) := by
    refine Integrable.mono i2 m.restrict (ae_of_all _ fun x => ?_)
    rw [Real.norm_of_nonneg (nn x), Real.norm_of_nonneg (by linarith [h1 x])]
    nlinarith [h0 x, h1 x]
  have hD : Integrable (fun x => F x * (1 - F x)) := by
    rw [← integrableOn_univ, ← Iic_union_Ioi (a := y)]
    exact b1.union b2
  have c1 : ∀ᵐ z ∂(volume.restrict (Iic y)), F z - F z * (1 - F z) = (F z - if y ≤ z then 1 else 0) ^ 2 := by
    rw [ae_restrict_iff' measurableSet_Iic]
    filter_upwards [measure_eq_zero_iff_ae_notMem.1 (measure_singleton (μ := volume) y)] with z hz hzy
    rw [if_neg, sub_zero]
    · ring
    intro h
    exact hz (le_antisymm hzy h)
  have c2 : ∀ᵐ z ∂(volume.restrict (Ioi y)),
      (1 - F z) - F z * (1 - F z) = (F z - if y ≤ z then 1 else 0) ^ 2 := by
    rw [ae_restrict_iff' measurableSet_Ioi]
    refine ae_of_all _ fun z hz => ?_
    rw [if_pos (le_of_lt hz)]; ring
  have j1 : IntegrableOn (fun z => (F z - if y ≤ z then 1 else 0) ^ 2) (Iic y) := (i1.sub b1).congr c1
  have j2 : IntegrableOn (fun z => (F z - if y ≤ z then 1 else 0) ^ 2) (Ioi y) := (i2.sub b2).congr c2
  refine ⟨?_, hD, ?_⟩
  · unfold HasCrps
    rw [← integrableOn_univ, ← Iic_union_Ioi (a := y)]
    exact j1.union j2
  · unfold Spec.crps
    rw [← intervalIntegral.integral_Iic_add_Ioi j1 j2, ← integral_congr_ae c1, ← integral_congr_ae c2,
      integral_sub i1 b1, integral_sub i2 b2, e1, e2,
      ← intervalIntegral.integral_Iic_add_Ioi b1 b2]
    ring

end Verif
