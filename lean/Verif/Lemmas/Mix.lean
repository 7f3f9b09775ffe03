import Verif.Lemmas.Split
import Verif.Lemmas.NormalConv

/-!
# CRPS of a mixture of normal distributions
-/

noncomputable section

open scoped Classical Topology
open MeasureTheory Filter Set

namespace Verif

open Spec

theorem Φ1_add (z : ℝ) : z - Φ1 z = -Φ1 (-z) := by
  have := Φ_add_neg z
  unfold Φ1
  rw [φ_neg, show Φ (-z) = 1 - Φ z by linarith]
  ring

theorem crps_mix {n : ℕ} (m s w : Fin n → ℝ) (hs : ∀ i, 0 < s i) (hw : ∀ i, 0 ≤ w i) (h1 : ∑ i, w i = 1)
    (y : ℝ) :
    HasCrps (fun x => ∑ i, w i * Φ ((x - m i) / s i)) y ∧
    Spec.crps (fun x => ∑ i, w i * Φ ((x - m i) / s i)) y
      = ∑ i, w i * (2 * s i * Φ1 ((y - m i) / s i) - (y - m i))
        - ∑ i, ∑ j, w i * w j * (Real.sqrt (s i ^ 2 + s j ^ 2)
            * Φ1 ((m j - m i) / Real.sqrt (s i ^ 2 + s j ^ 2))) := by
  set G : ℝ → ℝ := fun x => ∑ i, w i * Φ ((x - m i) / s i) with hG
  have hGc : Continuous G := by
    refine continuous_finset_sum _ fun i _ => (Φ_cont.comp (by fun_prop)).const_mul _
  have hd : ∀ x, HasDerivAt (fun x => ∑ i, w i * (s i * Φ1 ((x - m i) / s i))) (G x) x := by
    intro x
    refine HasDerivAt.fun_sum fun i _ => ?_
    have h : HasDerivAt (fun z : ℝ => (z - m i) / s i) (1 / s i) x :=
      ((hasDerivAt_id x).sub_const _).div_const _
    refine ((((Φ1_deriv _).comp x h).const_mul (s i)).const_mul (w i)).congr_deriv ?_
    have := (hs i).ne'
    field_simp
  have hbot : Tendsto (fun x => ∑ i, w i * (s i * Φ1 ((x - m i) / s i))) atBot (𝓝 0) := by
    have : Tendsto (fun x => ∑ i, w i * (s i * Φ1 ((x - m i) / s i))) atBot (𝓝 (∑ i, w i * (s i * 0))) := by
      refine tendsto_finset_sum _ fun i _ => ?_
      refine ((Φ1_atBot.comp ?_).const_mul _).const_mul _
      exact (tendsto_atBot_add_const_right _ (-m i) tendsto_id).atBot_div_const (hs i)
    simpa using this
  have htop : Tendsto (fun x => x - ∑ i, w i * (s i * Φ1 ((x - m i) / s i))) atTop (𝓝 (∑ i, w i * m i)) := by
    have e : ∀ x, x - ∑ i, w i * (s i * Φ1 ((x - m i) / s i))
        = ∑ i, w i * (m i + s i * -Φ1 (-((x - m i) / s i))) := by
      intro x
      have : x = ∑ i, w i * x := by rw [← Finset.sum_mul, h1, one_mul]
      conv_lhs => rw [this]
      rw [← Finset.sum_sub_distrib]
      refine Finset.sum_congr rfl fun i _ => ?_
      rw [← Φ1_add]
      have := (hs i).ne'
      have e : ∑ j, w j * x = x := by rw [← Finset.sum_mul, h1, one_mul]
      simp only [e]
      field_simp
      ring
    simp only [e]
    have : Tendsto (fun x => ∑ i, w i * (m i + s i * -Φ1 (-((x - m i) / s i)))) atTop
        (𝓝 (∑ i, w i * (m i + s i * -0))) := by
      refine tendsto_finset_sum _ fun i _ => ?_
      refine ((((Φ1_atBot.comp ?_).neg).const_mul _).const_add _).const_mul _
      exact tendsto_neg_atTop_atBot.comp
        ((tendsto_atTop_add_const_right _ (-m i) tendsto_id).atTop_div_const (hs i))
    simpa using this
  obtain ⟨hi, -, hv⟩ := crps_split (F := G) (s := ∅) countable_empty hGc.measurable
    (fun x => Finset.sum_nonneg fun i _ => mul_nonneg (hw i) (Φ_nonneg _))
    (fun x => by
      calc G x ≤ ∑ i, w i * 1 := Finset.sum_le_sum fun i _ => mul_le_mul_of_nonneg_left (Φ_le_one _) (hw i)
        _ = 1 := by simpa using h1)
    (continuous_iff_continuousAt.2 fun x => (hd x).continuousAt) (fun x _ => hd x) hbot htop y
  refine ⟨hi, hv.trans ?_⟩
  have hr : ∀ i j, 0 < Real.sqrt (s i ^ 2 + s j ^ 2) := fun i j =>
    Real.sqrt_pos.2 (by have := hs i; positivity)
  have hr2 : ∀ i j, Real.sqrt (s i ^ 2 + s j ^ 2) ^ 2 = s i ^ 2 + s j ^ 2 := fun i j =>
    Real.sq_sqrt (by positivity)
  have hD : ∫ x, G x * (1 - G x) = ∑ i, ∑ j, w i * w j * (Real.sqrt (s i ^ 2 + s j ^ 2)
            * Φ1 ((m j - m i) / Real.sqrt (s i ^ 2 + s j ^ 2))) := by
    have e : ∀ x, G x * (1 - G x)
        = ∑ i, ∑ j, w i * w j * (Φ ((x - m i) / s i) * (1 - Φ ((x - m j) / s j))) := by
      intro x
      have e1 : 1 - G x = ∑ j, w j * (1 - Φ ((x - m j) / s j)) := by
        simp only [mul_sub, mul_one, Finset.sum_sub_distrib, h1, hG]
      rw [e1]
      simp only [hG]
      rw [Finset.sum_mul]
      refine Finset.sum_congr rfl fun i _ => ?_
      rw [Finset.mul_sum]
      exact Finset.sum_congr rfl fun j _ => by ring
    simp only [e]
    rw [integral_finset_sum]
    · refine Finset.sum_congr rfl fun i _ => ?_
      rw [integral_finset_sum]
      · refine Finset.sum_congr rfl fun j _ => ?_
        rw [integral_const_mul, (normal_cross (hs i) (hs j) (hr i j) (hr2 i j) (m i) (m j)).2]
      · intro j _
        exact (normal_cross (hs i) (hs j) (hr i j) (hr2 i j) (m i) (m j)).1.const_mul _
    · intro i _
      refine integrable_finset_sum _ fun j _ => ?_
      exact (normal_cross (hs i) (hs j) (hr i j) (hr2 i j) (m i) (m j)).1.const_mul _
  rw [hD]
  congr 1
  have hy : y = ∑ i, w i * y := by rw [← Finset.sum_mul, h1, one_mul]
  have e : ∑ i, w i * (2 * s i * Φ1 ((y - m i) / s i) - (y - m i))
      = 2 * ∑ i, w i * (s i * Φ1 ((y - m i) / s i)) - ∑ i, w i * y + ∑ i, w i * m i := by
    rw [Finset.mul_sum, ← Finset.sum_sub_distrib, ← Finset.sum_add_distrib]
    exact Finset.sum_congr rfl fun i _ => by ring
  rw [e, ← hy]
  ring

end Verif
