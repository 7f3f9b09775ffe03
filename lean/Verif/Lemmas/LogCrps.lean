import Verif.Lemmas.Antideriv
import Verif.Spec.Dens

/-!
# CRPS of the distribution of `exp X`
-/

noncomputable section

open scoped Classical Topology
open MeasureTheory Filter Set

namespace Verif

open Spec

/-- The CRPS of the distribution of `exp X` from antiderivatives on the logarithmic scale. -/
theorem crps_log {F A B : ℝ → ℝ} {a b b0 : ℝ} {s : Set ℝ} (hs : s.Countable) (hF : Measurable F)
    (h0 : ∀ x, 0 ≤ F x) (h1 : ∀ x, F x ≤ 1)
    (hAc : Continuous A) (hA : ∀ t, t ∉ s → HasDerivAt A (F t ^ 2 * Real.exp t) t)
    (hBc : Continuous B) (hB : ∀ t, t ∉ s → HasDerivAt B ((1 - F t) ^ 2 * Real.exp t) t)
    (ha : Tendsto A atBot (𝓝 a)) (hb0 : Tendsto B atBot (𝓝 b0)) (hb : Tendsto B atTop (𝓝 b)) (y : ℝ) :
    HasCrps (cdfLog F) y ∧
    Spec.crps (cdfLog F) y = if y ≤ 0 then b - b0 - y else A (Real.log y) - a + (b - B (Real.log y)) := by
  have cont : ∀ {C : ℝ → ℝ} {c k : ℝ}, Continuous C → Tendsto C atBot (𝓝 c) →
      Continuous fun x => if x ≤ 0 then k * x + c else C (Real.log x) := by
    intro C c k hC hc
    rw [continuous_iff_continuousAt]
    intro x
    rcases lt_trichotomy x 0 with hx | hx | hx
    · have : ContinuousAt (fun x : ℝ => k * x + c) x := by fun_prop
      refine this.congr ?_
      filter_upwards [gt_mem_nhds hx] with z hz
      rw [if_pos (le_of_lt hz)]
    · subst hx
      rw [← continuousWithinAt_univ, ← Iic_union_Ioi (a := (0:ℝ))]
      refine ContinuousWithinAt.union ?_ ?_
      · have : ContinuousWithinAt (fun x : ℝ => k * x + c) (Iic 0) 0 := by fun_prop
        refine this.congr (fun z hz => ?_) ?_
        · rw [if_pos (mem_Iic.1 hz)]
        · rw [if_pos le_rfl]
      · unfold ContinuousWithinAt
        dsimp only
        rw [if_pos le_rfl, mul_zero, zero_add]
        refine (hc.comp Real.tendsto_log_nhdsGT_zero).congr' ?_
        filter_upwards [self_mem_nhdsWithin] with z hz
        rw [if_neg (not_le.2 hz)]; rfl
    · refine (hC.continuousAt.comp (Real.continuousAt_log hx.ne')).congr ?_
      filter_upwards [lt_mem_nhds hx] with z hz
      rw [if_neg (not_le.2 hz)]; rfl
  have meas : Measurable (cdfLog F) := by
    unfold cdfLog
    exact Measurable.ite measurableSet_Iic measurable_const (hF.comp Real.measurable_log)
  have dlog : ∀ {C : ℝ → ℝ} {d x k c : ℝ}, 0 < x → HasDerivAt C (d * Real.exp (Real.log x)) (Real.log x) →
      HasDerivAt (fun x => if x ≤ 0 then k * x + c else C (Real.log x)) d x := by
    intro C d x k c hx hC
    have := hC.comp x (Real.hasDerivAt_log hx.ne')
    refine (this.congr_of_eventuallyEq ?_).congr_deriv ?_
    · filter_upwards [lt_mem_nhds hx] with z hz
      rw [if_neg (not_le.2 hz)]; rfl
    · rw [Real.exp_log hx]; field_simp
  have dneg : ∀ {C : ℝ → ℝ} {x k c : ℝ}, x < 0 →
      HasDerivAt (fun x => if x ≤ 0 then k * x + c else C (Real.log x)) k x := by
    intro C x k c hx
    have : HasDerivAt (fun x : ℝ => k * x + c) k x := by
      simpa using ((hasDerivAt_id x).const_mul k).add_const c
    refine this.congr_of_eventuallyEq ?_
    filter_upwards [gt_mem_nhds hx] with z hz
    rw [if_pos (le_of_lt hz)]
  have key := crps_of_antideriv (F := cdfLog F) (s := {0} ∪ Real.exp '' s)
    (P := fun x => if x ≤ 0 then 0 * x + a else A (Real.log x))
    (Q := fun x => if x ≤ 0 then 1 * x + b0 else B (Real.log x)) (p := a) (q := b)
    ((countable_singleton _).union (hs.image _)) meas ?_ ?_ (cont hAc ha) ?_ (cont hBc hb0) ?_ ?_ ?_ y
  · refine ⟨key.1, key.2.trans ?_⟩
    split_ifs <;> ring
  · intro x; unfold cdfLog; split_ifs
    · exact le_rfl
    · exact h0 _
  · intro x; unfold cdfLog; split_ifs
    · exact zero_le_one
    · exact h1 _
  · intro x hx
    simp only [mem_union, mem_singleton_iff, not_or] at hx
    unfold cdfLog
    rcases lt_or_gt_of_ne hx.1 with h | h
    · rw [if_pos h.le]
      exact (dneg h).congr_deriv (by ring)
    · rw [if_neg (not_le.2 h)]
      exact dlog h (hA _ fun hm => hx.2 ⟨_, hm, Real.exp_log h⟩)
  · intro x hx
    simp only [mem_union, mem_singleton_iff, not_or] at hx
    unfold cdfLog
    rcases lt_or_gt_of_ne hx.1 with h | h
    · rw [if_pos h.le]
      exact (dneg h).congr_deriv (by ring)
    · rw [if_neg (not_le.2 h)]
      exact dlog h (hB _ fun hm => hx.2 ⟨_, hm, Real.exp_log h⟩)
  · refine tendsto_const_nhds.congr' ?_
    filter_upwards [eventually_le_atBot 0] with z hz
    rw [if_pos hz]; ring
  · refine (hb.comp Real.tendsto_log_atTop).congr' ?_
    filter_upwards [eventually_gt_atTop 0] with z hz
    rw [if_neg (not_le.2 hz)]; rfl

end Verif
