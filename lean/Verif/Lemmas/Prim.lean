import Verif.Lemmas.Antideriv
import Mathlib.MeasureTheory.Integral.IntegralEqImproper

/-!
# The integral up to `x` as an antiderivative
-/

noncomputable section

open scoped Classical Topology
open MeasureTheory Filter Set

namespace Verif

/-- Integral of `f` over `(-∞, x]`. -/
def prim (f : ℝ → ℝ) (x : ℝ) : ℝ := ∫ t in Iic x, f t

theorem prim_eq {f : ℝ → ℝ} (hi : Integrable f) (x : ℝ) : prim f x = prim f 0 + ∫ t in (0:ℝ)..x, f t := by
  have := intervalIntegral.integral_Iic_sub_Iic (f := f) (a := 0) (b := x) hi.integrableOn hi.integrableOn
  unfold prim; linarith

theorem prim_deriv {f : ℝ → ℝ} (hi : Integrable f) {x : ℝ} (hc : ContinuousAt f x) :
    HasDerivAt (prim f) (f x) x := by
  have h : prim f = fun z => prim f 0 + ∫ t in (0:ℝ)..z, f t := funext (prim_eq hi)
  rw [h]
  exact (intervalIntegral.integral_hasDerivAt_right hi.intervalIntegrable
    hi.aestronglyMeasurable.stronglyMeasurableAtFilter hc).const_add _

theorem prim_cont {f : ℝ → ℝ} (hi : Integrable f) : Continuous (prim f) := by
  have h : prim f = fun z => prim f 0 + ∫ t in (0:ℝ)..z, f t := funext (prim_eq hi)
  rw [h]
  exact continuous_const.add (intervalIntegral.continuous_primitive (fun a b => hi.intervalIntegrable) 0)

theorem prim_atBot {f : ℝ → ℝ} (hi : Integrable f) : Tendsto (prim f) atBot (𝓝 0) := by
  have h := intervalIntegral_tendsto_integral_Iic (f := f) (μ := volume) 0 hi.integrableOn tendsto_id
  have h2 : Tendsto (fun x : ℝ => prim f 0 - ∫ t in x..(0:ℝ), f t) atBot (𝓝 (prim f 0 - prim f 0)) :=
    h.const_sub _
  rw [sub_self] at h2
  refine h2.congr fun x => ?_
  rw [prim_eq hi x, intervalIntegral.integral_symm]; ring

theorem prim_atTop {f : ℝ → ℝ} (hi : Integrable f) : Tendsto (prim f) atTop (𝓝 (∫ t, f t)) := by
  have h := intervalIntegral_tendsto_integral_Ioi (f := f) (μ := volume) 0 hi.integrableOn tendsto_id
  have h2 := h.const_add (prim f 0)
  unfold prim at h2
  rw [intervalIntegral.integral_Iic_add_Ioi hi.integrableOn hi.integrableOn] at h2
  refine h2.congr fun x => ?_
  rw [show ∫ t in Iic (0:ℝ), f t = prim f 0 from rfl, prim_eq hi x]; rfl

end Verif
