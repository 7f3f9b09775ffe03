import Verif.XF
import Mathlib.Topology.Order.Basic
import Mathlib.Order.Filter.AtTopBot.Basic
import Mathlib.Topology.Instances.Real.Lemmas

/-!
# Specification: a score approached by other scores
-/

open scoped Topology
open Filter

namespace Verif.Spec

open XF

/-- Along `l` the scores `s t` are numbers in the end, and they tend to the score `x`, which is a number too. -/
def Approaches {ι : Type} (s : ι → XF) (l : Filter ι) (x : XF) : Prop :=
  ∃ (f : ι → ℝ) (v : ℝ), (∀ᶠ t in l, s t = fin (f t)) ∧ x = fin v ∧ Tendsto f l (𝓝 v)

/-- An infinite bound means what it says: the score `s l u` with a bound that moves away tends to the score
with that bound infinite, whether the other bound is a number, infinite or moves away too. -/
def BoundsVanish (s : XF → XF → XF) : Prop :=
  (∀ u : ℝ, Approaches (fun l => s (fin l) (fin u)) atBot (s ninf (fin u))) ∧
  (∀ l : ℝ, Approaches (fun u => s (fin l) (fin u)) atTop (s (fin l) pinf)) ∧
  Approaches (fun l => s (fin l) pinf) atBot (s ninf pinf) ∧
  Approaches (fun u => s ninf (fin u)) atTop (s ninf pinf) ∧
  Approaches (fun b : ℝ × ℝ => s (fin b.1) (fin b.2)) (atBot ×ˢ atTop) (s ninf pinf)

/-- C150 where one bound is fixed and finite and lies off the location, for scores that are not a number when a
bound is at the location. -/
def BoundsVanishOff (μ : ℝ) (s : XF → XF → XF) : Prop :=
  (∀ u : ℝ, u ≠ μ → Approaches (fun l => s (fin l) (fin u)) atBot (s ninf (fin u))) ∧
  (∀ l : ℝ, l ≠ μ → Approaches (fun u => s (fin l) (fin u)) atTop (s (fin l) pinf)) ∧
  Approaches (fun l => s (fin l) pinf) atBot (s ninf pinf) ∧
  Approaches (fun u => s ninf (fin u)) atTop (s ninf pinf) ∧
  Approaches (fun b : ℝ × ℝ => s (fin b.1) (fin b.2)) (atBot ×ˢ atTop) (s ninf pinf)

/-- A log score with a bound that moves away, at an observation within the bounds. -/
def LogBoundVanishes (y : ℝ) (s : XF → XF → XF) : Prop :=
  (∀ u : ℝ, y ≤ u → Approaches (fun l => s (fin l) (fin u)) atBot (s ninf (fin u))) ∧
  (∀ l : ℝ, l ≤ y → Approaches (fun u => s (fin l) (fin u)) atTop (s (fin l) pinf))

end Verif.Spec
