import Mathlib.Analysis.InnerProductSpace.PiL2

/-!
# Specification of the energy score

Independent of the model: points of Euclidean space, real weights.
-/

noncomputable section

namespace Verif.Spec

/-- `D`-dimensional Euclidean space. -/
abbrev Eu (D : ℕ) := EuclideanSpace ℝ (Fin D)

variable {D : ℕ}

/-- Energy score of a weighted ensemble (pairs member, weight; weights summing to one):
`E|X-y| - E|X-X'|/2`. -/
def es (y : Eu D) (l : List (Eu D × ℝ)) : ℝ :=
  (l.map fun p => p.2 * dist p.1 y).sum
    - 1 / 2 * (l.map fun p => (l.map fun q => p.2 * q.2 * dist p.1 q.1).sum).sum

/-- members with equal weights -/
def equalW (xs : List (Eu D)) : List (Eu D × ℝ) := xs.map fun x => (x, 1 / (xs.length : ℝ))

/-- members with weights normalised to sum one -/
def normW (l : List (Eu D × ℝ)) : List (Eu D × ℝ) :=
  l.map fun p => (p.1, p.2 / (l.map Prod.snd).sum)

/-- Fair energy score: the pairwise distances are averaged over pairs of distinct members. -/
def esFair (y : Eu D) (xs : List (Eu D)) : ℝ :=
  (xs.map fun x => dist x y).sum / xs.length
    - (xs.map fun a => (xs.map fun b => dist a b).sum).sum
      / (2 * ((xs.length : ℝ) * ((xs.length : ℝ) - 1)))

/-- Energy score for the threshold-free outcome weight `f` (a weight per member, `o` for the
observation): the score of the re-weighted ensemble times the weight of the observation. -/
def owes (o : ℝ) (y : Eu D) (l : List (Eu D × ℝ)) : ℝ := o * es y (normW l)

/-- Vertically re-scaled energy score; weights in `l` are products of outcome weight and member
probability. -/
def vres (o : ℝ) (y : Eu D) (l : List (Eu D × ℝ)) : ℝ :=
  o * (l.map fun p => p.2 * dist p.1 y).sum
    - 1 / 2 * (l.map fun p => (l.map fun q => p.2 * q.2 * dist p.1 q.1).sum).sum
    + ((l.map fun p => p.2 * ‖p.1‖).sum - ‖y‖ * o) * ((l.map Prod.snd).sum - o)

end Verif.Spec
