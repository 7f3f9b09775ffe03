import Verif.Spec.Energy
import Mathlib.Analysis.SpecialFunctions.Exp

/-!
# Specification of kernel scores

Independent of the model: points of an arbitrary type with a real kernel.
-/

noncomputable section

namespace Verif.Spec

variable {β : Type}

/-- Kernel score of a weighted ensemble (pairs member, weight; weights summing to one):
`E k(X,X')/2 + k(y,y)/2 - E k(X,y)`. -/
def ks (K : β → β → ℝ) (y : β) (l : List (β × ℝ)) : ℝ :=
  1 / 2 * (l.map fun p => (l.map fun q => p.2 * q.2 * K p.1 q.1).sum).sum + 1 / 2 * K y y
    - (l.map fun p => p.2 * K p.1 y).sum

/-- Fair kernel score: the pairwise values are averaged over pairs of distinct members. -/
def ksFair (K : β → β → ℝ) (y : β) (xs : List β) : ℝ :=
  ((xs.map fun a => (xs.map fun b => K a b).sum).sum - (xs.map fun a => K a a).sum)
      / (2 * ((xs.length : ℝ) * ((xs.length : ℝ) - 1)))
    + 1 / 2 * K y y - (xs.map fun x => K x y).sum / xs.length

/-- Fair kernel score of a weighted ensemble (weights summing to one): pairs of distinct members,
divided by their total weight `1 - Σ w²`. -/
def ksFairW (K : β → β → ℝ) (y : β) (l : List (β × ℝ)) : ℝ :=
  ((l.map fun p => (l.map fun q => p.2 * q.2 * K p.1 q.1).sum).sum
      - (l.map fun p => p.2 * p.2 * K p.1 p.1).sum)
      / (2 * (1 - (l.map fun p => p.2 * p.2).sum))
    + 1 / 2 * K y y - (l.map fun p => p.2 * K p.1 y).sum

/-- members with equal weights -/
def eqW (xs : List β) : List (β × ℝ) := xs.map fun x => (x, 1 / (xs.length : ℝ))

/-- members with weights normalised to sum one -/
def nrmW (l : List (β × ℝ)) : List (β × ℝ) := l.map fun p => (p.1, p.2 / (l.map Prod.snd).sum)

/-- Outcome-weighted kernel score: that of the re-weighted ensemble, times the weight `o` of the
observation. -/
def owks (K : β → β → ℝ) (o : ℝ) (y : β) (l : List (β × ℝ)) : ℝ := o * ks K y (nrmW l)

/-- Vertically re-scaled kernel score: the kernel is multiplied by the outcome weights of its two
arguments; weights in `l` are products of outcome weight and member probability. -/
def vrks (K : β → β → ℝ) (o : ℝ) (y : β) (l : List (β × ℝ)) : ℝ :=
  1 / 2 * (l.map fun p => (l.map fun q => p.2 * q.2 * K p.1 q.1).sum).sum + 1 / 2 * (o * o * K y y)
    - o * (l.map fun p => p.2 * K p.1 y).sum

/-- Gaussian kernel on the line -/
def gauss1 (a b : ℝ) : ℝ := Real.exp (-(a - b) ^ 2 / 2)

/-- Gaussian kernel in Euclidean space -/
def gaussD {D : ℕ} (a b : Eu D) : ℝ := Real.exp (-dist a b ^ 2 / 2)

end Verif.Spec
