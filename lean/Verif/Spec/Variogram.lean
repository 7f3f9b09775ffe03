import Verif.Spec.Energy
import Mathlib.Analysis.SpecialFunctions.Pow.Real

/-!
# Specification of the variogram score

Independent of the model: points of Euclidean space, real pair weights `W` and exponent `p`.
-/

noncomputable section

namespace Verif.Spec

variable {D : ℕ}

/-- variogram of order `p` of one point -/
def vdiff (p : ℝ) (x : Eu D) (i j : Fin D) : ℝ := |x i - x j| ^ p

/-- Variogram score of a weighted ensemble (pairs member, probability): weighted squared differences
between the observed and the expected variogram. -/
def vs (p : ℝ) (W : Fin D → Fin D → ℝ) (y : Eu D) (l : List (Eu D × ℝ)) : ℝ :=
  ∑ i, ∑ j, W i j * (vdiff p y i j - (l.map fun q => q.2 * vdiff p q.1 i j).sum) ^ 2

/-- weighted squared distance between the variograms of two points -/
def vdist (p : ℝ) (W : Fin D → Fin D → ℝ) (a b : Eu D) : ℝ :=
  ∑ i, ∑ j, W i j * (vdiff p a i j - vdiff p b i j) ^ 2

/-- Fair variogram score: the distances between members are averaged over pairs of distinct ones. -/
def vsFair (p : ℝ) (W : Fin D → Fin D → ℝ) (y : Eu D) (xs : List (Eu D)) : ℝ :=
  (xs.map fun x => vdist p W x y).sum / xs.length
    - (xs.map fun a => (xs.map fun b => vdist p W a b).sum).sum
      / (2 * ((xs.length : ℝ) * ((xs.length : ℝ) - 1)))

/-- Outcome-weighted variogram score: the score of the re-weighted ensemble times the weight of the
observation. -/
def owvs (p : ℝ) (W : Fin D → Fin D → ℝ) (o : ℝ) (y : Eu D) (l : List (Eu D × ℝ)) : ℝ :=
  o * vs p W y (normW l)

/-- Vertically re-scaled variogram score; weights in `l` are products of outcome weight and member
probability. -/
def vrvs (p : ℝ) (W : Fin D → Fin D → ℝ) (o : ℝ) (y : Eu D) (l : List (Eu D × ℝ)) : ℝ :=
  o * (l.map fun q => q.2 * vdist p W q.1 y).sum
    - 1 / 2 * (l.map fun q => (l.map fun r => q.2 * r.2 * vdist p W q.1 r.1).sum).sum
    + ((l.map fun q => q.2 * ∑ i, ∑ j, W i j * vdiff p q.1 i j ^ 2).sum
        - (∑ i, ∑ j, W i j * vdiff p y i j ^ 2) * o)
      * ((l.map Prod.snd).sum - o)

end Verif.Spec
