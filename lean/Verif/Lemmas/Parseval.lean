import Mathlib.Analysis.SpecialFunctions.Integrals.Basic
import Mathlib.MeasureTheory.Integral.DominatedConvergence
import Mathlib.Analysis.Normed.Ring.InfiniteSum

/-!
# Sums of products of coefficients as integrals over the circle
-/

noncomputable section

open scoped Classical
open MeasureTheory Complex

namespace Verif

theorem integral_circle (n : ℤ) :
    ∫ θ in (0:ℝ)..2 * Real.pi, Complex.exp ((n * I) * θ) = if n = 0 then ((2 * Real.pi : ℝ) : ℂ) else 0 := by
  split_ifs with h
  · subst h; simp
  · have hc : (n * I : ℂ) ≠ 0 := mul_ne_zero (by exact_mod_cast h) I_ne_zero
    rw [integral_exp_mul_complex hc]
    have e : (n * I : ℂ) * ((2 * Real.pi : ℝ) : ℂ) = n * (2 * Real.pi * I) := by push_cast; ring
    rw [e, exp_int_mul_two_pi_mul_I]
    simp

theorem hasSum_mul_complex {u v : ℕ → ℂ} {s t : ℂ} (hu : HasSum u s) (hv : HasSum v t)
    (nu : Summable fun k => ‖u k‖) (nv : Summable fun k => ‖v k‖) :
    HasSum (fun p : ℕ × ℕ => u p.1 * v p.2) (s * t) :=
  HasSum.mul hu hv (summable_mul_of_summable_norm nu nv)

/-- If `A θ = Σ a k e^{ikθ}` and `B θ = Σ b l e^{-ilθ}` then the mean of `A B e^{imθ}` is
`Σ a k * b (k + m)`. -/
theorem parseval {a b : ℕ → ℝ} (ha : Summable a) (hb : Summable b) (a0 : ∀ k, 0 ≤ a k) (b0 : ∀ k, 0 ≤ b k)
    {A B : ℝ → ℂ} (hA : ∀ θ : ℝ, HasSum (fun k : ℕ => (a k : ℂ) * Complex.exp ((k:ℤ) * I * θ)) (A θ))
    (hB : ∀ θ : ℝ, HasSum (fun k : ℕ => (b k : ℂ) * Complex.exp ((-(k:ℤ) : ℤ) * I * θ)) (B θ)) (m : ℕ) :
    HasSum (fun k : ℕ => ((2 * Real.pi * (a k * b (k + m)) : ℝ) : ℂ))
      (∫ θ in (0:ℝ)..2 * Real.pi, A θ * B θ * Complex.exp ((m:ℤ) * I * θ)) := by
  have nrm : ∀ (n : ℤ) (θ : ℝ), ‖Complex.exp (n * I * θ)‖ = 1 := by
    intro n θ
    rw [show (n * I * θ : ℂ) = ((n * θ : ℝ) : ℂ) * I by push_cast; ring, norm_exp_ofReal_mul_I]
  set F : ℕ × ℕ → ℝ → ℂ := fun p θ =>
    ((a p.1 * b p.2 : ℝ) : ℂ) * Complex.exp ((((p.1:ℤ) + m - p.2 : ℤ) * I) * θ) with hF
  have hsum : ∀ θ, HasSum (fun p => F p θ) (A θ * B θ * Complex.exp ((m:ℤ) * I * θ)) := by
    intro θ
    have na : Summable fun k : ℕ => ‖(a k : ℂ) * Complex.exp ((k:ℤ) * I * θ)‖ := by
      refine ha.congr fun k => ?_
      rw [norm_mul, nrm, mul_one, Complex.norm_real, Real.norm_of_nonneg (a0 k)]
    have nb : Summable fun k : ℕ => ‖(b k : ℂ) * Complex.exp ((-(k:ℤ) : ℤ) * I * θ)‖ := by
      refine hb.congr fun k => ?_
      rw [norm_mul, nrm, mul_one, Complex.norm_real, Real.norm_of_nonneg (b0 k)]
    have h1 := (hasSum_mul_complex (hA θ) (hB θ) na nb).mul_right
      (Complex.exp ((m:ℤ) * I * θ))
    have e : (fun p => F p θ) = fun p : ℕ × ℕ => (a p.1 : ℂ) * Complex.exp ((p.1:ℤ) * I * θ)
        * ((b p.2 : ℂ) * Complex.exp ((-(p.2:ℤ) : ℤ) * I * θ)) * Complex.exp ((m:ℤ) * I * θ) := by
      funext p
      rw [hF]
      have : (((p.1:ℤ) + m - p.2 : ℤ) * I * θ : ℂ)
          = (p.1:ℤ) * I * θ + (-(p.2:ℤ) : ℤ) * I * θ + (m:ℤ) * I * θ := by push_cast; ring
      dsimp only
      rw [this, Complex.exp_add, Complex.exp_add]
      push_cast
      ring
    rw [e]; exact h1
  have hint : HasSum (fun p => ∫ θ in (0:ℝ)..2 * Real.pi, F p θ)
      (∫ θ in (0:ℝ)..2 * Real.pi, A θ * B θ * Complex.exp ((m:ℤ) * I * θ)) := by
    refine intervalIntegral.hasSum_integral_of_dominated_convergence (fun p _ => a p.1 * b p.2) ?_ ?_ ?_ ?_ ?_
    · intro p
      exact (by rw [hF]; fun_prop : Continuous (F p)).aestronglyMeasurable
    · intro p
      refine Filter.Eventually.of_forall fun θ _ => ?_
      rw [hF]
      dsimp only
      rw [norm_mul, nrm, mul_one, Complex.norm_real, Real.norm_of_nonneg (mul_nonneg (a0 _) (b0 _))]
    · exact Filter.Eventually.of_forall fun θ _ => ha.mul_of_nonneg hb a0 b0
    · exact intervalIntegrable_const
    · exact Filter.Eventually.of_forall fun θ _ => hsum θ
  refine hint.prod_fiberwise fun k => ?_
  have e : ∀ l : ℕ, ∫ θ in (0:ℝ)..2 * Real.pi, F (k, l) θ
      = if l = k + m then ((2 * Real.pi * (a k * b (k + m)) : ℝ) : ℂ) else 0 := by
    intro l
    rw [hF]
    dsimp only
    rw [intervalIntegral.integral_const_mul, integral_circle]
    by_cases h : l = k + m
    · subst h; simp; ring
    · rw [if_neg (by omega), if_neg h, mul_zero]
  simp only [e]
  exact hasSum_ite_eq (k + m) _

end Verif
