import Verif.Lemmas.Loops
import Verif.Spec.Energy
import Mathlib.Analysis.SpecialFunctions.Exponential
import Mathlib.Analysis.SpecialFunctions.ImproperIntegrals
import Mathlib.Analysis.SpecialFunctions.ContinuousFunctionalCalculus.Rpow.IntegralRepresentation

/-! Positive definiteness of the Gaussian kernel and negative definiteness of the Euclidean
distance. -/

noncomputable section

open scoped Classical

namespace Verif

open Spec MeasureTheory Set

section lists
variable {α ι : Type}

theorem sum_map_finset (s : Finset ι) (f : ι → α → ℝ) (l : List α) :
    (l.map fun a => ∑ t ∈ s, f t a).sum = ∑ t ∈ s, (l.map (f t)).sum := by
  induction l with
  | nil => simp
  | cons a l ih => simp [ih, Finset.sum_add_distrib]

theorem pairsAll_finset (s : Finset ι) (h : ι → α → α → ℝ) (l : List α) :
    pairsAll (fun a b => ∑ t ∈ s, h t a b) l = ∑ t ∈ s, pairsAll (h t) l := by
  unfold pairsAll
  simp only [sum_map_finset]

theorem hasSum_map {f : α → ℕ → ℝ} {g : α → ℝ} (l : List α) (h : ∀ a ∈ l, HasSum (f a) (g a)) :
    HasSum (fun k => (l.map fun a => f a k).sum) (l.map g).sum := by
  induction l with
  | nil => simpa using hasSum_zero
  | cons a l ih =>
    simp only [List.map_cons, List.sum_cons]
    exact (h a (by simp)).add (ih fun b hb => h b (by simp [hb]))

theorem hasSum_pairsAll {f : α → α → ℕ → ℝ} {g : α → α → ℝ} (l : List α)
    (h : ∀ a b, HasSum (f a b) (g a b)) :
    HasSum (fun k => pairsAll (fun a b => f a b k) l) (pairsAll g l) :=
  hasSum_map l fun a _ => hasSum_map l fun b _ => h a b

theorem integral_map {X : Type} [MeasurableSpace X] {μ : Measure X} {f : α → X → ℝ} (l : List α)
    (h : ∀ a ∈ l, Integrable (f a) μ) :
    Integrable (fun x => (l.map fun a => f a x).sum) μ ∧
      ∫ x, (l.map fun a => f a x).sum ∂μ = (l.map fun a => ∫ x, f a x ∂μ).sum := by
  induction l with
  | nil => simp
  | cons a l ih =>
    obtain ⟨h1, h2⟩ := ih fun b hb => h b (by simp [hb])
    simp only [List.map_cons, List.sum_cons]
    exact ⟨(h a (by simp)).add h1, by rw [integral_add (h a (by simp)) h1, h2]⟩

theorem integral_pairsAll {X : Type} [MeasurableSpace X] {μ : Measure X} {f : α → α → X → ℝ}
    (l : List α) (h : ∀ a b, Integrable (f a b) μ) :
    ∫ x, pairsAll (fun a b => f a b x) l ∂μ = pairsAll (fun a b => ∫ x, f a b x ∂μ) l := by
  have h1 := fun a : α => integral_map (f := fun b x => f a b x) (μ := μ) l fun b _ => h a b
  have h2 := integral_map (f := fun a x => (l.map fun b => f a b x).sum) (μ := μ) l
    fun a _ => (h1 a).1
  unfold pairsAll
  rw [h2.2]
  congr 1
  apply List.map_congr_left
  intro a _
  exact (h1 a).2

/-- A sum of products of a function at the two points is a square. -/
theorem pairsAll_sq_nonneg (f : α → ℝ) (l : List α) : 0 ≤ pairsAll (fun a b => f a * f b) l := by
  rw [pairsAll_prod]
  exact mul_self_nonneg _

end lists

variable {D : ℕ}

theorem inner_pow_psd (k : ℕ) (f : Eu D × ℝ → ℝ) (l : List (Eu D × ℝ)) :
    0 ≤ pairsAll (fun p q : Eu D × ℝ => f p * f q * (inner ℝ p.1 q.1) ^ k) l := by
  have e : ∀ p q : Eu D × ℝ, f p * f q * (inner ℝ p.1 q.1) ^ k
      = ∑ t ∈ Fintype.piFinset (fun _ : Fin k => (Finset.univ : Finset (Fin D))),
        (f p * ∏ i, p.1 (t i)) * (f q * ∏ i, q.1 (t i)) := by
    intro p q
    have h1 : (inner ℝ p.1 q.1 : ℝ) ^ k = ∏ _i : Fin k, ∑ j : Fin D, p.1 j * q.1 j := by
      rw [Finset.prod_const, Finset.card_univ, Fintype.card_fin]
      congr 1
      rw [PiLp.inner_apply]
      apply Finset.sum_congr rfl
      intro j _
      simp [mul_comm]
    rw [h1, Finset.prod_univ_sum, Finset.mul_sum]
    apply Finset.sum_congr rfl
    intro t _
    rw [Finset.prod_mul_distrib]
    ring
  rw [show (fun p q : Eu D × ℝ => f p * f q * (inner ℝ p.1 q.1) ^ k) = _ from
    funext fun p => funext fun q => e p q, pairsAll_finset]
  exact Finset.sum_nonneg fun t _ => pairsAll_sq_nonneg _ _

/-- the Gaussian kernel is positive definite -/
theorem gauss_psd {s : ℝ} (hs : 0 ≤ s) (l : List (Eu D × ℝ)) :
    0 ≤ pairsAll (fun p q : Eu D × ℝ => p.2 * q.2 * Real.exp (-(s * dist p.1 q.1 ^ 2))) l := by
  set f : Eu D × ℝ → ℝ := fun p => p.2 * Real.exp (-(s * ‖p.1‖ ^ 2)) with hf
  have key : ∀ p q : Eu D × ℝ, HasSum
      (fun k : ℕ => ((2 * s) ^ k / (k.factorial : ℝ)) * (f p * f q * (inner ℝ p.1 q.1) ^ k))
      (p.2 * q.2 * Real.exp (-(s * dist p.1 q.1 ^ 2))) := by
    intro p q
    have h1 := (NormedSpace.expSeries_div_hasSum_exp (2 * s * (inner ℝ p.1 q.1 : ℝ))).mul_left (f p * f q)
    rw [← Real.exp_eq_exp_ℝ] at h1
    have e : f p * f q * Real.exp (2 * s * (inner ℝ p.1 q.1 : ℝ))
        = p.2 * q.2 * Real.exp (-(s * dist p.1 q.1 ^ 2)) := by
      rw [hf, dist_eq_norm, norm_sub_sq_real]
      have : -(s * (‖p.1‖ ^ 2 - 2 * (inner ℝ p.1 q.1 : ℝ) + ‖q.1‖ ^ 2))
          = -(s * ‖p.1‖ ^ 2) + -(s * ‖q.1‖ ^ 2) + 2 * s * (inner ℝ p.1 q.1 : ℝ) := by ring
      rw [this, Real.exp_add, Real.exp_add]
      ring
    rw [e] at h1
    refine h1.congr_fun ?_ |> fun h => h
    intro k
    rw [mul_pow]
    ring
  have h := hasSum_pairsAll l key
  refine h.nonneg fun k => ?_
  simp only [pairsAll_mul_left]
  exact mul_nonneg (by positivity) (inner_pow_psd k f l)

/-- the inverse multiquadric kernel is positive definite -/
theorem invquad_psd {t : ℝ} (ht : 0 < t) (l : List (Eu D × ℝ)) :
    0 ≤ pairsAll (fun p q : Eu D × ℝ => p.2 * q.2 * (t + dist p.1 q.1 ^ 2)⁻¹) l := by
  have hneg : ∀ p q : Eu D × ℝ, -(t + dist p.1 q.1 ^ 2) < 0 := by
    intro p q
    have := sq_nonneg (dist p.1 q.1)
    linarith
  have e : ∀ p q : Eu D × ℝ, p.2 * q.2 * (t + dist p.1 q.1 ^ 2)⁻¹
      = ∫ s in Ioi (0 : ℝ), p.2 * q.2 * Real.exp (-(t + dist p.1 q.1 ^ 2) * s) := by
    intro p q
    rw [integral_const_mul, integral_exp_mul_Ioi (hneg p q)]
    have := (hneg p q).ne
    have h2 : t + dist p.1 q.1 ^ 2 ≠ 0 := by intro h; exact this (by rw [h]; simp)
    simp only [mul_zero, Real.exp_zero]
    field_simp
  rw [show (fun p q : Eu D × ℝ => p.2 * q.2 * (t + dist p.1 q.1 ^ 2)⁻¹) = _ from
    funext fun p => funext fun q => e p q]
  rw [← integral_pairsAll l fun p q => (integrableOn_exp_mul_Ioi (hneg p q) 0).const_mul _]
  refine setIntegral_nonneg measurableSet_Ioi fun s hs => ?_
  have hs' : (0 : ℝ) ≤ s := le_of_lt hs
  have : (fun p q : Eu D × ℝ => p.2 * q.2 * Real.exp (-(t + dist p.1 q.1 ^ 2) * s))
      = fun p q => Real.exp (-(t * s)) * (p.2 * q.2 * Real.exp (-(s * dist p.1 q.1 ^ 2))) := by
    funext p q
    rw [show -(t + dist p.1 q.1 ^ 2) * s = -(t * s) + -(s * dist p.1 q.1 ^ 2) by ring, Real.exp_add]
    ring
  rw [this, pairsAll_mul_left]
  exact mul_nonneg (Real.exp_pos _).le (gauss_psd hs' l)

/-- the Euclidean distance is conditionally negative definite -/
theorem dist_cnd (l : List (Eu D × ℝ)) (h0 : (l.map Prod.snd).sum = 0) :
    pairsAll (fun p q : Eu D × ℝ => p.2 * q.2 * dist p.1 q.1) l ≤ 0 := by
  obtain ⟨μ, hμ⟩ := Real.exists_measure_rpow_eq_integral_rpowIntegrand₀₁ (p := 1 / 2)
    ⟨by norm_num, by norm_num⟩
  have hd : ∀ p q : Eu D × ℝ, dist p.1 q.1
      = ∫ t in Ioi 0, Real.rpowIntegrand₀₁ (1 / 2) t (dist p.1 q.1 ^ 2) ∂μ := by
    intro p q
    rw [← (hμ _ (sq_nonneg (dist p.1 q.1))).2, ← Real.sqrt_eq_rpow, Real.sqrt_sq dist_nonneg]
  have e : (fun p q : Eu D × ℝ => p.2 * q.2 * dist p.1 q.1) = fun p q =>
      ∫ t in Ioi 0, p.2 * q.2 * Real.rpowIntegrand₀₁ (1 / 2) t (dist p.1 q.1 ^ 2) ∂μ := by
    funext p q
    rw [integral_const_mul, ← hd]
  rw [e, ← integral_pairsAll l fun p q => ((hμ _ (sq_nonneg (dist p.1 q.1))).1).const_mul _]
  refine setIntegral_nonpos measurableSet_Ioi fun t ht => ?_
  have ht' : (0 : ℝ) < t := ht
  have : (fun p q : Eu D × ℝ => p.2 * q.2 * Real.rpowIntegrand₀₁ (1 / 2) t (dist p.1 q.1 ^ 2))
      = fun p q => (t ^ (1 / 2 : ℝ) * t⁻¹) * (p.2 * q.2)
        + (-(t ^ (1 / 2 : ℝ))) * (p.2 * q.2 * (t + dist p.1 q.1 ^ 2)⁻¹) := by
    funext p q
    unfold Real.rpowIntegrand₀₁
    ring
  rw [this, pairsAll_add, pairsAll_mul_left, pairsAll_mul_left, pairsAll_prod]
  have h0' : (l.map fun p : Eu D × ℝ => p.2).sum = 0 := h0
  rw [h0', zero_mul, mul_zero, zero_add]
  have h1 := invquad_psd ht' l
  have h2 : (0 : ℝ) ≤ t ^ (1 / 2 : ℝ) := by positivity
  nlinarith

end Verif
