import Verif.Spec.Crps
import Verif.Lemmas.CrpsUnweighted
import Mathlib.MeasureTheory.Integral.IntegrableOn
import Mathlib.MeasureTheory.Integral.Bochner.Set

/-! The energy form of the CRPS equals the integral of the squared difference of distribution
functions. -/

noncomputable section

open scoped Classical
open MeasureTheory

namespace Verif

theorem integrable_list_sum {α : Type} {μ : Measure ℝ} (l : List α) (f : α → ℝ → ℝ)
    (h : ∀ a ∈ l, Integrable (f a) μ) : Integrable (fun z => (l.map fun a => f a z).sum) μ := by
  induction l with
  | nil => simp
  | cons a l ih =>
    simp only [List.map_cons, List.sum_cons]
    exact (h a (by simp)).add (ih fun b hb => h b (by simp [hb]))

theorem integral_list_sum {α : Type} {μ : Measure ℝ} (l : List α) (f : α → ℝ → ℝ)
    (h : ∀ a ∈ l, Integrable (f a) μ) :
    ∫ z, (l.map fun a => f a z).sum ∂μ = (l.map fun a => ∫ z, f a z ∂μ).sum := by
  induction l with
  | nil => simp
  | cons a l ih =>
    simp only [List.map_cons, List.sum_cons]
    rw [integral_add (h a (by simp)) (integrable_list_sum l f fun b hb => h b (by simp [hb])),
      ih fun b hb => h b (by simp [hb])]

/-- step function at `a` -/
def step (a z : ℝ) : ℝ := if a ≤ z then 1 else 0

theorem step_prod (c a b z : ℝ) :
    (step a z - step c z) * (step b z - step c z)
      = (Set.Ico (max a b) c).indicator (fun _ => (1 : ℝ)) z
        + (Set.Ico c (min a b)).indicator (fun _ => (1 : ℝ)) z := by
  unfold step
  simp only [Set.indicator_apply, Set.mem_Ico, max_le_iff, lt_min_iff]
  by_cases h1 : a ≤ z <;> by_cases h2 : b ≤ z <;> by_cases h3 : c ≤ z <;>
    simp [h1, h2, h3, not_le.1, not_lt.2]

theorem integrable_Ico_ind (a b : ℝ) :
    Integrable ((Set.Ico a b).indicator fun _ => (1 : ℝ)) := by
  rw [integrable_indicator_iff measurableSet_Ico]
  exact integrableOn_const (by simp) (by simp)

theorem integral_Ico_ind (a b : ℝ) :
    ∫ z, (Set.Ico a b).indicator (fun _ => (1 : ℝ)) z = max (b - a) 0 := by
  rw [integral_indicator measurableSet_Ico]
  simp [Measure.real, ENNReal.toReal_ofReal']

theorem integrable_step_prod (c a b : ℝ) :
    Integrable fun z => (step a z - step c z) * (step b z - step c z) := by
  simp only [step_prod]
  exact (integrable_Ico_ind _ _).add (integrable_Ico_ind _ _)

theorem integral_step_prod (c a b : ℝ) :
    ∫ z, (step a z - step c z) * (step b z - step c z) = crossK c a b := by
  simp only [step_prod]
  rw [integral_add (integrable_Ico_ind _ _) (integrable_Ico_ind _ _), integral_Ico_ind,
    integral_Ico_ind, crossK]
  rcases le_total a b with h | h <;> rcases le_total a c with h1 | h1 <;>
    rcases le_total b c with h2 | h2 <;>
    simp only [max_eq_left, max_eq_right, min_eq_left, min_eq_right, h, h1, h2, abs_of_nonneg,
      abs_of_nonpos, sub_nonneg, sub_nonpos] <;> ring

theorem wcdf_sub (l : List (ℝ × ℝ)) (hw : wtot l = 1) (y z : ℝ) :
    Spec.wcdf l z - step y z = (l.map fun p => (step p.1 z - step y z) * p.2).sum := by
  have e1 : ((l.filter fun p => decide (p.1 ≤ z)).map Prod.snd).sum
      = (l.map fun p => step p.1 z * p.2).sum := by
    clear hw
    induction l with
    | nil => rfl
    | cons p l ih =>
      by_cases h : p.1 ≤ z
      · simp [List.filter_cons, h, ih, step]
      · simp [List.filter_cons, h, ih, step]
  have e2 : (l.map fun p : ℝ × ℝ => (step p.1 z - step y z) * p.2).sum
      = (l.map fun p => step p.1 z * p.2).sum - step y z * wtot l := by
    simp only [sub_mul, sum_map_sub', sum_map_mul_left', wtot]
  rw [e2, Spec.wcdf, e1]
  have : (l.map Prod.snd).sum = 1 := hw
  rw [this, hw]; ring

/-- CRPS of a weighted ensemble, energy form = integral form. -/
theorem crps_wcdf_eq_energy (y : ℝ) (l : List (ℝ × ℝ)) (hw : wtot l = 1) :
    Spec.crps (Spec.wcdf l) y = energy y l := by
  rw [← crossSum_energy y hw]
  have e : ∀ z, (Spec.wcdf l z - if y ≤ z then 1 else 0) ^ 2
      = (l.map fun p => (l.map fun q =>
          (p.2 * q.2) * ((step p.1 z - step y z) * (step q.1 z - step y z))).sum).sum := by
    intro z
    have : (Spec.wcdf l z - if y ≤ z then 1 else 0) = Spec.wcdf l z - step y z := rfl
    rw [this, wcdf_sub l hw, pow_two, ← pairsAll_prod]
    unfold pairsAll
    apply sum_map_congr; intro p _
    apply sum_map_congr; intro q _
    ring
  have hi : ∀ p q : ℝ × ℝ, Integrable fun z =>
      (p.2 * q.2) * ((step p.1 z - step y z) * (step q.1 z - step y z)) :=
    fun p q => (integrable_step_prod y p.1 q.1).const_mul _
  unfold Spec.crps
  simp only [e]
  rw [integral_list_sum l _ fun p _ => integrable_list_sum l _ fun q _ => hi p q]
  unfold crossSum pairsAll
  apply sum_map_congr; intro p _
  rw [integral_list_sum l _ fun q _ => hi p q]
  apply sum_map_congr; intro q _
  rw [integral_const_mul, integral_step_prod]; ring

theorem wcdf_uw {xs : List ℝ} (h : xs ≠ []) : Spec.wcdf (uw xs) = Spec.ecdf xs := by
  funext z
  have e : wtot (uw xs) = 1 := wtot_uw h
  have e' : ((uw xs).map Prod.snd).sum = 1 := e
  unfold Spec.wcdf
  rw [e', div_one]
  unfold Spec.ecdf uw
  generalize (xs.length : ℝ) = M
  clear e e' h
  induction xs with
  | nil => simp
  | cons x xs ih =>
    simp only [one_div] at ih ⊢
    by_cases hx : x ≤ z
    · simp [hx, ih]; ring
    · simp [hx, ih]

theorem crps_ecdf_eq_energy (y : ℝ) {xs : List ℝ} (h : xs ≠ []) :
    Spec.crps (Spec.ecdf xs) y = energy y (uw xs) := by
  rw [← wcdf_uw h, crps_wcdf_eq_energy y _ (wtot_uw h)]

end Verif
