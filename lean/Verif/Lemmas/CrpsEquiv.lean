import Verif.Props.Crps

/-! Invariances of the closed forms of the estimators. -/

noncomputable section

open scoped Classical

namespace Verif

open XF Py Api

/-! ### affine maps -/

/-- affine map of the values of a weighted ensemble -/
def affP (c d : ℝ) (l : List (ℝ × ℝ)) : List (ℝ × ℝ) := l.map fun p => (c * p.1 + d, p.2)

theorem aff_abs (c d a b : ℝ) : |c * a + d - (c * b + d)| = |c| * |a - b| := by
  rw [← abs_mul]; congr 1; ring

theorem wabs_aff (c d y : ℝ) (l : List (ℝ × ℝ)) :
    wabs (c * y + d) (affP c d l) = |c| * wabs y l := by
  unfold wabs affP
  rw [← List.sum_map_mul_left, List.map_map]
  congr 1
  apply List.map_congr_left
  intro p _
  simp only [Function.comp]
  rw [aff_abs]; ring

theorem wpair_aff (c d : ℝ) (l : List (ℝ × ℝ)) : wpair (affP c d l) = |c| * wpair l := by
  induction l with
  | nil => simp [affP, wpair, pairsAll]
  | cons p l ih =>
    have : affP c d (p :: l) = (c * p.1 + d, p.2) :: affP c d l := rfl
    rw [this, wpair_cons, wpair_cons, ih, mul_add]
    congr 1
    rw [mul_left_comm, ← List.sum_map_mul_left (r := |c|)]
    congr 2
    unfold affP
    rw [List.map_map]
    apply List.map_congr_left
    intro q _
    simp only [Function.comp]
    rw [aff_abs]; ring

theorem energy_aff (c d y : ℝ) (l : List (ℝ × ℝ)) :
    energy (c * y + d) (affP c d l) = |c| * energy y l := by
  unfold energy
  rw [wabs_aff, wpair_aff]; ring

theorem uw_aff (c d : ℝ) (xs : List ℝ) : uw (xs.map fun x => c * x + d) = affP c d (uw xs) := by
  simp [uw, affP, Function.comp_def]

theorem norml_aff (c d : ℝ) (l : List (ℝ × ℝ)) : norml (affP c d l) = affP c d (norml l) := by
  have : wtot (affP c d l) = wtot l := by simp [wtot, affP, Function.comp_def]
  unfold norml
  rw [this]
  simp [affP, Function.comp_def]

theorem wsq_aff (c d : ℝ) (l : List (ℝ × ℝ)) : wsq (affP c d l) = wsq l := by
  simp [wsq, affP, Function.comp_def]

theorem wtot_aff (c d : ℝ) (l : List (ℝ × ℝ)) : wtot (affP c d l) = wtot l := by
  simp [wtot, affP, Function.comp_def]

theorem wfair_aff (c d y : ℝ) (l : List (ℝ × ℝ)) :
    wfair (c * y + d) (affP c d l) = |c| * wfair y l := by
  unfold wfair
  rw [wabs_aff, wpair_aff, wsq_aff]; ring

theorem fairCrps_aff (c d y : ℝ) (xs : List ℝ) :
    Spec.fairCrps (c * y + d) (xs.map fun x => c * x + d) = |c| * Spec.fairCrps y xs := by
  have h1 : Spec.meanAbs (c * y + d) (xs.map fun x => c * x + d) = |c| * Spec.meanAbs y xs := by
    unfold Spec.meanAbs
    rw [List.map_map, List.length_map, mul_div_assoc', ← List.sum_map_mul_left]
    congr 2
    apply List.map_congr_left
    intro x _
    simp only [Function.comp, aff_abs]
  have h2 : Spec.sumAbsDiff (xs.map fun x => c * x + d) = |c| * Spec.sumAbsDiff xs := by
    unfold Spec.sumAbsDiff
    rw [List.map_map, ← List.sum_map_mul_left]
    congr 1
    apply List.map_congr_left
    intro x _
    simp only [Function.comp]
    rw [List.map_map, ← List.sum_map_mul_left]
    congr 1
    apply List.map_congr_left
    intro z _
    simp only [Function.comp, aff_abs]
  unfold Spec.fairCrps
  rw [h1, h2, List.length_map]; ring

theorem circ_aff (c d : ℝ) (g : ℕ → ℕ) (xs : List ℝ) (hg : ∀ i < xs.length, g i < xs.length) :
    circ g (xs.map fun x => c * x + d) = |c| * circ g xs := by
  unfold circ
  rw [List.length_map, ← List.sum_map_mul_left]
  congr 1
  apply List.map_congr_left
  intro i hi
  have hi := List.mem_range.1 hi
  have h2 := hg i hi
  simp only [List.getD_eq_getElem?_getD, List.getElem?_map, List.getElem?_eq_getElem hi,
    List.getElem?_eq_getElem h2, Option.map_some, Option.getD_some, aff_abs]

theorem circW_aff (c d : ℝ) (g : ℕ → ℕ) (l : List (ℝ × ℝ)) (hg : ∀ i < l.length, g i < l.length) :
    circW g (affP c d l) = |c| * circW g l := by
  unfold circW affP
  rw [List.length_map, ← List.sum_map_mul_left]
  congr 1
  apply List.map_congr_left
  intro i hi
  have hi := List.mem_range.1 hi
  have h2 := hg i hi
  simp only [List.getD_eq_getElem?_getD, List.getElem?_map, List.getElem?_eq_getElem hi,
    List.getElem?_eq_getElem h2, Option.map_some, Option.getD_some, aff_abs]
  ring

theorem sabs_aff (c d y : ℝ) (xs : List ℝ) :
    sabs (c * y + d) (xs.map fun x => c * x + d) = |c| * sabs y xs := by
  unfold sabs
  rw [List.map_map, ← List.sum_map_mul_left]
  congr 1
  apply List.map_congr_left
  intro x _
  simp only [Function.comp, aff_abs]

/-! ### the weighted PWM estimator -/

/-- `Σ x w²` -/
def wxsq (l : List (ℝ × ℝ)) : ℝ := (l.map fun p => p.1 * p.2 ^ 2).sum

theorem wpwm_eq (y : ℝ) (l : List (ℝ × ℝ)) (h : wsq l ≠ 1) :
    wpwm y l = wfair y l + (wxsq l - wmean l * wsq l) / (1 - wsq l) := by
  have : 1 - wsq l ≠ 0 := sub_ne_zero.2 h.symm
  unfold wpwm wfair wxsq
  field_simp
  ring

theorem wxsq_aff (c d : ℝ) (l : List (ℝ × ℝ)) : wxsq (affP c d l) = c * wxsq l + d * wsq l := by
  induction l with
  | nil => simp [wxsq, wsq, affP]
  | cons p l ih =>
    have e1 : ∀ q L, wxsq (q :: L) = q.1 * q.2 ^ 2 + wxsq L := fun q L => by simp [wxsq]
    have : affP c d (p :: l) = (c * p.1 + d, p.2) :: affP c d l := rfl
    rw [this, e1, e1, wsq_cons, ih]; ring

theorem wmean_aff (c d : ℝ) (l : List (ℝ × ℝ)) : wmean (affP c d l) = c * wmean l + d * wtot l := by
  induction l with
  | nil => simp [wmean, wtot, affP]
  | cons p l ih =>
    have e1 : ∀ q L, wmean (q :: L) = q.1 * q.2 + wmean L := fun q L => by simp [wmean]
    have : affP c d (p :: l) = (c * p.1 + d, p.2) :: affP c d l := rfl
    rw [this, e1, e1, wtot_cons, ih]; ring

theorem wpwm_aff {c : ℝ} (hc : 0 ≤ c) (d y : ℝ) (l : List (ℝ × ℝ)) (h : wsq l ≠ 1)
    (ht : wtot l = 1) : wpwm (c * y + d) (affP c d l) = |c| * wpwm y l := by
  rw [wpwm_eq _ _ (by rw [wsq_aff]; exact h), wpwm_eq _ _ h, wfair_aff, wxsq_aff, wmean_aff, wsq_aff,
    ht, abs_of_nonneg hc]
  ring

/-! ### zero weights -/

theorem zero_weight (y x : ℝ) (l : List (ℝ × ℝ)) :
    wtot ((x, 0) :: l) = wtot l ∧ wabs y ((x, 0) :: l) = wabs y l ∧
      wpair ((x, 0) :: l) = wpair l ∧ wsq ((x, 0) :: l) = wsq l ∧
      wmean ((x, 0) :: l) = wmean l ∧ wxsq ((x, 0) :: l) = wxsq l := by
  refine ⟨by simp [wtot], by simp [wabs], ?_, by simp [wsq], by simp [wmean], by simp [wxsq]⟩
  rw [wpair_cons]
  simp

theorem norml_zero_cons (x : ℝ) (l : List (ℝ × ℝ)) :
    norml ((x, 0) :: l) = (x, 0) :: norml l := by
  unfold norml
  rw [(zero_weight 0 x l).1]
  simp

/-! ### non-negativity -/

theorem crossK_nonneg (y a b : ℝ) : 0 ≤ crossK y a b := by
  rw [← integral_step_prod]
  apply MeasureTheory.integral_nonneg
  intro z
  show 0 ≤ (step a z - step y z) * (step b z - step y z)
  rw [step_prod]
  apply add_nonneg <;> exact Set.indicator_nonneg (fun _ _ => zero_le_one) _

theorem crossSum_ge {l : List (ℝ × ℝ)} (hw : ∀ p ∈ l, 0 ≤ p.2) (y : ℝ) :
    (l.map fun p => |p.1 - y| * p.2 ^ 2).sum ≤ crossSum y l := by
  induction l with
  | nil => simp [crossSum, pairsAll]
  | cons p l ih =>
    rw [crossSum_cons, List.map_cons, List.sum_cons]
    have h1 := ih fun q hq => hw q (List.mem_cons_of_mem _ hq)
    have h2 := hw p List.mem_cons_self
    have h3 : 0 ≤ (l.map fun q => crossK y p.1 q.1 * q.2).sum := by
      apply List.sum_nonneg
      intro v hv
      rw [List.mem_map] at hv
      obtain ⟨q, hq, rfl⟩ := hv
      exact mul_nonneg (crossK_nonneg _ _ _) (hw q (List.mem_cons_of_mem _ hq))
    have h4 := mul_nonneg h2 h3
    linarith

theorem energy_nonneg {l : List (ℝ × ℝ)} (hw : ∀ p ∈ l, 0 ≤ p.2) (ht : wtot l = 1) (y : ℝ) :
    0 ≤ energy y l := by
  rw [← crossSum_energy y ht]
  refine le_trans (List.sum_nonneg ?_) (crossSum_ge hw y)
  intro v hv
  rw [List.mem_map] at hv
  obtain ⟨q, hq, rfl⟩ := hv
  positivity

theorem sum_nonneg_eq_zero {α : Type} {l : List α} {f : α → ℝ} (h : ∀ a ∈ l, 0 ≤ f a)
    (hs : (l.map f).sum = 0) : ∀ a ∈ l, f a = 0 := by
  induction l with
  | nil => simp
  | cons b l ih =>
    rw [List.map_cons, List.sum_cons] at hs
    have h1 := h b List.mem_cons_self
    have h2 : 0 ≤ (l.map f).sum := by
      apply List.sum_nonneg
      intro v hv
      rw [List.mem_map] at hv
      obtain ⟨q, hq, rfl⟩ := hv
      exact h q (List.mem_cons_of_mem _ hq)
    intro a ha
    rcases List.mem_cons.1 ha with rfl | ha
    · linarith
    · exact ih (fun a ha => h a (List.mem_cons_of_mem _ ha)) (by linarith) a ha

theorem energy_eq_zero {l : List (ℝ × ℝ)} (hw : ∀ p ∈ l, 0 ≤ p.2) (ht : wtot l = 1) (y : ℝ) :
    energy y l = 0 ↔ ∀ p ∈ l, p.2 ≠ 0 → p.1 = y := by
  constructor
  · intro h p hp hp0
    have h1 := crossSum_ge hw y
    rw [crossSum_energy y ht, h] at h1
    have h2 : (l.map fun p => |p.1 - y| * p.2 ^ 2).sum = 0 := by
      apply le_antisymm h1
      apply List.sum_nonneg
      intro v hv
      rw [List.mem_map] at hv
      obtain ⟨q, hq, rfl⟩ := hv
      positivity
    have h3 := sum_nonneg_eq_zero (f := fun p : ℝ × ℝ => |p.1 - y| * p.2 ^ 2)
      (fun q _ => by positivity) h2 p hp
    rcases mul_eq_zero.1 h3 with h3 | h3
    · exact sub_eq_zero.1 (abs_eq_zero.1 h3)
    · exact absurd (pow_eq_zero_iff (by norm_num) |>.1 h3) hp0
  · intro h
    have e1 : wabs y l = 0 := by
      unfold wabs
      apply List.sum_eq_zero
      intro v hv
      rw [List.mem_map] at hv
      obtain ⟨q, hq, rfl⟩ := hv
      by_cases hq0 : q.2 = 0
      · rw [hq0, mul_zero]
      · rw [h q hq hq0, sub_self, abs_zero, zero_mul]
    have h5 := energy_nonneg hw ht y
    have e2 : 0 ≤ wpair l := by
      clear h e1 h5 ht
      induction l with
      | nil => simp [wpair, pairsAll]
      | cons p l ih =>
        rw [wpair_cons]
        have := ih fun q hq => hw q (List.mem_cons_of_mem _ hq)
        have h3 : 0 ≤ (l.map fun q => |p.1 - q.1| * p.2 * q.2).sum := by
          apply List.sum_nonneg
          intro v hv
          rw [List.mem_map] at hv
          obtain ⟨q, hq, rfl⟩ := hv
          exact mul_nonneg (mul_nonneg (abs_nonneg _) (hw p List.mem_cons_self))
            (hw q (List.mem_cons_of_mem _ hq))
        linarith
    unfold energy at *
    rw [e1] at *
    linarith

end Verif
