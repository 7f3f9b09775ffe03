import Verif.Lemmas.ClosedInt
import Mathlib.Analysis.SpecialFunctions.Pow.Deriv
import Mathlib.Analysis.SpecialFunctions.Pow.Asymptotics

/-!
# The CRPS integral of the generalised Pareto distribution
-/

noncomputable section

open scoped Classical Topology
open MeasureTheory Filter Set

namespace Verif

/-- The base of the survival function: `1 + ξ x`, cut off at zero. -/
def gpdB (ξ x : ℝ) : ℝ := max (1 + ξ * x) 0

theorem gpdB_cont (ξ : ℝ) : Continuous (gpdB ξ) := by unfold gpdB; fun_prop

theorem gpdB_pos {ξ x : ℝ} (hξ : ξ ≠ 0) (hx : 0 ≤ x) (h : 0 < ξ ∨ x < -1 / ξ) : 0 < 1 + ξ * x := by
  rcases h with h | h
  · positivity
  · rcases lt_or_gt_of_ne hξ with h' | h'
    · have := mul_lt_mul_of_neg_left h h'
      rw [mul_div_cancel₀ _ hξ] at this
      linarith
    · positivity

/-- Powers of the base and their derivative, on the positive axis. -/
theorem gpdB_deriv {ξ r : ℝ} (hξ : ξ ≠ 0) (hr : ξ < 0 → 0 < r) {x : ℝ} (hx : 0 < x) (hne : x ≠ -1 / ξ) :
    HasDerivAt (fun z => gpdB ξ z ^ r) (ξ * r * gpdB ξ x ^ (r - 1)) x ∨
      (gpdB ξ x = 0 ∧ ξ < 0 ∧ HasDerivAt (fun z => gpdB ξ z ^ r) 0 x) := by
  by_cases h : 0 < ξ ∨ x < -1 / ξ
  · left
    have hp := gpdB_pos hξ hx.le h
    have h1 : HasDerivAt (fun z => 1 + ξ * z) ξ x := by
      simpa using ((hasDerivAt_id x).const_mul ξ).const_add 1
    have h2 := h1.rpow_const (p := r) (Or.inl hp.ne')
    have e : gpdB ξ x = 1 + ξ * x := max_eq_left hp.le
    rw [e]
    refine h2.congr_of_eventuallyEq ?_
    have : ∀ᶠ z in 𝓝 x, 0 < 1 + ξ * z :=
      (Continuous.continuousAt (by fun_prop)).eventually (lt_mem_nhds hp)
    filter_upwards [this] with z hz
    rw [gpdB, max_eq_left hz.le]
  · right
    simp only [not_or, not_lt] at h
    have hneg : ξ < 0 := lt_of_le_of_ne h.1 hξ
    have hlt : -1 / ξ < x := lt_of_le_of_ne h.2 (Ne.symm hne)
    have hb : ∀ z, -1 / ξ < z → gpdB ξ z = 0 := by
      intro z hz
      have := mul_lt_mul_of_neg_left hz hneg
      rw [mul_div_cancel₀ _ hξ] at this
      exact max_eq_right (by linarith)
    refine ⟨hb x hlt, hneg, ?_⟩
    refine (hasDerivAt_const x (0:ℝ)).congr_of_eventuallyEq ?_
    filter_upwards [lt_mem_nhds hlt] with z hz
    rw [hb z hz, Real.zero_rpow (hr hneg).ne']

/-- Standard generalised Pareto distribution function with a point mass at zero, `ξ ≠ 0`. -/
def gpdF (M ξ x : ℝ) : ℝ := if x < 0 then 0 else 1 - (1 - M) * gpdB ξ x ^ (-1 / ξ)

theorem gpdB_le_one {ξ x : ℝ} (hξ : ξ ≠ 0) (hx : 0 ≤ x) :
    0 ≤ gpdB ξ x ^ (-1 / ξ) ∧ gpdB ξ x ^ (-1 / ξ) ≤ 1 := by
  have h0 : 0 ≤ gpdB ξ x := le_max_right _ _
  refine ⟨Real.rpow_nonneg h0 _, ?_⟩
  rcases lt_or_gt_of_ne hξ with h | h
  · refine Real.rpow_le_one h0 ?_ (div_nonneg_of_nonpos (by norm_num) h.le)
    refine max_le ?_ zero_le_one
    nlinarith
  · have h1 : 1 ≤ gpdB ξ x := le_max_of_le_left (by nlinarith)
    exact Real.rpow_le_one_of_one_le_of_nonpos h1 (div_nonpos_of_nonpos_of_nonneg (by norm_num) h.le)

theorem crps_gpdF {M ξ : ℝ} (h0 : 0 ≤ M) (h1 : M ≤ 1) (hξ : ξ ≠ 0) (hξ1 : ξ < 1) (y : ℝ) :
    Integrable (fun z => (gpdF M ξ z - if y ≤ z then 1 else 0) ^ 2) ∧
    Spec.crps (gpdF M ξ) y = |y| - 2 * (1 - M) * (1 - gpdB ξ (max y 0) ^ (1 - 1 / ξ)) / (1 - ξ)
      + (1 - M) ^ 2 / (2 - ξ) := by
  have d1 : 1 - ξ ≠ 0 := by linarith
  have d2 : 2 - ξ ≠ 0 := by linarith
  have r1 : ξ < 0 → 0 < 1 - 1 / ξ := fun h => by
    have : 1 / ξ < 0 := div_neg_of_pos_of_neg one_pos h
    linarith
  have r2 : ξ < 0 → 0 < 1 - 2 / ξ := fun h => by
    have : 2 / ξ < 0 := div_neg_of_pos_of_neg two_pos h
    linarith
  let U1 : ℝ → ℝ := fun x => gpdB ξ x ^ (1 - 1 / ξ)
  let U2 : ℝ → ℝ := fun x => gpdB ξ x ^ (1 - 2 / ξ)
  have gB0 : gpdB ξ 0 = 1 := by simp [gpdB]
  let P : ℝ → ℝ := fun x => x + 2 * (1 - M) / (1 - ξ) * U1 x - (1 - M) ^ 2 / (2 - ξ) * U2 x
  let Q : ℝ → ℝ := fun x => -((1 - M) ^ 2 / (2 - ξ) * U2 x)
  have hsq : ∀ x, 0 < gpdB ξ x → gpdB ξ x ^ (-2 / ξ) = (gpdB ξ x ^ (-1 / ξ)) ^ 2 := fun x hx => by
    rw [← Real.rpow_natCast, ← Real.rpow_mul hx.le]; congr 1; push_cast; ring
  -- derivatives of the two powers
  have dU1 : ∀ x, 0 < x → x ≠ -1 / ξ → HasDerivAt U1 ((ξ - 1) * gpdB ξ x ^ (-1 / ξ)) x := by
    intro x hx hne
    rcases gpdB_deriv hξ r1 hx hne with h | ⟨hz, hn, h⟩
    · refine h.congr_deriv ?_
      rw [show 1 - 1 / ξ - 1 = -1 / ξ by ring]
      congr 1; field_simp
    · refine h.congr_deriv ?_
      rw [hz, Real.zero_rpow (div_pos_of_neg_of_neg (by norm_num) hn).ne', mul_zero]
  have dU2 : ∀ x, 0 < x → x ≠ -1 / ξ → HasDerivAt U2 ((ξ - 2) * (gpdB ξ x ^ (-1 / ξ)) ^ 2) x := by
    intro x hx hne
    rcases gpdB_deriv hξ r2 hx hne with h | ⟨hz, hn, h⟩
    · refine h.congr_deriv ?_
      by_cases hp : 0 < gpdB ξ x
      · rw [show 1 - 2 / ξ - 1 = -2 / ξ by ring, hsq x hp]
        congr 1; field_simp
      · have hz : gpdB ξ x = 0 := le_antisymm (not_lt.1 hp) (le_max_right _ _)
        have hn : ξ < 0 := by
          rcases lt_or_gt_of_ne hξ with h' | h'
          · exact h'
          · exfalso; apply hp; exact lt_max_of_lt_left (by positivity)
        have a1 : -1 / ξ ≠ 0 := (div_pos_of_neg_of_neg (by norm_num) hn).ne'
        have a2 : 1 - 2 / ξ - 1 ≠ 0 := by
          rw [show 1 - 2 / ξ - 1 = -2 / ξ by ring]
          exact (div_pos_of_neg_of_neg (by norm_num) hn).ne'
        rw [hz, Real.zero_rpow a1, Real.zero_rpow a2]; ring
    · refine h.congr_deriv ?_
      rw [hz, Real.zero_rpow (div_pos_of_neg_of_neg (by norm_num) hn).ne']; ring
  have hP : ∀ x, 0 < x → x ≠ -1 / ξ → HasDerivAt P ((1 - (1 - M) * gpdB ξ x ^ (-1 / ξ)) ^ 2) x := by
    intro x hx hne
    refine (((hasDerivAt_id x).add ((dU1 x hx hne).const_mul (2 * (1 - M) / (1 - ξ)))).sub
      ((dU2 x hx hne).const_mul ((1 - M) ^ 2 / (2 - ξ)))).congr_deriv ?_
    field_simp; ring
  have hQ : ∀ x, 0 < x → x ≠ -1 / ξ → HasDerivAt Q (((1 - M) * gpdB ξ x ^ (-1 / ξ)) ^ 2) x := by
    intro x hx hne
    refine ((dU2 x hx hne).const_mul ((1 - M) ^ 2 / (2 - ξ))).neg.congr_deriv ?_
    field_simp; ring
  -- continuity of the powers on the positive axis
  have cB : Continuous fun z : ℝ => gpdB ξ (max z 0) :=
    (gpdB_cont ξ).comp (continuous_id.max continuous_const)
  have cU : ∀ r : ℝ, (ξ < 0 → 0 < r) → Continuous fun z : ℝ => gpdB ξ (max z 0) ^ r := by
    intro r hr
    refine cB.rpow_const fun z => ?_
    rcases lt_or_gt_of_ne hξ with h | h
    · exact Or.inr (hr h).le
    · left
      have : 0 < 1 + ξ * max z 0 := by positivity
      exact (lt_max_of_lt_left this).ne'
  have cU1 := cU _ r1
  have cU2 := cU _ r2
  have hU2t : Tendsto U2 atTop (𝓝 0) := by
    rcases lt_or_gt_of_ne hξ with h | h
    · refine tendsto_const_nhds.congr' ?_
      filter_upwards [eventually_ge_atTop (-1 / ξ)] with z hz
      have := mul_le_mul_of_nonpos_left hz h.le
      rw [mul_div_cancel₀ _ hξ] at this
      have hz : gpdB ξ z = 0 := max_eq_right (by linarith)
      simp only [U2]
      rw [hz, Real.zero_rpow (r2 h).ne']
    · have ht : Tendsto (fun z => gpdB ξ z) atTop atTop := by
        refine tendsto_atTop_mono (fun z => le_max_left _ _) ?_
        exact tendsto_atTop_add_const_left _ _ (tendsto_id.const_mul_atTop h)
      have hr : 0 < 2 / ξ - 1 := by
        have : 2 < 2 / ξ := by rw [lt_div_iff₀ h]; linarith
        linarith
      have := (tendsto_rpow_neg_atTop hr).comp ht
      refine this.congr fun z => ?_
      simp only [U2, Function.comp]
      congr 1; ring
  have hQt : Tendsto Q atTop (𝓝 0) := by
    have := (hU2t.const_mul ((1 - M) ^ 2 / (2 - ξ))).neg
    rw [mul_zero, neg_zero] at this
    exact this
  have hF : Measurable (gpdF M ξ) := by
    unfold gpdF
    refine Measurable.ite measurableSet_Iio measurable_const ?_
    have := (gpdB_cont ξ).measurable
    fun_prop
  have key := crps_of_antideriv (F := gpdF M ξ) (P := fun z => P (max z 0))
    (Q := fun z => min z 0 + Q (max z 0)) (s := {0, -1 / ξ}) (Set.toFinite _).countable hF
    (fun x => by
      unfold gpdF; split_ifs with h
      · exact le_refl _
      · have := gpdB_le_one hξ (not_lt.1 h)
        nlinarith [this.1, this.2])
    (fun x => by
      unfold gpdF; split_ifs with h
      · norm_num
      · have := gpdB_le_one hξ (not_lt.1 h)
        nlinarith [this.1, this.2])
    (by
      refine Continuous.sub (Continuous.add (by fun_prop) ?_) ?_
      · exact continuous_const.mul cU1
      · exact continuous_const.mul cU2)
    (fun x hx => by
      simp only [mem_insert_iff, mem_singleton_iff, not_or] at hx
      rcases lt_or_gt_of_ne hx.1 with h | h
      · simpa [gpdF, h] using hasDerivAt_ppart' (p := P) h
      · refine (hasDerivAt_ppart h (hP x h hx.2)).congr_deriv ?_
        rw [gpdF, if_neg (not_lt.2 h.le)])
    (by
      refine Continuous.add (by fun_prop) ?_
      exact (continuous_const.mul cU2).neg)
    (fun x hx => by
      simp only [mem_insert_iff, mem_singleton_iff, not_or] at hx
      rcases lt_or_gt_of_ne hx.1 with h | h
      · refine ((hasDerivAt_npart h (hasDerivAt_id x)).add (hasDerivAt_ppart' (p := Q) h)).congr_deriv ?_
        simp [gpdF, h]
      · refine ((hasDerivAt_npart' (p := id) h).add (hasDerivAt_ppart h (hQ x h hx.2))).congr_deriv ?_
        rw [gpdF, if_neg (not_lt.2 h.le)]; ring)
    (tendsto_pos_atBot P) ((tendsto_neg_atTop id).add (tendsto_pos_atTop hQt)) y
  refine ⟨key.1, key.2.trans ?_⟩
  simp only [P, Q, U1, U2, id, gB0, Real.one_rpow]
  rcases le_or_gt 0 y with h | h
  · rw [max_eq_left h, min_eq_right h, abs_of_nonneg h]
    ring
  · rw [max_eq_right h.le, min_eq_left h.le, abs_of_neg h, gB0, Real.one_rpow, Real.one_rpow]
    ring

end Verif
