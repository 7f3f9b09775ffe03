import Verif.Props.Weighted

/-!
# Default outcome weights (C23)
-/

noncomputable section

open scoped Classical

namespace Verif

open XF Py Api

/-- The default outcome weight is one on the closed interval between the thresholds and zero elsewhere. -/
theorem C23_default_weight (a b : XF) :
    WeightFn (defaultW a b) fun x => if x ∈ Spec.between a b then 1 else 0 := by
  refine ⟨fun x => ?_, fun x => by split_ifs <;> norm_num⟩
  unfold defaultW Spec.between XF.ind
  simp only [Set.mem_setOf_eq]
  split_ifs
  · exact mul_one (1 : XF)
  · exact mul_one (0 : XF)

theorem wcdf_filter (S : Set ℝ) (xs : List ℝ) :
    Spec.wcdf (Spec.reweight (fun x => if x ∈ S then 1 else 0) xs)
      = Spec.ecdf (xs.filter fun x => decide (x ∈ S)) := by
  funext z
  unfold Spec.wcdf Spec.ecdf Spec.reweight
  congr 1
  · induction xs with
    | nil => simp
    | cons x t ih =>
      by_cases h1 : x ≤ z <;> by_cases h2 : x ∈ S <;> simp_all
      ring
  · induction xs with
    | nil => simp
    | cons x t ih =>
      by_cases h2 : x ∈ S <;> simp_all
      ring

/-- With the default weight, `owcrps_ensemble` is zero when the observation lies outside the thresholds and
otherwise the CRPS of the members which do not. -/
theorem C23_ow_default {obs fct : Arr ℝ} {m : ℤ} {k : ℕ} (h : Spec.AxisIs m fct.ndim k)
    (hs : obs.shape = fct.shape.eraseIdx k) (a b : XF)
    (hpos : ∀ i, Arr.Valid obs.shape i → ∃ x ∈ fct.sliceAt k i, x ∈ Spec.between a b) (path : Path) :
    ∃ out, owcrpsEnsemble path (obs.map fin) (fct.map fin) (defaultW a b) m none "propagate" = .ok out ∧
      out.shape = obs.shape ∧ ∀ i, Arr.Valid obs.shape i → out.get i =
        if obs.get i ∈ Spec.between a b then
          fin (Spec.crps (Spec.ecdf ((fct.sliceAt k i).filter fun x => decide (x ∈ Spec.between a b)))
            (obs.get i))
        else fin 0 := by
  have hw := C23_default_weight a b
  obtain ⟨out, h1, h2, h3⟩ := C23_ow_value h hs hw (fun i hi => by
    obtain ⟨x, hx, hb⟩ := hpos i hi
    have : (fun x => if x ∈ Spec.between a b then (1:ℝ) else 0) x
        ≤ ((fct.sliceAt k i).map fun x => if x ∈ Spec.between a b then (1:ℝ) else 0).sum :=
      List.single_le_sum (by
        intro z hz
        obtain ⟨u, -, rfl⟩ := List.mem_map.1 hz
        exact hw.nonneg u) _ (List.mem_map_of_mem hx)
    simp only [if_pos hb] at this
    linarith) path
  refine ⟨out, h1, h2, fun i hi => ?_⟩
  rw [h3 i hi, wcdf_filter]
  split_ifs
  · rw [one_mul]
  · rw [zero_mul]

/-- members 0, 1, 2 and thresholds 1 and 3 meet the hypotheses -/
example : Spec.AxisIs (-1) (⟨[3], fun i => (i.getD 0 0 : ℝ)⟩ : Arr ℝ).ndim 0 ∧
    ∃ x ∈ (⟨[3], fun i => (i.getD 0 0 : ℝ)⟩ : Arr ℝ).sliceAt 0 [], x ∈ Spec.between (fin 1) (fin 3) := by
  refine ⟨by constructor <;> simp [Arr.ndim], 1, ?_, by norm_num [Spec.between]⟩
  simp [Arr.sliceAt, List.range_succ]

end Verif
