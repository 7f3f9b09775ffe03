import Verif.Props.KernelProper
import Verif.Props.Energy2
import Verif.Props.Weighted
import Verif.Lemmas.EnergyMmd

/-!
# Property C104: the energy score and the weighted scores built from distances are strictly proper
-/

noncomputable section

open scoped Classical
open MeasureTheory

namespace Verif

open XF Py Api Spec Mv

variable {D : ℕ}

/-! ### The documented scores as kernel scores -/

theorem lsum_neg {α : Type} (l : List α) (f : α → ℝ) : (l.map fun x => -f x).sum = -(l.map f).sum := by
  induction l with
  | nil => simp
  | cons a l ih => rw [List.map_cons, List.sum_cons, ih, List.map_cons, List.sum_cons, neg_add]


theorem es_ks (y : Eu D) (l : List (Eu D × ℝ)) : es y l = ks negDist y l := by
  unfold es ks negDist
  simp only [mul_neg, dist_self, neg_zero, mul_zero, add_zero, lsum_neg]
  ring

theorem vrks_cdist {E : Type} [NormedAddCommGroup E] (o : ℝ) (y : E) (l : List (E × ℝ)) :
    vrks cdist o y l = o * (l.map fun p => p.2 * dist p.1 y).sum
      - 1 / 2 * (l.map fun p => (l.map fun q => p.2 * q.2 * dist p.1 q.1).sum).sum
      + ((l.map fun p => p.2 * ‖p.1‖).sum - ‖y‖ * o) * ((l.map Prod.snd).sum - o) := by
  have e1 : ∀ p : E × ℝ, (l.map fun q => p.2 * q.2 * cdist p.1 q.1).sum
      = p.2 * ‖p.1‖ * (l.map Prod.snd).sum + p.2 * (l.map fun q => q.2 * ‖q.1‖).sum
        - (l.map fun q => p.2 * q.2 * dist p.1 q.1).sum := by
    intro p
    rw [← List.sum_map_mul_left, ← List.sum_map_mul_left, ← List.sum_map_add, ← sum_map_sub']
    congr 1
    refine List.map_congr_left fun q _ => ?_
    unfold cdist
    ring
  have e2 : (l.map fun p => p.2 * cdist p.1 y).sum
      = (l.map fun p => p.2 * ‖p.1‖).sum + (l.map Prod.snd).sum * ‖y‖
        - (l.map fun p => p.2 * dist p.1 y).sum := by
    rw [← List.sum_map_mul_right, ← List.sum_map_add, ← sum_map_sub']
    congr 1
    refine List.map_congr_left fun q _ => ?_
    unfold cdist
    ring
  unfold vrks
  simp only [e1]
  rw [e2, sum_map_sub', List.sum_map_add, List.sum_map_mul_right, List.sum_map_mul_right]
  have e3 : (l.map fun p => p.2).sum = (l.map Prod.snd).sum := rfl
  rw [e3]
  unfold cdist
  rw [dist_self]
  ring

theorem vres_vrks (o : ℝ) (y : Eu D) (l : List (Eu D × ℝ)) : vres o y l = vrks cdist o y l := by
  rw [vrks_cdist]; rfl

theorem energy_ks (y : ℝ) (l : List (ℝ × ℝ)) : energy y l = ks negDist y l := by
  unfold energy wabs wpair pairsAll ks negDist
  simp only [mul_neg, dist_self, neg_zero, mul_zero, add_zero, lsum_neg, Real.dist_eq]
  have e1 : (fun p : ℝ × ℝ => |p.1 - y| * p.2) = fun p => p.2 * |p.1 - y| := by funext p; ring
  have e2 : (fun p : ℝ × ℝ => (l.map fun q => |p.1 - q.1| * p.2 * q.2).sum)
      = fun p => (l.map fun q => p.2 * q.2 * |p.1 - q.1|).sum := by
    funext p
    congr 1
    refine List.map_congr_left fun q _ => ?_
    ring
  rw [e1, e2]
  ring

theorem vrVal_vrks (y o : ℝ) (l : List (ℝ × ℝ)) : vrVal y o l = vrks cdist o y l := by
  rw [vrks_cdist]
  unfold vrVal wabs wpair pairsAll wtot
  simp only [Real.dist_eq, Real.norm_eq_abs]
  have e1 : (fun p : ℝ × ℝ => |p.1 - y| * p.2) = fun p => p.2 * |p.1 - y| := by funext p; ring
  have e3 : (fun p : ℝ × ℝ => |p.1| * p.2) = fun p => p.2 * |p.1| := by funext p; ring
  have e2 : (fun p : ℝ × ℝ => (l.map fun q => |p.1 - q.1| * p.2 * q.2).sum)
      = fun p => (l.map fun q => p.2 * q.2 * |p.1 - q.1|).sum := by
    funext p
    congr 1
    refine List.map_congr_left fun q _ => ?_
    ring
  rw [e1, e2, e3]
  ring

theorem eqW_sum {β : Type} {xs : List β} (h : xs ≠ []) : ((eqW xs).map Prod.snd).sum = 1 := ktot_eqW h

/-! ### Energy score -/

/-- C104: under every law with a finite first moment the mean energy score of an ensemble is the entropy of that
law plus half the squared energy distance; the distance is zero only for the empirical distribution itself. -/
theorem C104_es (path : Path) {xs : List (Eu D)} (h : xs ≠ []) :
    ∃ S : Eu D → XF, (∀ y, es1 path "nrg" D (vec y) (xs.map vec) none = .ok (S y)) ∧
      KernelProper (FinMean (Eu D)) negDist S (ensLaw (eqW xs)) :=
  ⟨_, fun y => es1_nrg path y h, by
    simp only [es_ks]
    exact kernelProper_negDist (eqW_nonneg xs) (eqW_sum h)⟩

/-- two members in the plane, and a law with a finite first moment -/
example : ([!₂[1, 2], 0] : List (Eu 2)) ≠ [] ∧ ensLaw (eqW [!₂[3, 4]]) ∈ FinMean (Eu 2) :=
  ⟨by simp, (integral_ensLaw (eqW_nonneg _) _).1⟩

/-- C104: the same with ensemble weights. -/
theorem C104_es_weighted (path : Path) {l : List (Eu D × ℝ)} (hw : ∀ p ∈ l, 0 ≤ p.2)
    (h : (l.map Prod.snd).sum ≠ 0) :
    ∃ S : Eu D → XF, (∀ y, es1 path "nrg" D (vec y) (l.map fun p => vec p.1)
        (some (l.map fun p => fin p.2)) = .ok (S y)) ∧
      KernelProper (FinMean (Eu D)) negDist S (ensLaw (nrmW l)) :=
  ⟨_, fun y => C33_value_weighted path y l hw h, by
    simp only [es_ks]
    exact kernelProper_negDist (nrmW_nonneg hw) (ktot_nrmW h)⟩

example : (∀ p ∈ ([(!₂[1, 2], 2), (0, 0)] : List (Eu 2 × ℝ)), 0 ≤ p.2) ∧
    (([(!₂[1, 2], 2), (0, 0)] : List (Eu 2 × ℝ)).map Prod.snd).sum ≠ 0 := by simp

/-- C104: the outcome-weighted energy score does this for the re-weighted and normalised laws. -/
theorem C104_owes (path : Path) {wFunc : List XF → XF} {f : Eu D → ℝ} (hf : Spec.WeightFun wFunc f)
    (hm : Measurable f) {xs : List (Eu D)} (h : (xs.map f).sum ≠ 0) :
    ∃ S : Eu D → XF, (∀ y, owes1 path D wFunc (vec y) (xs.map vec) none = .ok (S y)) ∧
      OwProper (FinMean (Eu D)) negDist f S (ensLaw (eqW xs)) :=
  ⟨_, fun y => C34_owes_value path hf y h, by
    have h1 := owProper_negDist hf.nonneg hm (eqW_nonneg xs)
      (out_pos hf.nonneg (eqW_nonneg xs) (out_eqW h))
    have hx : xs ≠ [] := by rintro rfl; simp at h
    rw [nrmW_out f hx] at h1
    unfold owes
    simp only [es_ks]
    exact h1⟩

/-- and a law whose re-weighted form has a finite first moment -/
example : Spec.WeightFun (D := 2) exW2 (fun v => 1 + v 0 ^ 2) ∧ Measurable (fun v : Eu 2 => 1 + v 0 ^ 2) ∧
    (([!₂[1, 2], 0] : List (Eu 2)).map fun v => 1 + v 0 ^ 2).sum ≠ 0 ∧
    condLaw (fun v : Eu 2 => 1 + v 0 ^ 2) (ensLaw (eqW [!₂[3, 4]])) ∈ FinMean (Eu 2) := by
  refine ⟨exW2_fn, by fun_prop, by norm_num, ?_⟩
  rw [condLaw_ensLaw exW2_fn.nonneg (eqW_nonneg _) (by norm_num [eqW])]
  refine (integral_ensLaw (nrmW_nonneg fun p hp => ?_) _).1
  obtain ⟨q, hq, rfl⟩ := List.mem_map.1 hp
  exact mul_nonneg (exW2_fn.nonneg _) (eqW_nonneg _ q hq)

/-- C104: the same with ensemble weights on the array path; for the numba path see `C34_owes_weighted_differs`. -/
theorem C104_owes_weighted_array {wFunc : List XF → XF} {f : Eu D → ℝ} (hf : Spec.WeightFun wFunc f)
    (hm : Measurable f) {l : List (Eu D × ℝ)} (hw : ∀ p ∈ l, 0 ≤ p.2)
    (h : (l.map fun p => f p.1 * p.2).sum ≠ 0) (h1 : (l.map Prod.snd).sum ≠ 0) :
    ∃ S : Eu D → XF, (∀ y, owes1 .array D wFunc (vec y) (l.map fun p => vec p.1)
        (some (l.map fun p => fin p.2)) = .ok (S y)) ∧
      OwProper (FinMean (Eu D)) negDist f S (ensLaw (nrmW l)) :=
  ⟨_, fun y => C34_owes_weighted_array hf y l hw h h1, by
    have e : ((nrmW l).map fun p => f p.1 * p.2).sum = (l.map fun p => f p.1 * p.2).sum / (l.map Prod.snd).sum := by
      unfold nrmW
      rw [List.map_map, ← sum_map_div']
      congr 1
      refine List.map_congr_left fun p _ => ?_
      simp only [Function.comp_apply]
      ring
    unfold owes
    simp only [es_ks]
    exact owProper_negDist hf.nonneg hm (nrmW_nonneg hw)
      (out_pos hf.nonneg (nrmW_nonneg hw) (e ▸ div_ne_zero h h1 : ((nrmW l).map fun p => f p.1 * p.2).sum ≠ 0))⟩

example : Spec.WeightFun (D := 2) exW2 (fun v => 1 + v 0 ^ 2) ∧ Measurable (fun v : Eu 2 => 1 + v 0 ^ 2) ∧
    (∀ p ∈ ([(!₂[1, 2], 2), (0, 0)] : List (Eu 2 × ℝ)), 0 ≤ p.2) ∧
    (([(!₂[1, 2], 2), (0, 0)] : List (Eu 2 × ℝ)).map fun p => (1 + p.1 0 ^ 2) * p.2).sum ≠ 0 ∧
    (([(!₂[1, 2], 2), (0, 0)] : List (Eu 2 × ℝ)).map Prod.snd).sum ≠ 0 :=
  ⟨exW2_fn, by fun_prop, by simp, by norm_num, by simp⟩

/-- C104: the vertically re-scaled energy score compares the re-weighted measures off the reference point zero. -/
theorem C104_vres (path : Path) {wFunc : List XF → XF} {f : Eu D → ℝ} (hf : Spec.WeightFun wFunc f)
    (hm : Measurable f) {xs : List (Eu D)} (h : xs ≠ []) :
    ∃ S : Eu D → XF, (∀ y, vres1 path D wFunc (vec y) (xs.map vec) none = .ok (S y)) ∧
      VrEnergyProper f S (ensLaw (eqW xs)) :=
  ⟨_, fun y => C34_vres_value path hf y h, by
    have h1 := vrProper_cdist (eqW_nonneg xs) hf.nonneg hm
    have e : (xs.map fun x => (x, f x / (xs.length : ℝ)))
        = (eqW xs).map fun p => (p.1, f p.1 * p.2) := by
      unfold eqW
      rw [List.map_map]
      refine List.map_congr_left fun x _ => ?_
      simp only [Function.comp_def, mul_one_div]
    simp only [vres_vrks]
    rw [e]; exact h1⟩

/-- and a law with the three moments -/
example : Spec.WeightFun (D := 2) exW2 (fun v => 1 + v 0 ^ 2) ∧ Measurable (fun v : Eu 2 => 1 + v 0 ^ 2) ∧
    ([!₂[1, 2], 0] : List (Eu 2)) ≠ [] ∧
    Integrable (fun v : Eu 2 => 1 + v 0 ^ 2) (ensLaw (eqW [!₂[3, 4]])) ∧
    Integrable (fun v : Eu 2 => (1 + v 0 ^ 2) * ‖v‖) (ensLaw (eqW [!₂[3, 4]])) ∧
    Integrable (fun v : Eu 2 => (1 + v 0 ^ 2) ^ 2 * ‖v‖) (ensLaw (eqW [!₂[3, 4]])) :=
  ⟨exW2_fn, by fun_prop, by simp, (integral_ensLaw (eqW_nonneg _) _).1, (integral_ensLaw (eqW_nonneg _) _).1,
    (integral_ensLaw (eqW_nonneg _) _).1⟩

/-- C104: the same with ensemble weights. -/
theorem C104_vres_weighted (path : Path) {wFunc : List XF → XF} {f : Eu D → ℝ} (hf : Spec.WeightFun wFunc f)
    (hm : Measurable f) {l : List (Eu D × ℝ)} (hw : ∀ p ∈ l, 0 ≤ p.2) (h : (l.map Prod.snd).sum ≠ 0) :
    ∃ S : Eu D → XF, (∀ y, vres1 path D wFunc (vec y) (l.map fun p => vec p.1)
        (some (l.map fun p => fin p.2)) = .ok (S y)) ∧
      VrEnergyProper f S (ensLaw (nrmW l)) :=
  ⟨_, fun y => C34_vres_weighted path hf y l hw h, by
    simp only [vres_vrks]
    exact vrProper_cdist (nrmW_nonneg hw) hf.nonneg hm⟩

example : Spec.WeightFun (D := 2) exW2 (fun v => 1 + v 0 ^ 2) ∧ Measurable (fun v : Eu 2 => 1 + v 0 ^ 2) ∧
    (∀ p ∈ ([(!₂[1, 2], 2), (0, 0)] : List (Eu 2 × ℝ)), 0 ≤ p.2) ∧
    (([(!₂[1, 2], 2), (0, 0)] : List (Eu 2 × ℝ)).map Prod.snd).sum ≠ 0 :=
  ⟨exW2_fn, by fun_prop, by simp, by simp⟩

/-! ### Weighted forms of the CRPS, entry by entry of an array -/

/-- C104: every entry of the outcome-weighted CRPS of an array of ensembles, as a function of its observation. -/
theorem C104_owcrps (path : Path) {fct : Arr ℝ} {m : ℤ} {k : ℕ} (h : Spec.AxisIs m fct.ndim k)
    {wF : XF → XF} {w : ℝ → ℝ} (hw : WeightFn wF w) (hm : Measurable w)
    (hpos : ∀ i, Arr.Valid (fct.shape.eraseIdx k) i → 0 < ((fct.sliceAt k i).map w).sum) :
    ∃ S : List ℕ → ℝ → XF,
      (∀ obs : Arr ℝ, obs.shape = fct.shape.eraseIdx k →
        ∃ out, owcrpsEnsemble path (obs.map fin) (fct.map fin) wF m none "propagate" = .ok out ∧
          ∀ i, Arr.Valid obs.shape i → out.get i = S i (obs.get i)) ∧
      ∀ i, Arr.Valid (fct.shape.eraseIdx k) i →
        OwProper (FinMean ℝ) negDist w (S i) (ensLaw (eqW (fct.sliceAt k i))) := by
  refine ⟨fun i y => fin (w y * Spec.crps (Spec.wcdf (Spec.reweight w (fct.sliceAt k i))) y),
    fun obs ho => ?_, fun i hi => ?_⟩
  · obtain ⟨out, h1, -, h3⟩ := C23_ow_value h ho hw (by rw [ho]; exact hpos) path
    exact ⟨out, h1, h3⟩
  · have hne : ((fct.sliceAt k i).map w).sum ≠ 0 := (hpos i hi).ne'
    have hx : fct.sliceAt k i ≠ [] := by intro h; rw [h] at hne; simp at hne
    have h1 := owProper_negDist hw.nonneg hm (eqW_nonneg (fct.sliceAt k i))
      (out_pos hw.nonneg (eqW_nonneg _) (out_eqW hne))
    rw [nrmW_out w hx] at h1
    have e : ∀ y, Spec.crps (Spec.wcdf (Spec.reweight w (fct.sliceAt k i))) y
        = ks negDist y (nrmW ((fct.sliceAt k i).map fun x => (x, w x))) := fun y => by
      rw [← crps_wcdf_norml y, energy_ks]
      · rfl
      · unfold wtot Spec.reweight
        rw [List.map_map]
        exact hne
    simp only [e]
    exact h1

/-- three observations with two members each -/
example : Spec.AxisIs (-1) (⟨[3, 2], fun _ => 1⟩ : Arr ℝ).ndim 1 ∧ WeightFn exW (fun x => 1 + x ^ 2) ∧
    Measurable (fun x : ℝ => 1 + x ^ 2) ∧ ∀ i, Arr.Valid ([3, 2].eraseIdx 1) i →
      0 < (((⟨[3, 2], fun _ => 1⟩ : Arr ℝ).sliceAt 1 i).map fun x => 1 + x ^ 2).sum :=
  ⟨by simp [Spec.AxisIs, Arr.ndim], exW_fn, by fun_prop, fun i _ => by norm_num [Arr.sliceAt, List.range_succ]⟩

theorem nrmW_reweight (w : ℝ → ℝ) {l : List (ℝ × ℝ)} (h : (l.map Prod.snd).sum ≠ 0) :
    nrmW ((nrmW l).map fun p => (p.1, w p.1 * p.2)) = nrmW (Spec.reweightW w l) := by
  unfold nrmW Spec.reweightW
  simp only [List.map_map]
  have e : (l.map (Prod.snd ∘ (fun p : ℝ × ℝ => (p.1, w p.1 * p.2)) ∘ fun p => (p.1, p.2 / (l.map Prod.snd).sum))).sum
      = (l.map (Prod.snd ∘ fun p : ℝ × ℝ => (p.1, p.2 * w p.1))).sum / (l.map Prod.snd).sum := by
    rw [← sum_map_div']
    congr 1
    refine List.map_congr_left fun p _ => ?_
    simp only [Function.comp_apply]
    ring
  refine List.map_congr_left fun p _ => ?_
  rw [e]
  simp only [Function.comp_apply]
  rw [Prod.mk.injEq]
  refine ⟨rfl, ?_⟩
  rw [← mul_div_assoc, div_div_div_cancel_right₀ h, mul_comm]

/-- C104: the same with ensemble weights. -/
theorem C104_owcrps_weighted (path : Path) {fct W : Arr ℝ} {m : ℤ} {k : ℕ} (h : Spec.AxisIs m fct.ndim k)
    (hW : W.shape = fct.shape) {wF : XF → XF} {w : ℝ → ℝ} (hw : WeightFn wF w) (hm : Measurable w)
    (hv : ∀ i, 0 ≤ W.get i) (hpos : ∀ i, Arr.Valid (fct.shape.eraseIdx k) i → 0 < (W.sliceAt k i).sum)
    (hpos' : ∀ i, Arr.Valid (fct.shape.eraseIdx k) i →
      0 < ((Spec.reweightW w ((fct.sliceAt k i).zip (W.sliceAt k i))).map Prod.snd).sum) :
    ∃ S : List ℕ → ℝ → XF,
      (∀ obs : Arr ℝ, obs.shape = fct.shape.eraseIdx k →
        ∃ out, owcrpsEnsemble path (obs.map fin) (fct.map fin) wF m (some (W.map fin)) "propagate" = .ok out ∧
          ∀ i, Arr.Valid obs.shape i → out.get i = S i (obs.get i)) ∧
      ∀ i, Arr.Valid (fct.shape.eraseIdx k) i →
        OwProper (FinMean ℝ) negDist w (S i) (ensLaw (nrmW ((fct.sliceAt k i).zip (W.sliceAt k i)))) := by
  refine ⟨fun i y => fin (w y * Spec.crps (Spec.wcdf
      (Spec.reweightW w ((fct.sliceAt k i).zip (W.sliceAt k i)))) y), fun obs ho => ?_, fun i hi => ?_⟩
  · obtain ⟨out, h1, -, h3⟩ := C23_ow_value_weighted h ho hW hw hv (by rw [ho]; exact hpos)
      (by rw [ho]; exact hpos') path
    exact ⟨out, h1, h3⟩
  · have hl : (fct.sliceAt k i).length = (W.sliceAt k i).length := by simp [Arr.sliceAt, hW]
    have ht : (((fct.sliceAt k i).zip (W.sliceAt k i)).map Prod.snd).sum ≠ 0 := by
      rw [List.map_snd_zip hl.ge]
      exact (hpos i hi).ne'
    have hn : ∀ p ∈ (fct.sliceAt k i).zip (W.sliceAt k i), 0 ≤ p.2 := fun p hp => by
      have := (List.of_mem_zip hp).2
      unfold Arr.sliceAt at this
      obtain ⟨j, -, hj⟩ := List.mem_map.1 this
      rw [← hj]
      exact hv _
    set l := (fct.sliceAt k i).zip (W.sliceAt k i) with hl'
    have e2 : ((nrmW l).map fun p => w p.1 * p.2).sum
        = ((Spec.reweightW w l).map Prod.snd).sum / (l.map Prod.snd).sum := by
      unfold nrmW Spec.reweightW
      rw [List.map_map, List.map_map, ← sum_map_div']
      congr 1
      refine List.map_congr_left fun p _ => ?_
      simp only [Function.comp_apply]
      ring
    have h1 := owProper_negDist hw.nonneg hm (nrmW_nonneg hn)
      (out_pos hw.nonneg (nrmW_nonneg hn) (by rw [e2]; exact div_ne_zero (hpos' i hi).ne' ht))
    rw [nrmW_reweight w ht] at h1
    have e : ∀ y, Spec.crps (Spec.wcdf (Spec.reweightW w l)) y = ks negDist y (nrmW (Spec.reweightW w l)) :=
      fun y => by
        rw [← crps_wcdf_norml y (hpos' i hi).ne', energy_ks]
        rfl
    show OwProper _ _ _ (fun y => fin (w y * Spec.crps (Spec.wcdf (Spec.reweightW w l)) y)) _
    simp only [e]
    exact h1

example : Spec.AxisIs (-1) (⟨[3, 2], fun _ => 1⟩ : Arr ℝ).ndim 1 ∧ WeightFn exW (fun x => 1 + x ^ 2) ∧
    Measurable (fun x : ℝ => 1 + x ^ 2) ∧ (∀ i, 0 ≤ (⟨[3, 2], fun _ => 2⟩ : Arr ℝ).get i) ∧
    (∀ i, Arr.Valid ([3, 2].eraseIdx 1) i → 0 < ((⟨[3, 2], fun _ => 2⟩ : Arr ℝ).sliceAt 1 i).sum) ∧
    ∀ i, Arr.Valid ([3, 2].eraseIdx 1) i → 0 < ((Spec.reweightW (fun x => 1 + x ^ 2)
      (((⟨[3, 2], fun _ => 1⟩ : Arr ℝ).sliceAt 1 i).zip ((⟨[3, 2], fun _ => 2⟩ : Arr ℝ).sliceAt 1 i))).map
        Prod.snd).sum :=
  ⟨by simp [Spec.AxisIs, Arr.ndim], exW_fn, by fun_prop, fun _ => zero_le_two,
    fun i _ => by norm_num [Arr.sliceAt, List.range_succ],
    fun i _ => by norm_num [Arr.sliceAt, List.range_succ, Spec.reweightW]⟩

/-- C104: every entry of the vertically re-scaled CRPS of an array of ensembles (two-dimensional on the array
path, see C24), as a function of its observation. -/
theorem C104_vrcrps (path : Path) {fct : Arr ℝ} {m : ℤ} {k : ℕ} (h : Spec.AxisIs m fct.ndim k)
    (hk : fct.shape.getD k 0 ≠ 0) {wF : XF → XF} {w : ℝ → ℝ} (hw : WeightFn wF w) (hm : Measurable w)
    (hrank : path = .array → fct.ndim = 2) :
    ∃ S : List ℕ → ℝ → XF,
      (∀ obs : Arr ℝ, obs.shape = fct.shape.eraseIdx k →
        ∃ out, vrcrpsEnsemble path (obs.map fin) (fct.map fin) wF m none "propagate" = .ok out ∧
          ∀ i, Arr.Valid obs.shape i → out.get i = S i (obs.get i)) ∧
      ∀ i, VrEnergyProper w (S i) (ensLaw (eqW (fct.sliceAt k i))) := by
  refine ⟨fun i y => fin (Spec.vrCrps w ((fct.sliceAt k i).map fun x => (x, 1)) y),
    fun obs ho => ?_, fun i => ?_⟩
  · obtain ⟨out, h1, -, h3⟩ := C24_vr_value_partial h ho hk hw path hrank
    exact ⟨out, h1, h3⟩
  · have hx : fct.sliceAt k i ≠ [] := by unfold Arr.sliceAt; simpa using hk
    have h1 := vrProper_cdist (eqW_nonneg (fct.sliceAt k i)) hw.nonneg hm
    have e : (eqW (fct.sliceAt k i)).map (fun p => (p.1, w p.1 * p.2))
        = (Spec.reweight w (fct.sliceAt k i)).map fun p =>
        (p.1, ((Spec.reweight w (fct.sliceAt k i)).length : ℝ)⁻¹ * p.2) := by
      unfold eqW Spec.reweight
      rw [List.map_map, List.map_map, List.length_map]
      refine List.map_congr_left fun x _ => ?_
      simp only [Function.comp_def]
      rw [Prod.mk.injEq]
      exact ⟨rfl, by ring⟩
    simp only [← vrVal_unweighted w hx, vrVal_vrks]
    rw [e] at h1
    exact h1

example : Spec.AxisIs (-1) (⟨[3, 2], fun _ => 1⟩ : Arr ℝ).ndim 1 ∧ ([3, 2] : List ℕ).getD 1 0 ≠ 0 ∧
    WeightFn exW (fun x => 1 + x ^ 2) ∧ Measurable (fun x : ℝ => 1 + x ^ 2) ∧
    (⟨[3, 2], fun _ => 1⟩ : Arr ℝ).ndim = 2 :=
  ⟨by simp [Spec.AxisIs, Arr.ndim], by simp, exW_fn, by fun_prop, rfl⟩

/-- C104: the same with ensemble weights, for every rank. -/
theorem C104_vrcrps_weighted (path : Path) {fct W : Arr ℝ} {m : ℤ} {k : ℕ} (h : Spec.AxisIs m fct.ndim k)
    (hW : W.shape = fct.shape) {wF : XF → XF} {w : ℝ → ℝ} (hw : WeightFn wF w) (hm : Measurable w)
    (hv : ∀ i, 0 ≤ W.get i) (hpos : ∀ i, Arr.Valid (fct.shape.eraseIdx k) i → 0 < (W.sliceAt k i).sum) :
    ∃ S : List ℕ → ℝ → XF,
      (∀ obs : Arr ℝ, obs.shape = fct.shape.eraseIdx k →
        ∃ out, vrcrpsEnsemble path (obs.map fin) (fct.map fin) wF m (some (W.map fin)) "propagate" = .ok out ∧
          ∀ i, Arr.Valid obs.shape i → out.get i = S i (obs.get i)) ∧
      ∀ i, Arr.Valid (fct.shape.eraseIdx k) i →
        VrEnergyProper w (S i) (ensLaw (nrmW ((fct.sliceAt k i).zip (W.sliceAt k i)))) := by
  refine ⟨fun i y => fin (Spec.vrCrps w ((fct.sliceAt k i).zip (W.sliceAt k i)) y),
    fun obs ho => ?_, fun i hi => ?_⟩
  · obtain ⟨out, h1, -, h3⟩ := C23_vr_value_weighted h ho hW hw hv (by rw [ho]; exact hpos) path
    exact ⟨out, h1, h3⟩
  · have hl : (fct.sliceAt k i).length = (W.sliceAt k i).length := by simp [Arr.sliceAt, hW]
    have ht : wtot ((fct.sliceAt k i).zip (W.sliceAt k i)) ≠ 0 := by
      unfold wtot
      rw [List.map_snd_zip hl.ge]
      exact (hpos i hi).ne'
    have hn : ∀ p ∈ (fct.sliceAt k i).zip (W.sliceAt k i), 0 ≤ p.2 := fun p hp => by
      have := (List.of_mem_zip hp).2
      unfold Arr.sliceAt at this
      obtain ⟨j, -, hj⟩ := List.mem_map.1 this
      rw [← hj]
      exact hv _
    have h1 := vrProper_cdist (nrmW_nonneg hn) hw.nonneg hm
    have e : (nrmW ((fct.sliceAt k i).zip (W.sliceAt k i))).map (fun p => (p.1, w p.1 * p.2))
        = (Spec.reweightW w ((fct.sliceAt k i).zip (W.sliceAt k i))).map fun p =>
        (p.1, (wtot ((fct.sliceAt k i).zip (W.sliceAt k i)))⁻¹ * p.2) := by
      unfold nrmW Spec.reweightW wtot
      rw [List.map_map, List.map_map]
      refine List.map_congr_left fun x _ => ?_
      simp only [Function.comp_def]
      rw [Prod.mk.injEq]
      exact ⟨rfl, by ring⟩
    simp only [← vrVal_spec w ht, vrVal_vrks]
    rw [e] at h1
    exact h1

example : Spec.AxisIs (-1) (⟨[3, 2], fun _ => 1⟩ : Arr ℝ).ndim 1 ∧ WeightFn exW (fun x => 1 + x ^ 2) ∧
    Measurable (fun x : ℝ => 1 + x ^ 2) ∧ (∀ i, 0 ≤ (⟨[3, 2], fun _ => 2⟩ : Arr ℝ).get i) ∧
    ∀ i, Arr.Valid ([3, 2].eraseIdx 1) i → 0 < ((⟨[3, 2], fun _ => 2⟩ : Arr ℝ).sliceAt 1 i).sum :=
  ⟨by simp [Spec.AxisIs, Arr.ndim], exW_fn, by fun_prop, fun _ => zero_le_two,
    fun i _ => by norm_num [Arr.sliceAt, List.range_succ]⟩

end Verif
