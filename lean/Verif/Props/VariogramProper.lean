import Verif.Props.ThresholdProper
import Verif.Props.Variogram
import Verif.Spec.VsProper

/-!
# Property C110: the variogram scores are proper, and see the variograms of the laws only
-/

noncomputable section

open scoped Classical
open MeasureTheory

namespace Verif

open XF Py Api Spec Mv

variable {D : ℕ} {p : ℝ}

/-! ### Squared differences of features -/

theorem featDist_zero_iff {E : Type} [MeasurableSpace E] (g : E → Fin D → Fin D → ℝ) {W : Fin D → Fin D → ℝ}
    (hW : ∀ i j, 0 ≤ W i j) (P Q : Measure E) :
    0 ≤ featDist g W P Q ∧ (featDist g W P Q = 0 ↔ SameFeat g W P Q) := by
  have h0 : ∀ i j, 0 ≤ W i j * (featMean g P i j - featMean g Q i j) ^ 2 := fun i j =>
    mul_nonneg (hW i j) (sq_nonneg _)
  refine ⟨Finset.sum_nonneg fun i _ => Finset.sum_nonneg fun j _ => h0 i j, ?_⟩
  unfold featDist SameFeat
  rw [Finset.sum_eq_zero_iff_of_nonneg fun i _ => Finset.sum_nonneg fun j _ => h0 i j]
  constructor
  · intro h i j hij
    have h1 := (Finset.sum_eq_zero_iff_of_nonneg fun j _ => h0 i j).1 (h i (Finset.mem_univ i)) j (Finset.mem_univ j)
    rcases mul_eq_zero.1 h1 with h2 | h2
    · exact absurd h2 hij
    · exact sub_eq_zero.1 (by simpa using h2)
  · intro h i _
    refine Finset.sum_eq_zero fun j _ => ?_
    by_cases hij : W i j = 0
    · rw [hij, zero_mul]
    · rw [h i j hij, sub_self]; ring

theorem sq_mean {E : Type} [MeasurableSpace E] {P : Measure E} [IsProbabilityMeasure P] {g : E → ℝ}
    (hg : AEStronglyMeasurable g P) (h2 : Integrable (fun y => g y ^ 2) P) (m : ℝ) :
    Integrable (fun y => (g y - m) ^ 2) P ∧
      ∫ y, (g y - m) ^ 2 ∂P = ∫ y, (g y - ∫ z, g z ∂P) ^ 2 ∂P + ((∫ z, g z ∂P) - m) ^ 2 := by
  have h1 : Integrable g P := by
    refine ((integrable_const (1:ℝ)).add h2).mono' hg (ae_of_all _ fun y => ?_)
    show ‖g y‖ ≤ 1 + g y ^ 2
    rw [Real.norm_eq_abs, abs_le]
    constructor <;> nlinarith [sq_nonneg (g y - 1), sq_nonneg (g y + 1)]
  have key : ∀ c : ℝ, Integrable (fun y => (g y - c) ^ 2) P ∧
      ∫ y, (g y - c) ^ 2 ∂P = ∫ y, g y ^ 2 ∂P - 2 * c * ∫ y, g y ∂P + c ^ 2 := fun c => by
    have e : (fun y => (g y - c) ^ 2) = fun y => g y ^ 2 - 2 * c * g y + c ^ 2 := by funext y; ring
    have i1 : Integrable (fun y => g y ^ 2 - 2 * c * g y) P := h2.sub (h1.const_mul _)
    rw [e]
    refine ⟨i1.add (integrable_const _), ?_⟩
    rw [integral_add i1 (integrable_const _), integral_sub h2 (h1.const_mul _), integral_const_mul, integral_const]
    simp
  refine ⟨(key m).1, ?_⟩
  rw [(key m).2, (key _).2]
  ring

theorem featProper_of {E : Type} [MeasurableSpace E] {g : E → Fin D → Fin D → ℝ} (hg : ∀ i j, Measurable fun y => g y i j)
    (W : Fin D → Fin D → ℝ) (Q : Measure E) :
    FeatProper g W (fun y => fin (∑ i, ∑ j, W i j * (g y i j - featMean g Q i j) ^ 2)) Q := by
  intro P hP h2
  refine ⟨⟨_, ae_of_all _ fun y => rfl, ?_, ?_⟩, fun hW => featDist_zero_iff g hW P Q⟩
  · exact integrable_finsetSum _ fun i _ => integrable_finsetSum _ fun j _ =>
      (sq_mean (hg i j).aestronglyMeasurable (h2 i j) _).1.const_mul _
  · have hi : ∀ i j, Integrable (fun y => W i j * (g y i j - featMean g Q i j) ^ 2) P := fun i j =>
      (sq_mean (hg i j).aestronglyMeasurable (h2 i j) _).1.const_mul _
    rw [integral_finsetSum _ fun i _ => integrable_finsetSum _ fun j _ => hi i j]
    unfold featVar featDist
    rw [← Finset.sum_add_distrib]
    refine Finset.sum_congr rfl fun i _ => ?_
    rw [integral_finsetSum _ fun j _ => hi i j, ← Finset.sum_add_distrib]
    refine Finset.sum_congr rfl fun j _ => ?_
    rw [integral_const_mul, (sq_mean (hg i j).aestronglyMeasurable (h2 i j) _).2, mul_add]
    rfl

theorem measurable_vdiff (p : ℝ) (i j : Fin D) : Measurable fun y : Eu D => vdiff p y i j := by
  have : Measurable fun y : Eu D => |y i - y j| := Continuous.measurable (by fun_prop)
  exact this.pow_const p

theorem featMean_ens {E : Type} [MeasurableSpace E] [MeasurableSingletonClass E] (g : E → Fin D → Fin D → ℝ)
    {l : List (E × ℝ)} (hw : ∀ q ∈ l, 0 ≤ q.2) (i j : Fin D) :
    featMean g (ensLaw l) i j = (l.map fun q => q.2 * g q.1 i j).sum := (integral_ensLaw hw _).2

theorem vs_feat (W : Fin D → Fin D → ℝ) (y : Eu D) {l : List (Eu D × ℝ)} (hw : ∀ q ∈ l, 0 ≤ q.2) :
    vs p W y l = ∑ i, ∑ j, W i j * (vdiff p y i j - featMean (vdiff p) (ensLaw l) i j) ^ 2 := by
  unfold vs
  simp only [featMean_ens _ hw]

/-! ### The scores -/

/-- C110: the mean variogram score under a law of the observation is the weighted sum of the variances of the
variogram terms plus the weighted squared distance of the expected variograms of the law and of the ensemble. -/
theorem C110_vs (hp : 0 < p) (W : Fin D → Fin D → ℝ) (path : Path) {xs : List (Eu D)} (h : xs ≠ []) :
    ∃ S : Eu D → XF, (∀ y, vs1 path "nrg" p (some (matl W)) D (vec y) (xs.map vec) none = .ok (S y)) ∧
      FeatProper (vdiff p) W S (ensLaw (eqW xs)) := by
  refine ⟨_, fun y => vs1_nrg hp W path y h, ?_⟩
  have := featProper_of (measurable_vdiff p) W (ensLaw (eqW xs))
  simp only [← vs_feat (p := p) W _ (eqW_nonneg xs)] at this
  exact this

/-- order 1/2, two members in the plane, and a law under which the variogram has a finite second moment -/
example : (0:ℝ) < 1 / 2 ∧ ([!₂[1, 2], 0] : List (Eu 2)) ≠ [] ∧
    ∀ i j : Fin 2, Integrable (fun y => vdiff (1 / 2) y i j ^ 2) (ensLaw (eqW [!₂[3, 4], !₂[0, (1:ℝ)]])) :=
  ⟨by norm_num, by simp, fun i j => (integral_ensLaw (eqW_nonneg _) _).1⟩

/-- C110: the same with ensemble weights. -/
theorem C110_vs_weighted (hp : 0 < p) (W : Fin D → Fin D → ℝ) (path : Path) {l : List (Eu D × ℝ)}
    (hw : ∀ q ∈ l, 0 ≤ q.2) (h : (l.map Prod.snd).sum ≠ 0) :
    ∃ S : Eu D → XF, (∀ y, vs1 path "nrg" p (some (matl W)) D (vec y) (l.map fun q => vec q.1)
        (some (l.map fun q => fin q.2)) = .ok (S y)) ∧
      FeatProper (vdiff p) W S (ensLaw (nrmW l)) := by
  refine ⟨_, fun y => vs1_nrg_weighted hp W path y l hw h, ?_⟩
  have := featProper_of (measurable_vdiff p) W (ensLaw (nrmW l))
  simp only [← vs_feat (p := p) W _ (nrmW_nonneg hw)] at this
  exact this

/-- two members, one without weight -/
example : (0:ℝ) < 1 / 2 ∧ (∀ q ∈ ([(!₂[1, 2], 2), (0, 0)] : List (Eu 2 × ℝ)), 0 ≤ q.2) ∧
    (([(!₂[1, 2], 2), (0, 0)] : List (Eu 2 × ℝ)).map Prod.snd).sum ≠ 0 := ⟨by norm_num, by simp, by simp⟩

/-- C110: the variogram score is not strictly proper: for every ensemble there is another one, with another empirical
distribution, that gets the same score for every observation. -/
theorem C110_not_strict (hp : 0 < p) (W : Fin (D + 1) → Fin (D + 1) → ℝ) (path : Path) {xs : List (Eu (D + 1))}
    (h : xs ≠ []) :
    ∃ ys : List (Eu (D + 1)), ys ≠ [] ∧ ensLaw (eqW ys) ≠ ensLaw (eqW xs) ∧
      ∀ y : Eu (D + 1), vs1 path "nrg" p (some (matl W)) (D + 1) (vec y) (ys.map vec) none
        = vs1 path "nrg" p (some (matl W)) (D + 1) (vec y) (xs.map vec) none := by
  obtain ⟨c, hc⟩ : ∃ c : ℝ, ∀ x ∈ xs, x 0 < c := by
    clear h
    induction xs with
    | nil => exact ⟨0, by simp⟩
    | cons x xs ih =>
      obtain ⟨c, hc⟩ := ih
      refine ⟨max c (x 0 + 1), fun z hz => ?_⟩
      rcases List.mem_cons.1 hz with rfl | hz
      · exact lt_of_lt_of_le (by linarith) (le_max_right _ _)
      · exact lt_of_lt_of_le (hc z hz) (le_max_left _ _)
  obtain ⟨d, hd⟩ : ∃ d : ℝ, ∀ x ∈ xs, c < x 0 + d := by
    clear h hc
    induction xs with
    | nil => exact ⟨0, by simp⟩
    | cons x xs ih =>
      obtain ⟨d, hd⟩ := ih
      refine ⟨max d (c - x 0 + 1), fun z hz => ?_⟩
      rcases List.mem_cons.1 hz with rfl | hz
      · have := le_max_right d (c - z 0 + 1); linarith
      · have := le_max_left d (c - x 0 + 1); have := hd z hz; linarith
  refine ⟨xs.map fun x => x + Spec.constVec (D + 1) d, by simpa using h, fun he => ?_, ?_⟩
  · have e1 := (integral_ensLaw (eqW_nonneg xs) fun x : Eu (D + 1) => if x 0 < c then (1:ℝ) else 0).2
    have e2 := (integral_ensLaw (eqW_nonneg (xs.map fun x => x + Spec.constVec (D + 1) d))
      fun x : Eu (D + 1) => if x 0 < c then (1:ℝ) else 0).2
    rw [he, e1] at e2
    have e3 : ((eqW xs).map fun q => q.2 * if q.1 0 < c then (1:ℝ) else 0).sum = 1 := by
      refine Eq.trans ?_ (eqW_sum h)
      congr 1
      refine List.map_congr_left fun q hq => ?_
      obtain ⟨x, hx, rfl⟩ := List.mem_map.1 hq
      show 1 / (xs.length : ℝ) * (if x 0 < c then (1:ℝ) else 0) = 1 / (xs.length : ℝ)
      rw [if_pos (hc x hx), mul_one]
    have e4 : ((eqW (xs.map fun x => x + Spec.constVec (D + 1) d)).map fun q => q.2 * if q.1 0 < c then (1:ℝ) else 0).sum
        = 0 := by
      refine List.sum_eq_zero fun a ha => ?_
      obtain ⟨q, hq, rfl⟩ := List.mem_map.1 ha
      obtain ⟨x, hx, rfl⟩ := List.mem_map.1 hq
      obtain ⟨z, hz, rfl⟩ := List.mem_map.1 hx
      have : ¬ (z + Spec.constVec (D + 1) d) 0 < c := by
        have := hd z hz
        simp [Spec.constVec]
        linarith
      exact mul_eq_zero_of_right _ (if_neg this)
    rw [e3, e4] at e2
    exact one_ne_zero e2
  · intro y
    have := C36_translation hp W path (fun _ => d) 0 y h
    have e : y + Spec.constVec (D + 1) 0 = y := by
      ext i; simp [Spec.constVec]
    rw [e] at this
    rw [List.map_map]
    exact this

/-- order 1/2 -/
example : (0:ℝ) < 1 / 2 ∧ ([!₂[1, 2], 0] : List (Eu 2)) ≠ [] := ⟨by norm_num, by simp⟩

/-- C110: `twvs_ensemble` with any measurable chaining function compares the variograms of the images. -/
theorem C110_twvs (hp : 0 < p) (W : Fin D → Fin D → ℝ) (path : Path) {vF : Arr XF → Arr XF} {v : Eu D → Eu D}
    (hv : MvChain D vF v) (hm : Measurable v) {xs : List (Eu D)} (h : xs ≠ []) :
    ∃ S : Eu D → XF, (∀ y, item (twvsEnsemble path (Arr.ofList (vec y)) (Arr.ofRows D (xs.map vec)) vF
        (some (matl W)) (-2) (-1) none p "nrg") = .ok (S y)) ∧
      FeatProper (fun y => vdiff p (v y)) W S (ensLaw (eqW xs)) := by
  have hx : xs.map v ≠ [] := by simpa using h
  refine ⟨fun y => fin (vs p W (v y) (eqW (xs.map v))), fun y => ?_, ?_⟩
  · unfold twvsEnsemble
    rw [hv.obs, hv.fct]
    exact vs1_nrg hp W path (v y) hx
  · have := featProper_of (g := fun y => vdiff p (v y)) (fun i j => (measurable_vdiff p i j).comp hm) W
      (ensLaw (eqW xs))
    have e : ∀ y, vs p W (v y) (eqW (xs.map v))
        = ∑ i, ∑ j, W i j * (vdiff p (v y) i j - featMean (fun y => vdiff p (v y)) (ensLaw (eqW xs)) i j) ^ 2 := by
      intro y
      unfold vs
      simp only [featMean_ens _ (eqW_nonneg xs), eqW_map, List.map_map, Function.comp_def]
    simp only [e]
    exact this

/-- the larger of each component and 2 -/
example : (0:ℝ) < 1 / 2 ∧
    MvChain 3 (fun a => a.map fun x => XF.max x (fin 2)) (fun y => WithLp.toLp 2 fun i => max (y i) 2) ∧
    Measurable (fun y : Eu 3 => (WithLp.toLp 2 fun i => max (y i) 2 : Eu 3)) :=
  ⟨by norm_num, (chainFn_max 2).mv, measurable_coord (v := fun x => max x 2) (by fun_prop)⟩

theorem owFeatProper_of {E : Type} [MeasurableSpace E] {g : E → Fin D → Fin D → ℝ} {W : Fin D → Fin D → ℝ}
    {w : E → ℝ} (h0 : ∀ x, 0 ≤ w x) (hm : Measurable w) {s : E → ℝ} {Q : Measure E}
    (h : FeatProper g W (fun y => fin (s y)) (condLaw w Q)) : OwFeatProper g W w (fun y => fin (w y * s y)) Q := by
  intro P hP hi hp h2
  obtain ⟨⟨s', e, i, hv⟩, h3⟩ := h _ (condLaw_prob h0 hi hp)
    fun i j => (integrable_condLaw h0 hm hi hp _).2 (h2 i j)
  refine ⟨⟨fun y => w y * s y, ae_of_all _ fun y => rfl, ?_, ?_⟩, h3⟩
  · rw [← integrable_condLaw h0 hm hi hp]
    refine i.congr ?_
    filter_upwards [e] with y hy
    simpa using hy.symm
  · rw [← integral_condLaw h0 hm hi hp, ← hv]
    congr 1
    refine integral_congr_ae ?_
    filter_upwards [e] with y hy
    simpa using hy

/-- C110: the outcome-weighted variogram score does this for the re-weighted and normalised laws. -/
theorem C110_owvs (hp : 0 < p) (W : Fin D → Fin D → ℝ) (path : Path) {wFunc : List XF → XF} {f : Eu D → ℝ}
    (hf : Spec.WeightFun wFunc f) (hm : Measurable f) {xs : List (Eu D)} (h : (xs.map f).sum ≠ 0) :
    ∃ S : Eu D → XF, (∀ y, owvs1 path p (some (matl W)) D wFunc (vec y) (xs.map vec) none = .ok (S y)) ∧
      OwFeatProper (vdiff p) W f S (ensLaw (eqW xs)) := by
  refine ⟨_, fun y => C36_owvs_value hp W path hf y h, ?_⟩
  have hx : xs ≠ [] := by rintro rfl; simp at h
  refine owFeatProper_of hf.nonneg hm ?_
  rw [condLaw_ensLaw hf.nonneg (eqW_nonneg xs) (out_pos hf.nonneg (eqW_nonneg xs) (out_eqW h)), nrmW_out f hx]
  have hn : ∀ q ∈ nrmW (xs.map fun x => (x, f x)), 0 ≤ q.2 := nrmW_nonneg fun q hq => by
    obtain ⟨x, -, rfl⟩ := List.mem_map.1 hq
    exact hf.nonneg x
  have := featProper_of (measurable_vdiff p) W (ensLaw (nrmW (xs.map fun x => (x, f x))))
  simp only [← vs_feat (p := p) W _ hn] at this
  exact this

/-- two members in the plane, weight one plus the square of the first component -/
example : (0:ℝ) < 1 / 2 ∧ Spec.WeightFun (D := 2) exW2 (fun v => 1 + v 0 ^ 2) ∧
    Measurable (fun v : Eu 2 => 1 + v 0 ^ 2) ∧
    (([!₂[1, 2], 0] : List (Eu 2)).map fun v => 1 + v 0 ^ 2).sum ≠ 0 :=
  ⟨by norm_num, exW2_fn, by fun_prop, by norm_num⟩

/-- C110: the same with ensemble weights. -/
theorem C110_owvs_weighted (hp : 0 < p) (W : Fin D → Fin D → ℝ) (path : Path) {wFunc : List XF → XF} {f : Eu D → ℝ}
    (hf : Spec.WeightFun wFunc f) (hm : Measurable f) {l : List (Eu D × ℝ)} (hw : ∀ q ∈ l, 0 ≤ q.2)
    (h : (l.map fun q => f q.1 * q.2).sum ≠ 0) (h1 : (l.map Prod.snd).sum ≠ 0) :
    ∃ S : Eu D → XF, (∀ y, owvs1 path p (some (matl W)) D wFunc (vec y) (l.map fun q => vec q.1)
        (some (l.map fun q => fin q.2)) = .ok (S y)) ∧
      OwFeatProper (vdiff p) W f S (ensLaw (nrmW l)) := by
  refine ⟨_, fun y => C36_owvs_weighted hp W path hf y l hw h h1, ?_⟩
  refine owFeatProper_of hf.nonneg hm ?_
  have hpos : 0 < ((nrmW l).map fun q => f q.1 * q.2).sum := by
    refine out_pos hf.nonneg (nrmW_nonneg hw) ?_
    unfold nrmW
    rw [List.map_map]
    have : ((fun q : Eu D × ℝ => f q.1 * q.2) ∘ fun q : Eu D × ℝ => (q.1, q.2 / (l.map Prod.snd).sum))
        = fun q => f q.1 * q.2 / (l.map Prod.snd).sum := by funext q; simp [mul_div_assoc]
    rw [this, sum_map_div']
    exact div_ne_zero h h1
  rw [condLaw_ensLaw hf.nonneg (nrmW_nonneg hw) hpos]
  have hn : ∀ q ∈ nrmW ((nrmW l).map fun q => (q.1, f q.1 * q.2)), 0 ≤ q.2 := nrmW_nonneg fun q hq => by
    obtain ⟨x, hx, rfl⟩ := List.mem_map.1 hq
    exact mul_nonneg (hf.nonneg _) (nrmW_nonneg hw x hx)
  have := featProper_of (measurable_vdiff p) W (ensLaw (nrmW ((nrmW l).map fun q => (q.1, f q.1 * q.2))))
  simp only [← vs_feat (p := p) W _ hn] at this
  exact this

/-- two members in the plane, one without weight -/
example : (0:ℝ) < 1 / 2 ∧ Spec.WeightFun (D := 2) exW2 (fun v => 1 + v 0 ^ 2) ∧
    Measurable (fun v : Eu 2 => 1 + v 0 ^ 2) ∧
    (∀ q ∈ ([(!₂[1, 2], 2), (0, 0)] : List (Eu 2 × ℝ)), 0 ≤ q.2) ∧
    (([(!₂[1, 2], 2), (0, 0)] : List (Eu 2 × ℝ)).map fun q => (1 + q.1 0 ^ 2) * q.2).sum ≠ 0 ∧
    (([(!₂[1, 2], 2), (0, 0)] : List (Eu 2 × ℝ)).map Prod.snd).sum ≠ 0 :=
  ⟨by norm_num, exW2_fn, by fun_prop, by simp, by norm_num, by simp⟩

/-- the vertically re-scaled variogram score is a squared difference of re-weighted variograms -/
theorem vrvs_sq (W : Fin D → Fin D → ℝ) (o : ℝ) (y : Eu D) (l : List (Eu D × ℝ)) :
    vrvs p W o y l = ∑ i, ∑ j, W i j * (o * vdiff p y i j - (l.map fun q => q.2 * vdiff p q.1 i j).sum) ^ 2 := by
  -- sums over the ensemble, entry by entry
  have hsum : ∀ F : Eu D × ℝ → Fin D → Fin D → ℝ,
      (l.map fun q => ∑ i, ∑ j, F q i j).sum = ∑ i, ∑ j, (l.map fun q => F q i j).sum := by
    intro F
    induction l with
    | nil => simp
    | cons a l ih => simp only [List.map_cons, List.sum_cons, ih, ← Finset.sum_add_distrib]
  set T := (l.map Prod.snd).sum with hT
  have hA : ∀ i j, (l.map fun q => q.2 * (vdiff p q.1 i j - vdiff p y i j) ^ 2).sum
      = (l.map fun q => q.2 * vdiff p q.1 i j ^ 2).sum - 2 * vdiff p y i j * (l.map fun q => q.2 * vdiff p q.1 i j).sum
        + vdiff p y i j ^ 2 * T := by
    intro i j
    rw [hT]
    clear hsum hT
    clear_value T
    induction l with
    | nil => simp
    | cons a l ih => simp only [List.map_cons, List.sum_cons, ih]; ring
  have hB : ∀ (i j : Fin D) (m : List (Eu D × ℝ)),
      (m.map fun q => (l.map fun r => q.2 * r.2 * (vdiff p q.1 i j - vdiff p r.1 i j) ^ 2).sum).sum
      = (m.map fun q => q.2 * vdiff p q.1 i j ^ 2).sum * T
        - 2 * (m.map fun q => q.2 * vdiff p q.1 i j).sum * (l.map fun q => q.2 * vdiff p q.1 i j).sum
        + (m.map Prod.snd).sum * (l.map fun q => q.2 * vdiff p q.1 i j ^ 2).sum := by
    intro i j m
    have inner : ∀ (a : ℝ) (w : ℝ), (l.map fun r => w * r.2 * (a - vdiff p r.1 i j) ^ 2).sum
        = w * a ^ 2 * T - 2 * (w * a) * (l.map fun q => q.2 * vdiff p q.1 i j).sum
          + w * (l.map fun q => q.2 * vdiff p q.1 i j ^ 2).sum := by
      intro a w
      rw [hT]
      clear hsum hT hA
      clear_value T
      induction l with
      | nil => simp
      | cons b l ih => simp only [List.map_cons, List.sum_cons, ih]; ring
    simp only [inner]
    induction m with
    | nil => simp
    | cons b m ih => simp only [List.map_cons, List.sum_cons, ih]; ring
  unfold vrvs vdist
  have e1 : ∀ x : Eu D, (l.map fun q => q.2 * ∑ i, ∑ j, W i j * (vdiff p q.1 i j - vdiff p x i j) ^ 2).sum
      = ∑ i, ∑ j, W i j * (l.map fun q => q.2 * (vdiff p q.1 i j - vdiff p x i j) ^ 2).sum := by
    intro x
    rw [← Finset.sum_congr rfl fun i _ => Finset.sum_congr rfl fun j _ => List.sum_map_mul_left l _ _, ← hsum]
    congr 1
    refine List.map_congr_left fun q _ => ?_
    simp only [Finset.mul_sum]
    refine Finset.sum_congr rfl fun i _ => Finset.sum_congr rfl fun j _ => by ring
  have e2 : (l.map fun q => q.2 * ∑ i, ∑ j, W i j * vdiff p q.1 i j ^ 2).sum
      = ∑ i, ∑ j, W i j * (l.map fun q => q.2 * vdiff p q.1 i j ^ 2).sum := by
    rw [← Finset.sum_congr rfl fun i _ => Finset.sum_congr rfl fun j _ => List.sum_map_mul_left l _ _, ← hsum]
    congr 1
    refine List.map_congr_left fun q _ => ?_
    simp only [Finset.mul_sum]
    refine Finset.sum_congr rfl fun i _ => Finset.sum_congr rfl fun j _ => by ring
  have e3 : (l.map fun q => (l.map fun r => q.2 * r.2 * ∑ i, ∑ j, W i j * (vdiff p q.1 i j - vdiff p r.1 i j) ^ 2).sum).sum
      = ∑ i, ∑ j, W i j *
        (l.map fun q => (l.map fun r => q.2 * r.2 * (vdiff p q.1 i j - vdiff p r.1 i j) ^ 2).sum).sum := by
    rw [← Finset.sum_congr rfl fun i _ => Finset.sum_congr rfl fun j _ => List.sum_map_mul_left l _ _, ← hsum]
    congr 1
    refine List.map_congr_left fun q _ => ?_
    rw [← Finset.sum_congr rfl fun i _ => Finset.sum_congr rfl fun j _ => List.sum_map_mul_left l _ _, ← hsum]
    congr 1
    refine List.map_congr_left fun r _ => ?_
    simp only [Finset.mul_sum]
    refine Finset.sum_congr rfl fun i _ => Finset.sum_congr rfl fun j _ => by ring
  rw [e1, e2, e3]
  simp only [Finset.mul_sum, Finset.sum_mul, ← Finset.sum_sub_distrib, ← Finset.sum_add_distrib]
  refine Finset.sum_congr rfl fun i _ => Finset.sum_congr rfl fun j _ => ?_
  rw [hA, hB]
  simp only [← hT]
  ring

/-- C110: the vertically re-scaled variogram score compares the expected variograms multiplied by the outcome
weight. -/
theorem C110_vrvs (hp : 0 < p) (W : Fin D → Fin D → ℝ) (path : Path) {wFunc : List XF → XF} {f : Eu D → ℝ}
    (hf : Spec.WeightFun wFunc f) (hm : Measurable f) {xs : List (Eu D)} (h : xs ≠ []) :
    ∃ S : Eu D → XF, (∀ y, vrvs1 path p (some (matl W)) D wFunc (vec y) (xs.map vec) none = .ok (S y)) ∧
      FeatProper (fun y i j => f y * vdiff p y i j) W S (ensLaw (eqW xs)) := by
  refine ⟨_, fun y => C36_vrvs_value hp W path hf y h, ?_⟩
  have := featProper_of (g := fun y i j => f y * vdiff p y i j) (fun i j => hm.mul (measurable_vdiff p i j)) W
    (ensLaw (eqW xs))
  have e : ∀ y, vrvs p W (f y) y (xs.map fun x => (x, f x / xs.length))
      = ∑ i, ∑ j, W i j * (f y * vdiff p y i j
        - featMean (fun y i j => f y * vdiff p y i j) (ensLaw (eqW xs)) i j) ^ 2 := by
    intro y
    rw [vrvs_sq]
    simp only [featMean_ens _ (eqW_nonneg xs)]
    simp only [eqW, List.map_map, Function.comp_def]
    refine Finset.sum_congr rfl fun i _ => Finset.sum_congr rfl fun j _ => ?_
    congr 4
    refine List.map_congr_left fun q _ => ?_
    ring
  simp only [e]
  exact this

example : (0:ℝ) < 1 / 2 ∧ Spec.WeightFun (D := 2) exW2 (fun v => 1 + v 0 ^ 2) ∧
    Measurable (fun v : Eu 2 => 1 + v 0 ^ 2) ∧ ([!₂[1, 2], 0] : List (Eu 2)) ≠ [] :=
  ⟨by norm_num, exW2_fn, by fun_prop, by simp⟩

/-- C110: the same with ensemble weights. -/
theorem C110_vrvs_weighted (hp : 0 < p) (W : Fin D → Fin D → ℝ) (path : Path) {wFunc : List XF → XF} {f : Eu D → ℝ}
    (hf : Spec.WeightFun wFunc f) (hm : Measurable f) {l : List (Eu D × ℝ)} (hw : ∀ q ∈ l, 0 ≤ q.2)
    (h : (l.map Prod.snd).sum ≠ 0) :
    ∃ S : Eu D → XF, (∀ y, vrvs1 path p (some (matl W)) D wFunc (vec y) (l.map fun q => vec q.1)
        (some (l.map fun q => fin q.2)) = .ok (S y)) ∧
      FeatProper (fun y i j => f y * vdiff p y i j) W S (ensLaw (nrmW l)) := by
  refine ⟨_, fun y => C36_vrvs_weighted hp W path hf y l hw h, ?_⟩
  have := featProper_of (g := fun y i j => f y * vdiff p y i j) (fun i j => hm.mul (measurable_vdiff p i j)) W
    (ensLaw (nrmW l))
  have e : ∀ y, vrvs p W (f y) y ((Spec.normW l).map fun p => (p.1, f p.1 * p.2))
      = ∑ i, ∑ j, W i j * (f y * vdiff p y i j
        - featMean (fun y i j => f y * vdiff p y i j) (ensLaw (nrmW l)) i j) ^ 2 := by
    intro y
    rw [vrvs_sq]
    simp only [featMean_ens _ (nrmW_nonneg hw)]
    simp only [nrmW, Spec.normW, List.map_map, Function.comp_def]
    refine Finset.sum_congr rfl fun i _ => Finset.sum_congr rfl fun j _ => ?_
    congr 4
    refine List.map_congr_left fun q _ => ?_
    ring
  simp only [e]
  exact this

/-- two members in the plane, one without weight -/
example : (0:ℝ) < 1 / 2 ∧ Spec.WeightFun (D := 2) exW2 (fun v => 1 + v 0 ^ 2) ∧
    Measurable (fun v : Eu 2 => 1 + v 0 ^ 2) ∧
    (∀ q ∈ ([(!₂[1, 2], 2), (0, 0)] : List (Eu 2 × ℝ)), 0 ≤ q.2) ∧
    (([(!₂[1, 2], 2), (0, 0)] : List (Eu 2 × ℝ)).map Prod.snd).sum ≠ 0 :=
  ⟨by norm_num, exW2_fn, by fun_prop, by simp, by simp⟩

end Verif
