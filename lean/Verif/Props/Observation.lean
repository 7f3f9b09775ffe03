import Verif.Lemmas.Pairs
import Verif.Props.Ess
import Mathlib.Analysis.Convex.Function

/-!
# C145: ensemble scores as functions of the observation
-/

noncomputable section

open scoped Classical

namespace Verif

open XF Py Api Spec Mv

variable {M : ℕ}

namespace Spec

/-- `y` is a median of the points `x i` with the weights `w i`: at most half of the weight is below and at most half is
above. -/
def WMedian (w x : Fin M → ℝ) (y : ℝ) : Prop :=
  2 * ∑ i with x i < y, w i ≤ ∑ i, w i ∧ 2 * ∑ i with y < x i, w i ≤ ∑ i, w i

/-- `y` is a point where the score `s` is smallest. -/
def Lowest {E : Type} (s : E → ℝ) (y : E) : Prop := ∀ z, s y ≤ s z

end Spec

/-! ### sums of weighted distances -/

/-- weighted sum of distances -/
def wdist (w x : Fin M → ℝ) (y : ℝ) : ℝ := ∑ i, w i * |x i - y|

theorem wdist_neg (w x : Fin M → ℝ) (y : ℝ) : wdist w (fun i => -x i) (-y) = wdist w x y := by
  unfold wdist
  refine Finset.sum_congr rfl fun i _ => ?_
  rw [← abs_neg]; congr 2; ring

theorem sum_sign (w x : Fin M → ℝ) (y : ℝ) :
    ∑ i, w i * (if y < x i then -1 else 1) = ∑ i, w i - 2 * ∑ i with y < x i, w i := by
  rw [Finset.sum_filter, Finset.mul_sum, ← Finset.sum_sub_distrib]
  refine Finset.sum_congr rfl fun i _ => ?_
  split_ifs <;> ring

theorem wdist_right {w : Fin M → ℝ} (hw : ∀ i, 0 ≤ w i) (x : Fin M → ℝ) {y z : ℝ} (h : y ≤ z) :
    (z - y) * (∑ i, w i - 2 * ∑ i with y < x i, w i) ≤ wdist w x z - wdist w x y := by
  rw [← sum_sign, wdist, wdist, Finset.mul_sum, ← Finset.sum_sub_distrib]
  refine Finset.sum_le_sum fun i _ => ?_
  have : (z - y) * (if y < x i then -1 else 1) ≤ |x i - z| - |x i - y| := by
    split_ifs with hi
    · rw [abs_of_pos (sub_pos.2 hi)]
      have := le_abs_self (x i - z)
      linarith
    · rw [abs_of_nonpos (by linarith), abs_of_nonpos (by linarith)]
      linarith
  nlinarith [hw i]

theorem wdist_right_eq (w x : Fin M → ℝ) {y z : ℝ} (h : y ≤ z) (hz : ∀ i, y < x i → z ≤ x i) :
    wdist w x z - wdist w x y = (z - y) * (∑ i, w i - 2 * ∑ i with y < x i, w i) := by
  rw [← sum_sign, wdist, wdist, Finset.mul_sum, ← Finset.sum_sub_distrib]
  refine Finset.sum_congr rfl fun i _ => ?_
  have : |x i - z| - |x i - y| = (z - y) * (if y < x i then -1 else 1) := by
    split_ifs with hi
    · rw [abs_of_pos (sub_pos.2 hi), abs_of_nonneg (sub_nonneg.2 (hz i hi))]
      ring
    · rw [abs_of_nonpos (by linarith), abs_of_nonpos (by linarith)]
      ring
  linear_combination w i * this

theorem above_of_lowest {w : Fin M → ℝ} (hw : ∀ i, 0 ≤ w i) {x : Fin M → ℝ} {y : ℝ} (h : Lowest (wdist w x) y) :
    2 * ∑ i with y < x i, w i ≤ ∑ i, w i := by
  by_contra hc
  push Not at hc
  have hW : 0 ≤ ∑ i, w i := Finset.sum_nonneg fun i _ => hw i
  have hne : (Finset.univ.filter fun i => y < x i).Nonempty := by
    rw [Finset.nonempty_iff_ne_empty]
    intro he
    rw [he, Finset.sum_empty] at hc
    linarith
  have hz : ∃ z, y < z ∧ ∀ i, y < x i → z ≤ x i := by
    obtain ⟨j, hj, hm⟩ := Finset.exists_min_image _ x hne
    refine ⟨x j, (Finset.mem_filter.1 hj).2, fun i hi => hm i (Finset.mem_filter.2 ⟨Finset.mem_univ _, hi⟩)⟩
  obtain ⟨z, hyz, hz⟩ := hz
  have e := wdist_right_eq w x hyz.le hz
  have := h z
  nlinarith

theorem wdist_lowest {w : Fin M → ℝ} (hw : ∀ i, 0 ≤ w i) (x : Fin M → ℝ) (y : ℝ) :
    Lowest (wdist w x) y ↔ WMedian w x y := by
  constructor
  · intro h
    refine ⟨?_, above_of_lowest hw h⟩
    have h' : Lowest (wdist w fun i => -x i) (-y) := fun z => by
      have := h (-z)
      rw [wdist_neg, ← neg_neg z, wdist_neg]
      exact this
    have := above_of_lowest hw h'
    simpa using this
  · rintro ⟨h1, h2⟩ z
    rcases le_total y z with h | h
    · have := wdist_right hw x h
      nlinarith
    · have := wdist_right hw (fun i => -x i) (neg_le_neg h)
      rw [wdist_neg, wdist_neg] at this
      simp only [neg_lt_neg_iff] at this
      nlinarith

theorem wdist_convex {w : Fin M → ℝ} (hw : ∀ i, 0 ≤ w i) (x : Fin M → ℝ) : ConvexOn ℝ Set.univ (wdist w x) := by
  refine ⟨convex_univ, fun y _ z _ a b ha hb hab => ?_⟩
  simp only [wdist, smul_eq_mul, Finset.mul_sum, ← Finset.sum_add_distrib]
  refine Finset.sum_le_sum fun i _ => ?_
  have h : |x i - (a * y + b * z)| ≤ a * |x i - y| + b * |x i - z| := by
    have e : x i - (a * y + b * z) = a * (x i - y) + b * (x i - z) := by
      linear_combination (- x i) * hab
    rw [e]
    refine (abs_add_le _ _).trans ?_
    rw [abs_mul, abs_mul, abs_of_nonneg ha, abs_of_nonneg hb]
  nlinarith [mul_le_mul_of_nonneg_left h (hw i)]

theorem convex_shift {E : Type} [AddCommGroup E] [Module ℝ E] {f : E → ℝ} (hf : ConvexOn ℝ Set.univ f) (c : ℝ) :
    ConvexOn ℝ Set.univ fun y => f y - c := by
  refine ⟨convex_univ, fun y hy z hz a b ha hb hab => ?_⟩
  have := hf.2 hy hz ha hb hab
  simp only [smul_eq_mul] at this ⊢
  linear_combination this + c * hab

theorem wdist_beyond (w x : Fin M → ℝ) {y : ℝ} (hy : ∀ i, x i ≤ y) {t : ℝ} (ht : 0 ≤ t) :
    wdist w x (y + t) = wdist w x y + t * ∑ i, w i := by
  have h := wdist_right_eq w x (y := y) (z := y + t) (by linarith) fun i hi => absurd hi (hy i).not_gt
  have h0 : ∑ i with y < x i, w i = 0 := by
    rw [Finset.filter_false_of_mem fun i _ => (hy i).not_gt, Finset.sum_empty]
  rw [h0] at h
  linear_combination h

/-! ### the CRPS -/

theorem pairSum_obs {E : Type} [NormedAddCommGroup E] {A : Fin M → Fin M → ℝ}
    (hr : ∀ i, ∑ j, (A i j + A j i) = 1 / (M:ℝ)) (y : E) (x : Fin M → E) :
    pairSum A y x = ∑ i, 1 / (M:ℝ) * dist (x i) y - ∑ i, ∑ j, A i j * dist (x i) (x j) := by
  have h1 : pairSum A y x = ∑ i, ∑ j, A i j * dist (x i) y + ∑ i, ∑ j, A i j * dist (x j) y
      - ∑ i, ∑ j, A i j * dist (x i) (x j) := by
    unfold pairSum detour
    rw [← Finset.sum_add_distrib, ← Finset.sum_sub_distrib]
    refine Finset.sum_congr rfl fun i _ => ?_
    rw [← Finset.sum_add_distrib, ← Finset.sum_sub_distrib]
    exact Finset.sum_congr rfl fun j _ => by ring
  rw [h1, Finset.sum_comm (f := fun i j => A i j * dist (x j) y), ← Finset.sum_add_distrib]
  congr 1
  refine Finset.sum_congr rfl fun i _ => ?_
  rw [← Finset.sum_add_distrib, ← hr i, Finset.sum_mul]
  exact Finset.sum_congr rfl fun j _ => by ring

/-- C145: in every estimator of `crps_ensemble`, on both paths, the observation enters only through its mean distance to
the members: the rest does not depend on it. -/
theorem C145_crps_split (path : Path) {est : String} (he : est ∈ Spec.estimators) (sorted : Bool) (hM : M ≠ 0)
    (h2 : est = "fair" ∨ est = "pwm" → 2 ≤ M) (x : Fin M → ℝ) (hs : SortOK sorted (List.ofFn x)) :
    ∃ c, ∀ y : ℝ, crps1 path est sorted "propagate" (fin y) ((List.ofFn x).map fin) none
      = .ok (fin ((∑ i, |x i - y|) / M - c)) := by
  obtain ⟨A, -, hr, hv⟩ := crps1_pairs (M := M) path he hM h2
  refine ⟨∑ i, ∑ j, A i j * dist (x i) (x j), fun y => ?_⟩
  rw [hv sorted y x hs, pairSum_obs hr, ← Finset.mul_sum, one_div_mul_eq_div]
  simp only [Real.dist_eq]

example : "int" ∈ Spec.estimators ∧ (3:ℕ) ≠ 0 ∧ ("int" = "fair" ∨ "int" = "pwm" → 2 ≤ 3) ∧
    SortOK false (List.ofFn ![(2:ℝ), 0, 1]) :=
  ⟨by simp [Spec.estimators], by norm_num, fun _ => by norm_num, fun h => absurd h (by simp)⟩

/-- C145: as a function of the observation every estimator of `crps_ensemble` is convex, is smallest exactly at the
medians of the members, and grows with slope one beyond the members, on both paths. -/
theorem C145_crps (path : Path) {est : String} (he : est ∈ Spec.estimators) (sorted : Bool) (hM : M ≠ 0)
    (h2 : est = "fair" ∨ est = "pwm" → 2 ≤ M) (x : Fin M → ℝ) (hs : SortOK sorted (List.ofFn x)) :
    ∃ s : ℝ → ℝ, (∀ y, crps1 path est sorted "propagate" (fin y) ((List.ofFn x).map fin) none = .ok (fin (s y))) ∧
      ConvexOn ℝ Set.univ s ∧ (∀ y, Lowest s y ↔ WMedian (fun _ => 1) x y) ∧
      (∀ y, (∀ i, x i ≤ y) → ∀ t, 0 ≤ t → s (y + t) = s y + t) ∧
      ∀ y, (∀ i, y ≤ x i) → ∀ t, 0 ≤ t → s (y - t) = s y + t := by
  obtain ⟨c, hc⟩ := C145_crps_split path he sorted hM h2 x hs
  have hM' : (0:ℝ) < M := by exact_mod_cast Nat.pos_of_ne_zero hM
  have e : ∀ y, (∑ i, |x i - y|) / M - c = wdist (fun _ => 1 / (M:ℝ)) x y - c := fun y => by
    rw [wdist, ← Finset.mul_sum, one_div_mul_eq_div]
  have h1 : ∑ _i : Fin M, 1 / (M:ℝ) = 1 := by simp [hM'.ne']
  refine ⟨fun y => (∑ i, |x i - y|) / M - c, hc, ?_, fun y => ?_, fun y hy t ht => ?_, fun y hy t ht => ?_⟩
  · simp only [e]
    exact convex_shift (wdist_convex (fun _ => by positivity) x) c
  · have hb : Lowest (fun y => (∑ i, |x i - y|) / M - c) y ↔ Lowest (wdist (fun _ => 1) x) y := by
      simp only [Lowest, wdist, one_mul, sub_le_sub_iff_right, div_le_div_iff_of_pos_right hM']
    rw [hb, wdist_lowest fun _ => zero_le_one]
  · simp only [e]
    rw [wdist_beyond _ x hy ht, h1]
    ring
  · simp only [e]
    have := wdist_beyond (fun _ => 1 / (M:ℝ)) (fun i => -x i) (y := -y) (fun i => neg_le_neg (hy i)) ht
    rw [wdist_neg, h1] at this
    have e2 : -y + t = -(y - t) := by ring
    rw [e2, wdist_neg] at this
    linarith

example : "fair" ∈ Spec.estimators ∧ (3:ℕ) ≠ 0 ∧ ("fair" = "fair" ∨ "fair" = "pwm" → 2 ≤ 3) ∧
    SortOK true (List.ofFn ![(0:ℝ), 1, 5]) ∧ WMedian (fun _ => 1) ![(0:ℝ), 1, 5] 1 ∧
    ¬ WMedian (fun _ => 1) ![(0:ℝ), 1, 5] 2 := by
  refine ⟨by simp [Spec.estimators], by norm_num, fun _ => by norm_num, fun _ => ?_, ?_, ?_⟩
  · simp [List.ofFn_succ]
  · rw [WMedian, Finset.sum_filter, Finset.sum_filter]
    have e : (![(0:ℝ), 1, 5] : Fin 3 → ℝ) 2 = 5 := rfl
    simp only [Fin.sum_univ_three, e]
    norm_num
  · rw [WMedian, Finset.sum_filter, Finset.sum_filter]
    have e : (![(0:ℝ), 1, 5] : Fin 3 → ℝ) 2 = 5 := rfl
    simp only [Fin.sum_univ_three, e]
    norm_num

/-- C145: the weighted `crps_ensemble` (`nrg`), as a function of the observation, is convex and smallest exactly at the
weighted medians. -/
theorem C145_crps_weighted (path : Path) (sorted : Bool) {l : List (ℝ × ℝ)} (hw : ∀ p ∈ l, 0 ≤ p.2)
    (ht : wtot l ≠ 0) :
    ∃ s : ℝ → ℝ, (∀ y, crps1 path "nrg" sorted "propagate" (fin y) (l.map fun p => fin p.1)
        (some (l.map fun p => fin p.2)) = .ok (fin (s y))) ∧
      ConvexOn ℝ Set.univ s ∧
      ∀ y, Lowest s y ↔ WMedian (fun i : Fin l.length => l[i].2) (fun i => l[i].1) y := by
  have htp : 0 < wtot l := lt_of_le_of_ne (List.sum_nonneg (by
    intro a ha
    obtain ⟨p, hp, rfl⟩ := List.mem_map.1 ha
    exact hw p hp)) (Ne.symm ht)
  have hw' : ∀ i : Fin l.length, 0 ≤ l[i].2 := fun i => hw _ (List.getElem_mem _)
  have e : ∀ y, energy y (norml l)
      = wdist (fun i : Fin l.length => l[i].2) (fun i => l[i].1) y / wtot l - wpair (norml l) / 2 := fun y => by
    rw [energy, wabs, norml, List.map_map, wdist]
    congr 1
    rw [Finset.sum_div, ← Fin.sum_univ_fun_getElem]
    refine Finset.sum_congr rfl fun i _ => ?_
    simp only [Function.comp]
    simp only [Fin.getElem_fin]
    ring
  refine ⟨fun y => energy y (norml l), fun y => crps1W_nrg path sorted y hw ht, ?_, fun y => ?_⟩
  · simp only [e, div_eq_inv_mul]
    exact convex_shift ((wdist_convex hw' fun i => l[i].1).smul (inv_nonneg.2 htp.le)) (2⁻¹ * wpair (norml l))
  · have hb : Lowest (fun y => energy y (norml l)) y
        ↔ Lowest (wdist (fun i : Fin l.length => l[i].2) (fun i => l[i].1)) y := by
      simp only [Lowest, e, sub_le_sub_iff_right, div_le_div_iff_of_pos_right htp]
    rw [hb, wdist_lowest hw']

example : (∀ p ∈ [((0:ℝ), (1:ℝ)), (2, 3)], 0 ≤ p.2) ∧ wtot [((0:ℝ), (1:ℝ)), (2, 3)] ≠ 0 := by
  constructor
  · simp
  · norm_num [wtot]

/-! ### the energy score -/

/-- C145: as a function of the observation every estimator of `es_ensemble` is the mean distance to the members minus
something that does not depend on it; it is convex, on both paths. -/
theorem C145_es {D : ℕ} (path : Path) {est : String} (he : est ∈ Spec.esEstimators) (hM : M ≠ 0)
    (h2 : est = "fair" → 2 ≤ M) (x : Fin M → Eu D) :
    ∃ c, (∀ y : Eu D, es1 path est D (vec y) ((List.ofFn x).map vec) none
        = .ok (fin ((∑ i, ‖x i - y‖) / M - c))) ∧
      ConvexOn ℝ Set.univ fun y : Eu D => (∑ i, ‖x i - y‖) / M - c := by
  obtain ⟨A, -, hr, hv⟩ := es1_pairs (M := M) (D := D) path he hM h2
  refine ⟨∑ i, ∑ j, A i j * dist (x i) (x j), fun y => ?_, ?_⟩
  · rw [hv y x, pairSum_obs hr, ← Finset.mul_sum, one_div_mul_eq_div]
    simp only [dist_eq_norm]
  · refine convex_shift ⟨convex_univ, fun y _ z _ a b ha hb hab => ?_⟩ _
    have h : ∀ i, ‖x i - (a • y + b • z)‖ ≤ a * ‖x i - y‖ + b * ‖x i - z‖ := fun i => by
      have e : x i - (a • y + b • z) = a • (x i - y) + b • (x i - z) := by
        have : a • x i + b • x i = x i := by rw [← add_smul, hab, one_smul]
        rw [smul_sub, smul_sub, sub_add_sub_comm, this]
      rw [e]
      refine (norm_add_le _ _).trans ?_
      rw [norm_smul, norm_smul, Real.norm_of_nonneg ha, Real.norm_of_nonneg hb]
    simp only [smul_eq_mul, ← mul_div_assoc, ← add_div]
    refine div_le_div_of_nonneg_right ?_ (Nat.cast_nonneg M)
    rw [Finset.mul_sum, Finset.mul_sum, ← Finset.sum_add_distrib]
    exact Finset.sum_le_sum fun i _ => h i

example : "akr" ∈ Spec.esEstimators ∧ (2:ℕ) ≠ 0 ∧ ("akr" = "fair" → 2 ≤ 2) := by
  refine ⟨by simp [Spec.esEstimators], by norm_num, fun _ => le_rfl⟩

/-! ### the Dawid-Sebastiani and the error-spread score -/

/-- C145: `dssuv_ensemble`, as a function of the observation, is smallest exactly at the ensemble mean, for every
ensemble of positive variance, on both paths. -/
theorem C145_dss (path : Path) (bias : Bool) (xs : List ℝ) (hv : 0 < Spec.svar bias xs) :
    ∃ s : ℝ → ℝ, (∀ y, dss1 path bias (fin y) (xs.map fin) = .ok (fin (s y))) ∧ ∀ y, Lowest s y ↔ y = avg xs := by
  refine ⟨_, fun y => C38_value path bias y xs hv, fun y => ⟨fun h => ?_, ?_⟩⟩
  · have := h (avg xs)
    simp only [ds, sub_self, ne_eq, OfNat.ofNat_ne_zero, not_false_eq_true, zero_pow, zero_div,
      add_le_add_iff_right] at this
    rw [div_le_iff₀ hv, zero_mul] at this
    have h0 : (y - avg xs) ^ 2 = 0 := le_antisymm this (sq_nonneg _)
    linarith [pow_eq_zero_iff (two_ne_zero) |>.1 h0]
  · rintro rfl z
    simp only [ds, sub_self, ne_eq, OfNat.ofNat_ne_zero, not_false_eq_true, zero_pow, zero_div,
      add_le_add_iff_right]
    positivity

example : 0 < Spec.svar false [1, 2, 6] := by
  simp [Spec.svar, Spec.csum, Spec.avg]; norm_num

/-- C145: `error_spread_score`, as a function of the observation, is zero (its smallest value) at exactly two
observations, one on each side of the ensemble mean, for every ensemble of three or more members that are not all
equal, on both paths. -/
theorem C145_ess (path : Path) (xs : List ℝ) (hM : 3 ≤ xs.length) (h : ∃ a ∈ xs, ∃ b ∈ xs, a ≠ b) :
    ∃ s : ℝ → ℝ, (∀ y, ess1 path (fin y) (xs.map fin) = .ok (fin (s y))) ∧ (∀ y, 0 ≤ s y) ∧
      ∃ l u, l < avg xs ∧ avg xs < u ∧ ∀ y, s y = 0 ↔ y = l ∨ y = u := by
  have hs : 0 < sd xs := sd_pos hM h
  refine ⟨fun y => ess y xs, fun y => C39_value path y xs hM h, fun y => sq_nonneg _, ?_⟩
  obtain ⟨r, hr⟩ : ∃ r, r = Real.sqrt (skew xs ^ 2 + 4) := ⟨_, rfl⟩
  have hr2 : r ^ 2 = skew xs ^ 2 + 4 := by rw [hr, Real.sq_sqrt (by positivity)]
  have hr0 : 0 ≤ r := by rw [hr]; positivity
  have hgt : |skew xs| < r := abs_lt_of_sq_lt_sq (by linarith) hr0
  rw [abs_lt] at hgt
  refine ⟨avg xs + sd xs * (skew xs - r) / 2, avg xs + sd xs * (skew xs + r) / 2, ?_, ?_, fun y => ?_⟩
  · nlinarith
  · nlinarith
  · have e : ess y xs = ((y - (avg xs + sd xs * (skew xs - r) / 2)) * (y - (avg xs + sd xs * (skew xs + r) / 2))) ^ 2 := by
      rw [ess, es3]
      have : (y - (avg xs + sd xs * (skew xs - r) / 2)) * (y - (avg xs + sd xs * (skew xs + r) / 2))
          = -(sd xs ^ 2 - (avg xs - y) ^ 2 - (avg xs - y) * sd xs * skew xs) := by
        linear_combination (-(sd xs ^ 2) / 4) * hr2
      rw [this]; ring
    simp only [e]
    rw [pow_eq_zero_iff two_ne_zero, mul_eq_zero, sub_eq_zero, sub_eq_zero]

example : 3 ≤ [(1:ℝ), 2, 6].length ∧ ∃ a ∈ [(1:ℝ), 2, 6], ∃ b ∈ [(1:ℝ), 2, 6], a ≠ b :=
  ⟨by simp, 1, by simp, 2, by simp, by norm_num⟩

end Verif
