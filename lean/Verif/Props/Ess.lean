import Verif.Props.Quantile
import Verif.Props.Dss
import Verif.Lemmas.Variogram
import Verif.Lemmas.CrpsAkr

/-!
# Property C39: the error-spread score
-/

noncomputable section

open scoped Classical

namespace Verif

open XF Py Api

/-- The call on one-dimensional data returns an array without axes; the squeeze has no effect. -/
theorem ess1_eq (path : Path) (y : XF) (xs : List XF) :
    ess1 path y xs = .ok (match path with
      | .numba => Ess.gufunc y xs
      | .array => Ess.score y xs) := by
  unfold ess1 errorSpreadScore
  rw [arrayCheck_axis (ofList_axis xs) rfl]
  cases path <;>
  · simp only [bind, Except.bind, item, Except.map, perSlice, Arr.squeeze, Arr.unsqueeze]
    rw [Arr.row_moveLast]
    erw [ofList_sliceAt]
    rfl

namespace Spec

/-- The standard deviation of a list, with the divisor one less than its length. -/
def sd (xs : List ℝ) : ℝ := Real.sqrt (svar false xs)

/-- The skewness used by the score: the sum of the cubed standardised members divided by
`(M - 1)(M - 2)`. -/
def skew (xs : List ℝ) : ℝ :=
  (xs.map fun x => ((x - avg xs) / sd xs) ^ 3).sum / (((xs.length : ℝ) - 1) * ((xs.length : ℝ) - 2))

/-- The error-spread score of an ensemble. -/
def ess (y : ℝ) (xs : List ℝ) : ℝ := es3 (avg xs) (sd xs) (skew xs) y

end Spec

theorem csum2_nonneg (xs : List ℝ) : 0 ≤ Spec.csum 2 xs :=
  List.sum_nonneg fun x hx => by
    obtain ⟨z, -, rfl⟩ := List.mem_map.1 hx
    positivity

/-- An ensemble whose members are not all equal has a positive sum of squares. -/
theorem csum2_pos {xs : List ℝ} (h : ∃ a ∈ xs, ∃ b ∈ xs, a ≠ b) : 0 < Spec.csum 2 xs := by
  rcases (csum2_nonneg xs).lt_or_eq with h' | h'
  · exact h'
  exfalso
  obtain ⟨a, ha, b, hb, hab⟩ := h
  have key : ∀ c ∈ xs, c = Spec.avg xs := by
    intro c hc
    have := List.single_le_sum (l := xs.map fun x => (x - Spec.avg xs) ^ 2)
      (fun x hx => by obtain ⟨z, -, rfl⟩ := List.mem_map.1 hx; positivity) _
      (List.mem_map.2 ⟨c, hc, rfl⟩)
    rw [Spec.csum] at h'
    rw [← h'] at this
    have h0 : (c - Spec.avg xs) ^ 2 = 0 := le_antisymm this (sq_nonneg _)
    have := pow_eq_zero_iff (two_ne_zero) |>.1 h0
    linarith
  exact hab ((key a ha).trans (key b hb).symm)

theorem sd_pos {xs : List ℝ} (hM : 3 ≤ xs.length) (h : ∃ a ∈ xs, ∃ b ∈ xs, a ≠ b) :
    0 < Spec.sd xs := by
  apply Real.sqrt_pos.2
  have : (3:ℝ) ≤ xs.length := by exact_mod_cast hM
  simp only [Spec.svar, Bool.false_eq_true, if_false]
  exact div_pos (csum2_pos h) (by linarith)

/-- C39: the value of `error_spread_score`, on both paths, for every ensemble of at least three members
that are not all equal. -/
theorem C39_value (path : Path) (y : ℝ) (xs : List ℝ) (hM : 3 ≤ xs.length)
    (h : ∃ a ∈ xs, ∃ b ∈ xs, a ≠ b) :
    ess1 path (fin y) (xs.map fin) = .ok (fin (Spec.ess y xs)) := by
  have hs := sd_pos hM h
  have h3 : (3:ℝ) ≤ xs.length := by exact_mod_cast hM
  have hx : xs ≠ [] := by rintro rfl; simp at hM
  have hM0 : (xs.length : ℝ) ≠ 0 := by linarith
  have hM1 : (xs.length : ℝ) - 1 ≠ 0 := by linarith
  have hM2 : ((xs.length : ℝ) - 1) * ((xs.length : ℝ) - 2) ≠ 0 := by
    apply mul_ne_zero <;> linarith
  have hc1 : ((xs.length - 1 : ℕ) : ℝ) = (xs.length : ℝ) - 1 := by
    rw [Nat.cast_sub (by omega)]; simp
  have hc2 : (((xs.length - 1) * (xs.length - 2) : ℕ) : ℝ)
      = ((xs.length : ℝ) - 1) * ((xs.length : ℝ) - 2) := by
    rw [Nat.cast_mul, Nat.cast_sub (by omega), Nat.cast_sub (by omega)]; simp
  have hsd : XF.sqrt (fin (Spec.csum 2 xs) / fin ((xs.length : ℝ) - 1)) = fin (Spec.sd xs) := by
    rw [fin_div hM1, fin_sqrt (div_nonneg (csum2_nonneg xs) (by linarith))]
    simp [Spec.sd, Spec.svar]
  have hg : ((xs.map fin).map fun x => ((x - fin (Spec.avg xs)) / fin (Spec.sd xs)) ^ 3).sum
        / fin (((xs.length : ℝ) - 1) * ((xs.length : ℝ) - 2)) = fin (Spec.skew xs) := by
    rw [List.map_map]
    simp only [Function.comp_def, fin_sub, fin_div hs.ne', fin_pow]
    rw [sum_map_fin', fin_div hM2, Spec.skew]
  have hm : (xs.map fin).sum / fin (xs.length : ℝ) = fin (Spec.avg xs) := by
    have := dss_mean xs hx
    rwa [mean, List.length_map, natCast_fin] at this
  have tail : (fin (Spec.sd xs) ^ 2 - (fin (Spec.avg xs - y)) ^ 2
      - fin (Spec.avg xs - y) * fin (Spec.sd xs) * fin (Spec.skew xs)) ^ 2
        = fin (Spec.ess y xs) := by
    simp only [fin_pow, fin_sub, fin_mul, Spec.ess, Spec.es3]
  rw [ess1_eq]
  congr 1
  cases path
  · simp only [Ess.gufunc, List.length_map, natCast_fin, hc1, hc2]
    have e1 : ∀ (f : XF → XF), forRange 0 xs.length (0 : XF)
        (fun i m => m + f (idx (xs.map fin) i)) = ((xs.map fin).map f).sum := by
      intro f
      rw [forRange_add, zero_add, ← sum_idx_range, List.length_map]
    have e0 := e1 id
    simp only [id, List.map_id'] at e0
    rw [List.map_id] at e0
    rw [e0, hm, e1 fun x => (x - fin (Spec.avg xs)) ^ 2, csum_fin, hsd,
      e1 fun x => ((x - fin (Spec.avg xs)) / fin (Spec.sd xs)) ^ 3, hg, e1 fun x => x - fin y,
      List.map_map]
    simp only [Function.comp_def, fin_sub]
    rw [sum_map_fin', sum_map_sub', sum_map_const', fin_div hM0, ← tail]
    have : ((xs.map fun x => x).sum - (xs.length : ℝ) * y) / (xs.length : ℝ) = Spec.avg xs - y := by
      rw [List.map_id', Spec.avg]; field_simp
    rw [this]
  · simp only [Ess.score, List.length_map, natCast_fin, hc1, hc2]
    rw [dss_mean xs hx, csum_fin, hsd, hg, fin_sub, tail]

example : 3 ≤ [(1:ℝ), 2, 6].length ∧ ∃ a ∈ [(1:ℝ), 2, 6], ∃ b ∈ [(1:ℝ), 2, 6], a ≠ b :=
  ⟨by simp, 1, by simp, 2, by simp, by norm_num⟩

/-- C39: the two paths return the same number. -/
theorem C39_paths (y : ℝ) (xs : List ℝ) (hM : 3 ≤ xs.length) (h : ∃ a ∈ xs, ∃ b ∈ xs, a ≠ b) :
    ess1 .numba (fin y) (xs.map fin) = ess1 .array (fin y) (xs.map fin) := by
  rw [C39_value _ y xs hM h, C39_value _ y xs hM h]

example : 3 ≤ [(1:ℝ), 1, 6].length ∧ ∃ a ∈ [(1:ℝ), 1, 6], ∃ b ∈ [(1:ℝ), 1, 6], a ≠ b :=
  ⟨by simp, 1, by simp, 6, by simp, by norm_num⟩

/-- C39: the score is non-negative. -/
theorem C39_nonneg (path : Path) (y : ℝ) (xs : List ℝ) (hM : 3 ≤ xs.length)
    (h : ∃ a ∈ xs, ∃ b ∈ xs, a ≠ b) :
    ∃ s : ℝ, 0 ≤ s ∧ ess1 path (fin y) (xs.map fin) = .ok (fin s) :=
  ⟨_, sq_nonneg _, C39_value path y xs hM h⟩

example : 3 ≤ [(1:ℝ), 1, 6].length ∧ ∃ a ∈ [(1:ℝ), 1, 6], ∃ b ∈ [(1:ℝ), 1, 6], a ≠ b :=
  ⟨by simp, 1, by simp, 6, by simp, by norm_num⟩

/-- Spread times skewness without square roots. -/
theorem sd_skew {xs : List ℝ} (hs : 0 < Spec.sd xs) :
    Spec.sd xs * Spec.skew xs
      = Spec.csum 3 xs / (Spec.svar false xs * (((xs.length : ℝ) - 1) * ((xs.length : ℝ) - 2))) := by
  have h2 : Spec.sd xs ^ 2 = Spec.svar false xs :=
    Real.sq_sqrt (Real.sqrt_pos.1 hs).le
  rw [Spec.skew]
  simp only [div_pow]
  have : ∀ x : ℝ, (x - Spec.avg xs) ^ 3 / Spec.sd xs ^ 3
      = 1 / Spec.sd xs ^ 3 * (x - Spec.avg xs) ^ 3 := fun x => by ring
  simp only [this]
  rw [sum_map_mul_left', ← h2]
  change _ * (_ * Spec.csum 3 xs / _) = _
  by_cases hd : ((xs.length : ℝ) - 1) * ((xs.length : ℝ) - 2) = 0
  · simp [hd]
  · field_simp

theorem ess_eq (y : ℝ) {xs : List ℝ} (hs : 0 < Spec.sd xs) :
    Spec.ess y xs = (Spec.svar false xs - (Spec.avg xs - y) ^ 2 - (Spec.avg xs - y)
      * (Spec.csum 3 xs / (Spec.svar false xs * (((xs.length : ℝ) - 1) * ((xs.length : ℝ) - 2))))) ^ 2 := by
  have h2 : Spec.sd xs ^ 2 = Spec.svar false xs :=
    Real.sq_sqrt (Real.sqrt_pos.1 hs).le
  rw [← sd_skew hs, ← h2, Spec.ess, Spec.es3, mul_assoc]

/-- C39: changing the unit and the origin of the observation and of the members by `x ↦ c x + t`
(`c ≠ 0`) multiplies the score by `c ^ 4`.  `c = 1` is invariance under translation, `c = -1`
invariance under reflection, `t = 0` homogeneity of degree four. -/
theorem C39_affine (path : Path) (c t y : ℝ) (xs : List ℝ) (hc : c ≠ 0) (hM : 3 ≤ xs.length)
    (h : ∃ a ∈ xs, ∃ b ∈ xs, a ≠ b) :
    ∃ s : ℝ, ess1 path (fin y) (xs.map fin) = .ok (fin s) ∧
      ess1 path (fin (c * y + t)) ((xs.map fun x => c * x + t).map fin)
        = .ok (fin (c ^ 4 * s)) := by
  have hx : xs ≠ [] := by rintro rfl; simp at hM
  have hM' : 3 ≤ (xs.map fun x => c * x + t).length := by simpa using hM
  have h' : ∃ a ∈ xs.map fun x => c * x + t, ∃ b ∈ xs.map fun x => c * x + t, a ≠ b := by
    obtain ⟨a, ha, b, hb, hab⟩ := h
    refine ⟨c * a + t, List.mem_map.2 ⟨a, ha, rfl⟩, c * b + t, List.mem_map.2 ⟨b, hb, rfl⟩, ?_⟩
    intro he
    exact hab (mul_left_cancel₀ hc (add_right_cancel he))
  refine ⟨_, C39_value path y xs hM h, ?_⟩
  rw [C39_value path _ _ hM' h', ess_eq _ (sd_pos hM' h'), ess_eq _ (sd_pos hM h),
    svar_affine false c t xs hx, avg_affine c t xs hx, csum_affine 3 c t xs hx, List.length_map]
  congr 2
  have hv : Spec.svar false xs ≠ 0 := (Real.sqrt_pos.1 (sd_pos hM h)).ne'
  have e : c ^ 3 * Spec.csum 3 xs / (c ^ 2 * Spec.svar false xs
        * (((xs.length : ℝ) - 1) * ((xs.length : ℝ) - 2)))
      = c * (Spec.csum 3 xs / (Spec.svar false xs
        * (((xs.length : ℝ) - 1) * ((xs.length : ℝ) - 2)))) := by
    rw [show c ^ 3 * Spec.csum 3 xs = c ^ 2 * (c * Spec.csum 3 xs) by ring, mul_assoc (c ^ 2),
      mul_div_mul_left _ _ (pow_ne_zero 2 hc), mul_div_assoc]
  rw [e]
  ring

example : (-2 : ℝ) ≠ 0 ∧ 3 ≤ [(1:ℝ), 1, 6].length ∧ ∃ a ∈ [(1:ℝ), 1, 6], ∃ b ∈ [(1:ℝ), 1, 6], a ≠ b :=
  ⟨by norm_num, by simp, 1, by simp, 6, by simp, by norm_num⟩

theorem C39_translation (path : Path) (t y : ℝ) (xs : List ℝ) (hM : 3 ≤ xs.length)
    (h : ∃ a ∈ xs, ∃ b ∈ xs, a ≠ b) :
    ess1 path (fin (y + t)) ((xs.map fun x => x + t).map fin) = ess1 path (fin y) (xs.map fin) := by
  obtain ⟨s, h1, h2⟩ := C39_affine path 1 t y xs one_ne_zero hM h
  simp only [one_mul, one_pow] at h2
  rw [h1, h2]

example : 3 ≤ [(1:ℝ), 1, 6].length ∧ ∃ a ∈ [(1:ℝ), 1, 6], ∃ b ∈ [(1:ℝ), 1, 6], a ≠ b :=
  ⟨by simp, 1, by simp, 6, by simp, by norm_num⟩

theorem C39_reflection (path : Path) (y : ℝ) (xs : List ℝ) (hM : 3 ≤ xs.length)
    (h : ∃ a ∈ xs, ∃ b ∈ xs, a ≠ b) :
    ess1 path (fin (-y)) ((xs.map fun x => -x).map fin) = ess1 path (fin y) (xs.map fin) := by
  obtain ⟨s, h1, h2⟩ := C39_affine path (-1) 0 y xs (by norm_num) hM h
  simp only [neg_one_mul, add_zero] at h2
  rw [h1, h2]
  norm_num

example : 3 ≤ [(1:ℝ), 1, 6].length ∧ ∃ a ∈ [(1:ℝ), 1, 6], ∃ b ∈ [(1:ℝ), 1, 6], a ≠ b :=
  ⟨by simp, 1, by simp, 6, by simp, by norm_num⟩

/-! ### arrays -/

theorem unsqueeze_eq {s : List ℕ} (h1 : 1 ∉ s) {i : List ℕ} (hi : Arr.Valid s i) :
    Arr.unsqueeze s i = i := by
  induction hi with
  | nil => rfl
  | cons hab _ ih =>
    simp only [List.mem_cons, not_or] at h1
    simp only [Arr.unsqueeze]
    rw [if_neg (Ne.symm h1.1)]
    simp [ih h1.2]

/-- C39: on arrays of any shape the score is applied to every slice along the ensemble axis
separately.  Partial: on the array path this needs that no axis of the observation has length one,
see `C39_squeeze`. -/
theorem C39_slicewise_partial (path : Path) {obs fct : Arr XF} {m : ℤ} {k : ℕ}
    (h : Spec.AxisIs m fct.ndim k) (hs : obs.shape = fct.shape.eraseIdx k)
    (h1 : path = .array → 1 ∉ obs.shape) :
    ∃ out, errorSpreadScore path obs fct m = .ok out ∧ out.shape = obs.shape ∧
      ∀ i, Arr.Valid obs.shape i →
        ess1 path (obs.get i) (fct.sliceAt k i) = .ok (out.get i) := by
  unfold errorSpreadScore
  rw [arrayCheck_axis h hs]
  cases path
  · refine ⟨_, rfl, rfl, fun i _ => ?_⟩
    rw [ess1_eq]
    simp only [perSlice, Arr.row_moveLast]
  · refine ⟨_, rfl, ?_, fun i hi => ?_⟩
    · simp only [Arr.squeeze, perSlice]
      rw [List.filter_eq_self]
      intro n hn
      simp only [ne_eq, decide_eq_true_eq]
      rintro rfl
      exact h1 rfl hn
    · rw [ess1_eq]
      simp only [Arr.squeeze, perSlice]
      rw [unsqueeze_eq (h1 rfl) hi, Arr.row_moveLast]

example : Spec.AxisIs 0 (Arr.ofRows 2 [[1, 2], [4, 5], [6, 8]] : Arr XF).ndim 0 ∧
    (Arr.ofList [7, 8] : Arr XF).shape
      = (Arr.ofRows 2 [[1, 2], [4, 5], [6, 8]] : Arr XF).shape.eraseIdx 0 ∧
    1 ∉ (Arr.ofList [7, 8] : Arr XF).shape := by
  refine ⟨by constructor <;> simp [Arr.ndim, Arr.ofRows], by simp [Arr.ofRows, Arr.ofList],
    by simp [Arr.ofList]⟩

/-- Disagreement: whenever the observation array has an axis of length one, the two paths return
arrays of different shapes, because only the array path drops such axes
(`core/error_spread/_score.py:19`). -/
theorem C39_squeeze {obs fct : Arr XF} {m : ℤ} {k : ℕ} (h : Spec.AxisIs m fct.ndim k)
    (hs : obs.shape = fct.shape.eraseIdx k) (h1 : 1 ∈ obs.shape) :
    ∃ a b, errorSpreadScore .numba obs fct m = .ok a ∧ errorSpreadScore .array obs fct m = .ok b ∧
      a.shape = obs.shape ∧ b.shape ≠ obs.shape := by
  unfold errorSpreadScore
  rw [arrayCheck_axis h hs]
  refine ⟨_, _, rfl, rfl, rfl, ?_⟩
  simp only [Arr.squeeze, perSlice]
  intro he
  rw [List.filter_eq_self] at he
  simpa using he 1 h1

example : 1 ∈ (Arr.ofList [7] : Arr XF).shape ∧ (Arr.ofList [7] : Arr XF).shape
    = (Arr.ofRows 3 [[1, 2, 6]] : Arr XF).shape.eraseIdx 1 := by
  simp [Arr.ofList, Arr.ofRows]

/-- On the array path every slice keeps its score: it stands at the index without the axes of length one. -/
theorem C39_squeeze_values {obs fct : Arr XF} {m : ℤ} {k : ℕ} (h : Spec.AxisIs m fct.ndim k)
    (hs : obs.shape = fct.shape.eraseIdx k) :
    ∃ out, errorSpreadScore .array obs fct m = .ok out ∧ out.shape = obs.shape.filter (fun n => n ≠ 1) ∧
      ∀ i, Arr.Valid obs.shape i →
        ess1 .array (obs.get i) (fct.sliceAt k i) = .ok (out.get (Spec.longAxes obs.shape i)) := by
  unfold errorSpreadScore
  rw [arrayCheck_axis h hs]
  refine ⟨_, rfl, rfl, fun i hi => ?_⟩
  have hq := squeeze_longAxes (perSlice Ess.score obs (fct.moveLast k)) hi
  simp only [perSlice, Arr.row_moveLast] at hq
  rw [ess1_eq]
  simp only [perSlice, Arr.row_moveLast]
  rw [hq]

example : (Arr.ofList [7] : Arr XF).shape = (Arr.ofRows 3 [[1, 2, 6]] : Arr XF).shape.eraseIdx 1 := by
  simp [Arr.ofList, Arr.ofRows]

end Verif
