import Verif.Model.Dss
import Verif.Spec.Dss
import Verif.Spec.Slices
import Verif.Lemmas.KernelApi
import Mathlib.MeasureTheory.Integral.Bochner.Basic
import Mathlib.Analysis.SpecialFunctions.Log.Basic

/-!
# Property C38: the univariate Dawid-Sebastiani score
-/

noncomputable section

open scoped Classical
open MeasureTheory

namespace Verif

open XF Py Api

theorem dssuv_eq (path : Path) (obs fct : Arr XF) (m : ℤ) (bias : Bool) :
    dssuvEnsemble path obs fct m bias = uvScore (.ok (match path with
      | .numba => Dss.gufunc bias
      | .array => Dss.score bias)) (.error .valueError) obs fct m none := by
  unfold dssuvEnsemble uvScore
  cases path <;> rfl

theorem dss1_eq (path : Path) (bias : Bool) (y : XF) (xs : List XF) :
    dss1 path bias y xs = .ok (match path with
      | .numba => Dss.gufunc bias y xs
      | .array => Dss.score bias y xs) := by
  unfold dss1
  rw [dssuv_eq, uv1_none]
  cases path <;> rfl

theorem dss_mean (xs : List ℝ) (hx : xs ≠ []) : mean (xs.map fin) = fin (Spec.avg xs) := by
  have : (xs.length : ℝ) ≠ 0 := by simpa using hx
  simp [mean, Spec.avg, natCast_def, ← fin_div this]

theorem svar_ne {bias : Bool} {xs : List ℝ} (hv : 0 < Spec.svar bias xs) :
    xs ≠ [] ∧ (if bias then (xs.length : ℝ) else (xs.length : ℝ) - 1) ≠ 0 := by
  refine ⟨?_, fun h => ?_⟩
  · rintro rfl; simp [Spec.svar, Spec.csum] at hv
  · rw [Spec.svar, h] at hv; simp at hv

theorem csum_fin (p : ℕ) (xs : List ℝ) :
    ((xs.map fin).map fun x => (x - fin (Spec.avg xs)) ^ p).sum = fin (Spec.csum p xs) := by
  rw [List.map_map]
  simp only [Function.comp_def, fin_sub, fin_pow]
  exact sum_map_fin' xs _

theorem log_sqrt_two {v : ℝ} (hv : 0 < v) : 2 * XF.log (XF.sqrt (fin v)) = fin (Real.log v) := by
  rw [fin_sqrt hv.le, fin_log (Real.sqrt_pos.2 hv), two_fin, fin_mul, Real.log_sqrt hv.le]
  congr 1; ring

theorem dss_tail (y μ : ℝ) {v : ℝ} (hv : 0 < v) :
    ((fin y - fin μ) / XF.sqrt (fin v)) ^ 2 + 2 * XF.log (XF.sqrt (fin v))
      = fin (Spec.ds μ v y) := by
  rw [log_sqrt_two hv, fin_sqrt hv.le, fin_sub, fin_div (Real.sqrt_pos.2 hv).ne', fin_pow, fin_add,
    div_pow, Real.sq_sqrt hv.le, Spec.ds]

/-- C38: the value of `dssuv_ensemble` on every ensemble of positive variance, on both paths and for
both variance conventions: the Dawid-Sebastiani score of the ensemble mean and variance. -/
theorem C38_value (path : Path) (bias : Bool) (y : ℝ) (xs : List ℝ) (hv : 0 < Spec.svar bias xs) :
    dss1 path bias (fin y) (xs.map fin)
      = .ok (fin (Spec.ds (Spec.avg xs) (Spec.svar bias xs) y)) := by
  obtain ⟨hx, hf⟩ := svar_ne hv
  rw [dss1_eq]
  congr 1
  rw [← dss_tail y _ hv]
  cases path
  · simp only [Dss.gufunc]
    rw [dss_mean xs hx, csum_fin]
    cases bias
    · simp only [Bool.false_eq_true, if_false] at hf
      simp only [Bool.false_eq_true, if_false, List.length_map, natCast_fin, one_fin, fin_sub,
        fin_div hf]
      simp [Spec.svar]
    · simp only [if_true] at hf
      simp only [if_true, List.length_map, natCast_fin, one_fin, fin_sub, fin_add, sub_add_cancel,
        fin_div hf]
      simp [Spec.svar]
  · have e : Dss.std bias (xs.map fin) = XF.sqrt (fin (Spec.svar bias xs)) := by
      simp only [Dss.std]
      rw [dss_mean xs hx]
      simp only [← pow_two]
      rw [csum_fin]
      have hl : 1 ≤ xs.length := List.length_pos_iff.2 hx
      cases bias
      · simp only [Bool.false_eq_true, if_false] at hf
        simp only [Bool.false_eq_true, if_false, List.length_map, natCast_fin, Nat.cast_sub hl,
          Nat.cast_one, fin_div hf]
        simp [Spec.svar]
      · simp only [if_true] at hf
        simp only [if_true, List.length_map, natCast_fin, Nat.sub_zero, fin_div hf]
        simp [Spec.svar]
    simp only [Dss.score]
    rw [e, dss_mean xs hx]

example : 0 < Spec.svar false [1, 2, 6] ∧ 0 < Spec.svar true [1, 2, 6] := by
  constructor <;> simp [Spec.svar, Spec.csum, Spec.avg] <;> norm_num

/-- C38: the two implementations return the same number for every observation and every ensemble of
at least one member, including missing and infinite values and zero variance. -/
theorem C38_paths (bias : Bool) (y : XF) (xs : List XF) (hx : xs ≠ []) :
    dss1 .numba bias y xs = dss1 .array bias y xs := by
  rw [dss1_eq, dss1_eq]
  simp only [Dss.gufunc, Dss.score, Dss.std, ← pow_two]
  have hl : 1 ≤ xs.length := List.length_pos_iff.2 hx
  cases bias <;>
    simp [natCast_fin, one_fin, fin_sub, fin_add, Nat.cast_sub hl]

example : ([nan, pinf] : List XF) ≠ [] := by simp

/-! ### translation and scaling -/

theorem avg_affine (c t : ℝ) (xs : List ℝ) (hx : xs ≠ []) :
    Spec.avg (xs.map fun x => c * x + t) = c * Spec.avg xs + t := by
  have : (xs.length : ℝ) ≠ 0 := by simpa using hx
  rw [Spec.avg, Spec.avg, sum_map_add', sum_map_mul_left', sum_map_const', List.length_map]
  simp only [List.map_id']
  field_simp

theorem csum_affine (p : ℕ) (c t : ℝ) (xs : List ℝ) (hx : xs ≠ []) :
    Spec.csum p (xs.map fun x => c * x + t) = c ^ p * Spec.csum p xs := by
  rw [Spec.csum, Spec.csum, avg_affine c t xs hx, List.map_map, ← sum_map_mul_left']
  apply sum_map_congr; intro x _
  simp only [Function.comp]
  rw [← mul_pow]; congr 1; ring

theorem svar_affine (bias : Bool) (c t : ℝ) (xs : List ℝ) (hx : xs ≠ []) :
    Spec.svar bias (xs.map fun x => c * x + t) = c ^ 2 * Spec.svar bias xs := by
  rw [Spec.svar, Spec.svar, csum_affine 2 c t xs hx, List.length_map, mul_div_assoc]

theorem svar_affine_pos {bias : Bool} {c : ℝ} (hc : c ≠ 0) (t : ℝ) {xs : List ℝ}
    (hv : 0 < Spec.svar bias xs) : 0 < Spec.svar bias (xs.map fun x => c * x + t) := by
  rw [svar_affine bias c t xs (svar_ne hv).1]
  positivity

/-- C38: changing the unit and the origin of the observation and of the members by `x ↦ c x + t`
(`c ≠ 0`) adds `2 log |c|` to the score; a translation alone (`c = 1`) leaves it unchanged. -/
theorem C38_affine (path : Path) (bias : Bool) (c t y : ℝ) (xs : List ℝ) (hc : c ≠ 0)
    (hv : 0 < Spec.svar bias xs) :
    ∃ s : ℝ, dss1 path bias (fin y) (xs.map fin) = .ok (fin s) ∧
      dss1 path bias (fin (c * y + t)) ((xs.map fun x => c * x + t).map fin)
        = .ok (fin (s + 2 * Real.log |c|)) := by
  refine ⟨_, C38_value path bias y xs hv, ?_⟩
  rw [C38_value path bias _ _ (svar_affine_pos hc t hv), svar_affine bias c t xs (svar_ne hv).1,
    avg_affine c t xs (svar_ne hv).1, Spec.ds, Spec.ds, Real.log_mul (by positivity) hv.ne',
    Real.log_pow, Real.log_abs]
  have e : (c * y + t - (c * Spec.avg xs + t)) ^ 2 / (c ^ 2 * Spec.svar bias xs)
      = (y - Spec.avg xs) ^ 2 / Spec.svar bias xs := by
    rw [show (c * y + t - (c * Spec.avg xs + t)) ^ 2 = c ^ 2 * (y - Spec.avg xs) ^ 2 by ring]
    exact mul_div_mul_left _ _ (by positivity)
  rw [e]
  congr 2
  push_cast; ring

example : (-3 : ℝ) ≠ 0 ∧ 0 < Spec.svar true [1, 2, 6] := by
  constructor <;> simp [Spec.svar, Spec.csum, Spec.avg] <;> norm_num

theorem C38_translation (path : Path) (bias : Bool) (t y : ℝ) (xs : List ℝ)
    (hv : 0 < Spec.svar bias xs) :
    dss1 path bias (fin (y + t)) ((xs.map fun x => x + t).map fin)
      = dss1 path bias (fin y) (xs.map fin) := by
  obtain ⟨s, h1, h2⟩ := C38_affine path bias 1 t y xs one_ne_zero hv
  simp only [one_mul, abs_one, Real.log_one, mul_zero, add_zero] at h2
  rw [h1, h2]

example : (-3 : ℝ) ≠ 0 ∧ 0 < Spec.svar false [1, 2, 6] := by
  constructor <;> simp [Spec.svar, Spec.csum, Spec.avg] <;> norm_num

/-! ### propriety -/

/-- With `r = v0 / v`: `r - 1 ≥ log r`, with equality only at `r = 1`. -/
theorem ds_gap {v0 v d : ℝ} (h0 : 0 < v0) (h : 0 < v) :
    1 + Real.log v0 ≤ (v0 + d ^ 2) / v + Real.log v ∧
      ((v0 + d ^ 2) / v + Real.log v = 1 + Real.log v0 → d = 0 ∧ v = v0) := by
  have hr : 0 < v0 / v := by positivity
  have h1 := Real.log_le_sub_one_of_pos hr
  rw [Real.log_div h0.ne' h.ne'] at h1
  have e : (v0 + d ^ 2) / v = v0 / v + d ^ 2 / v := add_div _ _ _
  have hd : 0 ≤ d ^ 2 / v := by positivity
  refine ⟨by rw [e]; linarith, fun he => ?_⟩
  rw [e] at he
  have hv : v = v0 := by
    by_contra hne
    have := Real.log_lt_sub_one_of_pos hr (by
      intro h'; rw [div_eq_one_iff_eq h.ne'] at h'; exact hne h'.symm)
    rw [Real.log_div h0.ne' h.ne'] at this
    linarith
  refine ⟨?_, hv⟩
  subst hv
  rw [div_self h.ne'] at he
  have : d ^ 2 / v = 0 := by linarith
  rcases div_eq_zero_iff.1 this with h' | h'
  · exact pow_eq_zero_iff (two_ne_zero) |>.1 h'
  · exact absurd h' h.ne'

/-- The expected Dawid-Sebastiani score under an outcome of mean `μ0` and variance `v0`. -/
theorem ds_integral {Ω : Type*} [MeasurableSpace Ω] (P : Measure Ω) [IsProbabilityMeasure P]
    (Y : Ω → ℝ) (μ0 v0 : ℝ) (h1 : Integrable Y P) (h2 : Integrable (fun ω => (Y ω - μ0) ^ 2) P)
    (hm : ∫ ω, Y ω ∂P = μ0) (hv : ∫ ω, (Y ω - μ0) ^ 2 ∂P = v0) (μ v : ℝ) :
    ∫ ω, Spec.ds μ v (Y ω) ∂P = (v0 + (μ0 - μ) ^ 2) / v + Real.log v := by
  have e : ∀ ω, Spec.ds μ v (Y ω)
      = (Y ω - μ0) ^ 2 * (1 / v) + (Y ω * (2 * (μ0 - μ) / v)
        + (((μ0 - μ) ^ 2 - 2 * (μ0 - μ) * μ0) / v + Real.log v)) := by
    intro ω; rw [Spec.ds]; ring
  simp only [e]
  have hi : Integrable (fun ω => Y ω * (2 * (μ0 - μ) / v)
      + (((μ0 - μ) ^ 2 - 2 * (μ0 - μ) * μ0) / v + Real.log v)) P :=
    (h1.mul_const _).add (integrable_const _)
  rw [integral_add (h2.mul_const _) hi, integral_add (h1.mul_const _) (integrable_const _),
    integral_mul_const, integral_mul_const, hm, hv, integral_const]
  simp only [probReal_univ, smul_eq_mul]
  ring

/-- C38: for every outcome with finite mean `μ0` and variance `v0 > 0`, the expected score of an
ensemble is at least `1 + log v0`, the expected score of a forecast with the true mean and variance,
and only ensembles whose mean and variance are the true ones attain it. -/
theorem C38_proper {Ω : Type*} [MeasurableSpace Ω] (P : Measure Ω) [IsProbabilityMeasure P]
    (Y : Ω → ℝ) (μ0 v0 : ℝ) (h1 : Integrable Y P) (h2 : Integrable (fun ω => (Y ω - μ0) ^ 2) P)
    (hm : ∫ ω, Y ω ∂P = μ0) (hv : ∫ ω, (Y ω - μ0) ^ 2 ∂P = v0) (h0 : 0 < v0)
    (path : Path) (bias : Bool) (xs : List ℝ) (hx : 0 < Spec.svar bias xs) :
    ∃ s : ℝ → ℝ, (∀ y, dss1 path bias (fin y) (xs.map fin) = .ok (fin (s y))) ∧
      1 + Real.log v0 ≤ ∫ ω, s (Y ω) ∂P ∧
      (∫ ω, s (Y ω) ∂P = 1 + Real.log v0 ↔ Spec.avg xs = μ0 ∧ Spec.svar bias xs = v0) := by
  refine ⟨fun y => Spec.ds (Spec.avg xs) (Spec.svar bias xs) y,
    fun y => C38_value path bias y xs hx, ?_⟩
  rw [ds_integral P Y μ0 v0 h1 h2 hm hv]
  refine ⟨(ds_gap h0 hx).1, fun h => ?_, fun ⟨h, h'⟩ => ?_⟩
  · obtain ⟨a, b⟩ := (ds_gap h0 hx).2 h
    exact ⟨by linarith, b⟩
  · rw [h, h']
    simp [h0.ne']

/-- The hypotheses on the outcome are met, for instance, by the distribution giving weight one half
to each of `0` and `2` (mean 1, variance 1), and an ensemble with these moments is `[0, 2]`. -/
example : ∃ (P : Measure Bool) (_ : IsProbabilityMeasure P) (Y : Bool → ℝ),
    Integrable Y P ∧ Integrable (fun ω => (Y ω - 1) ^ 2) P ∧ ∫ ω, Y ω ∂P = 1 ∧
      ∫ ω, (Y ω - 1) ^ 2 ∂P = 1 ∧ 0 < Spec.svar true [0, 2] ∧ Spec.avg [0, 2] = 1
        ∧ Spec.svar true [0, 2] = 1 := by
  let P : Measure Bool := (ENNReal.ofReal (1/2)) • Measure.dirac true
    + (ENNReal.ofReal (1/2)) • Measure.dirac false
  have hP : IsProbabilityMeasure P := ⟨by
    simp only [P, Measure.add_apply, Measure.smul_apply, measure_univ, smul_eq_mul, mul_one]
    rw [← ENNReal.ofReal_add (by norm_num) (by norm_num)]; norm_num⟩
  have hI : ∀ f : Bool → ℝ, Integrable f P := fun f => Integrable.of_finite
  have hV : ∀ f : Bool → ℝ, ∫ ω, f ω ∂P = (f true + f false) / 2 := by
    intro f
    have hd : ∀ b : Bool, Integrable f (ENNReal.ofReal (1/2) • Measure.dirac b) := fun b =>
      Integrable.smul_measure Integrable.of_finite ENNReal.ofReal_ne_top
    rw [integral_add_measure (hd _) (hd _), integral_smul_measure,
      integral_smul_measure, integral_dirac, integral_dirac,
      ENNReal.toReal_ofReal (by norm_num)]
    simp only [smul_eq_mul]; ring
  refine ⟨P, hP, fun b => if b then 2 else 0, hI _, hI _, ?_, ?_, ?_, ?_, ?_⟩
  · rw [hV]; simp
  · rw [hV]; norm_num
  all_goals simp [Spec.svar, Spec.csum, Spec.avg] <;> norm_num

/-! ### slices -/

/-- C38: on arrays of any shape `dssuv_ensemble` scores every slice along the ensemble axis
separately. -/
theorem C38_slicewise (path : Path) (bias : Bool) {obs fct : Arr XF} {m : ℤ} {k : ℕ}
    (h : Spec.AxisIs m fct.ndim k) (hs : obs.shape = fct.shape.eraseIdx k) :
    ∃ out, dssuvEnsemble path obs fct m bias = .ok out ∧ out.shape = obs.shape ∧
      ∀ i, Arr.Valid obs.shape i →
        dss1 path bias (obs.get i) (fct.sliceAt k i) = .ok (out.get i) := by
  rw [dssuv_eq, uvScore_none h hs]
  refine ⟨_, rfl, rfl, fun i _ => ?_⟩
  rw [dss1_eq]
  simp only [perSlice, Arr.row_moveLast]
  cases path <;> rfl

example : Spec.AxisIs 0 (Arr.ofRows 3 [[1, 2, 3], [4, 5, 6]] : Arr XF).ndim 0 ∧
    (Arr.ofList [7, 8, 9] : Arr XF).shape
      = (Arr.ofRows 3 [[1, 2, 3], [4, 5, 6]] : Arr XF).shape.eraseIdx 0 := by
  refine ⟨by constructor <;> simp [Arr.ndim, Arr.ofRows], by simp [Arr.ofRows, Arr.ofList]⟩

end Verif
