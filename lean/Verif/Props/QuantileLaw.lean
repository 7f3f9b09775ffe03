import Verif.Props.Quantile
import Verif.Props.Brier
import Verif.Spec.Elicit
import Mathlib.MeasureTheory.Integral.Bochner.Basic
import Mathlib.MeasureTheory.Measure.Real
import Mathlib.MeasureTheory.Measure.Dirac

/-!
# Property C108: quantile, interval and weighted interval scores are smallest for quantiles of the law

The expectation is over an arbitrary law of the observation with a finite mean.
-/

noncomputable section

open scoped Classical
open MeasureTheory

namespace Verif

open XF Py Api Spec

/-! ### Expected pinball loss -/

variable {P : Measure ℝ} [IsProbabilityMeasure P]

theorem pinball_integrable (hP : Integrable (fun y => y) P) (α q : ℝ) : Integrable (fun y => pinball α q y) P := by
  have h : (fun y => pinball α q y) = fun y => α * (y - q) + max (q - y) 0 := by
    funext y; exact pinball_eq_le α q y
  rw [h]
  have h1 : Integrable (fun y : ℝ => y - q) P := hP.sub (integrable_const q)
  have h2 : Integrable (fun y : ℝ => q - y) P := (integrable_const q).sub hP
  exact (h1.const_mul α).add h2.pos_part

theorem step_le {f g : ℝ → ℝ} (hf : Integrable f P) (hg : Integrable g P) (c α : ℝ) {s : Set ℝ}
    (hs : MeasurableSet s) (h : ∀ y, c * (s.indicator 1 y - α) ≤ f y - g y) :
    c * (P.real s - α) ≤ ∫ y, f y ∂P - ∫ y, g y ∂P := by
  have hi : Integrable (s.indicator (1 : ℝ → ℝ)) P := (integrable_const (1:ℝ)).indicator hs
  rw [← integral_sub hf hg]
  have e : ∫ y, c * (s.indicator 1 y - α) ∂P = c * (P.real s - α) := by
    rw [integral_const_mul, integral_sub hi (integrable_const α), integral_indicator_one hs]
    simp
  rw [← e]
  exact integral_mono ((hi.sub (integrable_const α)).const_mul c) (hf.sub hg) h

theorem step_up_ind (α : ℝ) {q r : ℝ} (h : q ≤ r) (x : ℝ) :
    (r - q) * ((Set.Iic q).indicator 1 x - α) ≤ pinball α r x - pinball α q x := by
  have := pinball_step_up α h x
  rw [Set.indicator_apply]
  simpa using this

theorem step_down_ind (α : ℝ) {q r : ℝ} (h : r ≤ q) (x : ℝ) :
    (r - q) * ((Set.Iio q).indicator 1 x - α) ≤ pinball α r x - pinball α q x := by
  have := pinball_step_down α h x
  rw [Set.indicator_apply]
  simpa using this

theorem exists_right {α q : ℝ} (h : P.real (Set.Iic q) < α) : ∃ r, q < r ∧ P.real (Set.Iic r) < α := by
  have hinter : (⋂ n : ℕ, Set.Iic (q + 1 / (n + 1 : ℝ))) = Set.Iic q := by
    ext x
    simp only [Set.mem_iInter, Set.mem_Iic]
    constructor
    · intro hx
      refine le_of_forall_pos_le_add fun ε hε => ?_
      obtain ⟨n, hn⟩ := exists_nat_one_div_lt hε
      exact (hx n).trans (by linarith)
    · intro hx n
      have : (0:ℝ) ≤ 1 / (n + 1 : ℝ) := by positivity
      linarith
  have ht := tendsto_measure_iInter_atTop (μ := P) (s := fun n : ℕ => Set.Iic (q + 1 / (n + 1 : ℝ)))
    (fun n => measurableSet_Iic.nullMeasurableSet)
    (fun m n hmn => Set.Iic_subset_Iic.2 (by
      have : (1:ℝ) / (n + 1) ≤ 1 / (m + 1) := by
        apply one_div_le_one_div_of_le (by positivity)
        exact_mod_cast Nat.succ_le_succ hmn
      linarith)) ⟨0, measure_ne_top _ _⟩
  rw [hinter] at ht
  have ht' := (ENNReal.tendsto_toReal (measure_ne_top P (Set.Iic q))).comp ht
  obtain ⟨n, hn⟩ := (ht'.eventually (eventually_lt_nhds h)).exists
  exact ⟨q + 1 / (n + 1), by have : (0:ℝ) < 1 / (n + 1 : ℝ) := by positivity
                             linarith, hn⟩

theorem exists_left {α q : ℝ} (h : α < P.real (Set.Iio q)) : ∃ r, r < q ∧ α < P.real (Set.Iic r) := by
  have hun : (⋃ n : ℕ, Set.Iic (q - 1 / (n + 1 : ℝ))) = Set.Iio q := by
    ext x
    simp only [Set.mem_iUnion, Set.mem_Iic, Set.mem_Iio]
    constructor
    · rintro ⟨n, hn⟩
      have : (0:ℝ) < 1 / (n + 1 : ℝ) := by positivity
      linarith
    · intro hx
      obtain ⟨n, hn⟩ := exists_nat_one_div_lt (sub_pos.2 hx)
      exact ⟨n, by linarith⟩
  have ht := tendsto_measure_iUnion_atTop (μ := P) (s := fun n : ℕ => Set.Iic (q - 1 / (n + 1 : ℝ)))
    (fun m n hmn => Set.Iic_subset_Iic.2 (by
      have : (1:ℝ) / (n + 1) ≤ 1 / (m + 1) := by
        apply one_div_le_one_div_of_le (by positivity)
        exact_mod_cast Nat.succ_le_succ hmn
      linarith))
  rw [hun] at ht
  have ht' := (ENNReal.tendsto_toReal (measure_ne_top P (Set.Iio q))).comp ht
  obtain ⟨n, hn⟩ := (ht'.eventually (eventually_gt_nhds h)).exists
  exact ⟨q - 1 / (n + 1), by have : (0:ℝ) < 1 / (n + 1 : ℝ) := by positivity
                             linarith, hn⟩

/-- The expected pinball loss is smallest exactly at the quantiles. -/
theorem pinball_min_iff (hP : Integrable (fun y => y) P) (α q : ℝ) :
    (∀ r, ∫ y, pinball α q y ∂P ≤ ∫ y, pinball α r y ∂P) ↔ LawQuantile P α q := by
  have hI := fun r => pinball_integrable (P := P) hP α r
  constructor
  · intro h
    constructor
    · by_contra hc
      obtain ⟨r, hr, hr'⟩ := exists_left (not_le.1 hc)
      have h1 := h r
      have h2 := step_le (hI q) (hI r) (q - r) α measurableSet_Iic (step_up_ind α hr.le)
      nlinarith
    · by_contra hc
      obtain ⟨r, hr, hr'⟩ := exists_right (not_le.1 hc)
      have h1 := h r
      have h2 := step_le (hI q) (hI r) (q - r) α measurableSet_Iio (step_down_ind α hr.le)
      have h3 : P.real (Set.Iio r) ≤ P.real (Set.Iic r) := measureReal_mono Set.Iio_subset_Iic_self
      nlinarith
  · intro h r
    rcases le_total q r with hqr | hqr
    · have h2 := step_le (hI r) (hI q) (r - q) α measurableSet_Iic (step_up_ind α hqr)
      nlinarith [mul_nonneg (sub_nonneg.2 hqr) (sub_nonneg.2 h.2)]
    · have h2 := step_le (hI r) (hI q) (r - q) α measurableSet_Iio (step_down_ind α hqr)
      nlinarith [mul_nonneg (sub_nonneg.2 hqr) (sub_nonneg.2 h.1)]

/-! ### Best reports -/

theorem hasMean_unique {α : Type*} [MeasurableSpace α] {P : Measure α} {S : α → XF} {e e' : ℝ}
    (h : HasMean P S e) (h' : HasMean P S e') : e = e' := by
  obtain ⟨s, h1, -, rfl⟩ := h
  obtain ⟨t, h2, -, rfl⟩ := h'
  refine integral_congr_ae ?_
  filter_upwards [h1, h2] with y hy hy'
  exact fin_inj.1 (hy.symm.trans hy')

theorem best_iff {ρ α : Type*} [MeasurableSpace α] {P : Measure α} {S : ρ → α → XF} {E : ρ → ℝ}
    (h : ∀ r, HasMean P (S r) (E r)) (r : ρ) : Best P S r ↔ ∀ r', E r ≤ E r' := by
  constructor
  · rintro ⟨E', h1, h2⟩ r'
    rw [hasMean_unique (h r) (h1 r), hasMean_unique (h r') (h1 r')]
    exact h2 r'
  · exact fun h' => ⟨E, h, h'⟩

theorem hasMean_fin {α : Type*} [MeasurableSpace α] {P : Measure α} {s : α → ℝ} (h : Integrable s P) :
    HasMean P (fun y => fin (s y)) (∫ y, s y ∂P) := ⟨s, Filter.Eventually.of_forall fun _ => rfl, h, rfl⟩

/-- A sum of functions of separate arguments is smallest where each of them is. -/
theorem separate_min {ι ρ : Type*} [Fintype ι] (f : ι → ρ → ℝ) (r : ι → ρ) :
    (∀ r' : ι → ρ, ∑ i, f i (r i) ≤ ∑ i, f i (r' i)) ↔ ∀ i x, f i (r i) ≤ f i x := by
  constructor
  · intro h i x
    have := h (Function.update r i x)
    rw [← Finset.add_sum_erase _ _ (Finset.mem_univ i), ← Finset.add_sum_erase _ _ (Finset.mem_univ i)] at this
    rw [Function.update_self] at this
    have e : ∑ j ∈ Finset.univ.erase i, f j (Function.update r i x j) = ∑ j ∈ Finset.univ.erase i, f j (r j) :=
      Finset.sum_congr rfl fun j hj => by rw [Function.update_of_ne (Finset.ne_of_mem_erase hj)]
    rw [e] at this
    linarith
  · exact fun h r' => Finset.sum_le_sum fun i _ => h i _

theorem pair_min {ρ σ : Type*} (f : ρ → ℝ) (g : σ → ℝ) (a : ρ) (b : σ) :
    (∀ p : ρ × σ, f a + g b ≤ f p.1 + g p.2) ↔ (∀ x, f a ≤ f x) ∧ ∀ x, g b ≤ g x :=
  ⟨fun h => ⟨fun x => by linarith [h (x, b)], fun x => by linarith [h (a, x)]⟩,
    fun h p => add_le_add (h.1 _) (h.2 _)⟩

/-! ### Quantile score -/

theorem quantile_item (y q : ℝ) {α : ℝ} (h0 : 0 ≤ α) (h1 : α ≤ 1) :
    item (Quantile.score (Arr.scalar (fin y)) (Arr.scalar (fin q)) (Arr.scalar (fin α)))
      = .ok (fin (pinball α q y)) := by
  obtain ⟨out, e1, e2, e3⟩ := C26_quantile_score_value (obs := Arr.scalar y) (fct := Arr.scalar q)
    (alpha := Arr.scalar α) (s := []) (by simp [Arr.bcast, Arr.bshape, Arr.bshapeR, Arr.scalar])
    (fun i _ => ⟨h0, h1⟩)
  have : Quantile.score (Arr.scalar (fin y)) (Arr.scalar (fin q)) (Arr.scalar (fin α)) = .ok out := e1
  rw [this]
  show Except.ok (out.get []) = _
  rw [e3]
  rfl

/-- C108: whatever the law of the observation (with a finite mean), the reports with the smallest expected
`quantile_score` at level `α` are the quantiles of that law at level `α`, and only they. -/
theorem C108_quantile {α : ℝ} (h0 : 0 ≤ α) (h1 : α ≤ 1) :
    ∃ S : ℝ → ℝ → XF,
      (∀ q y, item (Quantile.score (Arr.scalar (fin y)) (Arr.scalar (fin q)) (Arr.scalar (fin α)))
        = .ok (S q y)) ∧
      ∀ P : Measure ℝ, IsProbabilityMeasure P → Integrable (fun y => y) P →
        ∀ q, Best P S q ↔ LawQuantile P α q :=
  ⟨fun q y => fin (pinball α q y), fun q y => quantile_item y q h0 h1, fun P _ hP q => by
    rw [best_iff fun r => hasMean_fin (pinball_integrable hP α r)]
    exact pinball_min_iff hP α q⟩

/-- level 1/10, an observation that is always 3: a law with a finite mean -/
example : (0:ℝ) ≤ 1 / 10 ∧ (1 / 10 : ℝ) ≤ 1 ∧ IsProbabilityMeasure (Measure.dirac (3:ℝ)) ∧
    Integrable (fun y : ℝ => y) (Measure.dirac (3:ℝ)) ∧ LawQuantile (Measure.dirac (3:ℝ)) (1 / 10) 3 := by
  refine ⟨by norm_num, by norm_num, inferInstance, integrable_dirac (by simp), ?_, ?_⟩
  · simp [Measure.real]
  · simp [Measure.real]; norm_num

/-! ### Interval score -/

theorem intervalScore_integrable (hP : Integrable (fun y => y) P) {α : ℝ} (h : α ≠ 0) (l u : ℝ) :
    Integrable (fun y => intervalScore α l u y) P ∧
      ∫ y, intervalScore α l u y ∂P
        = 2 / α * ∫ y, pinball (α / 2) l y ∂P + 2 / α * ∫ y, pinball (1 - α / 2) u y ∂P := by
  have h1 := pinball_integrable (P := P) hP (α / 2) l
  have h2 := pinball_integrable (P := P) hP (1 - α / 2) u
  simp only [intervalScore_eq h]
  refine ⟨(h1.add h2).const_mul _, ?_⟩
  rw [integral_const_mul, integral_add h1 h2, mul_add]

theorem pos_mul_min {ρ : Type*} (f : ρ → ℝ) {c : ℝ} (hc : 0 < c) (a : ρ) :
    (∀ x, c * f a ≤ c * f x) ↔ ∀ x, f a ≤ f x :=
  forall_congr' fun _ => mul_le_mul_iff_right₀ hc

theorem interval_min_iff (hP : Integrable (fun y => y) P) {α : ℝ} (h : 0 < α) (b : ℝ × ℝ) :
    (∀ b' : ℝ × ℝ, ∫ y, intervalScore α b.1 b.2 y ∂P ≤ ∫ y, intervalScore α b'.1 b'.2 y ∂P) ↔
      LawQuantile P (α / 2) b.1 ∧ LawQuantile P (1 - α / 2) b.2 := by
  simp only [fun l u => (intervalScore_integrable hP h.ne' l u).2]
  have hc : 0 < 2 / α := by positivity
  rw [pair_min (fun l => 2 / α * ∫ y, pinball (α / 2) l y ∂P)
    (fun u => 2 / α * ∫ y, pinball (1 - α / 2) u y ∂P),
    pos_mul_min (fun l => ∫ y, pinball (α / 2) l y ∂P) hc,
    pos_mul_min (fun u => ∫ y, pinball (1 - α / 2) u y ∂P) hc, pinball_min_iff hP, pinball_min_iff hP]

/-- C108: the intervals with the smallest expected `interval_score` are those between a quantile at level
`α / 2` and a quantile at level `1 - α / 2`. -/
theorem C108_interval {α : ℝ} (h : 0 < α) :
    ∃ S : ℝ × ℝ → ℝ → XF,
      (∀ b y, item (Interval.score (Arr.scalar (fin y)) (Arr.scalar (fin b.1)) (Arr.scalar (fin b.2))
        (Arr.scalar (fin α))) = .ok (S b y)) ∧
      ∀ P : Measure ℝ, IsProbabilityMeasure P → Integrable (fun y => y) P →
        ∀ b, Best P S b ↔ LawQuantile P (α / 2) b.1 ∧ LawQuantile P (1 - α / 2) b.2 :=
  ⟨fun b y => fin (intervalScore α b.1 b.2 y), fun b y => by
      obtain ⟨out, e1, e2, e3⟩ := C27_interval_score_scalar y b.1 b.2 h
      rw [e1]
      exact congrArg Except.ok e3,
    fun P _ hP b => by
      exact (best_iff (S := fun b y => fin (intervalScore α b.1 b.2 y))
        (E := fun b => ∫ y, intervalScore α b.1 b.2 y ∂P)
        (fun r => hasMean_fin (intervalScore_integrable hP h.ne' r.1 r.2).1) b).trans
        (interval_min_iff hP h b)⟩

/-- the 90 % interval -/
example : (0:ℝ) < 1 / 10 := by norm_num

/-! ### Quantile forecasts scored by `crps_quantile` -/

theorem crpsQuantile_item (path : Path) (y : ℝ) {l : List (ℝ × ℝ)} (hl : l ≠ [])
    (ha : ∀ p ∈ l, 0 < p.2 ∧ p.2 < 1) :
    item (crpsQuantile path (Arr.scalar (fin y)) (Arr.ofList (l.map fun p => fin p.1))
      (l.map fun p => fin p.2) (-1)) = .ok (fin (2 * ((l.map fun p => pinball p.2 p.1 y).sum / l.length))) := by
  unfold crpsQuantile
  rw [arrayCheck_axis (k := 0) ⟨by simp [Arr.ndim, Arr.ofList], Or.inr (by simp [Arr.ndim, Arr.ofList])⟩
    (by simp [Arr.scalar, Arr.ofList])]
  simp only [bind, Except.bind]
  rw [if_neg, if_neg]
  · cases path
    · show Except.ok (Gufunc.quantilePinball (fin y) (Arr.row _ []) _) = _
      rw [Arr.row_moveLast, sliceAt_ofList, Gufunc.quantilePinball_fin _ _ hl]
    · show Except.ok (Approx.quantilePinball (fin y) (Arr.row _ []) _) = _
      rw [Arr.row_moveLast, sliceAt_ofList, Approx.quantilePinball_fin _ _ hl]
  · simp [Arr.moveLast, Arr.ofList]
  · rintro (⟨v, hv, h'⟩ | ⟨v, hv, h'⟩)
    · obtain ⟨p, hp, rfl⟩ := List.mem_map.1 hv
      rw [zero_def, fin_le] at h'
      linarith [(ha p hp).1]
    · obtain ⟨p, hp, rfl⟩ := List.mem_map.1 hv
      rw [one_def, fin_le] at h'
      linarith [(ha p hp).2]

/-- C108: the forecasts with the smallest expected `crps_quantile` are the vectors of quantiles at the given
levels. -/
theorem C108_crps_quantile (path : Path) {K : ℕ} (hK : 0 < K) {α : Fin K → ℝ}
    (ha : ∀ k, 0 < α k ∧ α k < 1) :
    ∃ S : (Fin K → ℝ) → ℝ → XF,
      (∀ q y, item (crpsQuantile path (Arr.scalar (fin y)) (Arr.ofList (List.ofFn fun k => fin (q k)))
        (List.ofFn fun k => fin (α k)) (-1)) = .ok (S q y)) ∧
      ∀ P : Measure ℝ, IsProbabilityMeasure P → Integrable (fun y => y) P →
        ∀ q, Best P S q ↔ ∀ k, LawQuantile P (α k) (q k) := by
  refine ⟨fun q y => fin (2 * ((∑ k, pinball (α k) (q k) y) / K)), fun q y => ?_, fun P _ hP q => ?_⟩
  · have := crpsQuantile_item path y (l := List.ofFn fun k => (q k, α k))
      (by intro h; have := congrArg List.length h; simp at this; omega)
      (by intro a h; obtain ⟨k, rfl⟩ := List.mem_ofFn.1 h; exact ha k)
    simpa only [List.map_ofFn, Function.comp_def, List.sum_ofFn, List.length_ofFn] using this
  · have hI : ∀ r : Fin K → ℝ, Integrable (fun y => 2 * ((∑ k, pinball (α k) (r k) y) / K)) P := fun r =>
      ((integrable_finsetSum _ fun k _ => pinball_integrable hP (α k) (r k)).div_const _).const_mul _
    rw [best_iff fun r => hasMean_fin (hI r)]
    have hE : ∀ r : Fin K → ℝ, ∫ y, 2 * ((∑ k, pinball (α k) (r k) y) / K) ∂P
        = 2 / K * ∑ k, ∫ y, pinball (α k) (r k) y ∂P := by
      intro r
      rw [integral_const_mul, integral_div, integral_finsetSum _ fun k _ => pinball_integrable hP (α k) (r k)]
      ring
    simp only [hE]
    have hc : (0:ℝ) < 2 / K := by have : (0:ℝ) < K := by exact_mod_cast hK
                                  positivity
    rw [pos_mul_min (fun r : Fin K → ℝ => ∑ k, ∫ y, pinball (α k) (r k) y ∂P) hc,
      separate_min (fun k x => ∫ y, pinball (α k) x y ∂P)]
    exact forall_congr' fun k => pinball_min_iff hP _ _

/-- levels 1/4, 1/2 and 3/4 -/
example : ∀ k : Fin 3, (0:ℝ) < (![1 / 4, 1 / 2, 3 / 4] : Fin 3 → ℝ) k ∧ (![1 / 4, 1 / 2, 3 / 4] : Fin 3 → ℝ) k < 1 := by
  intro k; fin_cases k <;> norm_num

/-! ### Weighted interval score -/

theorem abs_pinball (m y : ℝ) : |y - m| = 2 * pinball (1 / 2) m y := by
  rw [pinball_eq_le]
  rcases le_total m y with h' | h'
  · rw [max_eq_right (by linarith), abs_of_nonneg (by linarith)]; ring
  · rw [max_eq_left (by linarith), abs_of_nonpos (by linarith)]; ring

/-- the weighted interval score with the reports as functions of the interval -/
def wisFn {K : ℕ} (α w : Fin K → ℝ) (w0 : ℝ) (r : ℝ × (Fin K → ℝ × ℝ)) (y : ℝ) : ℝ :=
  wis w0 r.1 y (List.ofFn fun k => ((r.2 k).1, (r.2 k).2, α k, w k))

theorem wis_get {K : ℕ} (α w : Fin K → ℝ) (w0 : ℝ) (r : ℝ × (Fin K → ℝ × ℝ)) (y : ℝ) (ha : ∀ k, α k ≠ 0) :
    (Interval.wis true (Arr.scalar (fin y)) (Arr.scalar (fin r.1))
        (Arr.ofList (List.ofFn fun k => fin (r.2 k).1)) (Arr.ofList (List.ofFn fun k => fin (r.2 k).2))
        (List.ofFn fun k => fin (α k)) (some (fin w0)) (some (List.ofFn fun k => fin (w k)))).get []
      = fin (wisFn α w w0 r y) := by
  have := C28_wis_numba y r.1 w0 (List.ofFn fun k => ((r.2 k).1, (r.2 k).2, α k, w k))
    (by intro p h; obtain ⟨k, rfl⟩ := List.mem_ofFn.1 h; exact ha k)
  unfold ivL ivU ivA ivW at this
  simp only [List.map_ofFn, Function.comp_def] at this
  show Interval.wisGufunc (fin y) (fin r.1) (Arr.row _ []) (Arr.row _ []) _ (fin w0) _ = _
  rw [row_ofList, row_ofList]
  exact this

theorem wisFn_mean (hP : Integrable (fun y => y) P) {K : ℕ} {α w : Fin K → ℝ} {w0 : ℝ} (ha : ∀ k, α k ≠ 0)
    (r : ℝ × (Fin K → ℝ × ℝ)) :
    Integrable (fun y => wisFn α w w0 r y) P ∧ ∫ y, wisFn α w w0 r y ∂P
      = 1 / (K + 1 / 2) * (2 * w0 * ∫ y, pinball (1 / 2) r.1 y ∂P
        + ∑ k, w k * ∫ y, intervalScore (α k) (r.2 k).1 (r.2 k).2 y ∂P) := by
  have e : (fun y => wisFn α w w0 r y) = fun y => 1 / (K + 1 / 2) * (2 * w0 * pinball (1 / 2) r.1 y
      + ∑ k, w k * intervalScore (α k) (r.2 k).1 (r.2 k).2 y) := by
    funext y
    unfold wisFn wis
    rw [List.map_ofFn, List.sum_ofFn, List.length_ofFn, abs_pinball]
    simp only [Function.comp_apply]
    ring
  have h1 : Integrable (fun y => 2 * w0 * pinball (1 / 2) r.1 y) P :=
    (pinball_integrable hP _ _).const_mul _
  have h2 : ∀ k ∈ Finset.univ, Integrable (fun y => w k * intervalScore (α k) (r.2 k).1 (r.2 k).2 y) P :=
    fun k _ => (intervalScore_integrable hP (ha k) _ _).1.const_mul _
  have h3 := integrable_finsetSum _ h2
  rw [e]
  refine ⟨(h1.add h3).const_mul _, ?_⟩
  rw [integral_const_mul, integral_add h1 h3, integral_finsetSum _ h2, integral_const_mul]
  simp only [integral_const_mul]

/-- C108, the part that holds (numba; false on the array backends, see below): with positive weights, the reports
with the smallest expected `weighted_interval_score` are a median and the intervals between the quantiles at levels
`α / 2` and `1 - α / 2`. -/
theorem C108_wis_partial {K : ℕ} {α w : Fin K → ℝ} {w0 : ℝ} (ha : ∀ k, 0 < α k) (hw : ∀ k, 0 < w k)
    (h0 : 0 < w0) :
    ∃ S : ℝ × (Fin K → ℝ × ℝ) → ℝ → XF,
      (∀ r y, (Interval.wis true (Arr.scalar (fin y)) (Arr.scalar (fin r.1))
        (Arr.ofList (List.ofFn fun k => fin (r.2 k).1)) (Arr.ofList (List.ofFn fun k => fin (r.2 k).2))
        (List.ofFn fun k => fin (α k)) (some (fin w0)) (some (List.ofFn fun k => fin (w k)))).get []
          = S r y) ∧
      ∀ P : Measure ℝ, IsProbabilityMeasure P → Integrable (fun y => y) P →
        ∀ r, Best P S r ↔ LawQuantile P (1 / 2) r.1 ∧
          ∀ k, LawQuantile P (α k / 2) (r.2 k).1 ∧ LawQuantile P (1 - α k / 2) (r.2 k).2 := by
  refine ⟨fun r y => fin (wisFn α w w0 r y), fun r y => wis_get α w w0 r y fun k => (ha k).ne',
    fun P _ hP r => ?_⟩
  have hI := fun r => wisFn_mean (P := P) hP (α := α) (w := w) (w0 := w0) (fun k => (ha k).ne') r
  rw [best_iff (E := fun r => ∫ y, wisFn α w w0 r y ∂P) fun r => hasMean_fin (hI r).1]
  simp only [fun r => (hI r).2]
  have hc : (0:ℝ) < 1 / (K + 1 / 2) := by positivity
  have hm : 0 < 2 * w0 := by linarith
  rw [pos_mul_min (fun r : ℝ × (Fin K → ℝ × ℝ) => 2 * w0 * ∫ y, pinball (1 / 2) r.1 y ∂P
      + ∑ k, w k * ∫ y, intervalScore (α k) (r.2 k).1 (r.2 k).2 y ∂P) hc,
    pair_min (fun m => 2 * w0 * ∫ y, pinball (1 / 2) m y ∂P)
      (fun b : Fin K → ℝ × ℝ => ∑ k, w k * ∫ y, intervalScore (α k) (b k).1 (b k).2 y ∂P),
    pos_mul_min (fun m => ∫ y, pinball (1 / 2) m y ∂P) hm, pinball_min_iff hP,
    separate_min (fun k (b : ℝ × ℝ) => w k * ∫ y, intervalScore (α k) b.1 b.2 y ∂P)]
  refine and_congr_right fun _ => forall_congr' fun k => ?_
  rw [pos_mul_min (fun b : ℝ × ℝ => ∫ y, intervalScore (α k) b.1 b.2 y ∂P) (hw k)]
  exact interval_min_iff hP (ha k) (r.2 k)

/-- two intervals at levels 1/10 and 1/2 -/
example : (∀ k : Fin 2, (0:ℝ) < (![1 / 10, 1 / 2] : Fin 2 → ℝ) k) ∧
    ∀ k : Fin 2, (0:ℝ) < (![1 / 20, 1 / 4] : Fin 2 → ℝ) k := by
  constructor <;> intro k <;> fin_cases k <;> norm_num

/-- C108 is false of `weighted_interval_score` on the array backends: as the median enters as such instead of by
its distance from the observation, no report is a best one, whatever the law of the observation. -/
theorem C108_wis_array_false {K : ℕ} {α w : Fin K → ℝ} {w0 : ℝ} (ha : ∀ k, 0 < α k) (h0 : 0 < w0) :
    ∃ S : ℝ × (Fin K → ℝ × ℝ) → ℝ → XF,
      (∀ r y, (Interval.wis false (Arr.scalar (fin y)) (Arr.scalar (fin r.1))
        (Arr.ofList (List.ofFn fun k => fin (r.2 k).1)) (Arr.ofList (List.ofFn fun k => fin (r.2 k).2))
        (List.ofFn fun k => fin (α k)) (some (fin w0)) (some (List.ofFn fun k => fin (w k)))).get []
          = S r y) ∧
      ∀ P : Measure ℝ, IsProbabilityMeasure P → Integrable (fun y => y) P → ∀ r, ¬ Best P S r := by
  refine ⟨fun r y => fin (wisFn α w w0 r y + w0 * (r.1 - |y - r.1|) / (K + 1 / 2)), fun r y => ?_,
    fun P _ hP r => ?_⟩
  · have := C28_wis_array_partial y r.1 w0 (List.ofFn fun k => ((r.2 k).1, (r.2 k).2, α k, w k))
      (by intro p h; obtain ⟨k, rfl⟩ := List.mem_ofFn.1 h; exact (ha k).ne')
    unfold ivL ivU ivA ivW at this
    simp only [List.map_ofFn, Function.comp_def, List.length_ofFn] at this
    show Interval.wisArray (fin y) (fin r.1) (Arr.row _ []) (Arr.row _ []) _ (fin w0) _ = _
    rw [row_ofList, row_ofList]
    exact this
  · have hI := fun r => wisFn_mean (P := P) hP (α := α) (w := w) (w0 := w0) (fun k => (ha k).ne') r
    have habs : ∀ m : ℝ, Integrable (fun y => |y - m|) P := fun m => (hP.sub (integrable_const m)).abs
    have hI' : ∀ r : ℝ × (Fin K → ℝ × ℝ), Integrable
        (fun y => wisFn α w w0 r y + w0 * (r.1 - |y - r.1|) / (K + 1 / 2)) P := fun r =>
      (hI r).1.add ((((integrable_const r.1).sub (habs r.1)).const_mul w0).div_const _)
    rw [best_iff (E := fun r => ∫ y, (wisFn α w w0 r y + w0 * (r.1 - |y - r.1|) / (K + 1 / 2)) ∂P)
      fun r => hasMean_fin (hI' r)]
    have hE : ∀ r : ℝ × (Fin K → ℝ × ℝ),
        ∫ y, (wisFn α w w0 r y + w0 * (r.1 - |y - r.1|) / (K + 1 / 2)) ∂P
          = 1 / (K + 1 / 2) * (w0 * r.1 + ∑ k, w k * ∫ y, intervalScore (α k) (r.2 k).1 (r.2 k).2 y ∂P) := by
      intro r
      have h4 : Integrable (fun y => w0 * (r.1 - |y - r.1|) / (K + 1 / 2)) P :=
        (((integrable_const r.1).sub (habs r.1)).const_mul w0).div_const _
      rw [integral_add (hI r).1 h4, (hI r).2, integral_div, integral_const_mul, integral_sub (integrable_const r.1) (habs r.1)]
      simp only [abs_pinball]
      rw [integral_const_mul]
      simp
      ring
    intro h
    have := h (r.1 - 1, r.2)
    rw [hE, hE] at this
    have hc : (0:ℝ) < 1 / (K + 1 / 2) := by positivity
    have := (mul_le_mul_iff_right₀ hc).1 this
    dsimp only at this
    linarith

example : (∀ k : Fin 2, (0:ℝ) < (![1 / 10, 1 / 2] : Fin 2 → ℝ) k) ∧ (0:ℝ) < 1 / 2 := by
  constructor
  · intro k; fin_cases k <;> norm_num
  · norm_num

end Verif
