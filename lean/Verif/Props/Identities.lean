import Verif.Props.Brier
import Verif.Props.Quantile
import Verif.Props.Dss
import Verif.Props.Logs
import Verif.Props.Weighted
import Verif.Props.Crps2

/-!
# C115: scores computed by different functions of the package agree where theory says they must

The ensemble CRPS is the integral of Brier scores over all thresholds and twice the integral of quantile scores over
all levels; on the levels `(i - 1/2) / M` the quantile form is exact already as a finite mean.  The ranked probability
score is the weighted ensemble CRPS on the category numbers, and the Dawid-Sebastiani score is the logarithmic score of
the normal law with the ensemble's mean and variance, up to a fixed affine map.
-/

noncomputable section

open scoped Classical

open MeasureTheory

namespace Verif

open XF Py Api Spec

/-! ### Brier scores over all thresholds -/

theorem brier_indicator (F y z : ℝ) :
    brier F (decide (y ≤ z)) = (F - if y ≤ z then 1 else 0) ^ 2 := by
  unfold brier
  by_cases h : y ≤ z <;> simp [h]
  ring

theorem brierScore_scalar {p : ℝ} (h0 : 0 ≤ p) (h1 : p ≤ 1) (o : Bool) :
    item (Brier.brierScore (Arr.scalar (fin (if o then 1 else 0))) (Arr.scalar (fin p)))
      = .ok (fin (brier p o)) := by
  obtain ⟨out, h, _, hv⟩ := C30_brier_value (obs := Arr.scalar o) (fct := Arr.scalar p) (s := [])
    (by simp [Arr.scalar, Arr.bshape, Arr.bshapeR]) (fun i _ => ⟨h0, h1⟩)
  have h' : Brier.brierScore (Arr.scalar (fin (if o then 1 else 0))) (Arr.scalar (fin p)) = .ok out := h
  rw [h']
  show Except.ok (out.get []) = _
  rw [hv []]
  simp [Arr.scalar, Arr.bget]

theorem ecdf_nonneg (xs : List ℝ) (z : ℝ) : 0 ≤ ecdf xs z := by unfold ecdf; positivity

theorem ecdf_le_one (xs : List ℝ) (z : ℝ) : ecdf xs z ≤ 1 := by
  unfold ecdf
  exact div_le_one_of_le₀ (by exact_mod_cast List.countP_le_length) (by positivity)

/-- C115: the ensemble CRPS (estimators `nrg`, `qd`, `int`, both paths) is the integral over all thresholds `z` of what
`brier_score` returns for the event "at most `z`" and the fraction of members at most `z`. -/
theorem C115_crps_is_integrated_brier (path : Path) (sorted : Bool) (y : ℝ) (xs : List ℝ) (h : xs ≠ [])
    (hs : sorted = true → xs.Pairwise (· ≤ ·)) {est : String} (he : est = "nrg" ∨ est = "qd" ∨ est = "int") :
    ∃ b : ℝ → ℝ,
      (∀ z, item (Brier.brierScore (Arr.scalar (fin (if y ≤ z then 1 else 0)))
        (Arr.scalar (fin ((xs.countP fun x => decide (x ≤ z) : ℕ) / xs.length)))) = .ok (fin (b z))) ∧
      crps1 path est sorted "propagate" (fin y) (xs.map fin) none = .ok (fin (∫ z, b z)) := by
  refine ⟨fun z => brier (ecdf xs z) (decide (y ≤ z)), fun z => ?_, ?_⟩
  · have := brierScore_scalar (ecdf_nonneg xs z) (ecdf_le_one xs z) (decide (y ≤ z))
    simp only [decide_eq_true_eq] at this
    exact this
  · have e : (∫ z, brier (ecdf xs z) (decide (y ≤ z))) = crps (ecdf xs) y := by
      unfold crps
      congr 1
      funext z
      exact brier_indicator _ _ _
    rw [e]
    rcases he with rfl | he
    · exact C01_nrg_is_integral path sorted y xs h
    · exact C02_qd_int_are_integral path sorted y xs h hs he

example : ([1, 3, 3] : List ℝ) ≠ [] ∧ (true = true → ([1, 3, 3] : List ℝ).Pairwise (· ≤ ·)) := by
  refine ⟨by simp, fun _ => by norm_num⟩

/-- C115: with the default chaining function for the thresholds `a`, `b`, the threshold-weighted CRPS integrates the
same Brier scores over the thresholds between `a` and `b` only. -/
theorem C115_twcrps_is_integrated_brier {obs fct : Arr ℝ} {m : ℤ} {k : ℕ}
    (h : AxisIs m fct.ndim k) (hs : obs.shape = fct.shape.eraseIdx k) (hk : fct.shape.getD k 0 ≠ 0)
    (hne : ∃ i, Arr.Valid obs.shape i) {a b : XF} (ha : a ≠ pinf) (hb : b ≠ ninf) (hab : a ≤ b) (path : Path)
    {est : String} (he : est = "nrg" ∨ est = "qd" ∨ est = "int") :
    ∃ out, twcrpsEnsemble path (obs.map fin) (fct.map fin) (defaultV a b) m none est false "propagate" = .ok out ∧
      out.shape = obs.shape ∧
      ∀ i, Arr.Valid obs.shape i → ∃ β : ℝ → ℝ,
        (∀ z, item (Brier.brierScore (Arr.scalar (fin (if obs.get i ≤ z then 1 else 0)))
          (Arr.scalar (fin (((fct.sliceAt k i).countP fun x => decide (x ≤ z) : ℕ) / (fct.sliceAt k i).length))))
            = .ok (fin (β z))) ∧
        out.get i = fin (∫ z in {z : ℝ | a ≤ fin z ∧ fin z ≤ b}, β z) := by
  obtain ⟨out, h1, h2, h3⟩ := C21_twcrps_is_restricted_integral h hs hk hne ha hb hab path he false (by simp)
  refine ⟨out, h1, h2, fun i hi => ⟨fun z => brier (ecdf (fct.sliceAt k i) z) (decide (obs.get i ≤ z)), fun z => ?_, ?_⟩⟩
  · have := brierScore_scalar (ecdf_nonneg (fct.sliceAt k i) z) (ecdf_le_one _ z) (decide (obs.get i ≤ z))
    simp only [decide_eq_true_eq] at this
    exact this
  · rw [h3 i hi]
    unfold twCrps between
    simp only [brier_indicator]

/-- a temperature above 20 degrees, two forecasts of three members -/
example : let fct : Arr ℝ := ⟨[2, 3], fun i => 19 + i.sum⟩
    let obs : Arr ℝ := ⟨[2], fun i => 20 + i.sum⟩
    AxisIs (-1) fct.ndim 1 ∧ obs.shape = fct.shape.eraseIdx 1 ∧ fct.shape.getD 1 0 ≠ 0 ∧
      Arr.Valid obs.shape [1] ∧ fin 20 ≠ pinf ∧ (pinf : XF) ≠ ninf ∧ fin 20 ≤ pinf := by
  refine ⟨⟨by simp [Arr.ndim], Or.inr (by simp [Arr.ndim])⟩, rfl, by simp, by simp [Arr.Valid],
    by simp, by simp, by simp⟩

/-! ### quantile scores over all levels -/

/-- The levels `(i + 1/2) / M`, `i < M`. -/
def midLevels (M : ℕ) : List ℝ := (List.range M).map fun i : ℕ => ((i : ℝ) + 1 / 2) / M

theorem midLevels_mem {M : ℕ} {a : ℝ} (h : a ∈ midLevels M) : 0 < a ∧ a < 1 := by
  obtain ⟨i, hi, rfl⟩ := List.mem_map.1 h
  have hi' : (i : ℝ) + 1 ≤ M := by exact_mod_cast List.mem_range.1 hi
  have hM : (0 : ℝ) < M := by have : (0 : ℝ) ≤ i := i.cast_nonneg; linarith
  exact ⟨by positivity, by rw [div_lt_one hM]; linarith⟩

theorem zipIdx_pinball (y : ℝ) (M : ℝ) (hM : M ≠ 0) (k : ℕ) (l : List ℝ) :
    ((l.zipIdx k).map fun p => pinball (((p.2 : ℝ) + 1 / 2) / M) p.1 y).sum = qdU y M k l / M := by
  rw [← qdU_zipIdx]
  rw [div_eq_mul_inv _ M, ← List.sum_map_mul_right]
  congr 1
  refine List.map_congr_left fun p _ => ?_
  rw [pinball_eq]
  field_simp
  ring

theorem midLevels_pinball (y : ℝ) (xs : List ℝ) (h : xs ≠ []) (hs : xs.Pairwise (· ≤ ·)) :
    2 * (((xs.zip (midLevels xs.length)).map fun p => pinball p.2 p.1 y).sum / xs.length)
      = crps (ecdf xs) y := by
  have hM : (xs.length : ℝ) ≠ 0 := len_ne h
  have e : (xs.zip (midLevels xs.length)).map (fun p => pinball p.2 p.1 y)
      = (xs.zipIdx 0).map fun p => pinball (((p.2 : ℝ) + 1 / 2) / xs.length) p.1 y := by
    apply List.ext_getElem
    · simp [midLevels]
    · intro i h1 h2
      simp [midLevels]
  rw [e, zipIdx_pinball y _ hM, qdU_eq y _ hM, crps_ecdf_eq_energy y h, ← qdSum_uw y h hs]
  unfold uw
  simp only [Nat.cast_zero, zero_div]
  field_simp

/-- C115: for members given in ascending order and the `M` levels `(i + 1/2) / M`, `crps_quantile` returns exactly the
ensemble CRPS (both paths of both functions, each of the estimators `nrg`, `qd`, `int`), for arrays of every rank. -/
theorem C115_crps_quantile_is_crps {obs fct : Arr ℝ} {m : ℤ} {k : ℕ}
    (h : AxisIs m fct.ndim k) (hs : obs.shape = fct.shape.eraseIdx k) (hk : fct.shape.getD k 0 ≠ 0)
    (hsort : ∀ i, (fct.sliceAt k i).Pairwise (· ≤ ·)) (path path' : Path) :
    ∃ out, crpsQuantile path (obs.map fin) (fct.map fin)
        (((List.range (fct.shape.getD k 0)).map fun i : ℕ => ((i : ℝ) + 1 / 2) / (fct.shape.getD k 0 : ℕ)).map fin) m
        = .ok out ∧ out.shape = obs.shape ∧
      ∀ i, ∀ est, est = "nrg" ∨ est = "qd" ∨ est = "int" →
        crps1 path' est false "propagate" (fin (obs.get i)) ((fct.sliceAt k i).map fin) none = .ok (out.get i) := by
  obtain ⟨out, h1, h2, h3⟩ := C26_crps_quantile_value (obs := obs) (fct := fct)
    (alpha := midLevels (fct.shape.getD k 0)) h hs (by simp [midLevels]) (by unfold midLevels; simpa using hk)
    (fun a ha => midLevels_mem ha) path
  refine ⟨out, h1, h2, fun i est he => ?_⟩
  have hl : (fct.sliceAt k i).length = fct.shape.getD k 0 := by simp [Arr.sliceAt]
  have hne : fct.sliceAt k i ≠ [] := by
    intro h0
    rw [h0] at hl
    exact hk hl.symm
  rw [h3 i]
  have e : (midLevels (fct.shape.getD k 0)).length = fct.shape.getD k 0 := by simp [midLevels]
  rw [e, ← hl, midLevels_pinball _ _ hne (hsort i)]
  rcases he with rfl | he
  · exact C01_nrg_is_integral path' false _ _ hne
  · exact C02_qd_int_are_integral path' false _ _ hne (by simp) he

/-- two forecasts of three ascending members each -/
example : AxisIs (-1) (⟨[2, 3], fun i => ((i.getD 1 0 : ℕ) : ℝ)⟩ : Arr ℝ).ndim 1 ∧
    (⟨[2], fun _ => 1⟩ : Arr ℝ).shape = [2, 3].eraseIdx 1 ∧ [2, 3].getD 1 0 ≠ 0 ∧
    ∀ i, ((⟨[2, 3], fun i => ((i.getD 1 0 : ℕ) : ℝ)⟩ : Arr ℝ).sliceAt 1 [i]).Pairwise (· ≤ ·) := by
  refine ⟨⟨by simp [Arr.ndim], by simp [Arr.ndim]⟩, by simp, by simp, fun i => ?_⟩
  simp [Arr.sliceAt, List.range_succ]

theorem countP_lt_getElem {l : List ℝ} (hs : l.Pairwise (· ≤ ·)) {i : ℕ} (hi : i < l.length) :
    l.countP (fun x => decide (x < l[i])) ≤ i := by
  have e : l = l.take i ++ l.drop i := (List.take_append_drop i l).symm
  have h2 : (l.drop i).countP (fun x => decide (x < l[i])) = 0 := by
    rw [List.countP_eq_zero]
    intro x hx
    obtain ⟨j, hj, rfl⟩ := List.mem_iff_getElem.1 hx
    simp only [List.getElem_drop, decide_eq_true_eq, not_lt]
    rcases Nat.eq_zero_or_pos j with rfl | hj0
    · simp
    · exact List.pairwise_iff_getElem.1 hs i (i + j) hi _ (by omega)
  have h1 : (l.take i).countP (fun x => decide (x < l[i])) ≤ i :=
    List.countP_le_length.trans (by simp)
  have := List.countP_append (p := fun x => decide (x < l[i])) (l₁ := l.take i) (l₂ := l.drop i)
  rw [List.take_append_drop] at this
  omega

theorem lt_countP_le_getElem {l : List ℝ} (hs : l.Pairwise (· ≤ ·)) {i : ℕ} (hi : i < l.length) :
    i < l.countP (fun x => decide (x ≤ l[i])) := by
  have h1 : (l.take (i + 1)).countP (fun x => decide (x ≤ l[i])) = i + 1 := by
    rw [List.countP_eq_length.2]
    · simp; omega
    · intro x hx
      obtain ⟨j, hj, rfl⟩ := List.mem_iff_getElem.1 hx
      simp only [List.length_take] at hj
      simp only [List.getElem_take, decide_eq_true_eq]
      rcases Nat.lt_or_ge j i with h | h
      · exact List.pairwise_iff_getElem.1 hs j i (by omega) hi h
      · have : j = i := by omega
        subst this; exact le_rfl
  have := List.countP_append (p := fun x => decide (x ≤ l[i])) (l₁ := l.take (i + 1)) (l₂ := l.drop (i + 1))
  rw [List.take_append_drop] at this
  omega

/-- strictly between two consecutive multiples of `1 / M` the quantile is the order statistic -/
theorem quantile_eq_order_stat {l : List ℝ} (hs : l.Pairwise (· ≤ ·)) {i : ℕ} (hi : i < l.length) {α q : ℝ}
    (h1 : (i : ℝ) < α * l.length) (h2 : α * l.length < i + 1) (hq : IsQuantile α q l) : q = l[i] := by
  obtain ⟨ha, hb⟩ := hq
  have ha' : l.countP (fun x => decide (x < q)) < i + 1 := by
    have : (l.countP (fun x => decide (x < q)) : ℝ) < i + 1 := by linarith
    exact_mod_cast this
  have hb' : i < l.countP (fun x => decide (x ≤ q)) := by
    have : (i : ℝ) < l.countP (fun x => decide (x ≤ q)) := by linarith
    exact_mod_cast this
  apply le_antisymm
  · by_contra hc
    push Not at hc
    have h3 := lt_countP_le_getElem hs hi
    have h4 : l.countP (fun x => decide (x ≤ l[i])) ≤ l.countP (fun x => decide (x < q)) := by
      apply List.countP_mono_left
      intro x _ hx
      simp only [decide_eq_true_eq] at hx ⊢
      linarith
    omega
  · by_contra hc
    push Not at hc
    have h3 := countP_lt_getElem hs hi
    have h4 : l.countP (fun x => decide (x ≤ q)) ≤ l.countP (fun x => decide (x < l[i])) := by
      apply List.countP_mono_left
      intro x _ hx
      simp only [decide_eq_true_eq] at hx ⊢
      linarith
    omega

theorem integral_pinball_level (x y a b : ℝ) :
    ∫ α in a..b, pinball α x y = (b - a) * pinball ((a + b) / 2) x y := by
  simp only [pinball_eq]
  rw [intervalIntegral.integral_mul_const, intervalIntegral.integral_sub (by simp) (by simp)]
  simp only [intervalIntegral.integral_const, integral_id, smul_eq_mul]
  ring

theorem continuous_pinball_level (x y : ℝ) : Continuous fun α => pinball α x y := by
  simp only [pinball_eq]
  fun_prop

/-- the integral over the levels of the pinball loss of any version of the quantile function -/
theorem integral_pinball_quantile (y : ℝ) {xs : List ℝ} (h : xs ≠ []) {q : ℝ → ℝ}
    (hq : ∀ α, 0 < α → α < 1 → IsQuantile α (q α) xs) :
    IntervalIntegrable (fun α => pinball α (q α) y) volume 0 1 ∧
      2 * ∫ α in (0:ℝ)..1, pinball α (q α) y = crps (ecdf xs) y := by
  have hp := rsort_perm xs
  have hs := rsort_sorted xs
  have hne := rsort_ne h
  generalize rsort xs = l at hp hs hne
  have hl : xs.length = l.length := hp.length_eq.symm
  have hM : (0 : ℝ) < l.length := by exact_mod_cast List.length_pos_iff.2 hne
  have hq' : ∀ α, 0 < α → α < 1 → IsQuantile α (q α) l := by
    intro α h0 h1
    have := hq α h0 h1
    unfold IsQuantile at this ⊢
    rwa [hp.countP_eq, hp.countP_eq, ← hl]
  have hE : crps (ecdf xs) y = crps (ecdf l) y := by
    rw [crps_ecdf_eq_energy y h, crps_ecdf_eq_energy y hne, energy_perm y (uw_perm hp)]
  let a : ℕ → ℝ := fun i => (i : ℝ) / l.length
  have hstep : ∀ i (hi : i < l.length), Set.EqOn (fun α => pinball α l[i] y) (fun α => pinball α (q α) y)
      (Set.Ioo (a i) (a (i + 1))) := by
    intro i hi α hα
    have e1 : (i : ℝ) < α * l.length := (div_lt_iff₀ hM).1 hα.1
    have e2 : α * l.length < i + 1 := by
      have := (lt_div_iff₀ hM).1 hα.2
      push_cast at this
      exact this
    have hi' : (i : ℝ) + 1 ≤ l.length := by exact_mod_cast hi
    have h0 : 0 < α := by
      by_contra hc
      push Not at hc
      have : (0 : ℝ) ≤ i := i.cast_nonneg
      nlinarith
    have h1 : α < 1 := by
      by_contra hc
      push Not at hc
      nlinarith
    show pinball α l[i] y = pinball α (q α) y
    rw [quantile_eq_order_stat hs hi e1 e2 (hq' α h0 h1)]
  have hle : ∀ i, a i ≤ a (i + 1) := fun i => by
    show (i : ℝ) / l.length ≤ ((i + 1 : ℕ) : ℝ) / l.length
    gcongr
    simp
  have hint : ∀ i < l.length, IntervalIntegrable (fun α => pinball α (q α) y) volume (a i) (a (i + 1)) := by
    intro i hi
    refine ((continuous_pinball_level l[i] y).intervalIntegrable _ _).congr_uIoo ?_
    rw [Set.uIoo_of_le (hle i)]
    exact hstep i hi
  have hsum := intervalIntegral.sum_integral_adjacent_intervals hint
  have ha0 : a 0 = 0 := by simp [a]
  have ha1 : a l.length = 1 := by simp only [a]; exact div_self hM.ne'
  have hii := IntervalIntegrable.trans_iterate hint
  rw [ha0, ha1] at hsum hii
  refine ⟨hii, ?_⟩
  rw [← hsum, hE, ← midLevels_pinball y l hne hs]
  congr 1
  rw [Finset.sum_range]
  have e : (l.zip (midLevels l.length)).map (fun p => pinball p.2 p.1 y)
      = List.ofFn fun i : Fin l.length => pinball (((i : ℝ) + 1 / 2) / l.length) l[i] y := by
    apply List.ext_getElem
    · simp [midLevels]
    · intro i h1 h2
      simp [midLevels]
  rw [e, List.sum_ofFn, Finset.sum_div]
  refine Finset.sum_congr rfl fun i _ => ?_
  rw [← intervalIntegral.integral_congr_Ioo_of_le (hle i) (hstep i i.2), integral_pinball_level]
  have e1 : a (i + 1) - a i = 1 / l.length := by
    simp only [a]; push_cast; ring
  have e2 : (a i + a (i + 1)) / 2 = ((i : ℝ) + 1 / 2) / l.length := by
    simp only [a]; push_cast; ring
  rw [e1, e2]
  simp only [Fin.getElem_fin]
  ring

theorem quantileScore_scalar {α : ℝ} (h0 : 0 ≤ α) (h1 : α ≤ 1) (q y : ℝ) :
    item (Quantile.score (Arr.scalar (fin y)) (Arr.scalar (fin q)) (Arr.scalar (fin α)))
      = .ok (fin (pinball α q y)) := by
  obtain ⟨out, h, _, hv⟩ := C26_quantile_score_value (obs := Arr.scalar y) (fct := Arr.scalar q)
    (alpha := Arr.scalar α) (s := []) (by simp [Arr.scalar, Arr.bcast, Arr.bshape, Arr.bshapeR])
    (fun i _ => ⟨h0, h1⟩)
  have h' : Quantile.score (Arr.scalar (fin y)) (Arr.scalar (fin q)) (Arr.scalar (fin α)) = .ok out := h
  rw [h']
  show Except.ok (out.get []) = _
  rw [hv []]
  simp [Arr.scalar, Arr.bget]

/-- C115: the ensemble CRPS is twice the integral over the levels between 0 and 1 of what `quantile_score` returns for
the ensemble quantile of that level, whichever quantile is chosen where several qualify. -/
theorem C115_crps_is_integrated_quantile_score (path : Path) (sorted : Bool) (y : ℝ) (xs : List ℝ) (h : xs ≠ [])
    (hs : sorted = true → xs.Pairwise (· ≤ ·)) {est : String} (he : est = "nrg" ∨ est = "qd" ∨ est = "int")
    {q : ℝ → ℝ} (hq : ∀ α, 0 < α → α < 1 → IsQuantile α (q α) xs) :
    ∃ s : ℝ → ℝ,
      (∀ α, 0 < α → α < 1 →
        item (Quantile.score (Arr.scalar (fin y)) (Arr.scalar (fin (q α))) (Arr.scalar (fin α))) = .ok (fin (s α))) ∧
      IntervalIntegrable s volume 0 1 ∧
      crps1 path est sorted "propagate" (fin y) (xs.map fin) none = .ok (fin (2 * ∫ α in (0:ℝ)..1, s α)) := by
  obtain ⟨h1, h2⟩ := integral_pinball_quantile y h hq
  refine ⟨fun α => pinball α (q α) y, fun α h0 h1 => quantileScore_scalar h0.le h1.le _ _, h1, ?_⟩
  rw [h2]
  rcases he with rfl | he
  · exact C01_nrg_is_integral path sorted y xs h
  · exact C02_qd_int_are_integral path sorted y xs h hs he

/-- the lower quantiles of the ensemble 1, 3 -/
example : ∀ α : ℝ, 0 < α → α < 1 → IsQuantile α (if α ≤ 1 / 2 then 1 else 3) [1, 3] := by
  intro α h0 h1
  unfold IsQuantile
  by_cases h : α ≤ 1 / 2
  · rw [if_pos h]
    simp
    constructor <;> linarith
  · rw [if_neg h]
    simp
    constructor <;> linarith

/-! ### the ranked probability score -/

/-- a step function with unit steps -/
theorem integral_unit_steps (a : ℕ → ℝ) (K : ℕ) :
    Integrable (fun z : ℝ => if 1 ≤ z ∧ z < K + 1 then a (⌊z⌋₊ - 1) else 0) ∧
      ∫ z : ℝ, (if 1 ≤ z ∧ z < K + 1 then a (⌊z⌋₊ - 1) else 0) = ((List.range K).map a).sum := by
  induction K with
  | zero =>
    have : (fun z : ℝ => if 1 ≤ z ∧ z < ((0 : ℕ) : ℝ) + 1 then a (⌊z⌋₊ - 1) else 0) = fun _ => 0 := by
      funext z
      rw [if_neg]
      rintro ⟨h1, h2⟩
      simp at h2
      linarith
    rw [this]
    simp
  | succ K ih =>
    have e : (fun z : ℝ => if 1 ≤ z ∧ z < ((K + 1 : ℕ) : ℝ) + 1 then a (⌊z⌋₊ - 1) else 0)
        = fun z : ℝ => (if 1 ≤ z ∧ z < K + 1 then a (⌊z⌋₊ - 1) else 0)
          + (Set.Ico ((K : ℝ) + 1) (K + 2)).indicator (fun _ => a K) z := by
      funext z
      have hK : (0 : ℝ) ≤ K := K.cast_nonneg
      by_cases h1 : z < K + 1
      · rw [Set.indicator_of_notMem (fun h => absurd h.1 (not_le.2 h1)), add_zero]
        have : z < ((K + 1 : ℕ) : ℝ) + 1 := by push_cast; linarith
        by_cases hz : 1 ≤ z
        · rw [if_pos ⟨hz, this⟩, if_pos ⟨hz, h1⟩]
        · rw [if_neg (fun h => hz h.1), if_neg (fun h => hz h.1)]
      · rw [if_neg (fun h => h1 h.2 : ¬ (1 ≤ z ∧ z < (K : ℝ) + 1)), zero_add]
        by_cases h2 : z < K + 2
        · have hz : 1 ≤ z ∧ z < ((K + 1 : ℕ) : ℝ) + 1 := ⟨by linarith, by push_cast; linarith⟩
          rw [Set.indicator_of_mem (Set.mem_Ico.2 ⟨not_lt.1 h1, h2⟩), if_pos hz]
          have : ⌊z⌋₊ = K + 1 := by
            rw [Nat.floor_eq_iff (by linarith)]
            push_cast
            constructor <;> linarith
          rw [this]; simp
        · rw [Set.indicator_of_notMem (fun h => h2 h.2), if_neg]
          rintro ⟨_, h3⟩
          push_cast at h3
          linarith
    have hi : Integrable ((Set.Ico ((K : ℝ) + 1) (K + 2)).indicator fun _ => a K) :=
      (integrable_indicator_iff measurableSet_Ico).2 (integrableOn_const (by simp))
    rw [e]
    refine ⟨ih.1.add hi, ?_⟩
    rw [integral_add ih.1 hi, ih.2, integral_indicator measurableSet_Ico, setIntegral_const, List.range_succ]
    simp
    norm_num

/-- the categories 1, 2, ... with their probabilities -/
def catLaw (f : List ℝ) : List (ℝ × ℝ) := f.zipIdx.map fun p => ((p.2 : ℝ) + 1, p.1)

theorem catLaw_snd (f : List ℝ) : (catLaw f).map Prod.snd = f := by
  unfold catLaw
  rw [List.map_map]
  have : (Prod.snd ∘ fun p : ℝ × ℕ => ((p.2 : ℝ) + 1, p.1)) = Prod.fst := rfl
  rw [this, List.zipIdx_map_fst]

theorem filter_zipIdx_sum (f : List ℝ) (k n : ℕ) :
    (((f.zipIdx k).filter fun p => decide (p.2 + 1 ≤ n)).map Prod.fst).sum = (f.take (n - k)).sum := by
  induction f generalizing k with
  | nil => simp
  | cons x f ih =>
    rw [List.zipIdx_cons, List.filter_cons]
    by_cases h : k + 1 ≤ n
    · obtain ⟨d, rfl⟩ := Nat.exists_eq_add_of_le h
      have e : k + 1 + d - k = d + 1 := by omega
      have e2 : k + 1 + d - (k + 1) = d := by omega
      rw [if_pos (by simp), List.map_cons, List.sum_cons, ih, e, e2]
      simp
    · have e : n - k = 0 := by omega
      have e2 : n - (k + 1) = 0 := by omega
      rw [if_neg (by simpa using h), ih, e, e2]
      simp

theorem catLaw_cdf {f : List ℝ} (h1 : f.sum = 1) {z : ℝ} (hz : 0 ≤ z) :
    wcdf (catLaw f) z = (f.take ⌊z⌋₊).sum := by
  unfold wcdf
  rw [catLaw_snd, h1, div_one]
  have := filter_zipIdx_sum f 0 ⌊z⌋₊
  rw [Nat.sub_zero] at this
  rw [← this]
  unfold catLaw
  rw [List.filter_map, List.map_map]
  have e : (f.zipIdx.filter ((fun p : ℝ × ℝ => decide (p.1 ≤ z)) ∘ fun p : ℝ × ℕ => ((p.2 : ℝ) + 1, p.1)))
      = f.zipIdx.filter fun p => decide (p.2 + 1 ≤ ⌊z⌋₊) := by
    congr 1
    funext p
    simp only [Function.comp, decide_eq_decide]
    rw [Nat.le_floor_iff hz]
    push_cast
    rfl
  rw [e]
  rfl

/-- the ranked probability score is the CRPS of the law on the category numbers -/
theorem rps_eq_crps {f : List ℝ} (h1 : f.sum = 1) {c : ℕ} (hc : 1 ≤ c) (hc' : c ≤ f.length) :
    rps f c = crps (wcdf (catLaw f)) c := by
  unfold rps crps
  rw [← (integral_unit_steps (fun j => brier (cum f j) (decide (c ≤ j + 1))) f.length).2]
  congr 1
  funext z
  by_cases hz0 : z < 1
  · rw [if_neg (fun h => absurd h.1 (not_le.2 hz0))]
    have hn : ¬ (c : ℝ) ≤ z := by
      have : (1 : ℝ) ≤ c := by exact_mod_cast hc
      linarith
    rw [if_neg hn]
    have : wcdf (catLaw f) z = 0 := by
      unfold wcdf
      rw [List.filter_eq_nil_iff.2]
      · simp
      · intro p hp
        obtain ⟨r, _, rfl⟩ := List.mem_map.1 hp
        have : (0 : ℝ) ≤ r.2 := r.2.cast_nonneg
        simp only [decide_eq_true_eq, not_le]
        linarith
    rw [this]; simp
  · push Not at hz0
    rw [catLaw_cdf h1 (by linarith)]
    have hci : ((c : ℝ) ≤ z) ↔ c ≤ ⌊z⌋₊ := (Nat.le_floor_iff (by linarith)).symm
    by_cases hz1 : z < f.length + 1
    · rw [if_pos ⟨hz0, hz1⟩]
      have hf : 1 ≤ ⌊z⌋₊ := (Nat.le_floor_iff (by linarith)).2 (by simpa using hz0)
      have e : ⌊z⌋₊ - 1 + 1 = ⌊z⌋₊ := by omega
      unfold cum
      rw [e]
      simp only [hci]
      unfold brier
      by_cases h : c ≤ ⌊z⌋₊ <;> simp [h]
      ring
    · rw [if_neg (fun h => hz1 h.2)]
      push Not at hz1
      have hf : f.length ≤ ⌊z⌋₊ := (Nat.le_floor_iff (by linarith)).2 (by linarith)
      rw [if_pos (hci.2 (hc'.trans hf)), List.take_of_length_le hf, h1]
      simp

/-- C115: `rps_score` of a probability vector is the ensemble CRPS whose members are the category numbers 1, ..., K
and whose weights are the probabilities (estimators `nrg`, `qd`, `int`; both paths; arrays of every rank). -/
theorem C115_rps_is_weighted_crps {obs : Arr ℕ} {fct : Arr ℝ} {m : ℤ} {k : ℕ}
    (h : AxisIs m fct.ndim k) (hs : obs.shape = fct.shape.eraseIdx k)
    (hf : ∀ i, Arr.Valid fct.shape i → 0 ≤ fct.get i ∧ fct.get i ≤ 1)
    (hc : ∀ i, Arr.Valid obs.shape i → 1 ≤ obs.get i ∧ obs.get i ≤ fct.shape.getD k 0)
    (hsum : ∀ i, Arr.Valid obs.shape i → (∀ p ∈ fct.sliceAt k i, 0 ≤ p) ∧ (fct.sliceAt k i).sum = 1)
    (path : Path) (sorted : Bool) :
    ∃ out, Brier.rpsScore (obs.map fun c : ℕ => (c : XF)) (fct.map fin) m false = .ok out ∧
      out.shape = obs.shape ∧
      ∀ i, Arr.Valid obs.shape i → ∀ est, est = "nrg" ∨ est = "qd" ∨ est = "int" →
        crps1 path est sorted "propagate" (fin (obs.get i : ℕ))
          ((List.range (fct.shape.getD k 0)).map fun j : ℕ => fin ((j : ℝ) + 1))
          (some ((fct.sliceAt k i).map fin)) = .ok (out.get i) := by
  obtain ⟨out, h1, h2, h3⟩ := C31_rps_value h hs hf fun i hi => (hc i hi).1
  refine ⟨out, h1, h2, fun i hi est he => ?_⟩
  have hl : (fct.sliceAt k i).length = fct.shape.getD k 0 := by simp [Arr.sliceAt]
  obtain ⟨hp, h1⟩ := hsum i hi
  rw [h3 i hi, rps_eq_crps h1 (hc i hi).1 (by rw [hl]; exact (hc i hi).2)]
  have e1 : ((List.range (fct.shape.getD k 0)).map fun j : ℕ => fin ((j : ℝ) + 1))
      = (catLaw (fct.sliceAt k i)).map fun p => fin p.1 := by
    unfold catLaw
    rw [← hl]
    apply List.ext_getElem
    · simp
    · intro j h1 h2
      simp
  have e2 : (fct.sliceAt k i).map fin = (catLaw (fct.sliceAt k i)).map fun p => fin p.2 := by
    conv_lhs => rw [← catLaw_snd (fct.sliceAt k i)]
    rw [List.map_map]
    rfl
  have hw : ∀ p ∈ catLaw (fct.sliceAt k i), 0 ≤ p.2 := by
    intro p hp'
    refine hp _ ?_
    rw [← catLaw_snd (fct.sliceAt k i)]
    exact List.mem_map_of_mem hp'
  have ht : 0 < ((catLaw (fct.sliceAt k i)).map Prod.snd).sum := by
    rw [catLaw_snd, h1]; exact one_pos
  have hso : (catLaw (fct.sliceAt k i)).Pairwise fun p q => p.1 ≤ q.1 := by
    unfold catLaw
    rw [List.pairwise_iff_getElem]
    intro a b ha hb hab
    simp only [List.getElem_map, List.getElem_zipIdx, zero_add]
    have : (a : ℝ) ≤ b := by exact_mod_cast hab.le
    linarith
  rw [e1, e2]
  rcases he with rfl | he
  · exact C01_nrg_weighted_is_integral path sorted _ _ hw ht
  · exact C02_weighted path sorted _ _ hw ht (fun _ => hso) he

/-- three categories with probabilities 1/2, 0, 1/2 and the observed category 2 -/
example : let fct : Arr ℝ := ⟨[3], fun i => if i = [1] then 0 else 1 / 2⟩
    let obs : Arr ℕ := Arr.scalar 2
    AxisIs (-1) fct.ndim 0 ∧ obs.shape = fct.shape.eraseIdx 0 ∧
      (∀ i, Arr.Valid fct.shape i → 0 ≤ fct.get i ∧ fct.get i ≤ 1) ∧
      (∀ i, Arr.Valid obs.shape i → 1 ≤ obs.get i ∧ obs.get i ≤ fct.shape.getD 0 0) ∧
      ∀ i, Arr.Valid obs.shape i → (∀ p ∈ fct.sliceAt 0 i, 0 ≤ p) ∧ (fct.sliceAt 0 i).sum = 1 := by
  refine ⟨⟨by simp [Arr.ndim], by simp [Arr.ndim]⟩, rfl, fun i _ => ?_, fun i _ => by simp [Arr.scalar], ?_⟩
  · dsimp only
    split <;> norm_num
  · intro i hi
    have : i = [] := by simpa [Arr.Valid, Arr.scalar] using hi
    subst this
    simp [Arr.sliceAt, List.range_succ]
    norm_num

/-! ### the Dawid-Sebastiani score -/

/-- C115: `dssuv_ensemble` is twice `logs_normal` at the ensemble's mean and standard deviation, minus `log (2π)`. -/
theorem C115_dss_is_logs_normal (path : Path) (bias : Bool) (y : ℝ) (xs : List ℝ) (hv : 0 < svar bias xs) :
    ∃ s : ℝ, Logs.normal (fin y) (fin (avg xs)) (fin (Real.sqrt (svar bias xs))) true = fin s ∧
      dss1 path bias (fin y) (xs.map fin) = .ok (fin (2 * s - Real.log (2 * Real.pi))) := by
  have hσ := Real.sqrt_pos.2 hv
  have hp : 0 < densNormal (avg xs) (Real.sqrt (svar bias xs)) y := div_pos (φ_pos _) hσ
  refine ⟨-Real.log (densNormal (avg xs) (Real.sqrt (svar bias xs)) y), ?_, ?_⟩
  · rw [((C57_normal _ hσ).2 y).1, negLog, if_neg hp.ne']
  · rw [C38_value path bias y xs hv]
    congr 2
    have h2 : (0:ℝ) < 2 * Real.pi := by positivity
    unfold densNormal φ ds
    rw [Real.log_div (by positivity) hσ.ne', Real.log_div (Real.exp_pos _).ne' (Real.sqrt_pos.2 h2).ne', Real.log_exp,
      Real.log_sqrt h2.le, Real.log_sqrt hv.le, div_pow, Real.sq_sqrt hv.le]
    ring

example : 0 < svar true [1, 2, 6] := by
  simp [svar, csum, avg]; norm_num

end Verif
