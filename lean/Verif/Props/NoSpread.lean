import Verif.Lemmas.Pairs
import Verif.Lemmas.CrpsNan
import Verif.Props.LogsEns
import Verif.Props.Ess

/-!
# C143: ensembles without spread

The property: every score of an ensemble gives a number to every finite observation and every ensemble of finite
members.  It holds for the CRPS and the energy score, whose value for `M` equal members is the distance of the member
to the observation.  It is false for the logarithmic score with the default bandwidth, for the Dawid-Sebastiani score
and for the error-spread score.
-/

noncomputable section

open scoped Classical

namespace Verif

open XF Py Api Spec Mv

/-! ### the scores that are numbers -/

theorem pairSum_const {M : ℕ} {E : Type} [NormedAddCommGroup E] (hM : M ≠ 0) {A : Fin M → Fin M → ℝ}
    (hr : ∀ i, ∑ j, (A i j + A j i) = 1 / (M:ℝ)) (y x : E) : pairSum A y (fun _ => x) = dist x y := by
  have h1 : ∑ i, ∑ j, (A i j + A j i) = 1 := by
    have hM' : (M:ℝ) ≠ 0 := by exact_mod_cast hM
    rw [Finset.sum_congr rfl fun i _ => hr i]
    simp [hM']
  have h2 : ∑ i, ∑ j, (A i j + A j i) = 2 * ∑ i, ∑ j, A i j := by
    simp only [Finset.sum_add_distrib]
    rw [Finset.sum_comm (f := fun i j => A j i)]
    ring
  have h3 : pairSum A y (fun _ => x) = (∑ i, ∑ j, A i j) * (2 * dist x y) := by
    unfold pairSum detour
    simp only [Finset.sum_mul, dist_self]
    refine Finset.sum_congr rfl fun i _ => Finset.sum_congr rfl fun j _ => ?_
    ring
  rw [h3]
  linear_combination (dist x y) * (h1 - h2)

/-- C143: every estimator of `crps_ensemble` scores an ensemble of equal members by the distance of the member to the
observation, on both paths, with any number of members (two or more for the unbiased estimators). -/
theorem C143_crps_partial (path : Path) {est : String} (he : est ∈ Spec.estimators) (sorted : Bool) {M : ℕ}
    (hM : M ≠ 0) (h2 : est = "fair" ∨ est = "pwm" → 2 ≤ M) (y x : ℝ) :
    crps1 path est sorted "propagate" (fin y) (List.replicate M (fin x)) none = .ok (fin |x - y|) := by
  obtain ⟨A, -, hr, hv⟩ := crps1_pairs (M := M) path he hM h2
  have h := hv sorted y (fun _ => x) (by
    intro _; rw [List.ofFn_const, List.pairwise_replicate]; right; exact le_rfl)
  rw [pairSum_const hM hr, List.ofFn_const, List.map_replicate, Real.dist_eq] at h
  exact h

example : "pwm" ∈ Spec.estimators ∧ (4:ℕ) ≠ 0 ∧ ("pwm" = "fair" ∨ "pwm" = "pwm" → 2 ≤ 4) := by
  refine ⟨by simp [Spec.estimators], by norm_num, fun _ => by norm_num⟩

/-- C143: every estimator of `es_ensemble` scores an ensemble of equal members by the distance of the member to the
observation, on both paths. -/
theorem C143_es_partial {D : ℕ} (path : Path) {est : String} (he : est ∈ Spec.esEstimators) {M : ℕ}
    (hM : M ≠ 0) (h2 : est = "fair" → 2 ≤ M) (y x : Eu D) :
    es1 path est D (vec y) (List.replicate M (vec x)) none = .ok (fin ‖x - y‖) := by
  obtain ⟨A, -, hr, hv⟩ := es1_pairs (M := M) (D := D) path he hM h2
  have h := hv y (fun _ => x)
  rw [pairSum_const hM hr, List.ofFn_const, List.map_replicate, dist_eq_norm] at h
  exact h

example : "fair" ∈ Spec.esEstimators ∧ (4:ℕ) ≠ 0 ∧ ("fair" = "fair" → 2 ≤ 4) := by
  refine ⟨by simp [Spec.esEstimators], by norm_num, fun _ => by norm_num⟩

/-- C143: `logs_ensemble` with a positive bandwidth for every case gives a number, whatever the members. -/
theorem C143_logs_partial (obs fct : Arr ℝ) {m : ℤ} {k : ℕ} (hm : AxisIs m fct.ndim k)
    (hs : obs.shape = fct.shape.eraseIdx k) (hM : fct.shape.getD k 0 ≠ 0) (h : Arr ℝ) (hw : h.shape = obs.shape)
    (hb : ∀ i, Arr.Valid obs.shape i → 0 < h.get i) :
    ∃ out, logsEnsemble (obs.map fin) (fct.map fin) m (some (h.map fin)) = .ok out ∧ out.shape = obs.shape ∧
      ∀ i, Arr.Valid obs.shape i → ∃ v, out.get i = fin v := by
  obtain ⟨out, h1, h2, h3⟩ := C63_logs obs fct hm hs hM (some (h.map fin))
    (by rintro w ⟨⟩; exact hw) h.get fun i hi => ⟨rfl, hb i hi⟩
  exact ⟨out, h1, h2, fun i hi => ⟨_, h3 i hi⟩⟩

example : ∃ (obs fct h : Arr ℝ), AxisIs (-1) fct.ndim 1 ∧ obs.shape = fct.shape.eraseIdx 1 ∧
    fct.shape.getD 1 0 ≠ 0 ∧ h.shape = obs.shape ∧ (∀ i, Arr.Valid obs.shape i → 0 < h.get i) ∧
    ∀ i, fct.get i = 0 :=
  ⟨⟨[2], fun _ => 3⟩, ⟨[2, 5], fun _ => 0⟩, ⟨[2], fun _ => 1⟩, by simp [AxisIs, Arr.ndim], rfl, by simp, rfl,
    fun _ _ => one_pos, fun _ => rfl⟩

/-! ### the logarithmic score -/

theorem pinf_sq : (pinf : XF) ^ 2 = pinf := by rw [pow_two]; rfl

theorem ninf_sq : (ninf : XF) ^ 2 = pinf := by rw [pow_two]; rfl

theorem normPdf_div_zero (y x : ℝ) : Stats.normPdf ((fin y - fin x) / fin 0) / fin 0 = nan := by
  have hp : ∀ z : XF, z = pinf ∨ z = ninf ∨ z = nan → Stats.normPdf z / fin 0 = nan := by
    have hc : (1 : XF) / XF.sqrt (2 * XF.pi) = fin (1 / Real.sqrt (2 * Real.pi)) := by
      have e : (2 : XF) * XF.pi = fin (2 * Real.pi) := rfl
      rw [e, fin_sqrt (by positivity), one_fin, fin_div (by positivity)]
    have hz : (fin 0 : XF) / fin 0 = nan := by
      show (if _ then _ else _) = _
      simp
    have hi : XF.exp (-pinf / 2) = fin 0 := by
      have : (-pinf / 2 : XF) = ninf := by
        show (if (0:ℝ) ≤ 2 then ninf else pinf) = ninf
        simp
      rw [this]; rfl
    rintro z (rfl | rfl | rfl)
    · rw [Stats.normPdf, pinf_sq, hi, hc, fin_mul, mul_zero, hz]
    · rw [Stats.normPdf, ninf_sq, hi, hc, fin_mul, mul_zero, hz]
    · rw [Stats.normPdf, nan_pow]
      show _ * XF.exp nan / _ = nan
      rw [exp_nan, mul_nan, nan_div]
  apply hp
  rw [fin_sub]
  rcases lt_trichotomy (y - x) 0 with h | h | h
  · right; left
    show (if _ then _ else _) = _
    simp [h.ne, h.not_gt]
  · right; right
    show (if _ then _ else _) = _
    simp [h]
  · left
    show (if _ then _ else _) = _
    simp [h.ne', h]

/-- the bandwidths at which the kernel density estimate of finite data is not a number -/
def NoWidth (h : XF) : Prop := h = fin 0 ∨ h = nan

theorem dens_noWidth {h : XF} (hh : NoWidth h) (y x : ℝ) : Stats.normPdf ((fin y - fin x) / h) / h = nan := by
  rcases hh with rfl | rfl
  · exact normPdf_div_zero y x
  · exact div_nan _

theorem mixnorm_noWidth {h : XF} (hh : NoWidth h) (y : ℝ) {xs : List ℝ} (hx : xs ≠ []) {s w : List XF}
    (hs : s = List.replicate xs.length h) (hw : w.length = xs.length) :
    Logs.mixnorm (fin y) (xs.map fin) s w = nan := by
  have hl : 0 < xs.length := List.length_pos_iff.2 hx
  unfold Logs.mixnorm
  simp only
  rw [zip2_sum_nan (i := 0) (by omega) (by simp [zip2, hs, hl]), log_nan, neg_nan]
  obtain ⟨x, xs, rfl⟩ := List.exists_cons_of_ne_nil hx
  subst hs
  simp only [List.length_cons, List.replicate_succ, List.map_cons, zip2, List.zipWith_cons_cons, idx, List.getD_cons_zero]
  rw [dens_noWidth hh, mul_nan]

theorem quantile7_single (p x : ℝ) : quantile7 p [x] = x := by
  simp [quantile7]

theorem std_single (x : ℝ) : Dss.std false [fin x] = nan := by
  have h0 : (((1:ℕ) - 1 : ℕ) : XF) = fin 0 := by simp [natCast_fin]
  have hz : (fin 0 : XF) / fin 0 = nan := by
    show (if _ then _ else _) = _
    simp
  have hm : mean [fin x] = fin x := by
    have := dss_mean [x] (by simp)
    simpa [avg] using this
  simp only [Dss.std, hm, List.map_cons, List.map_nil, fin_sub, sub_self, fin_mul, mul_zero, List.sum_cons, List.sum_nil,
    Bool.false_eq_true, if_false, List.length_singleton]
  rw [h0, zero_fin, fin_add, add_zero, hz, sqrt_nan]

/-- the default bandwidth of an ensemble whose quartiles coincide, or of one member -/
theorem silverman_noWidth {xs : List ℝ} (hx : xs ≠ []) (hq : quantile7 0.75 xs = quantile7 0.25 xs) :
    NoWidth (LogsEns.silverman (xs.map fin)) := by
  by_cases h2 : 2 ≤ xs.length
  · left
    rw [C63_silverman h2, silverman, hq, sub_self, zero_div, min_eq_right (Real.sqrt_nonneg _), mul_zero, zero_mul]
  · right
    have hl : 0 < xs.length := List.length_pos_iff.2 hx
    obtain ⟨x, rfl⟩ := List.length_eq_one_iff.1 (by omega : xs.length = 1)
    unfold LogsEns.silverman
    simp only [List.map_cons, List.map_nil]
    rw [std_single, nan_min, mul_nan, nan_mul]

/-- C143: `logs_ensemble` with the default bandwidth is not a number for every case whose lower and upper quartile
coincide, whatever the observation: the bandwidth is zero.  Every ensemble of one member, every ensemble of equal members
is of this kind, and so is the ensemble of four dry members and a wet one below. -/
theorem C143_logs_false (obs fct : Arr ℝ) {m : ℤ} {k : ℕ} (hm : AxisIs m fct.ndim k)
    (hs : obs.shape = fct.shape.eraseIdx k) (hM : fct.shape.getD k 0 ≠ 0) :
    ∃ out, logsEnsemble (obs.map fin) (fct.map fin) m none = .ok out ∧ out.shape = obs.shape ∧
      ∀ i, Arr.Valid obs.shape i → quantile7 0.75 (fct.sliceAt k i) = quantile7 0.25 (fct.sliceAt k i) →
        out.get i = nan := by
  have hch : univariateArrayCheck (obs.map fin) (fct.map fin) m = .ok ((fct.map fin).moveLast k) :=
    arrayCheck_axis (fct := fct.map fin) hm hs
  unfold logsEnsemble
  rw [hch]
  simp only [bind, Except.bind]
  have hsh : ((fct.map fin).moveLast k).shape = obs.shape ++ [fct.shape.getD k 0] := by
    rw [Arr.moveLast_shape, hs]; rfl
  rw [LogsEns.bandwidth_ok hsh hM none (by simp)]
  simp only
  obtain ⟨out, ho, hos, hov⟩ := LogsEns.mixnormArr_ok (obs := obs.map fin)
    (m := (fct.map fin).moveLast k)
    (s := ⟨obs.shape ++ [fct.shape.getD k 0], fun i =>
      LogsEns.bwOf none (((fct.map fin).moveLast k).row i.dropLast) i.dropLast⟩)
    (w := ⟨((fct.map fin).moveLast k).shape,
      fun _ => 1 / ((((fct.map fin).moveLast k).shape.getLastD 0 : ℕ) : XF)⟩) hsh rfl hsh
  refine ⟨out, ho, hos, fun i hi hq => ?_⟩
  rw [hov i hi]
  have hlen : (fct.sliceAt k i).length = fct.shape.getD k 0 := by simp [Arr.sliceAt]
  have hne : fct.sliceAt k i ≠ [] := by
    rw [← List.length_pos_iff, hlen]; omega
  have hrow : ((fct.map fin).moveLast k).row i = (fct.sliceAt k i).map fin := by
    rw [Arr.row_moveLast, sliceAt_map]
  rw [hrow]
  refine mixnorm_noWidth (silverman_noWidth hne hq) _ hne ?_ ?_
  · rw [← hrow, hlen]
    simp only [Arr.row, List.getLastD_concat, List.dropLast_concat, List.map_const', List.length_range]
    rfl
  · rw [hlen]
    simp [Arr.row, hsh]

/-- the quartiles of four dry members and a wet one coincide -/
theorem quartiles_dry : quantile7 0.75 [0, 0, 0, 0, 1] = quantile7 0.25 [0, 0, 0, 0, 1] := by
  have h3 : ⌊(3 : ℝ)⌋₊ = 3 := by exact_mod_cast Nat.floor_natCast (R := ℝ) 3
  norm_num [quantile7, List.mergeSort, h3]

example : ∃ (obs fct : Arr ℝ), AxisIs (-1) fct.ndim 0 ∧ obs.shape = fct.shape.eraseIdx 0 ∧ fct.shape.getD 0 0 ≠ 0 ∧
    Arr.Valid obs.shape [] ∧ quantile7 0.75 (fct.sliceAt 0 []) = quantile7 0.25 (fct.sliceAt 0 []) ∧
    fct.sliceAt 0 [] = [0, 0, 0, 0, 1] := by
  have e : Arr.sliceAt (⟨[5], fun i => if i = [4] then 1 else 0⟩ : Arr ℝ) 0 [] = [0, 0, 0, 0, 1] := by
    simp [Arr.sliceAt, List.range_succ]
  refine ⟨⟨[], fun _ => 3⟩, ⟨[5], fun i => if i = [4] then 1 else 0⟩, by simp [AxisIs, Arr.ndim], rfl, by simp,
    by simp [Arr.Valid], ?_, e⟩
  rw [e]
  exact quartiles_dry

/-! ### the Dawid-Sebastiani score -/

theorem zero_div_zero : (fin 0 : XF) / fin 0 = nan := by
  show (if _ then _ else _) = _
  simp

theorem mean_replicate_fin {M : ℕ} (hM : M ≠ 0) (x : ℝ) : mean (List.replicate M (fin x)) = fin x := by
  have h := dss_mean (List.replicate M x) (by simpa using hM)
  rw [List.map_replicate] at h
  have hM' : (M:ℝ) ≠ 0 := by exact_mod_cast hM
  rw [h, avg, List.sum_replicate, List.length_replicate, nsmul_eq_mul, mul_div_cancel_left₀ _ hM']

/-- C143: `dssuv_ensemble` of equal members is not a number, on both paths and for both variance conventions, whatever
the observation: the bias term is infinite or `0/0` and the logarithm of the variance is minus infinity. -/
theorem C143_dss_false (path : Path) (bias : Bool) {M : ℕ} (hM : M ≠ 0) (y x : ℝ) :
    dss1 path bias (fin y) (List.replicate M (fin x)) = .ok nan := by
  have key : Dss.score bias (fin y) (List.replicate M (fin x)) = nan := by
    unfold Dss.score Dss.std
    simp only [mean_replicate_fin hM, List.map_replicate, fin_sub, sub_self, fin_mul, mul_zero, List.sum_replicate,
      List.length_replicate]
    have e : M • (fin 0 : XF) = fin 0 := by
      have := sum_map_fin' (List.replicate M (0:ℝ)) fun x => x
      simpa [List.map_replicate, List.sum_replicate] using this
    rw [e, natCast_fin]
    by_cases hz : ((M - if bias = true then 0 else 1 : ℕ) : ℝ) = 0
    · rw [hz, zero_div_zero, sqrt_nan, div_nan, nan_pow, nan_add]
    · rw [fin_div hz, zero_div, fin_sqrt le_rfl, Real.sqrt_zero]
      have hl : (2 : XF) * XF.log (fin 0) = ninf := by
        have h1 : XF.log (fin 0) = ninf := by
          show (if (0:ℝ) < 0 then _ else if (0:ℝ) = 0 then ninf else nan) = ninf
          simp
        rw [h1]
        show (if _ then _ else _) = _
        simp
      rw [hl]
      rcases lt_trichotomy (y - x) 0 with h | h | h
      · have : (fin (y - x) : XF) / fin 0 = ninf := by
          show (if _ then _ else _) = _
          simp [h.ne, h.not_gt]
        rw [this, ninf_sq]; rfl
      · rw [h, zero_div_zero, nan_pow, nan_add]
      · have : (fin (y - x) : XF) / fin 0 = pinf := by
          show (if _ then _ else _) = _
          simp [h.ne', h]
        rw [this, pinf_sq]; rfl
  cases path
  · rw [C38_paths bias _ _ (by simpa using hM), dss1_eq]
    exact congrArg _ key
  · rw [dss1_eq]
    exact congrArg _ key

example : (5:ℕ) ≠ 0 := by norm_num

/-! ### the error-spread score -/

/-- the skewness of the model -/
def essG (xs : List XF) : XF :=
  let m := mean xs
  let s := XF.sqrt ((xs.map fun x => (x - m) ^ 2).sum / ((xs.length - 1 : ℕ) : XF))
  (xs.map fun x => ((x - m) / s) ^ 3).sum / (((xs.length - 1) * (xs.length - 2) : ℕ) : XF)

theorem ess1_nan {xs : List XF} (h : essG xs = nan) (path : Path) (y : XF) : ess1 path y xs = .ok nan := by
  rw [ess1_eq]
  congr 1
  have e1 : ∀ (f : XF → XF), forRange 0 xs.length (0 : XF)
      (fun i m => m + f (idx xs i)) = (xs.map f).sum := by
    intro f
    rw [forRange_add, zero_add, ← sum_idx_range]
  have e0 := e1 id
  simp only [id] at e0
  rw [List.map_id] at e0
  have hm : xs.sum / (xs.length : XF) = mean xs := rfl
  cases path
  · simp only [Ess.gufunc]
    rw [e0, hm, e1 fun x => (x - mean xs) ^ 2,
      e1 fun x => ((x - mean xs) / XF.sqrt ((xs.map fun x => (x - mean xs) ^ 2).sum / ((xs.length - 1 : ℕ) : XF))) ^ 3]
    unfold essG at h
    simp only at h
    rw [h, mul_nan, sub_nan, nan_pow]
  · simp only [Ess.score]
    unfold essG at h
    simp only at h
    rw [h, mul_nan, sub_nan, nan_pow]

/-- C143: `error_spread_score` of one or two members, and of any number of equal members, is not a number, on both
paths, whatever the observation: the skewness is `0/0`. -/
theorem C143_ess_false (path : Path) (y : ℝ) (xs : List ℝ) (hx : xs ≠ [])
    (h : xs.length ≤ 2 ∨ ∃ x, ∀ a ∈ xs, a = x) : ess1 path (fin y) (xs.map fin) = .ok nan := by
  apply ess1_nan
  by_cases he : ∃ x, ∀ a ∈ xs, a = x
  · obtain ⟨x, he⟩ := he
    have hr : xs = List.replicate xs.length x := List.eq_replicate_iff.2 ⟨rfl, he⟩
    have hM : xs.length ≠ 0 := by simpa using hx
    generalize xs.length = M at hr hM
    subst hr
    unfold essG
    simp only [List.map_replicate, mean_replicate_fin hM, fin_sub, sub_self, fin_pow, List.sum_replicate,
      List.length_replicate]
    have e : M • (fin 0 : XF) = fin 0 := by
      have := sum_map_fin' (List.replicate M (0:ℝ)) fun x => x
      simpa [List.map_replicate, List.sum_replicate] using this
    have n0 : M • (nan : XF) = nan := by
      rw [← List.sum_replicate]
      exact sum_eq_nan_of_mem (by simpa using hM)
    have z2 : (0:ℝ) ^ 2 = 0 := by norm_num
    rw [z2, e, natCast_fin]
    by_cases hz : ((M - 1 : ℕ) : ℝ) = 0
    · rw [hz, zero_div_zero, sqrt_nan, div_nan, nan_pow, n0, nan_div]
    · rw [fin_div hz, zero_div, fin_sqrt le_rfl, Real.sqrt_zero, zero_div_zero, nan_pow, n0, nan_div]
  · rcases h with h | h
    swap
    · exact absurd h he
    match xs, hx, h with
    | [a], _, _ => exact absurd ⟨a, by simp⟩ he
    | [a, b], _, _ =>
      have hab : a ≠ b := fun hab => he ⟨a, by simp [hab]⟩
      unfold essG
      have hm : mean ([a, b].map fin) = fin ((a + b) / 2) := by
        rw [dss_mean [a, b] (by simp)]
        simp [avg]
      have hs : (([a, b].map fin).map fun x => (x - fin ((a + b) / 2)) ^ 2).sum / ((1 : ℕ) : XF)
          = fin ((a - b) ^ 2 / 2) := by
        simp only [List.map_cons, List.map_nil, List.sum_cons, List.sum_nil, fin_sub, fin_pow, zero_fin, fin_add,
          natCast_fin]
        rw [fin_div (by norm_num)]
        congr 1
        push_cast
        ring
      have hp : 0 < Real.sqrt ((a - b) ^ 2 / 2) :=
        Real.sqrt_pos.2 (by have := sq_pos_of_ne_zero (sub_ne_zero.2 hab); positivity)
      simp only [hm]
      have hl : ([a, b].map fin).length = 2 := rfl
      rw [hl]
      show _ / (((2 - 1) * (2 - 2) : ℕ) : XF) = nan
      have hs' : (([a, b].map fin).map fun x => (x - fin ((a + b) / 2)) ^ 2).sum / ((2 - 1 : ℕ) : XF)
          = fin ((a - b) ^ 2 / 2) := hs
      rw [hs', fin_sqrt (by positivity)]
      simp only [List.map_cons, List.map_nil, List.sum_cons, List.sum_nil, fin_sub, fin_div hp.ne', fin_pow, zero_fin,
        fin_add, natCast_fin]
      have : ((a - (a + b) / 2) / Real.sqrt ((a - b) ^ 2 / 2)) ^ 3
          + (((b - (a + b) / 2) / Real.sqrt ((a - b) ^ 2 / 2)) ^ 3 + 0) = 0 := by ring
      rw [this]
      have z : (((2 - 1) * (2 - 2) : ℕ) : ℝ) = 0 := by norm_num
      rw [z, zero_div_zero]

example : ([1, 3] : List ℝ) ≠ [] ∧ ([1, 3] : List ℝ).length ≤ 2 := by simp

example : ([3, 3, 3, 3] : List ℝ) ≠ [] ∧ ∃ x, ∀ a ∈ ([3, 3, 3, 3] : List ℝ), a = x := ⟨by simp, 3, by simp⟩

end Verif
