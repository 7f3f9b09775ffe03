import Verif.Props.Convex

/-!
# Property C160, continued: scores of probabilities, quantiles and intervals are convex in the forecast
-/

noncomputable section

open scoped Classical

namespace Verif

open XF Py Api Brier

theorem pinf_add : pinf + pinf = pinf ∧ (∀ x : ℝ, pinf + fin x = pinf) ∧ ∀ x : ℝ, fin x + pinf = pinf :=
  ⟨rfl, fun _ => rfl, fun _ => rfl⟩

/-! ### probabilities -/

theorem brier_convex (o : Bool) {p p' a b : ℝ} (ha : 0 ≤ a) (hb : 0 ≤ b) (hab : a + b = 1) :
    Spec.brier (a * p + b * p') o ≤ a * Spec.brier p o + b * Spec.brier p' o := by
  obtain rfl : b = 1 - a := by linarith
  have h : 0 ≤ a * (1 - a) * (p - p') ^ 2 := mul_nonneg (mul_nonneg ha hb) (sq_nonneg _)
  cases o <;> simp only [Spec.brier, Bool.false_eq_true, if_false, if_true] <;> nlinarith

/-- C160: the Brier score; strictly, unless the two forecasts agree or one of them has no weight. -/
theorem C160_brier (o : Bool) {p p' a b : ℝ} (ha : 0 ≤ a) (hb : 0 ≤ b) (hab : a + b = 1) :
    brier1 (fin (outc o)) (fin (a * p + b * p'))
      = fin a * brier1 (fin (outc o)) (fin p) + fin b * brier1 (fin (outc o)) (fin p') - fin (a * b * (p - p') ^ 2) ∧
    brier1 (fin (outc o)) (fin (a * p + b * p'))
      ≤ fin a * brier1 (fin (outc o)) (fin p) + fin b * brier1 (fin (outc o)) (fin p') := by
  simp only [brier1_fin, fin_mul, fin_add, fin_sub, fin_le, fin.injEq]
  refine ⟨?_, brier_convex o ha hb hab⟩
  obtain rfl : b = 1 - a := by linarith
  cases o <;> simp only [Spec.brier, Bool.false_eq_true, if_false, if_true] <;> ring

example : (0:ℝ) ≤ 1 / 3 ∧ (0:ℝ) ≤ 2 / 3 ∧ (1:ℝ) / 3 + 2 / 3 = 1 := by norm_num

theorem probOf_mix (o : Bool) {p p' a b : ℝ} (hab : a + b = 1) :
    Spec.probOf (a * p + b * p') o = a * Spec.probOf p o + b * Spec.probOf p' o := by
  obtain rfl : b = 1 - a := by linarith
  cases o <;> simp only [Spec.probOf, Bool.false_eq_true, if_false, if_true]
  ring

theorem log_mix {p p' a b : ℝ} (hp : 0 < p) (hp' : 0 < p') (ha : 0 ≤ a) (hb : 0 ≤ b) (hab : a + b = 1) :
    -Real.log (a * p + b * p') ≤ a * -Real.log p + b * -Real.log p' := by
  have := strictConcaveOn_log_Ioi.concaveOn.2 (Set.mem_Ioi.2 hp) (Set.mem_Ioi.2 hp') ha hb hab
  simp only [smul_eq_mul] at this
  linarith

theorem probOf_nonneg (o : Bool) {p : ℝ} (h0 : 0 ≤ p) (h1 : p ≤ 1) : 0 ≤ Spec.probOf p o := by
  unfold Spec.probOf; split_ifs <;> linarith

/-- C160: the logarithmic score of a binary event, infinite values included. -/
theorem C160_log (o : Bool) {p p' a b : ℝ} (h0 : 0 ≤ p) (h1 : p ≤ 1) (h0' : 0 ≤ p') (h1' : p' ≤ 1) (ha : 0 < a) (hb : 0 < b)
    (hab : a + b = 1) :
    log1 (fin (outc o)) (fin (a * p + b * p'))
      ≤ fin a * log1 (fin (outc o)) (fin p) + fin b * log1 (fin (outc o)) (fin p') := by
  have h2 : 0 ≤ a * p + b * p' := by positivity
  have h3 : a * p + b * p' ≤ 1 := by nlinarith
  have q := probOf_nonneg o h0 h1
  have q' := probOf_nonneg o h0' h1'
  rw [log1_fin o h0 h1, log1_fin o h0' h1', log1_fin o h2 h3, probOf_mix o hab]
  by_cases hz : Spec.probOf p o = 0
  · rw [if_pos hz, mul_pinf_pos ha]
    split_ifs <;> simp [fin_mul, mul_pinf_pos hb, pinf_add]
  · by_cases hz' : Spec.probOf p' o = 0
    · rw [if_pos hz', if_neg hz, mul_pinf_pos hb]
      split_ifs <;> simp [fin_mul, pinf_add]
    · have hp := lt_of_le_of_ne q (Ne.symm hz)
      have hp' := lt_of_le_of_ne q' (Ne.symm hz')
      rw [if_neg hz, if_neg hz', if_neg (by positivity), fin_mul, fin_mul, fin_add, fin_le]
      exact log_mix hp hp' ha.le hb.le hab

/-- a forecast that excludes the event, and one that does not -/
example : (0:ℝ) ≤ 0 ∧ (1 / 2 : ℝ) ≤ 1 ∧ (0:ℝ) < 1 / 3 ∧ (1:ℝ) / 3 + 2 / 3 = 1 := by norm_num

/-! ### categories -/

theorem sliceAt_mix {f f' fm : Arr ℝ} {a b : ℝ} (hs : f'.shape = f.shape) (hm : fm.shape = f.shape)
    (h : ∀ i, fm.get i = a * f.get i + b * f'.get i) (k : ℕ) (i : List ℕ) (j : ℕ) :
    Spec.cum (fm.sliceAt k i) j = a * Spec.cum (f.sliceAt k i) j + b * Spec.cum (f'.sliceAt k i) j := by
  unfold Spec.cum Arr.sliceAt
  rw [hs, hm, ← List.map_take, ← List.map_take, ← List.map_take, ← List.sum_map_mul_left, ← List.sum_map_mul_left,
    ← List.sum_map_add]
  simp only [h]

/-- C160: the ranked probability score, for every array rank and axis. -/
theorem C160_rps {obs : Arr ℕ} {fct fct' fm : Arr ℝ} {m : ℤ} {k : ℕ} {a b : ℝ} (h : Spec.AxisIs m fct.ndim k)
    (hs : obs.shape = fct.shape.eraseIdx k) (hs' : fct'.shape = fct.shape) (hsm : fm.shape = fct.shape)
    (hf : ∀ i, Arr.Valid fct.shape i → 0 ≤ fct.get i ∧ fct.get i ≤ 1)
    (hf' : ∀ i, Arr.Valid fct.shape i → 0 ≤ fct'.get i ∧ fct'.get i ≤ 1)
    (hc : ∀ i, Arr.Valid obs.shape i → 1 ≤ obs.get i) (ha : 0 ≤ a) (hb : 0 ≤ b) (hab : a + b = 1)
    (hm : ∀ i, fm.get i = a * fct.get i + b * fct'.get i) :
    ∃ out out' om, rpsScore (obs.map fun c : ℕ => (c : XF)) (fct.map fin) m false = .ok out ∧
      rpsScore (obs.map fun c : ℕ => (c : XF)) (fct'.map fin) m false = .ok out' ∧
      rpsScore (obs.map fun c : ℕ => (c : XF)) (fm.map fin) m false = .ok om ∧
      om.shape = obs.shape ∧
      ∀ i, Arr.Valid obs.shape i → ∃ s s' t : ℝ, out.get i = fin s ∧ out'.get i = fin s' ∧ om.get i = fin t ∧
        t ≤ a * s + b * s' := by
  have hfm : ∀ i, Arr.Valid fct.shape i → 0 ≤ fm.get i ∧ fm.get i ≤ 1 := fun i hi => by
    obtain ⟨p1, p2⟩ := hf i hi
    obtain ⟨p3, p4⟩ := hf' i hi
    rw [hm]
    exact ⟨by positivity, by nlinarith⟩
  obtain ⟨o, h1, h2, h3⟩ := C31_rps_value h hs hf hc
  obtain ⟨o', h1', h2', h3'⟩ := C31_rps_value (obs := obs) (fct := fct') (m := m) (k := k)
    (by unfold Arr.ndim; rw [hs']; exact h) (by rw [hs']; exact hs) (by rw [hs']; exact hf') hc
  obtain ⟨om, h1m, h2m, h3m⟩ := C31_rps_value (obs := obs) (fct := fm) (m := m) (k := k)
    (by unfold Arr.ndim; rw [hsm]; exact h) (by rw [hsm]; exact hs) (by rw [hsm]; exact hfm) hc
  refine ⟨o, o', om, h1, h1', h1m, h2m, fun i hi => ⟨_, _, _, h3 i hi, h3' i hi, h3m i hi, ?_⟩⟩
  have hl : (fm.sliceAt k i).length = (fct.sliceAt k i).length ∧ (fct'.sliceAt k i).length = (fct.sliceAt k i).length := by
    simp [Arr.sliceAt, hs', hsm]
  unfold Spec.rps
  rw [hl.1, hl.2, ← List.sum_map_mul_left, ← List.sum_map_mul_left, ← List.sum_map_add]
  refine List.sum_le_sum fun j _ => ?_
  rw [sliceAt_mix hs' hsm hm]
  exact brier_convex _ ha hb hab

/-- three categories, two forecasts and the mean of them -/
example : ∀ i, (⟨[3], fun i => [(1:ℝ) / 2, 1 / 4, 1 / 4].getD (i.getD 0 0) 0⟩ : Arr ℝ).get i
    = 1 / 2 * (⟨[3], fun i => [(1:ℝ), 0, 0].getD (i.getD 0 0) 0⟩ : Arr ℝ).get i
      + 1 / 2 * (⟨[3], fun i => [(0:ℝ), 1 / 2, 1 / 2].getD (i.getD 0 0) 0⟩ : Arr ℝ).get i := by
  intro i
  rcases hj : i.getD 0 0 with _ | _ | _ | j <;> simp only [hj] <;> norm_num

/-- C160: the ranked logarithmic score, for probability vectors and weights inside the unit interval, infinite values
included. -/
theorem C160_rls {obs : Arr ℕ} {fct fct' fm : Arr ℝ} {m : ℤ} {k : ℕ} {a b : ℝ} (h : Spec.AxisIs m fct.ndim k)
    (hs : obs.shape = fct.shape.eraseIdx k) (hs' : fct'.shape = fct.shape) (hsm : fm.shape = fct.shape)
    (hf : ∀ i, Arr.Valid fct.shape i → 0 ≤ fct.get i ∧ fct.get i ≤ 1)
    (hf' : ∀ i, Arr.Valid fct.shape i → 0 ≤ fct'.get i ∧ fct'.get i ≤ 1)
    (hp : ∀ i, Arr.Valid obs.shape i → Spec.IsProb (fct.sliceAt k i))
    (hp' : ∀ i, Arr.Valid obs.shape i → Spec.IsProb (fct'.sliceAt k i))
    (hc : ∀ i, Arr.Valid obs.shape i → 1 ≤ obs.get i) (ha : 0 < a) (hb : 0 < b) (hab : a + b = 1)
    (hm : ∀ i, fm.get i = a * fct.get i + b * fct'.get i) :
    ∃ out out' om, rlsScore (obs.map fun c : ℕ => (c : XF)) (fct.map fin) m false = .ok out ∧
      rlsScore (obs.map fun c : ℕ => (c : XF)) (fct'.map fin) m false = .ok out' ∧
      rlsScore (obs.map fun c : ℕ => (c : XF)) (fm.map fin) m false = .ok om ∧
      om.shape = obs.shape ∧
      ∀ i, Arr.Valid obs.shape i → om.get i ≤ fin a * out.get i + fin b * out'.get i := by
  have hfm : ∀ i, Arr.Valid fct.shape i → 0 ≤ fm.get i ∧ fm.get i ≤ 1 := fun i hi => by
    obtain ⟨p1, p2⟩ := hf i hi
    obtain ⟨p3, p4⟩ := hf' i hi
    rw [hm]
    exact ⟨by positivity, by nlinarith⟩
  have hpm : ∀ i, Arr.Valid obs.shape i → Spec.IsProb (fm.sliceAt k i) := fun i hi => by
    obtain ⟨p1, p2⟩ := hp i hi
    obtain ⟨p3, p4⟩ := hp' i hi
    constructor
    · intro q hq
      unfold Arr.sliceAt at hq p1 p3
      rw [List.mem_map] at hq
      obtain ⟨j, hj, rfl⟩ := hq
      rw [hsm] at hj
      have q1 := p1 _ (List.mem_map_of_mem hj)
      have q3 := p3 _ (List.mem_map_of_mem (by rw [hs']; exact hj))
      rw [hm]
      positivity
    · have := sliceAt_mix hs' hsm hm k i (fct.shape.getD k 0)
      unfold Spec.cum at this
      rw [List.take_of_length_le (by simp [Arr.sliceAt, hsm]), List.take_of_length_le (by simp [Arr.sliceAt]),
        List.take_of_length_le (by simp [Arr.sliceAt, hs'])] at this
      rw [this, p2, p4, mul_one, mul_one, hab]
  obtain ⟨o, h1, h2, h3⟩ := C32_rls_value h hs hf hp hc
  obtain ⟨o', h1', h2', h3'⟩ := C32_rls_value (obs := obs) (fct := fct') (m := m) (k := k)
    (by unfold Arr.ndim; rw [hs']; exact h) (by rw [hs']; exact hs) (by rw [hs']; exact hf') hp' hc
  obtain ⟨om, h1m, h2m, h3m⟩ := C32_rls_value (obs := obs) (fct := fm) (m := m) (k := k)
    (by unfold Arr.ndim; rw [hsm]; exact h) (by rw [hsm]; exact hs) (by rw [hsm]; exact hfm) hpm hc
  refine ⟨o, o', om, h1, h1', h1m, h2m, fun i hi => ?_⟩
  have hcum : ∀ f : List ℝ, Spec.IsProb f → ∀ j, 0 ≤ Spec.cum f j ∧ Spec.cum f j ≤ 1 := fun f hf j => by
    constructor
    · exact List.sum_nonneg fun p hp => hf.1 p (List.mem_of_mem_take hp)
    · rw [← hf.2]
      exact List.Sublist.sum_le_sum (List.take_sublist _ _) hf.1
  have q : ∀ (o : Bool) j, 0 ≤ Spec.probOf (Spec.cum (fct.sliceAt k i) j) o := fun o j =>
    probOf_nonneg o (hcum _ (hp i hi) j).1 (hcum _ (hp i hi) j).2
  have q' : ∀ (o : Bool) j, 0 ≤ Spec.probOf (Spec.cum (fct'.sliceAt k i) j) o := fun o j =>
    probOf_nonneg o (hcum _ (hp' i hi) j).1 (hcum _ (hp' i hi) j).2
  have mix : ∀ (o : Bool) j, Spec.probOf (Spec.cum (fm.sliceAt k i) j) o
      = a * Spec.probOf (Spec.cum (fct.sliceAt k i) j) o + b * Spec.probOf (Spec.cum (fct'.sliceAt k i) j) o := fun o j => by
    rw [sliceAt_mix hs' hsm hm, probOf_mix o hab]
  rw [h3 i hi, h3' i hi, h3m i hi, hs', hsm]
  by_cases hz : ∃ j < fct.shape.getD k 0, Spec.probOf (Spec.cum (fct.sliceAt k i) j) (decide (obs.get i ≤ j + 1)) = 0
  · rw [if_pos hz, mul_pinf_pos ha]
    split_ifs <;> simp [fin_mul, mul_pinf_pos hb, pinf_add]
  · by_cases hz' : ∃ j < fct.shape.getD k 0, Spec.probOf (Spec.cum (fct'.sliceAt k i) j) (decide (obs.get i ≤ j + 1)) = 0
    · rw [if_pos hz', if_neg hz, mul_pinf_pos hb]
      split_ifs <;> simp [fin_mul, pinf_add]
    · rw [if_neg hz, if_neg hz']
      push Not at hz hz'
      have hl : (fm.sliceAt k i).length = fct.shape.getD k 0 ∧ (fct'.sliceAt k i).length = fct.shape.getD k 0 ∧
          (fct.sliceAt k i).length = fct.shape.getD k 0 := by
        simp [Arr.sliceAt, hs', hsm]
      have pos : ∀ j < fct.shape.getD k 0, 0 < Spec.probOf (Spec.cum (fct.sliceAt k i) j) (decide (obs.get i ≤ j + 1)) ∧
          0 < Spec.probOf (Spec.cum (fct'.sliceAt k i) j) (decide (obs.get i ≤ j + 1)) := fun j hj =>
        ⟨lt_of_le_of_ne (q _ j) (Ne.symm (hz j hj)), lt_of_le_of_ne (q' _ j) (Ne.symm (hz' j hj))⟩
      rw [if_neg, fin_mul, fin_mul, fin_add, fin_le]
      · unfold Spec.rls
        rw [hl.1, hl.2.1, hl.2.2, ← List.sum_map_mul_left, ← List.sum_map_mul_left, ← List.sum_map_add]
        refine List.sum_le_sum fun j hj => ?_
        obtain ⟨r1, r2⟩ := pos j (List.mem_range.1 hj)
        rw [mix]
        exact log_mix r1 r2 ha.le hb.le hab
      · rintro ⟨j, hj, h0⟩
        obtain ⟨r1, r2⟩ := pos j hj
        rw [mix] at h0
        have := mul_pos ha r1
        have := mul_pos hb r2
        linarith

/-- the mean of a forecast that excludes two categories and one that excludes the other -/
example : Spec.IsProb [(1:ℝ), 0, 0] ∧ Spec.IsProb [(0:ℝ), 1 / 2, 1 / 2] := by
  refine ⟨⟨by simp, by norm_num⟩, ⟨by simp, by norm_num⟩⟩

/-! ### quantiles and intervals -/

theorem pinball_convex {α q q' y y' a b : ℝ} (ha : 0 ≤ a) (hb : 0 ≤ b) :
    Spec.pinball α (a * q + b * q') (a * y + b * y') ≤ a * Spec.pinball α q y + b * Spec.pinball α q' y' := by
  unfold Spec.pinball
  refine max_le ?_ ?_
  · have h1 := mul_le_mul_of_nonneg_left (le_max_left (α * (y - q)) ((1 - α) * (q - y))) ha
    have h2 := mul_le_mul_of_nonneg_left (le_max_left (α * (y' - q')) ((1 - α) * (q' - y'))) hb
    linarith
  · have h1 := mul_le_mul_of_nonneg_left (le_max_right (α * (y - q)) ((1 - α) * (q - y))) ha
    have h2 := mul_le_mul_of_nonneg_left (le_max_right (α * (y' - q')) ((1 - α) * (q' - y'))) hb
    linarith

/-- C160: the quantile score, in the observation and the quantile together, for every level. -/
theorem C160_quantile {α q q' y y' a b : ℝ} (ha : 0 ≤ a) (hb : 0 ≤ b) :
    Quantile.score1 (fin (a * y + b * y')) (fin (a * q + b * q')) (fin α)
      ≤ fin a * Quantile.score1 (fin y) (fin q) (fin α) + fin b * Quantile.score1 (fin y') (fin q') (fin α) := by
  simp only [Quantile.score1_fin, fin_mul, fin_add, fin_le]
  exact pinball_convex ha hb

example : (0:ℝ) ≤ 1 / 3 ∧ (0:ℝ) ≤ 2 / 3 := by norm_num

/-- C160: the CRPS from quantiles, on both paths, for every array rank and axis. -/
theorem C160_crps_quantile {obs fct fct' fm : Arr ℝ} {alpha : List ℝ} {m : ℤ} {k : ℕ} {a b : ℝ}
    (h : Spec.AxisIs m fct.ndim k) (hs : obs.shape = fct.shape.eraseIdx k) (hs' : fct'.shape = fct.shape)
    (hsm : fm.shape = fct.shape) (hq : fct.shape.getD k 0 = alpha.length) (hne : alpha ≠ []) (hal : ∀ a ∈ alpha, 0 < a ∧ a < 1)
    (ha : 0 ≤ a) (hb : 0 ≤ b) (hab : a + b = 1) (hm : ∀ i, fm.get i = a * fct.get i + b * fct'.get i) (path : Path) :
    ∃ out out' om, crpsQuantile path (obs.map fin) (fct.map fin) (alpha.map fin) m = .ok out ∧
      crpsQuantile path (obs.map fin) (fct'.map fin) (alpha.map fin) m = .ok out' ∧
      crpsQuantile path (obs.map fin) (fm.map fin) (alpha.map fin) m = .ok om ∧
      om.shape = obs.shape ∧
      ∀ i, ∃ s s' t : ℝ, out.get i = fin s ∧ out'.get i = fin s' ∧ om.get i = fin t ∧ t ≤ a * s + b * s' := by
  obtain ⟨o, h1, h2, h3⟩ := C26_crps_quantile_value h hs hq hne hal path
  obtain ⟨o', h1', h2', h3'⟩ := C26_crps_quantile_value (obs := obs) (fct := fct') (m := m) (k := k)
    (by unfold Arr.ndim; rw [hs']; exact h) (by rw [hs']; exact hs) (by rw [hs']; exact hq) hne hal path
  obtain ⟨om, h1m, h2m, h3m⟩ := C26_crps_quantile_value (obs := obs) (fct := fm) (m := m) (k := k)
    (by unfold Arr.ndim; rw [hsm]; exact h) (by rw [hsm]; exact hs) (by rw [hsm]; exact hq) hne hal path
  refine ⟨o, o', om, h1, h1', h1m, h2m, fun i => ⟨_, _, _, h3 i, h3' i, h3m i, ?_⟩⟩
  have key : ∀ (L : List ℕ) (g g' : ℕ → ℝ) (al : List ℝ) (y : ℝ),
      (((L.map fun j => a * g j + b * g' j).zip al).map fun p => Spec.pinball p.2 p.1 y).sum
      ≤ a * (((L.map g).zip al).map fun p => Spec.pinball p.2 p.1 y).sum
        + b * (((L.map g').zip al).map fun p => Spec.pinball p.2 p.1 y).sum := fun L g g' al y => by
    induction L generalizing al with
    | nil => simp
    | cons x L ih =>
      cases al with
      | nil => simp
      | cons c al =>
        simp only [List.map_cons, List.zip_cons_cons, List.sum_cons]
        have p1 := pinball_convex (α := c) (q := g x) (q' := g' x) (y := y) (y' := y) ha hb
        rw [← add_mul, hab, one_mul] at p1
        linarith [ih al]
  have := key (List.range (fct.shape.getD k 0)) (fun j => fct.get (i.insertIdx k j)) (fun j => fct'.get (i.insertIdx k j))
    alpha (obs.get i)
  unfold Arr.sliceAt
  simp only [hm, hs', hsm]
  have h4 : (0:ℝ) ≤ alpha.length := by positivity
  have h5 := mul_le_mul_of_nonneg_left (div_le_div_of_nonneg_right this h4) (zero_le_two (α := ℝ))
  refine h5.trans (le_of_eq ?_)
  ring

example : (0:ℝ) ≤ 1 / 3 ∧ (0:ℝ) ≤ 2 / 3 ∧ (1:ℝ) / 3 + 2 / 3 = 1 := by norm_num

theorem interval_convex {α l l' u u' y y' a b : ℝ} (h0 : 0 < α) (ha : 0 ≤ a) (hb : 0 ≤ b) :
    Spec.intervalScore α (a * l + b * l') (a * u + b * u') (a * y + b * y')
      ≤ a * Spec.intervalScore α l u y + b * Spec.intervalScore α l' u' y' := by
  have mx : ∀ p p' : ℝ, max (a * p + b * p') 0 ≤ a * max p 0 + b * max p' 0 := fun p p' =>
    max_le (add_le_add (mul_le_mul_of_nonneg_left (le_max_left _ _) ha) (mul_le_mul_of_nonneg_left (le_max_left _ _) hb))
      (by positivity)
  have h1 := mx (l - y) (l' - y')
  have h2 := mx (y - u) (y' - u')
  rw [show a * (l - y) + b * (l' - y') = a * l + b * l' - (a * y + b * y') by ring] at h1
  rw [show a * (y - u) + b * (y' - u') = a * y + b * y' - (a * u + b * u') by ring] at h2
  have h3 : 0 ≤ 2 / α := by positivity
  have h4 := mul_le_mul_of_nonneg_left h1 h3
  have h5 := mul_le_mul_of_nonneg_left h2 h3
  unfold Spec.intervalScore
  linarith

/-- C160: the interval score, in the observation and both ends together. -/
theorem C160_interval {α l l' u u' y y' a b : ℝ} (h0 : 0 < α) (ha : 0 ≤ a) (hb : 0 ≤ b) :
    Interval.score1 (fin (a * y + b * y')) (fin (a * l + b * l')) (fin (a * u + b * u')) (fin α)
      ≤ fin a * Interval.score1 (fin y) (fin l) (fin u) (fin α) + fin b * Interval.score1 (fin y') (fin l') (fin u') (fin α) := by
  simp only [Interval.score1_fin _ _ _ h0.ne', fin_mul, fin_add, fin_le]
  exact interval_convex h0 ha hb

example : (0:ℝ) < 1 / 5 ∧ (0:ℝ) ≤ 1 / 3 ∧ (0:ℝ) ≤ 2 / 3 := by norm_num

/-- C160: the weighted interval score, on the numba path and on the array path (where the median enters linearly). -/
theorem C160_wis {y y' m m' w0 a b : ℝ} {K : ℕ} {l l' u u' α w : Fin K → ℝ} (hw0 : 0 ≤ w0) (hw : ∀ i, 0 ≤ w i)
    (hα : ∀ i, 0 < α i) (ha : 0 ≤ a) (hb : 0 ≤ b) (path : Path) :
    let wis (y m : ℝ) (l u : Fin K → ℝ) : XF :=
      match path with
      | .numba => Interval.wisGufunc (fin y) (fin m) ((List.ofFn l).map fin) ((List.ofFn u).map fin) ((List.ofFn α).map fin)
          (fin w0) ((List.ofFn w).map fin)
      | .array => Interval.wisArray (fin y) (fin m) ((List.ofFn l).map fin) ((List.ofFn u).map fin) ((List.ofFn α).map fin)
          (fin w0) ((List.ofFn w).map fin)
    ∃ s s' t : ℝ, wis y m l u = fin s ∧ wis y' m' l' u' = fin s' ∧
      wis (a * y + b * y') (a * m + b * m') (fun i => a * l i + b * l' i) (fun i => a * u i + b * u' i) = fin t ∧
      t ≤ a * s + b * s' := by
  intro wis
  have hpos : (0:ℝ) < K + 1 / 2 := by positivity
  have hsum : ∑ i, w i * Spec.intervalScore (α i) (a * l i + b * l' i) (a * u i + b * u' i) (a * y + b * y')
      ≤ a * (∑ i, w i * Spec.intervalScore (α i) (l i) (u i) y) + b * ∑ i, w i * Spec.intervalScore (α i) (l' i) (u' i) y' := by
    rw [Finset.mul_sum, Finset.mul_sum, ← Finset.sum_add_distrib]
    refine Finset.sum_le_sum fun i _ => ?_
    have := mul_le_mul_of_nonneg_left
      (interval_convex (l := l i) (l' := l' i) (u := u i) (u' := u' i) (y := y) (y' := y') (hα i) ha hb) (hw i)
    linarith
  have fold : ∀ l u : Fin K → ℝ,
      (List.ofFn l).map fin = ivL (List.ofFn fun i => (l i, u i, α i, w i)) ∧
      (List.ofFn u).map fin = ivU (List.ofFn fun i => (l i, u i, α i, w i)) ∧
      (List.ofFn α).map fin = ivA (List.ofFn fun i => (l i, u i, α i, w i)) ∧
      (List.ofFn w).map fin = ivW (List.ofFn fun i => (l i, u i, α i, w i)) := fun l u => by
    unfold ivL ivU ivA ivW
    simp only [List.map_ofFn, Function.comp_def, and_self]
  have hne : ∀ l u : Fin K → ℝ, ∀ p ∈ (List.ofFn fun i => (l i, u i, α i, w i)), p.2.2.1 ≠ 0 := fun l u p hp => by
    obtain ⟨i, rfl⟩ := (List.mem_ofFn).1 hp
    exact (hα i).ne'
  have habs : |a * y + b * y' - (a * m + b * m')| ≤ a * |y - m| + b * |y' - m'| := by
    rw [show a * y + b * y' - (a * m + b * m') = a * (y - m) + b * (y' - m') by ring]
    refine (abs_add_le _ _).trans ?_
    rw [abs_mul, abs_mul, abs_of_nonneg ha, abs_of_nonneg hb]
  have fin_step : ∀ {A B C D E F : ℝ}, A ≤ a * B + b * C → D ≤ a * E + b * F →
      (A + D) / (K + 1 / 2) ≤ a * ((B + E) / (K + 1 / 2)) + b * ((C + F) / (K + 1 / 2)) := fun {A B C D E F} h1 h2 => by
    rw [← mul_div_assoc, ← mul_div_assoc, ← add_div]
    exact div_le_div_of_nonneg_right (by linarith) hpos.le
  cases path with
  | numba =>
    have e : ∀ (y m : ℝ) (l u : Fin K → ℝ), wis y m l u
        = fin ((w0 * |y - m| + ∑ i, w i * Spec.intervalScore (α i) (l i) (u i) y) / (K + 1 / 2)) := fun y m l u => by
      obtain ⟨e1, e2, e3, e4⟩ := fold l u
      show Interval.wisGufunc _ _ _ _ _ _ _ = _
      rw [e1, e2, e3, e4, C28_wis_numba y m w0 _ (hne l u), Spec.wis]
      simp only [List.length_ofFn, List.map_ofFn, Function.comp_def, List.sum_ofFn]
    refine ⟨_, _, _, e _ _ _ _, e _ _ _ _, e _ _ _ _, fin_step ?_ hsum⟩
    have := mul_le_mul_of_nonneg_left habs hw0
    linarith
  | array =>
    have e : ∀ (y m : ℝ) (l u : Fin K → ℝ), wis y m l u
        = fin ((w0 * m + ∑ i, w i * Spec.intervalScore (α i) (l i) (u i) y) / (K + 1 / 2)) := fun y m l u => by
      obtain ⟨e1, e2, e3, e4⟩ := fold l u
      show Interval.wisArray _ _ _ _ _ _ _ = _
      rw [e1, e2, e3, e4, C28_wis_array_partial y m w0 _ (hne l u), Spec.wis]
      simp only [List.length_ofFn, List.map_ofFn, Function.comp_def, List.sum_ofFn]
      congr 1; ring
    refine ⟨_, _, _, e _ _ _ _, e _ _ _ _, e _ _ _ _, fin_step (le_of_eq (by ring)) hsum⟩

example : (0:ℝ) ≤ 1 / 2 ∧ (0:ℝ) < 1 / 5 ∧ (0:ℝ) ≤ 1 / 3 ∧ (0:ℝ) ≤ 2 / 3 := by norm_num

end Verif
