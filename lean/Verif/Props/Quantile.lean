import Verif.Model.Quantile
import Verif.Model.WeightedUv
import Verif.Spec.Quantile
import Verif.Props.CrpsArr
import Verif.Lemmas.WeightedUv

/-!
# Quantile score, interval score, weighted interval score (C26 to C29)
-/

noncomputable section

open scoped Classical

namespace Verif

open XF Py Api

/-! ### elementwise values -/

theorem pinball_eq (α q y : ℝ) :
    Spec.pinball α q y = ((if y < q then 1 else 0) - α) * (q - y) := by
  unfold Spec.pinball
  split_ifs with h
  · rw [max_eq_right (by nlinarith)]
  · rw [max_eq_left (by nlinarith [not_lt.1 h])]; ring

theorem pinball_eq_le (α q y : ℝ) :
    Spec.pinball α q y = α * (y - q) + max (q - y) 0 := by
  unfold Spec.pinball
  rcases le_total q y with h | h
  · rw [max_eq_left (by nlinarith), max_eq_right (by linarith)]; ring
  · rw [max_eq_right (by nlinarith), max_eq_left (by linarith)]; ring

theorem pinball_nonneg {α : ℝ} (h0 : 0 ≤ α) (h1 : α ≤ 1) (q y : ℝ) : 0 ≤ Spec.pinball α q y := by
  unfold Spec.pinball
  rcases le_total q y with h | h
  · exact le_max_of_le_left (mul_nonneg h0 (by linarith))
  · exact le_max_of_le_right (mul_nonneg (by linarith) (by linarith))

theorem Quantile.score1_fin (y q α : ℝ) :
    Quantile.score1 (fin y) (fin q) (fin α) = fin (Spec.pinball α q y) := by
  unfold Quantile.score1
  rw [ind_def, fin_sub, fin_sub, fin_mul, pinball_eq]
  simp only [fin_lt]

theorem Interval.score1_fin (y l u : ℝ) {α : ℝ} (h : α ≠ 0) :
    Interval.score1 (fin y) (fin l) (fin u) (fin α) = fin (Spec.intervalScore α l u y) := by
  unfold Interval.score1 Spec.intervalScore
  simp only [ind_def, ofNat_def, fin_div h, fin_sub, fin_mul, fin_add, fin_lt, fin_inj]
  congr 1
  · congr 1
    split_ifs with h1
    · rw [max_eq_left (by linarith)]; ring
    · rw [max_eq_right (by linarith)]; ring
  · split_ifs with h1
    · rw [max_eq_left (by linarith)]; ring
    · rw [max_eq_right (by linarith)]; ring

theorem intervalScore_eq {α : ℝ} (h : α ≠ 0) (l u y : ℝ) :
    Spec.intervalScore α l u y
      = 2 / α * (Spec.pinball (α / 2) l y + Spec.pinball (1 - α / 2) u y) := by
  have e : max (u - y) 0 = max (y - u) 0 + (u - y) := by
    rcases le_total u y with h' | h'
    · rw [max_eq_right (by linarith), max_eq_left (by linarith)]; ring
    · rw [max_eq_left (by linarith), max_eq_right (by linarith)]; ring
  rw [pinball_eq_le, pinball_eq_le, e, Spec.intervalScore]
  field_simp
  ring

/-! ### C26 -/

/-- C26: on finite inputs of compatible shapes with levels in [0, 1], `quantile_score` is the pinball
loss. -/
theorem C26_quantile_score_value {obs fct alpha : Arr ℝ} {s : List ℕ}
    (hs : Arr.bcast [obs.shape, fct.shape, alpha.shape] = some s)
    (ha : ∀ i, Arr.Valid alpha.shape i → 0 ≤ alpha.get i ∧ alpha.get i ≤ 1) :
    ∃ out, Quantile.score (obs.map fin) (fct.map fin) (alpha.map fin) = .ok out ∧ out.shape = s ∧
      ∀ i, out.get i = fin (Spec.pinball (alpha.bget i) (fct.bget i) (obs.bget i)) := by
  unfold Quantile.score
  rw [if_neg]
  · have : Arr.bcast [(obs.map fin).shape, (fct.map fin).shape, (alpha.map fin).shape] = some s := hs
    rw [this]
    exact ⟨_, rfl, rfl, fun i => Quantile.score1_fin _ _ _⟩
  · rintro (⟨i, hi, h⟩ | ⟨i, hi, h⟩)
    · have h' : fin (alpha.get i) < fin 0 := h
      rw [fin_lt] at h'
      linarith [(ha i hi).1]
    · have h' : fin 1 < fin (alpha.get i) := h
      rw [fin_lt] at h'
      linarith [(ha i hi).2]

/-- levels 0.1 and 0.9 for one observation and two forecasts meet the hypotheses -/
example : Arr.bcast [([] : List ℕ), [2], [2]] = some [2] := by
  simp [Arr.bcast, Arr.bshape, Arr.bshapeR]

/-- C26: for inputs of compatible shapes (any floats), `quantile_score` raises `ValueError` exactly
when some level is below 0 or above 1. -/
theorem C26_quantile_score_raises {obs fct alpha : Arr XF}
    (hs : Arr.bcast [obs.shape, fct.shape, alpha.shape] ≠ none) :
    Quantile.score obs fct alpha = .error .valueError ↔
      ∃ i, Arr.Valid alpha.shape i ∧ (alpha.get i < 0 ∨ 1 < alpha.get i) := by
  unfold Quantile.score
  have e : (alpha.Any (fun v => v < 0) ∨ alpha.Any (fun v => 1 < v)) ↔
      ∃ i, Arr.Valid alpha.shape i ∧ (alpha.get i < 0 ∨ 1 < alpha.get i) := by
    constructor
    · rintro (⟨i, hi, h⟩ | ⟨i, hi, h⟩)
      · exact ⟨i, hi, Or.inl h⟩
      · exact ⟨i, hi, Or.inr h⟩
    · rintro ⟨i, hi, h | h⟩
      · exact Or.inl ⟨i, hi, h⟩
      · exact Or.inr ⟨i, hi, h⟩
  by_cases h : alpha.Any (fun v => v < 0) ∨ alpha.Any (fun v => 1 < v)
  · rw [if_pos h]; exact ⟨fun _ => e.1 h, fun _ => rfl⟩
  · rw [if_neg h]
    obtain ⟨s, hs'⟩ := Option.ne_none_iff_exists'.1 hs
    rw [hs']
    exact ⟨fun h' => by simp at h', fun h' => absurd (e.2 h') h⟩

example : Arr.bcast [(⟨[3, 1], fun _ => 0⟩ : Arr XF).shape, (⟨[3, 2], fun _ => 0⟩ : Arr XF).shape,
    (⟨[2], fun _ => 0⟩ : Arr XF).shape] ≠ none := by
  simp [Arr.bcast, Arr.bshape, Arr.bshapeR]

/-- C26: the pinball loss is non-negative, vanishes at the observation and only there. -/
theorem C26_pinball_properties {α : ℝ} (h0 : 0 ≤ α) (h1 : α ≤ 1) (q y : ℝ) :
    (∃ r, Quantile.score1 (fin y) (fin q) (fin α) = fin r ∧ 0 ≤ r ∧
      (0 < α → α < 1 → q ≠ y → 0 < r)) ∧
      Quantile.score1 (fin y) (fin y) (fin α) = fin 0 := by
  refine ⟨⟨_, Quantile.score1_fin _ _ _, pinball_nonneg h0 h1 q y, fun h2 h3 hne => ?_⟩, ?_⟩
  · unfold Spec.pinball
    rcases lt_or_gt_of_ne hne with h | h
    · exact lt_max_of_lt_left (mul_pos h2 (by linarith))
    · exact lt_max_of_lt_right (mul_pos (by linarith) (by linarith))
  · rw [Quantile.score1_fin]; simp [Spec.pinball]

example : (0 : ℝ) ≤ 1 / 4 ∧ (1 / 4 : ℝ) ≤ 1 := by norm_num

theorem gufunc_pb (y : ℝ) (l : List (ℝ × ℝ)) (c : ℝ) :
    ((l.map fun p => (fin p.1, fin p.2)).foldl (fun pb p =>
      pb + (ind (p.1 < fin y) * p.2 * (fin y - p.1) + ind (fin y ≤ p.1) * (1 - p.2) * (p.1 - fin y)))
      (fin c)) = fin (c + (l.map fun p => Spec.pinball p.2 p.1 y).sum) := by
  induction l generalizing c with
  | nil => simp
  | cons p l ih =>
    simp only [List.map_cons, List.foldl_cons, List.sum_cons]
    have e : fin c + (ind (fin p.1 < fin y) * fin p.2 * (fin y - fin p.1)
        + ind (fin y ≤ fin p.1) * (1 - fin p.2) * (fin p.1 - fin y))
        = fin (c + Spec.pinball p.2 p.1 y) := by
      simp only [ind_def, one_def, fin_sub, fin_mul, fin_add, fin_lt, fin_le, fin_inj, pinball_eq_le]
      congr 1
      rcases lt_or_ge p.1 y with h | h
      · rw [if_pos h, if_neg (not_le.2 h), max_eq_right (by linarith)]; ring
      · rw [if_neg (not_lt.2 h), if_pos h, max_eq_left (by linarith)]; ring
    rw [e, ih, add_assoc]

theorem Gufunc.quantilePinball_fin (y : ℝ) (l : List (ℝ × ℝ)) (hl : l ≠ []) :
    Gufunc.quantilePinball (fin y) (l.map fun p => fin p.1) (l.map fun p => fin p.2)
      = fin (2 * ((l.map fun p => Spec.pinball p.2 p.1 y).sum / l.length)) := by
  unfold Gufunc.quantilePinball
  have hz : (l.map fun p => fin p.1).zip (l.map fun p => fin p.2)
      = l.map fun p => (fin p.1, fin p.2) := by
    rw [List.zip_map', ]
  have hn : (l.length : ℝ) ≠ 0 := by simpa using hl
  dsimp only
  rw [hz, zero_def, gufunc_pb]
  simp only [List.length_map, natCast_def, ofNat_def, fin_div hn, fin_mul, zero_add]

theorem Approx.quantilePinball_fin (y : ℝ) (l : List (ℝ × ℝ)) (hl : l ≠ []) :
    Approx.quantilePinball (fin y) (l.map fun p => fin p.1) (l.map fun p => fin p.2)
      = fin (2 * ((l.map fun p => Spec.pinball p.2 p.1 y).sum / l.length)) := by
  unfold Approx.quantilePinball
  have hn : (l.length : ℝ) ≠ 0 := by simpa using hl
  simp only [zip2_map]
  have e : ∀ p : ℝ × ℝ, ind (fin p.1 ≤ fin y) * fin p.2 * (fin y - fin p.1)
      + ind (fin y < fin p.1) * (1 - fin p.2) * (fin p.1 - fin y)
      = fin (Spec.pinball p.2 p.1 y) := by
    intro p
    simp only [ind_def, one_def, fin_sub, fin_mul, fin_add, fin_lt, fin_le, fin_inj, pinball_eq_le]
    rcases le_or_gt p.1 y with h | h
    · rw [if_pos h, if_neg (not_lt.2 h), max_eq_right (by linarith)]; ring
    · rw [if_neg (not_le.2 h), if_pos h, max_eq_left (by linarith)]; ring
  simp only [e, mean, sum_map_fin', List.length_map, natCast_def, ofNat_def, fin_div hn, fin_mul]

/-- C26: `crps_quantile` is twice the mean pinball loss, on both paths, for every array rank and
axis (forecasts may tie with the observation). -/
theorem C26_crps_quantile_value {obs fct : Arr ℝ} {alpha : List ℝ} {m : ℤ} {k : ℕ}
    (h : Spec.AxisIs m fct.ndim k) (hs : obs.shape = fct.shape.eraseIdx k)
    (hq : fct.shape.getD k 0 = alpha.length) (hne : alpha ≠ []) (ha : ∀ a ∈ alpha, 0 < a ∧ a < 1)
    (path : Path) :
    ∃ out, crpsQuantile path (obs.map fin) (fct.map fin) (alpha.map fin) m = .ok out ∧
      out.shape = obs.shape ∧ ∀ i, out.get i = fin (2 *
        ((((fct.sliceAt k i).zip alpha).map fun p => Spec.pinball p.2 p.1 (obs.get i)).sum
          / alpha.length)) := by
  unfold crpsQuantile
  rw [arrayCheck_axis (obs := obs.map fin) (fct := fct.map fin) h hs]
  simp only [bind, Except.bind]
  rw [if_neg, if_neg]
  · refine ⟨_, rfl, rfl, fun i => ?_⟩
    have hlen : (fct.sliceAt k i).length = alpha.length := by simpa [Arr.sliceAt] using hq
    have e1 : ((fct.map fin).moveLast k).row i
        = ((fct.sliceAt k i).zip alpha).map fun p => fin p.1 := by
      rw [Arr.row_moveLast, sliceAt_map]
      conv_lhs => rw [← List.map_fst_zip hlen.le]
      rw [List.map_map]; rfl
    have e2 : alpha.map fin = ((fct.sliceAt k i).zip alpha).map fun p => fin p.2 := by
      conv_lhs => rw [← List.map_snd_zip hlen.ge]
      rw [List.map_map]; rfl
    have hz : (fct.sliceAt k i).zip alpha ≠ [] := by
      intro h0
      have := congrArg List.length h0
      simp [hlen] at this
      exact hne this
    have hzl : ((fct.sliceAt k i).zip alpha).length = alpha.length := by simp [hlen]
    have ho : (obs.map fin).get i = fin (obs.get i) := rfl
    cases path
    · dsimp only
      rw [e1, e2, ho, Gufunc.quantilePinball_fin _ _ hz, hzl]
    · dsimp only
      rw [e1, e2, ho, Approx.quantilePinball_fin _ _ hz, hzl]
  · rw [not_not]; simpa [Arr.moveLast, Arr.map] using hq
  · rintro (⟨v, hv, h'⟩ | ⟨v, hv, h'⟩)
    · obtain ⟨a, ha', rfl⟩ := List.mem_map.1 hv
      rw [zero_def, fin_le] at h'
      linarith [(ha a ha').1]
    · obtain ⟨a, ha', rfl⟩ := List.mem_map.1 hv
      rw [one_def, fin_le] at h'
      linarith [(ha a ha').2]

/-- two levels and a forecast tied with the observation meet the hypotheses -/
example : Spec.AxisIs (-1) (⟨[2], fun _ => 1⟩ : Arr ℝ).ndim 0 ∧
    (⟨[2], fun _ => 1⟩ : Arr ℝ).shape.getD 0 0 = [(0.1 : ℝ), 0.9].length ∧
    ∀ a ∈ [(0.1 : ℝ), 0.9], 0 < a ∧ a < 1 := by
  refine ⟨⟨by simp [Arr.ndim], by simp [Arr.ndim]⟩, by simp, ?_⟩
  intro a ha
  simp at ha
  rcases ha with rfl | rfl <;> norm_num

/-- C26: `crps_quantile` rejects a level that is not strictly between 0 and 1. -/
theorem C26_crps_quantile_raises {obs fct : Arr XF} {alpha : List XF} {m : ℤ} {k : ℕ}
    (h : Spec.AxisIs m fct.ndim k) (hs : obs.shape = fct.shape.eraseIdx k)
    (ha : ∃ a ∈ alpha, a ≤ 0 ∨ 1 ≤ a) (path : Path) :
    crpsQuantile path obs fct alpha m = .error .valueError := by
  unfold crpsQuantile
  rw [arrayCheck_axis h hs]
  simp only [bind, Except.bind]
  rw [if_pos]
  obtain ⟨a, ha, h' | h'⟩ := ha
  · exact Or.inl ⟨a, ha, h'⟩
  · exact Or.inr ⟨a, ha, h'⟩

example : Spec.AxisIs (-1) (Arr.ofList [1, 2, 3] : Arr XF).ndim 0 ∧
    (Arr.scalar 5 : Arr XF).shape = (Arr.ofList [1, 2, 3] : Arr XF).shape.eraseIdx 0 ∧
    ∃ a ∈ [fin (1 / 2), fin 1], a ≤ 0 ∨ 1 ≤ a := by
  refine ⟨⟨by simp [Arr.ofList, Arr.ndim], Or.inr (by simp [Arr.ofList, Arr.ndim])⟩,
    by simp [Arr.ofList, Arr.scalar], fin 1, by simp, Or.inr ?_⟩
  simp [one_def]

/-! ### C27 -/

theorem bshapeR_self' (s : List ℕ) : Arr.bshapeR s s = some s := by
  induction s with
  | nil => rfl
  | cons a s ih => simp [Arr.bshapeR, ih]

/-- C27: the interval score of one case is the width-plus-penalty formula, equals the stated sum of
two pinball losses, and is non-negative when the interval is not crossing. -/
theorem C27_interval_is_quantile_sum (y l u : ℝ) {α : ℝ} (h : 0 < α) :
    ∃ r, Interval.score1 (fin y) (fin l) (fin u) (fin α) = fin r ∧
      r = Spec.intervalScore α l u y ∧
      r = 2 / α * (Spec.pinball (α / 2) l y + Spec.pinball (1 - α / 2) u y) ∧
      (l ≤ u → 0 ≤ r) := by
  refine ⟨_, Interval.score1_fin y l u h.ne', rfl, intervalScore_eq h.ne' l u y, fun hlu => ?_⟩
  unfold Spec.intervalScore
  have h2 : 0 ≤ 2 / α := by positivity
  have := mul_nonneg h2 (le_max_right (l - y) 0)
  have := mul_nonneg h2 (le_max_right (y - u) 0)
  linarith

theorem squeeze_no_ones {α : Type} (a : Arr α) (h : ∀ n ∈ a.shape, n ≠ 1) :
    a.squeeze.shape = a.shape ∧ ∀ i, Arr.Valid a.shape i → a.squeeze.get i = a.get i := by
  constructor
  · exact List.filter_eq_self.2 fun n hn => by simpa using h n hn
  · intro i hi
    show a.get (Arr.unsqueeze a.shape i) = a.get i
    congr 1
    have : ∀ (s i : List ℕ), (∀ n ∈ s, n ≠ 1) → Arr.Valid s i → Arr.unsqueeze s i = i := by
      intro s i h hi
      unfold Arr.Valid at hi
      induction hi with
      | nil => rfl
      | cons hab _ ih =>
        rw [Arr.unsqueeze, if_neg (h _ (List.mem_cons_self ..))]
        simp only [List.headD_cons, List.tail_cons]
        rw [ih fun n hn => h n (List.mem_cons_of_mem _ hn)]
    exact this _ _ h hi

theorem bcast_interval (s : List ℕ) (K : ℕ) :
    Arr.bcast [s ++ [1], s ++ [K], s ++ [K], [K]] = some (s ++ [K]) := by
  have h1 : Arr.bcast [[K]] = some [K] := by simp [Arr.bcast, Arr.bshape, Arr.bshapeR]
  have h2 : ∀ n t, Arr.bshapeR (n :: t) [n] = some (n :: t) := by
    intro n t; cases t <;> simp [Arr.bshapeR]
  have h3 : Arr.bshape (s ++ [K]) [K] = some (s ++ [K]) := by
    simp [Arr.bshape, h2]
  have h4 : Arr.bshape (s ++ [K]) (s ++ [K]) = some (s ++ [K]) := Arr.bshape_self _
  have h5 : Arr.bshape (s ++ [1]) (s ++ [K]) = some (s ++ [K]) := by
    by_cases hK : K = 1
    · rw [hK]; exact Arr.bshape_self _
    · simp [Arr.bshape, Arr.bshapeR, bshapeR_self', Ne.symm hK]
  have e : Arr.bcast [s ++ [1], s ++ [K], s ++ [K], [K]]
      = ((((Arr.bcast [[K]]).bind fun t => Arr.bshape (s ++ [K]) t).bind
        fun t => Arr.bshape (s ++ [K]) t).bind fun t => Arr.bshape (s ++ [1]) t) := rfl
  rw [e, h1, Option.bind_some, h3, Option.bind_some, h4, Option.bind_some, h5]

/-- C27 for arrays of cases with several intervals each: `lower` and `upper` have shape `s + (K,)`,
`alpha` has shape `(K,)`.  (`np.squeeze` does nothing when no axis has length one.) -/
theorem C27_interval_score_array {obs lower upper alpha : Arr ℝ} {s : List ℕ} {K : ℕ}
    (ho : obs.shape = s) (hl : lower.shape = s ++ [K]) (hu : upper.shape = s ++ [K])
    (ha : alpha.shape = [K]) (h1 : ∀ n ∈ s ++ [K], n ≠ 1)
    (hp : ∀ j < K, 0 < alpha.get [j]) :
    ∃ out, Interval.score (obs.map fin) (lower.map fin) (upper.map fin) (alpha.map fin) = .ok out ∧
      out.shape = s ++ [K] ∧ ∀ i j, Arr.Valid s i → j < K → out.get (i ++ [j])
        = fin (Spec.intervalScore (alpha.get [j]) (lower.get (i ++ [j])) (upper.get (i ++ [j]))
            (obs.get i)) := by
  unfold Interval.score
  have e1 : (lower.map fin).shape = s ++ [K] := hl
  have e2 : (upper.map fin).shape = s ++ [K] := hu
  have e3 : (alpha.map fin).shape = [K] := ha
  have e4 : (obs.map fin).expandLast.shape = s ++ [1] := by
    show obs.shape ++ [1] = _; rw [ho]
  rw [if_neg (by rw [e1, e2]; simp), if_pos (by show alpha.shape.length = 1; rw [ha]; rfl),
    if_neg (by rw [e1]; simp), if_neg (by rw [e1, e3]; simp)]
  unfold Interval.core
  rw [e1, e2, e3, e4, bcast_interval]
  simp only [Except.map]
  have hsq := squeeze_no_ones (⟨s ++ [K], fun i => Interval.score1 ((obs.map fin).expandLast.bget i)
    ((lower.map fin).bget i) ((upper.map fin).bget i) ((alpha.map fin).bget i)⟩ : Arr XF) h1
  refine ⟨_, rfl, hsq.1, fun i j hi hj => ?_⟩
  have hv : Arr.Valid (s ++ [K]) (i ++ [j]) := Arr.valid_append_iff.2 ⟨i, j, rfl, hi, hj⟩
  rw [hsq.2 _ hv]
  dsimp only
  rw [Arr.bget_self (a := lower.map fin) (by rw [e1]; exact hv),
    Arr.bget_self (a := upper.map fin) (by rw [e2]; exact hv)]
  have hil : i.length = s.length := hi.length
  have hK1 : K ≠ 1 := h1 K (by simp)
  have b1 : (obs.map fin).expandLast.bget (i ++ [j]) = fin (obs.get i) := by
    unfold Arr.bget
    rw [e4]
    have : (obs.map fin).expandLast.ndim = s.length + 1 := by simp [Arr.ndim, e4]
    rw [this]
    simp only [List.length_append, List.length_singleton, hil, Nat.sub_self, List.drop_zero]
    rw [List.zipWith_append hil.symm]
    show (obs.map fin).get (List.dropLast _) = _
    simp only [List.zipWith_cons_cons, List.zipWith_nil_right, List.dropLast_concat]
    have := Arr.bget_self (a := obs.map fin) (i := i) (by show Arr.Valid obs.shape i; rw [ho]; exact hi)
    unfold Arr.bget at this
    rw [show (obs.map fin).shape = s from ho, show (obs.map fin).ndim = s.length by
      show obs.shape.length = _; rw [ho], hil, Nat.sub_self, List.drop_zero] at this
    exact this
  have b2 : (alpha.map fin).bget (i ++ [j]) = fin (alpha.get [j]) := by
    unfold Arr.bget
    rw [e3]
    have : (alpha.map fin).ndim = 1 := by simp [Arr.ndim, e3]
    rw [this]
    simp only [List.length_append, List.length_singleton, Nat.add_sub_cancel,
      List.drop_left', List.zipWith_cons_cons, List.zipWith_nil_right, if_neg hK1]
    rfl
  rw [b1, b2]
  exact Interval.score1_fin _ _ _ (hp j hj).ne'

/-- three cases with two intervals each meet the hypotheses of `C27_interval_score_array` -/
example : ∀ n ∈ [3] ++ [2], n ≠ 1 := by simp

/-- The entries of the index `i` at the axes of `s` that are longer than one. -/
def Spec.longAxes (s i : List ℕ) : List ℕ := ((s.zip i).filter fun p => p.1 ≠ 1).map Prod.snd

theorem unsqueeze_longAxes {s i : List ℕ} (h : Arr.Valid s i) : Arr.unsqueeze s (Spec.longAxes s i) = i := by
  unfold Arr.Valid at h
  induction h with
  | nil => rfl
  | @cons a n i s hab _ ih =>
    unfold Spec.longAxes at ih ⊢
    by_cases h1 : n = 1
    · subst h1
      simp only [List.zip_cons_cons, List.filter_cons, Arr.unsqueeze, if_true, ne_eq, not_true, decide_false,
        Bool.false_eq_true, if_false]
      rw [ih, Nat.lt_one_iff.1 hab]
    · simp only [List.zip_cons_cons, List.filter_cons, Arr.unsqueeze, h1, ne_eq, not_false_iff, decide_true,
        if_true, if_false, List.map_cons, List.headD_cons, List.tail_cons]
      rw [ih]

theorem squeeze_longAxes {α : Type} (a : Arr α) {i : List ℕ} (h : Arr.Valid a.shape i) :
    a.squeeze.get (Spec.longAxes a.shape i) = a.get i := by
  show a.get (Arr.unsqueeze a.shape _) = _
  rw [unsqueeze_longAxes h]

/-- C27 for arrays of cases with several intervals each and axes of any length: `lower` and `upper` have shape `s + (K,)`,
`alpha` has shape `(K,)`.  The axes of length one are dropped from the result and no other entry moves. -/
theorem C27_interval_score_squeeze {obs lower upper alpha : Arr ℝ} {s : List ℕ} {K : ℕ}
    (ho : obs.shape = s) (hl : lower.shape = s ++ [K]) (hu : upper.shape = s ++ [K])
    (ha : alpha.shape = [K])
    (hp : ∀ j < K, 0 < alpha.get [j]) :
    ∃ out, Interval.score (obs.map fin) (lower.map fin) (upper.map fin) (alpha.map fin) = .ok out ∧
      out.shape = (s ++ [K]).filter (fun n => n ≠ 1) ∧ ∀ i j, Arr.Valid s i → j < K → out.get (Spec.longAxes (s ++ [K]) (i ++ [j]))
        = fin (Spec.intervalScore (alpha.get [j]) (lower.get (i ++ [j])) (upper.get (i ++ [j]))
            (obs.get i)) := by
  unfold Interval.score
  have e1 : (lower.map fin).shape = s ++ [K] := hl
  have e2 : (upper.map fin).shape = s ++ [K] := hu
  have e3 : (alpha.map fin).shape = [K] := ha
  have e4 : (obs.map fin).expandLast.shape = s ++ [1] := by
    show obs.shape ++ [1] = _; rw [ho]
  rw [if_neg (by rw [e1, e2]; simp), if_pos (by show alpha.shape.length = 1; rw [ha]; rfl),
    if_neg (by rw [e1]; simp), if_neg (by rw [e1, e3]; simp)]
  unfold Interval.core
  rw [e1, e2, e3, e4, bcast_interval]
  simp only [Except.map]
  refine ⟨_, rfl, rfl, fun i j hi hj => ?_⟩
  have hv : Arr.Valid (s ++ [K]) (i ++ [j]) := Arr.valid_append_iff.2 ⟨i, j, rfl, hi, hj⟩
  rw [squeeze_longAxes (⟨s ++ [K], _⟩ : Arr XF) hv]
  dsimp only
  rw [Arr.bget_self (a := lower.map fin) (by rw [e1]; exact hv),
    Arr.bget_self (a := upper.map fin) (by rw [e2]; exact hv)]
  have hil : i.length = s.length := hi.length
  have hK1 : (if K = 1 then 0 else j) = j := by split <;> omega
  have b1 : (obs.map fin).expandLast.bget (i ++ [j]) = fin (obs.get i) := by
    unfold Arr.bget
    rw [e4]
    have : (obs.map fin).expandLast.ndim = s.length + 1 := by simp [Arr.ndim, e4]
    rw [this]
    simp only [List.length_append, List.length_singleton, hil, Nat.sub_self, List.drop_zero]
    rw [List.zipWith_append hil.symm]
    show (obs.map fin).get (List.dropLast _) = _
    simp only [List.zipWith_cons_cons, List.zipWith_nil_right, List.dropLast_concat]
    have := Arr.bget_self (a := obs.map fin) (i := i) (by show Arr.Valid obs.shape i; rw [ho]; exact hi)
    unfold Arr.bget at this
    rw [show (obs.map fin).shape = s from ho, show (obs.map fin).ndim = s.length by
      show obs.shape.length = _; rw [ho], hil, Nat.sub_self, List.drop_zero] at this
    exact this
  have b2 : (alpha.map fin).bget (i ++ [j]) = fin (alpha.get [j]) := by
    unfold Arr.bget
    rw [e3]
    have : (alpha.map fin).ndim = 1 := by simp [Arr.ndim, e3]
    rw [this]
    simp only [List.length_append, List.length_singleton, Nat.add_sub_cancel,
      List.drop_left', List.zipWith_cons_cons, List.zipWith_nil_right, hK1]
    rfl
  rw [b1, b2]
  exact Interval.score1_fin _ _ _ (hp j hj).ne'

/-- one case with two intervals -/
example : (⟨[1, 2], fun i => -1 - i.getLastD 0⟩ : Arr ℝ).shape = [1] ++ [2] ∧
    ∀ j < 2, 0 < (⟨[2], fun _ => 1 / 2⟩ : Arr ℝ).get [j] := ⟨rfl, fun _ _ => by norm_num⟩

/-- C27 for arrays of cases with one interval each and a single `alpha`: axes of length one are dropped. -/
theorem C27_interval_score_cases {obs lower upper : Arr ℝ} {s : List ℕ} {α : ℝ}
    (ho : obs.shape = s) (hl : lower.shape = s) (hu : upper.shape = s) (hp : 0 < α) :
    ∃ out, Interval.score (obs.map fin) (lower.map fin) (upper.map fin) (Arr.scalar (fin α)) = .ok out ∧
      out.shape = s.filter (fun n => n ≠ 1) ∧ ∀ i, Arr.Valid s i → out.get (Spec.longAxes s i)
        = fin (Spec.intervalScore α (lower.get i) (upper.get i) (obs.get i)) := by
  unfold Interval.score
  have e1 : (lower.map fin).shape = s := hl
  have e2 : (upper.map fin).shape = s := hu
  have e4 : (obs.map fin).shape = s := ho
  have e3 : (Arr.scalar (fin α)).shape = [] := rfl
  rw [if_neg (by rw [e1, e2]; simp), if_neg (by show ¬ ([] : List ℕ).length = 1; simp)]
  unfold Interval.core
  have hb : Arr.bcast [s, s, s, []] = some s := by
    have e : Arr.bcast [s, s, s, []] = ((((Arr.bcast [[]]).bind fun t => Arr.bshape s t).bind
        fun t => Arr.bshape s t).bind fun t => Arr.bshape s t) := rfl
    have h1 : Arr.bcast [[]] = some [] := by simp [Arr.bcast, Arr.bshape, Arr.bshapeR]
    have h3 : Arr.bshape s [] = some s := by
      have hr : ∀ t, Arr.bshapeR t [] = some t := fun t => by cases t <;> rfl
      simp [Arr.bshape, hr]
    rw [e, h1, Option.bind_some, h3, Option.bind_some, Arr.bshape_self, Option.bind_some, Arr.bshape_self]
  rw [e1, e2, e3, e4, hb]
  simp only [Except.map]
  refine ⟨_, rfl, rfl, fun i hi => ?_⟩
  rw [squeeze_longAxes (⟨s, _⟩ : Arr XF) hi]
  dsimp only
  rw [Arr.bget_self (a := lower.map fin) (by rw [e1]; exact hi),
    Arr.bget_self (a := upper.map fin) (by rw [e2]; exact hi),
    Arr.bget_self (a := obs.map fin) (by rw [e4]; exact hi)]
  exact Interval.score1_fin _ _ _ hp.ne'

/-- a column of two cases -/
example : (⟨[2, 1], fun i => -1 - i.headD 0⟩ : Arr ℝ).shape = [2, 1] ∧ (0:ℝ) < 1 / 10 := ⟨rfl, by norm_num⟩

/-- C27 for single numbers. -/
theorem C27_interval_score_scalar (y l u : ℝ) {α : ℝ} (h : 0 < α) :
    ∃ out, Interval.score (Arr.scalar (fin y)) (Arr.scalar (fin l)) (Arr.scalar (fin u))
      (Arr.scalar (fin α)) = .ok out ∧ out.shape = [] ∧
      out.get [] = fin (Spec.intervalScore α l u y) := by
  unfold Interval.score
  rw [if_neg (by simp [Arr.scalar]), if_neg (by simp [Arr.scalar, Arr.ndim])]
  refine ⟨_, rfl, rfl, ?_⟩
  exact Interval.score1_fin _ _ _ h.ne'

/-- `C27_interval_is_quantile_sum`, `C27_interval_score_scalar` -/
example : (0 : ℝ) < 1 / 10 := by norm_num

/-- C27: bounds of different shapes are rejected. -/
theorem C27_shape_mismatch {obs lower upper alpha : Arr XF} (h : lower.shape ≠ upper.shape) :
    Interval.score obs lower upper alpha = .error .valueError := by
  unfold Interval.score; rw [if_pos h]

example : (⟨[3], fun _ => 0⟩ : Arr XF).shape ≠ (⟨[1, 3], fun _ => 1⟩ : Arr XF).shape := by simp

/-! ### C28 -/

/-- lower bounds, upper bounds, levels and weights of the intervals `(l, u, α, w)` as float lists -/
def ivL (l : List (ℝ × ℝ × ℝ × ℝ)) : List XF := l.map fun p => fin p.1
def ivU (l : List (ℝ × ℝ × ℝ × ℝ)) : List XF := l.map fun p => fin p.2.1
def ivA (l : List (ℝ × ℝ × ℝ × ℝ)) : List XF := l.map fun p => fin p.2.2.1
def ivW (l : List (ℝ × ℝ × ℝ × ℝ)) : List XF := l.map fun p => fin p.2.2.2

theorem wis_fold (y : ℝ) (l : List (ℝ × ℝ × ℝ × ℝ)) (h : ∀ p ∈ l, p.2.2.1 ≠ 0) (c : ℝ) :
    (l.map fun p => (fin p.1, fin p.2.1, fin p.2.2.1, fin p.2.2.2)).foldl (fun wis p =>
      wis + p.2.2.2 * ((p.2.1 - p.1) + ind (fin y < p.1) * (2 / p.2.2.1) * (p.1 - fin y)
      + ind (p.2.1 < fin y) * (2 / p.2.2.1) * (fin y - p.2.1))) (fin c)
      = fin (c + (l.map fun p => p.2.2.2 * Spec.intervalScore p.2.2.1 p.1 p.2.1 y).sum) := by
  induction l generalizing c with
  | nil => simp
  | cons p l ih =>
    simp only [List.map_cons, List.foldl_cons, List.sum_cons]
    have := Interval.score1_fin y p.1 p.2.1 (h p (List.mem_cons_self ..))
    unfold Interval.score1 at this
    dsimp only at this
    rw [this, fin_mul, fin_add, ih fun q hq => h q (List.mem_cons_of_mem _ hq), add_assoc]

theorem half_pos_K (K : ℕ) : (K : ℝ) + 1 / 2 ≠ 0 := by positivity

/-- C28, numba path: the weighted interval score is as documented. -/
theorem C28_wis_numba (y m w0 : ℝ) (l : List (ℝ × ℝ × ℝ × ℝ)) (h : ∀ p ∈ l, p.2.2.1 ≠ 0) :
    Interval.wisGufunc (fin y) (fin m) (ivL l) (ivU l) (ivA l) (fin w0) (ivW l)
      = fin (Spec.wis w0 m y l) := by
  unfold Interval.wisGufunc ivL ivU ivA ivW
  dsimp only
  rw [List.zip_map', List.zip_map', List.zip_map', zero_def, wis_fold y l h]
  simp only [fin_sub, fin_abs, fin_mul, fin_add, half, List.length_map, natCast_def,
    fin_div (half_pos_K _), Spec.wis, fin_inj]
  ring

/-- C28, array path, what the code computes: the median enters as `w0 * median` instead of
`w0 * |y - median|` (`core/interval/_score.py:39`). -/
theorem C28_wis_array_partial (y m w0 : ℝ) (l : List (ℝ × ℝ × ℝ × ℝ)) (h : ∀ p ∈ l, p.2.2.1 ≠ 0) :
    Interval.wisArray (fin y) (fin m) (ivL l) (ivU l) (ivA l) (fin w0) (ivW l)
      = fin (Spec.wis w0 m y l + w0 * (m - |y - m|) / (l.length + 1 / 2)) := by
  unfold Interval.wisArray ivL ivU ivA ivW
  dsimp only
  rw [List.zip_map', List.zip_map', List.map_map]
  have e : l.map ((fun p : XF × XF × XF => Interval.score1 (fin y) p.1 p.2.1 p.2.2) ∘
      fun p : ℝ × ℝ × ℝ × ℝ => (fin p.1, fin p.2.1, fin p.2.2.1))
      = l.map fun p => fin (Spec.intervalScore p.2.2.1 p.1 p.2.1 y) :=
    List.map_congr_left fun p hp => Interval.score1_fin _ _ _ (h p hp)
  rw [e, zip2_map]
  simp only [fin_mul, sum_map_fin', fin_add, half, List.length_map, natCast_def,
    fin_div (half_pos_K _), Spec.wis, fin_inj]
  rw [← add_div]
  congr 1
  have : (l.map fun p => Spec.intervalScore p.2.2.1 p.1 p.2.1 y * p.2.2.2)
      = l.map fun p => p.2.2.2 * Spec.intervalScore p.2.2.1 p.1 p.2.1 y :=
    List.map_congr_left fun p _ => mul_comm _ _
  rw [this]
  ring

/-- `C28_wis_numba`, `C28_wis_array_partial` -/
example : ∀ p ∈ ([(0, 3, 1 / 2, 1 / 4), (-1, 4, 1 / 5, 1 / 10)] : List (ℝ × ℝ × ℝ × ℝ)),
    p.2.2.1 ≠ 0 := by simp

/-- C28 is false on the array path: observation 0, median -1, one interval `[-2, 1]` at level 1/2 with
the default weights: the documented value is 5/6, the numba path returns it, the array path returns
1/6. -/
theorem C28_false_array :
    (Interval.wis true (Arr.scalar (fin 0)) (Arr.scalar (fin (-1))) (Arr.ofList [fin (-2)])
        (Arr.ofList [fin 1]) [fin (1 / 2)] none none).get [] = fin (5 / 6) ∧
      (Interval.wis false (Arr.scalar (fin 0)) (Arr.scalar (fin (-1))) (Arr.ofList [fin (-2)])
        (Arr.ofList [fin 1]) [fin (1 / 2)] none none).get [] = fin (1 / 6) ∧
      Spec.wis (1 / 2) (-1) 0 [(-2, 1, 1 / 2, 1 / 4)] = 5 / 6 := by
  have r1 : (Arr.ofList [fin (-2)]).row [] = [fin (-2)] := by
    simp [Arr.row, Arr.ofList, List.range_succ]
  have r2 : (Arr.ofList [fin 1]).row [] = [fin 1] := by
    simp [Arr.row, Arr.ofList, List.range_succ]
  have ew : [fin (1 / 2)].map (fun a => a / 2) = ivW [(-2, 1, 1 / 2, 1 / 4)] := by
    have h2 : (2 : ℝ) ≠ 0 := two_ne_zero
    simp [ivW, ofNat_def, fin_div h2]; norm_num
  have hS : Spec.wis (1 / 2) (-1) 0 [(-2, 1, 1 / 2, 1 / 4)] = 5 / 6 := by
    simp [Spec.wis, Spec.intervalScore]; norm_num
  have hl : ∀ p ∈ [((-2 : ℝ), (1 : ℝ), (1 / 2 : ℝ), (1 / 4 : ℝ))], p.2.2.1 ≠ 0 := by simp
  refine ⟨?_, ?_, hS⟩
  · show Interval.wisGufunc (fin 0) (fin (-1)) ((Arr.ofList [fin (-2)]).row [])
      ((Arr.ofList [fin 1]).row []) [fin (1 / 2)] (fin (1 / 2)) _ = _
    rw [r1, r2, Option.getD_none, ew, ← hS]
    exact C28_wis_numba 0 (-1) (1 / 2) _ hl
  · show Interval.wisArray (fin 0) (fin (-1)) ((Arr.ofList [fin (-2)]).row [])
      ((Arr.ofList [fin 1]).row []) [fin (1 / 2)] (fin (1 / 2)) _ = _
    rw [r1, r2, Option.getD_none, ew]
    refine (C28_wis_array_partial 0 (-1) (1 / 2) _ hl).trans ?_
    rw [hS, fin_inj]
    norm_num

/-- C28: with the default weights (`w0 = 1/2`, `w_k = α_k / 2`) the score is the mean over the
`2K + 1` quantile levels of twice the pinball loss, and is non-negative. -/
theorem C28_default_weights (y m : ℝ) (l : List (ℝ × ℝ × ℝ)) (h : ∀ p ∈ l, 0 < p.2.2 ∧ p.2.2 ≤ 2) :
    Interval.wisGufunc (fin y) (fin m) (l.map fun p => fin p.1) (l.map fun p => fin p.2.1)
      (l.map fun p => fin p.2.2) half ((l.map fun p => fin p.2.2).map fun a => a / 2)
      = fin ((2 * Spec.pinball (1 / 2) m y + (l.map fun p => 2 * Spec.pinball (p.2.2 / 2) p.1 y
          + 2 * Spec.pinball (1 - p.2.2 / 2) p.2.1 y).sum) / (2 * l.length + 1)) ∧
      0 ≤ (2 * Spec.pinball (1 / 2) m y + (l.map fun p => 2 * Spec.pinball (p.2.2 / 2) p.1 y
          + 2 * Spec.pinball (1 - p.2.2 / 2) p.2.1 y).sum) / (2 * l.length + 1) := by
  constructor
  · have e := C28_wis_numba y m (1 / 2) (l.map fun p => (p.1, p.2.1, p.2.2, p.2.2 / 2)) (by
      intro p hp
      obtain ⟨q, hq, rfl⟩ := List.mem_map.1 hp
      exact (h q hq).1.ne')
    unfold ivL ivU ivA ivW at e
    simp only [List.map_map, Function.comp_def] at e
    simp only [List.map_map, Function.comp_def, ofNat_def, fin_div (two_ne_zero (α := ℝ))]
    refine e.trans ?_
    rw [fin_inj, Spec.wis, List.map_map, List.length_map]
    have e1 : |y - m| = 2 * Spec.pinball (1 / 2) m y := by
      rw [pinball_eq_le]
      rcases le_total m y with h' | h'
      · rw [max_eq_right (by linarith), abs_of_nonneg (by linarith)]; ring
      · rw [max_eq_left (by linarith), abs_of_nonpos (by linarith)]; ring
    have e2 : l.map ((fun p : ℝ × ℝ × ℝ × ℝ => p.2.2.2 * Spec.intervalScore p.2.2.1 p.1 p.2.1 y) ∘
        fun p : ℝ × ℝ × ℝ => (p.1, p.2.1, p.2.2, p.2.2 / 2))
        = l.map fun p => 1 / 2 * (2 * Spec.pinball (p.2.2 / 2) p.1 y
          + 2 * Spec.pinball (1 - p.2.2 / 2) p.2.1 y) := by
      refine List.map_congr_left fun p hp => ?_
      have := (h p hp).1.ne'
      simp only [Function.comp_apply]
      rw [intervalScore_eq this]
      field_simp
    rw [e1, e2, sum_map_mul_left']
    have : (l.length : ℝ) + 1 / 2 = (2 * l.length + 1) / 2 := by ring
    rw [this]
    have : (2 * (l.length : ℝ) + 1) ≠ 0 := by positivity
    field_simp
  · apply div_nonneg _ (by positivity)
    apply add_nonneg
    · exact mul_nonneg zero_le_two (pinball_nonneg (by norm_num) (by norm_num) _ _)
    · apply List.sum_nonneg
      intro v hv
      obtain ⟨p, hp, rfl⟩ := List.mem_map.1 hv
      have := h p hp
      apply add_nonneg <;> apply mul_nonneg zero_le_two <;> apply pinball_nonneg <;> linarith

/-- crossing and nested intervals at levels 0.2 and 0.5 meet the hypotheses -/
example : ∀ p ∈ [((1 : ℝ), (0 : ℝ), (0.2 : ℝ)), (-1, 2, 0.5)], 0 < p.2.2 ∧ p.2.2 ≤ 2 := by
  intro p hp
  simp at hp
  rcases hp with rfl | rfl <;> norm_num

/-! ### C29 -/

theorem pinball_step_up (α : ℝ) {q r : ℝ} (h : q ≤ r) (x : ℝ) :
    (r - q) * ((if x ≤ q then 1 else 0) - α) ≤ Spec.pinball α r x - Spec.pinball α q x := by
  simp only [pinball_eq_le]
  rcases le_or_gt x q with h' | h'
  · rw [if_pos h', max_eq_left (by linarith), max_eq_left (by linarith)]; linarith
  · rw [if_neg (not_le.2 h'), max_eq_right (by linarith : q - x ≤ 0)]
    have := le_max_right (r - x) 0
    linarith

theorem pinball_step_down (α : ℝ) {q r : ℝ} (h : r ≤ q) (x : ℝ) :
    (r - q) * ((if x < q then 1 else 0) - α) ≤ Spec.pinball α r x - Spec.pinball α q x := by
  simp only [pinball_eq_le]
  rcases lt_or_ge x q with h' | h'
  · rw [if_pos h', max_eq_left (by linarith : (0 : ℝ) ≤ q - x)]
    have := le_max_left (r - x) 0
    linarith
  · rw [if_neg (not_lt.2 h'), max_eq_right (by linarith), max_eq_right (by linarith)]
    linarith

theorem pinball_step_up_eq (α : ℝ) {q r : ℝ} (h : q ≤ r) {x : ℝ} (hx : x ≤ q ∨ r ≤ x) :
    Spec.pinball α r x - Spec.pinball α q x ≤ (r - q) * ((if x ≤ q then 1 else 0) - α) := by
  simp only [pinball_eq_le]
  rcases le_or_gt x q with h' | h'
  · rw [if_pos h', max_eq_left (by linarith), max_eq_left (by linarith)]; linarith
  · rw [if_neg (not_le.2 h'), max_eq_right (by linarith : q - x ≤ 0)]
    have hr : r ≤ x := hx.resolve_left (not_le.2 h')
    rw [max_eq_right (by linarith)]
    linarith

theorem pinball_step_down_eq (α : ℝ) {q r : ℝ} (h : r ≤ q) {x : ℝ} (hx : x ≤ r ∨ q ≤ x) :
    Spec.pinball α r x - Spec.pinball α q x ≤ (r - q) * ((if x < q then 1 else 0) - α) := by
  simp only [pinball_eq_le]
  rcases lt_or_ge x q with h' | h'
  · have hr : x ≤ r := hx.resolve_right (not_le.2 h')
    rw [if_pos h', max_eq_left (by linarith : (0 : ℝ) ≤ q - x), max_eq_left (by linarith)]
    linarith
  · rw [if_neg (not_lt.2 h'), max_eq_right (by linarith), max_eq_right (by linarith)]
    linarith

theorem sum_ind_countP (xs : List ℝ) (p : ℝ → Prop) (c α : ℝ) :
    (xs.map fun x => c * ((if p x then 1 else 0) - α)).sum
      = c * ((xs.countP fun x => decide (p x) : ℕ) - α * xs.length) := by
  induction xs with
  | nil => simp
  | cons x xs ih =>
    rw [List.map_cons, List.sum_cons, ih, List.countP_cons, List.length_cons]
    by_cases h : p x <;> simp [h] <;> ring

theorem sum_sub_map (xs : List ℝ) (f g : ℝ → ℝ) :
    (xs.map fun x => f x - g x).sum = (xs.map f).sum - (xs.map g).sum := by
  induction xs with
  | nil => simp
  | cons x xs ih => simp only [List.map_cons, List.sum_cons, ih]; ring

theorem sum_le_map {xs : List ℝ} {f g : ℝ → ℝ} (h : ∀ x ∈ xs, f x ≤ g x) :
    (xs.map f).sum ≤ (xs.map g).sum := List.sum_le_sum h

theorem pinball_total_min {α : ℝ} {xs : List ℝ} {q : ℝ} (hq : Spec.IsQuantile α q xs) (r : ℝ) :
    (xs.map (Spec.pinball α q)).sum ≤ (xs.map (Spec.pinball α r)).sum := by
  rw [← sub_nonneg, ← sum_sub_map]
  rcases le_total q r with h | h
  · refine le_trans ?_ (sum_le_map fun x _ => pinball_step_up α h x)
    rw [sum_ind_countP xs (fun x => x ≤ q)]
    exact mul_nonneg (by linarith) (by linarith [hq.2])
  · refine le_trans ?_ (sum_le_map fun x _ => pinball_step_down α h x)
    rw [sum_ind_countP xs (fun x => x < q)]
    exact mul_nonneg_of_nonpos_of_nonpos (by linarith) (by linarith [hq.1])

theorem exists_least_gt {xs : List ℝ} {q : ℝ} (h : ∃ x ∈ xs, q < x) :
    ∃ r ∈ xs, q < r ∧ ∀ x ∈ xs, x ≤ q ∨ r ≤ x := by
  induction xs with
  | nil => simp at h
  | cons a xs ih =>
    by_cases h' : ∃ x ∈ xs, q < x
    · obtain ⟨r, hr, h1, h2⟩ := ih h'
      by_cases ha : q < a ∧ a < r
      · refine ⟨a, List.mem_cons_self .., ha.1, fun x hx => ?_⟩
        rcases List.mem_cons.1 hx with rfl | hx
        · exact Or.inr le_rfl
        · exact (h2 x hx).imp_right fun h => ha.2.le.trans h
      · refine ⟨r, List.mem_cons_of_mem _ hr, h1, fun x hx => ?_⟩
        rcases List.mem_cons.1 hx with rfl | hx
        · by_cases hx : x ≤ q
          · exact Or.inl hx
          · exact Or.inr (not_lt.1 fun h => ha ⟨not_le.1 hx, h⟩)
        · exact h2 x hx
    · have ha : q < a := by
        obtain ⟨x, hx, hlt⟩ := h
        rcases List.mem_cons.1 hx with rfl | hx
        · exact hlt
        · exact absurd ⟨x, hx, hlt⟩ h'
      refine ⟨a, List.mem_cons_self .., ha, fun x hx => ?_⟩
      rcases List.mem_cons.1 hx with rfl | hx
      · exact Or.inr le_rfl
      · exact Or.inl (not_lt.1 fun h => h' ⟨x, hx, h⟩)

theorem exists_greatest_lt {xs : List ℝ} {q : ℝ} (h : ∃ x ∈ xs, x < q) :
    ∃ r ∈ xs, r < q ∧ ∀ x ∈ xs, x ≤ r ∨ q ≤ x := by
  obtain ⟨r, hr, h1, h2⟩ := exists_least_gt (xs := xs.map fun x => -x) (q := -q) (by
    obtain ⟨x, hx, h⟩ := h
    exact ⟨-x, List.mem_map.2 ⟨x, hx, rfl⟩, neg_lt_neg h⟩)
  obtain ⟨x, hx, rfl⟩ := List.mem_map.1 hr
  refine ⟨x, hx, by linarith, fun y hy => ?_⟩
  rcases h2 (-y) (List.mem_map.2 ⟨y, hy, rfl⟩) with h | h
  · right; linarith
  · left; linarith

theorem isQuantile_of_min {α : ℝ} (h0 : 0 ≤ α) (h1 : α ≤ 1) {xs : List ℝ} {q : ℝ}
    (h : ∀ r, (xs.map (Spec.pinball α q)).sum ≤ (xs.map (Spec.pinball α r)).sum) :
    Spec.IsQuantile α q xs := by
  have hn : (0 : ℝ) ≤ xs.length := by positivity
  constructor
  · by_contra hc
    push Not at hc
    have hex : ∃ x ∈ xs, x < q := by
      by_contra hne
      push Not at hne
      have : xs.countP (fun x => decide (x < q)) = 0 := by
        rw [List.countP_eq_zero]; intro x hx; simpa using hne x hx
      rw [this] at hc
      have := mul_nonneg h0 hn
      push_cast at hc
      linarith
    obtain ⟨r, -, hr, hs⟩ := exists_greatest_lt hex
    have := h r
    rw [← sub_nonneg, ← sum_sub_map] at this
    have h2 := sum_le_map (f := fun x => Spec.pinball α r x - Spec.pinball α q x)
      fun x hx => pinball_step_down_eq α hr.le (hs x hx)
    rw [sum_ind_countP xs (fun x => x < q)] at h2
    have := mul_neg_of_neg_of_pos (sub_neg.2 hr) (sub_pos.2 hc)
    linarith
  · by_contra hc
    push Not at hc
    have hex : ∃ x ∈ xs, q < x := by
      by_contra hne
      push Not at hne
      have : xs.countP (fun x => decide (x ≤ q)) = xs.length := by
        rw [List.countP_eq_length]; intro x hx; simpa using hne x hx
      rw [this] at hc
      nlinarith
    obtain ⟨r, -, hr, hs⟩ := exists_least_gt hex
    have := h r
    rw [← sub_nonneg, ← sum_sub_map] at this
    have h2 := sum_le_map (f := fun x => Spec.pinball α r x - Spec.pinball α q x)
      fun x hx => pinball_step_up_eq α hr.le (hs x hx)
    rw [sum_ind_countP xs (fun x => x ≤ q)] at h2
    have := mul_neg_of_pos_of_neg (sub_pos.2 hr) (sub_neg.2 hc)
    linarith

/-- one report `q` against a vector of observations -/
theorem quantile_sample {α : ℝ} (h0 : 0 ≤ α) (h1 : α ≤ 1) (xs : List ℝ) (q : ℝ) :
    ∃ out, Quantile.score (Arr.ofList (xs.map fin)) (Arr.scalar (fin q)) (Arr.scalar (fin α))
        = .ok out ∧ out.shape = [xs.length] ∧ (out.row []).sum = fin (xs.map (Spec.pinball α q)).sum := by
  unfold Quantile.score
  rw [if_neg]
  · have hb : Arr.bcast [(Arr.ofList (xs.map fin)).shape, (Arr.scalar (fin q)).shape,
        (Arr.scalar (fin α)).shape] = some [xs.length] := by
      simp [Arr.bcast, Arr.bshape, Arr.bshapeR, Arr.ofList, Arr.scalar]
    rw [hb]
    refine ⟨_, rfl, rfl, ?_⟩
    rw [← sum_map_fin']
    congr 1
    simp only [Arr.row, List.getLastD_cons, List.nil_append]
    apply List.ext_getElem
    · simp
    · intro n h1 h2
      simp only [List.length_map, List.length_range, List.getLastD_nil] at h1
      have hb := Arr.bget_self (a := Arr.ofList (xs.map fin)) (i := [n])
        (by simpa [Arr.Valid, Arr.ofList] using h1)
      simp only [List.getElem_map, List.getElem_range]
      rw [hb]
      have : (Arr.ofList (xs.map fin)).get [n] = fin xs[n] := by
        simp [Arr.ofList, h1]
      rw [this]
      exact Quantile.score1_fin _ _ _
  · rintro (⟨i, hi, h⟩ | ⟨i, hi, h⟩)
    · have h' : fin α < fin 0 := h
      rw [fin_lt] at h'; linarith
    · have h' : fin 1 < fin α := h
      rw [fin_lt] at h'; linarith

/-- C29: over any finite sample of observations, the total quantile score of a level-`α` sample
quantile is at most that of any other report. -/
theorem C29_quantile_score_consistent {α : ℝ} (h0 : 0 ≤ α) (h1 : α ≤ 1) {xs : List ℝ} {q : ℝ}
    (hq : Spec.IsQuantile α q xs) (r : ℝ) :
    ∃ out out', Quantile.score (Arr.ofList (xs.map fin)) (Arr.scalar (fin q)) (Arr.scalar (fin α))
        = .ok out ∧
      Quantile.score (Arr.ofList (xs.map fin)) (Arr.scalar (fin r)) (Arr.scalar (fin α)) = .ok out' ∧
      out.shape = [xs.length] ∧ out'.shape = [xs.length] ∧
      ∃ t t' : ℝ, (out.row []).sum = fin t ∧ (out'.row []).sum = fin t' ∧ t ≤ t' := by
  obtain ⟨out, e1, e2, e3⟩ := quantile_sample h0 h1 xs q
  obtain ⟨out', e1', e2', e3'⟩ := quantile_sample h0 h1 xs r
  exact ⟨out, out', e1, e1', e2, e2', _, _, e3, e3', pinball_total_min hq r⟩

/-- C29, converse: a report with minimal total quantile score is a level-`α` sample quantile. -/
theorem C29_only_quantiles_are_optimal {α : ℝ} (h0 : 0 ≤ α) (h1 : α ≤ 1) {xs : List ℝ} {q : ℝ}
    (h : ∀ r out out', Quantile.score (Arr.ofList (xs.map fin)) (Arr.scalar (fin q))
        (Arr.scalar (fin α)) = .ok out →
      Quantile.score (Arr.ofList (xs.map fin)) (Arr.scalar (fin r)) (Arr.scalar (fin α)) = .ok out' →
      (out.row []).sum ≤ (out'.row []).sum) :
    Spec.IsQuantile α q xs := by
  apply isQuantile_of_min h0 h1
  intro r
  obtain ⟨out, e1, -, e3⟩ := quantile_sample h0 h1 xs q
  obtain ⟨out', e1', -, e3'⟩ := quantile_sample h0 h1 xs r
  have := h r out out' e1 e1'
  rwa [e3, e3', fin_le] at this

/-- 2 is a median of the sample 1, 2, 5 (`C29_quantile_score_consistent`) -/
example : Spec.IsQuantile (1 / 2) 2 [1, 2, 5] := by
  unfold Spec.IsQuantile
  norm_num [List.countP_cons]

end Verif
