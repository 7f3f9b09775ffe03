import Verif.Model.Mixnorm
import Verif.Props.MixCrps
import Verif.Props.LogsEns
import Verif.Lemmas.Bcast

/-!
# C85: mixtures of normal distributions on arrays
-/

noncomputable section

open scoped Classical

namespace Verif

open XF Py Spec Api

namespace Spec

/-- The mixture described by the slices of three arrays along axis `k` at leading index `i`; without
weights every component counts the same. -/
def mixAt (m s : Arr ℝ) (w : Option (Arr ℝ)) (k : ℕ) (i : List ℕ) : List (ℝ × ℝ × ℝ) :=
  (List.range (m.shape.getD k 0)).map fun j =>
    (m.get (i.insertIdx k j), s.get (i.insertIdx k j),
      match w with
      | none => 1 / (m.shape.getD k 0 : ℝ)
      | some w => w.get (i.insertIdx k j))

end Spec

theorem Closed.mixnormArr_ok {obs m s w : Arr XF} {M : ℕ} (hm : m.shape = obs.shape ++ [M])
    (hs : s.shape = obs.shape ++ [M]) (hw : w.shape = obs.shape ++ [M]) :
    ∃ out, Closed.mixnormArr obs m s w = .ok out ∧ out.shape = obs.shape ∧
      ∀ i, Arr.Valid obs.shape i → out.get i = Closed.mixnorm (obs.get i) (m.row i) (s.row i) (w.row i) := by
  unfold Closed.mixnormArr
  rw [if_neg (by simp [Arr.ndim, hm, hs, hw])]
  have hb : Arr.bcast [obs.expandLast.shape, m.shape, s.shape, w.shape] = some (obs.shape ++ [M]) := by
    rw [hm, hs, hw]
    simp only [Arr.bcast_cons, Arr.bcast_nil, Option.bind_some, Arr.bshape_self, Arr.bshape_nil_right]
    exact Arr.bshape_expand _ _
  rw [hb]
  refine ⟨_, rfl, by simp, fun i hi => ?_⟩
  simp only [List.getLastD_concat]
  rw [Arr.bget_expandLast hi, LogsEns.brow_eq hm hi, LogsEns.brow_eq hs hi, LogsEns.brow_eq hw hi]

theorem axisLen_axis {a : Arr XF} {m : ℤ} {k : ℕ} (h : AxisIs m a.ndim k) : axisLen a m = .ok (a.shape.getD k 0) := by
  obtain ⟨h1, h2⟩ := h
  unfold axisLen
  have : (if 0 ≤ m then m else (a.ndim : ℤ) + m) = k := by
    rcases h2 with h2 | h2
    · rw [if_pos (by omega)]; exact h2
    · rw [if_neg (by omega)]; omega
  simp only [this]
  rw [if_pos ⟨by omega, by omega⟩]
  simp

/-- After `mixMove` the last axis is axis `k`. -/
theorem mixMove_axis {a : Arr XF} {m : ℤ} {k : ℕ} (h : AxisIs m a.ndim k) :
    ∃ b, mixMove a m = .ok b ∧ b.shape = a.shape.eraseIdx k ++ [a.shape.getD k 0] ∧
      ∀ i, i.length + 1 = a.ndim → b.row i = a.sliceAt k i := by
  unfold mixMove
  by_cases hm : m = -1
  · rw [if_neg (by simpa using hm)]
    have hk : k = a.ndim - 1 := by
      rcases h.2 with h2 | h2 <;> have := h.1 <;> omega
    have h0 : a.shape ≠ [] := by
      intro h0; have := h.1; simp [Arr.ndim, h0] at this
    obtain ⟨s, n, hs⟩ : ∃ s n, a.shape = s ++ [n] := ⟨_, _, (List.dropLast_append_getLast h0).symm⟩
    have hk' : k = s.length := by rw [hk, Arr.ndim, hs]; simp
    refine ⟨a, rfl, ?_, fun i hi => ?_⟩
    · rw [hk', hs]; simp [List.eraseIdx_append_of_length_le]
    · rw [hk', Arr.sliceAt_last hs (by rw [Arr.ndim, hs] at hi; simpa using hi)]
  · rw [if_pos (by simpa using hm), moveaxisLast_axis h]
    exact ⟨_, rfl, Arr.moveLast_shape a k, fun i _ => Arr.row_moveLast a k i⟩

theorem valid_len {s i : List ℕ} (h : Arr.Valid s i) : i.length = s.length :=
  (List.Forall₂.length_eq h)

/-- Everything the two functions do before the score of one observation. -/
theorem mix_prepare (obs m s : Arr ℝ) (w : Option (Arr ℝ)) {mAxis : ℤ} {k : ℕ} (h : AxisIs mAxis m.ndim k)
    (ho : obs.shape = m.shape.eraseIdx k) (hs : s.shape = m.shape) (hw : ∀ v, w = some v → v.shape = m.shape)
    (hM : m.shape.getD k 0 ≠ 0) :
    ∃ m' s' w', mixMove (m.map fin) mAxis = .ok m' ∧ mixMove (s.map fin) mAxis = .ok s' ∧
      mixMove (match w with
        | none => ⟨m.shape, fun _ => fin (1 / (m.shape.getD k 0 : ℝ))⟩
        | some w => w.map fin) mAxis = .ok w' ∧
      m'.shape = obs.shape ++ [m.shape.getD k 0] ∧ s'.shape = obs.shape ++ [m.shape.getD k 0] ∧
      w'.shape = obs.shape ++ [m.shape.getD k 0] ∧
      ∀ i, Arr.Valid obs.shape i → m'.row i = (mixAt m s w k i).map (fun p => fin p.1) ∧
        s'.row i = (mixAt m s w k i).map (fun p => fin p.2.1) ∧
        w'.row i = (mixAt m s w k i).map (fun p => fin p.2.2) := by
  have hlen : ∀ i, Arr.Valid obs.shape i → i.length + 1 = m.ndim := fun i hi => by
    have h1 := valid_len hi
    have h2 := h.1
    unfold Arr.ndim at h2 ⊢
    rw [h1, ho, List.length_eraseIdx, if_pos h2]; omega
  obtain ⟨m', em, sm, rm⟩ := mixMove_axis (a := m.map fin) (m := mAxis) (k := k) h
  have hs' : (s.map fin).shape = m.shape := hs
  have nds : (s.map fin).ndim = m.ndim := by unfold Arr.ndim; rw [hs']
  obtain ⟨s', es, ss, rs⟩ := mixMove_axis (a := s.map fin) (m := mAxis) (k := k) (by rw [nds]; exact h)
  refine ⟨m', s', ?_⟩
  cases w with
  | none =>
    obtain ⟨w', ew, sw, rw'⟩ := mixMove_axis
      (a := (⟨m.shape, fun _ => fin (1 / (m.shape.getD k 0 : ℝ))⟩ : Arr XF)) (m := mAxis) (k := k) h
    refine ⟨w', em, es, ew, by rw [sm, ho]; rfl, by rw [ss, hs', ho], by rw [sw, ho], fun i hi => ?_⟩
    rw [rm i (hlen i hi), rs i (by rw [nds]; exact hlen i hi), rw' i (hlen i hi)]
    simp only [Arr.sliceAt, mixAt, List.map_map, hs', Function.comp_def, Arr.map, true_and]
    exact ⟨by rw [hs], trivial⟩
  | some v =>
    have hv' : (v.map fin).shape = m.shape := hw v rfl
    have ndv : (v.map fin).ndim = m.ndim := by unfold Arr.ndim; rw [hv']
    obtain ⟨w', ew, sw, rw'⟩ := mixMove_axis (a := v.map fin) (m := mAxis) (k := k) (by rw [ndv]; exact h)
    refine ⟨w', em, es, ew, by rw [sm, ho]; rfl, by rw [ss, hs', ho], by rw [sw, hv', ho], fun i hi => ?_⟩
    rw [rm i (hlen i hi), rs i (by rw [nds]; exact hlen i hi), rw' i (by rw [ndv]; exact hlen i hi)]
    simp only [Arr.sliceAt, mixAt, List.map_map, Function.comp_def, Arr.map, true_and]
    exact ⟨by rw [hs], by rw [hw v rfl]⟩

/-- The array of weights with which both functions continue. -/
theorem mix_weights {m : Arr ℝ} {mAxis : ℤ} {k : ℕ} (h : AxisIs mAxis m.ndim k) (hM : m.shape.getD k 0 ≠ 0) :
    mixWeightsCrps (m.map fin) none mAxis = .ok ⟨m.shape, fun _ => fin (1 / (m.shape.getD k 0 : ℝ))⟩ ∧
    mixWeightsLogs (m.map fin) none mAxis = .ok ⟨m.shape, fun _ => fin (1 / (m.shape.getD k 0 : ℝ))⟩ := by
  have hM' : (m.shape.getD k 0 : ℝ) ≠ 0 := by exact_mod_cast hM
  unfold mixWeightsCrps mixWeightsLogs
  simp only
  rw [axisLen_axis (a := m.map fin) h]
  have e : (m.map fin).shape = m.shape := rfl
  simp only [bind, Except.bind, e, if_neg hM, natCast_fin, one_fin, fin_div hM', zero_def, fin_add, zero_add,
    and_self]

/-- C85: `crps_mixnorm` on arrays of any rank, any component axis, with or without weights, returns for
every observation the CRPS of the mixture given by the slices of the parameters along that axis. -/
theorem C85_crps (obs m s : Arr ℝ) (w : Option (Arr ℝ)) {mAxis : ℤ} {k : ℕ} (h : AxisIs mAxis m.ndim k)
    (ho : obs.shape = m.shape.eraseIdx k) (hs : s.shape = m.shape) (hw : ∀ v, w = some v → v.shape = m.shape)
    (hM : m.shape.getD k 0 ≠ 0)
    (hpos : ∀ i, Arr.Valid obs.shape i → ∀ p ∈ mixAt m s w k i, 0 < p.2.1 ∧ 0 ≤ p.2.2)
    (hsum : ∀ i, Arr.Valid obs.shape i → ((mixAt m s w k i).map fun p => p.2.2).sum = 1) :
    ∃ out, crpsMixnorm (obs.map fin) (m.map fin) (s.map fin) (w.map fun v => v.map fin) mAxis = .ok out ∧
      out.shape = obs.shape ∧ ∀ i, Arr.Valid obs.shape i →
        out.get i = fin (Spec.crps (cdfMix (mixAt m s w k i)) (obs.get i)) := by
  obtain ⟨m', s', w', em, es, ew, sm, ss, sw, rows⟩ := mix_prepare obs m s w h ho hs hw hM
  obtain ⟨out, e, so, g⟩ := Closed.mixnormArr_ok (obs := obs.map fin) sm ss sw
  refine ⟨out, ?_, so, fun i hi => ?_⟩
  · unfold crpsMixnorm
    cases w with
    | none =>
      simp only at ew
      simp only [Option.map_none, bind, Except.bind, (mix_weights h hM).1, em, es, ew, e]
    | some v =>
      simp only at ew
      simp only [Option.map_some, mixWeightsCrps, bind, Except.bind, em, es, ew, e]
  · obtain ⟨r1, r2, r3⟩ := rows i hi
    rw [g i hi, r1, r2, r3]
    exact (C72_mixnorm _ (fun p hp => (hpos i hi p hp).1) (fun p hp => (hpos i hi p hp).2) (hsum i hi) _).2

/-- Three mixtures of two components, components along the first axis. -/
example : let m : Arr ℝ := ⟨[2, 3], fun i => i.sum⟩
    let s : Arr ℝ := ⟨[2, 3], fun i => 1 + i.sum⟩
    let w : Arr ℝ := ⟨[2, 3], fun i => if i.headD 0 = 0 then 1 / 4 else 3 / 4⟩
    let obs : Arr ℝ := ⟨[3], fun _ => 1⟩
    AxisIs 0 m.ndim 0 ∧ obs.shape = m.shape.eraseIdx 0 ∧ s.shape = m.shape ∧ w.shape = m.shape ∧
      m.shape.getD 0 0 ≠ 0 ∧
      (∀ i, Arr.Valid obs.shape i → ∀ p ∈ mixAt m s (some w) 0 i, 0 < p.2.1 ∧ 0 ≤ p.2.2) ∧
      ∀ i, Arr.Valid obs.shape i → ((mixAt m s (some w) 0 i).map fun p => p.2.2).sum = 1 := by
  refine ⟨⟨by simp [Arr.ndim], Or.inl rfl⟩, rfl, rfl, rfl, by simp, ?_, ?_⟩
  · intro i _ p hp
    simp only [mixAt, List.mem_map, List.mem_range] at hp
    obtain ⟨j, _, rfl⟩ := hp
    refine ⟨by positivity, ?_⟩
    dsimp only
    split <;> norm_num
  · intro i _
    simp [mixAt, List.range_succ]
    norm_num

/-- C85: the same for `logs_mixnorm` and the logarithm of the mixture density. -/
theorem C85_logs (obs m s : Arr ℝ) (w : Option (Arr ℝ)) {mAxis : ℤ} {k : ℕ} (h : AxisIs mAxis m.ndim k)
    (ho : obs.shape = m.shape.eraseIdx k) (hs : s.shape = m.shape) (hw : ∀ v, w = some v → v.shape = m.shape)
    (hM : m.shape.getD k 0 ≠ 0)
    (hpos : ∀ i, Arr.Valid obs.shape i → ∀ p ∈ mixAt m s w k i, 0 < p.2.1 ∧ 0 ≤ p.2.2)
    (hsum : ∀ i, Arr.Valid obs.shape i → ((mixAt m s w k i).map fun p => p.2.2).sum = 1) :
    ∃ out, logsMixnorm (obs.map fin) (m.map fin) (s.map fin) (w.map fun v => v.map fin) mAxis = .ok out ∧
      out.shape = obs.shape ∧ ∀ i, Arr.Valid obs.shape i →
        out.get i = negLog (densMix (mixAt m s w k i) (obs.get i)) := by
  obtain ⟨m', s', w', em, es, ew, sm, ss, sw, rows⟩ := mix_prepare obs m s w h ho hs hw hM
  obtain ⟨out, e, so, g⟩ := LogsEns.mixnormArr_ok (obs := obs.map fin) sm ss sw
  refine ⟨out, ?_, so, fun i hi => ?_⟩
  · unfold logsMixnorm
    cases w with
    | none =>
      simp only at ew
      simp only [Option.map_none, bind, Except.bind, (mix_weights h hM).2, em, es, ew, e]
    | some v =>
      simp only at ew
      simp only [Option.map_some, mixWeightsLogs, bind, Except.bind, em, es, ew, e]
  · obtain ⟨r1, r2, r3⟩ := rows i hi
    rw [g i hi, r1, r2, r3]
    exact (C57_mixnorm _ (fun p hp => (hpos i hi p hp).1) (fun p hp => (hpos i hi p hp).2) (hsum i hi)).2 _

/-- Equal weights always meet the last hypothesis. -/
theorem mixAt_default_sum (m s : Arr ℝ) {k : ℕ} (hM : m.shape.getD k 0 ≠ 0) (i : List ℕ) :
    ((mixAt m s none k i).map fun p => p.2.2).sum = 1 := by
  have hM' : (m.shape.getD k 0 : ℝ) ≠ 0 := by exact_mod_cast hM
  simp only [mixAt, List.map_map, Function.comp_def, List.map_const', List.sum_replicate, List.length_range,
    nsmul_eq_mul]
  field_simp

/-- Three mixtures of two components, components along the first axis. -/
example : let m : Arr ℝ := ⟨[2, 3], fun i => i.sum⟩
    let s : Arr ℝ := ⟨[2, 3], fun i => 1 + i.sum⟩
    let obs : Arr ℝ := ⟨[3], fun _ => 1⟩
    AxisIs 0 m.ndim 0 ∧ obs.shape = m.shape.eraseIdx 0 ∧ s.shape = m.shape ∧ m.shape.getD 0 0 ≠ 0 ∧
      (∀ i, Arr.Valid obs.shape i → ∀ p ∈ mixAt m s none 0 i, 0 < p.2.1 ∧ 0 ≤ p.2.2) ∧
      ∀ i, Arr.Valid obs.shape i → ((mixAt m s none 0 i).map fun p => p.2.2).sum = 1 := by
  refine ⟨⟨by simp [Arr.ndim], Or.inl rfl⟩, rfl, rfl, by simp, ?_, fun i _ => mixAt_default_sum _ _ (by simp) i⟩
  intro i _ p hp
  simp only [mixAt, List.mem_map, List.mem_range] at hp
  obtain ⟨j, _, rfl⟩ := hp
  exact ⟨by positivity, by positivity⟩

end Verif
