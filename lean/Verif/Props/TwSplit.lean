import Verif.Lemmas.Pairs
import Verif.Props.Weighted

/-!
# Properties C133 and C134: adding up threshold-weighted scores, and bounds for every estimator
-/

noncomputable section

open scoped Classical

namespace Verif

open XF Py Api Spec Mv

variable {M D : ℕ}

theorem defaultV_left {a b : XF} {c x : ℝ} (hac : a ≤ fin c) (hcb : fin c ≤ b) (hx : x ≤ c) :
    defaultV (fin c) b (fin x) = fin c ∧ defaultV a b (fin x) = defaultV a (fin c) (fin x) := by
  cases a with
  | nan => exact absurd hac (by simp)
  | pinf => exact absurd hac (by simp)
  | ninf =>
    cases b with
    | nan => exact absurd hcb (by simp)
    | ninf => exact absurd hcb (by simp)
    | pinf => simp [defaultV, XF.max, XF.min, hx]
    | fin b =>
      have h : c ≤ b := by simpa using hcb
      simp [defaultV, XF.max, XF.min, hx, h, hx.trans h]
  | fin a =>
    have h' : a ≤ c := by simpa using hac
    cases b with
    | nan => exact absurd hcb (by simp)
    | ninf => exact absurd hcb (by simp)
    | pinf =>
      refine ⟨by simp [defaultV, XF.max, XF.min, hx], ?_⟩
      have e : XF.min (fin (max x a)) pinf = fin (max x a) := by simp [XF.min]
      rw [defaultV, defaultV, fin_max, e, fin_min, min_eq_left (max_le hx h')]
    | fin b =>
      have h : c ≤ b := by simpa using hcb
      simp only [defaultV, fin_max, fin_min, fin_inj]
      rw [max_eq_right hx, min_eq_left h, min_eq_left (max_le hx h'), min_eq_left ((max_le hx h').trans h)]
      exact ⟨rfl, rfl⟩

theorem defaultV_right {a b : XF} {c x : ℝ} (hac : a ≤ fin c) (hcb : fin c ≤ b) (hx : c ≤ x) :
    defaultV a (fin c) (fin x) = fin c ∧ defaultV a b (fin x) = defaultV (fin c) b (fin x) := by
  cases a with
  | nan => exact absurd hac (by simp)
  | pinf => exact absurd hac (by simp)
  | ninf =>
    have e : XF.max (fin x) ninf = fin x := by simp [XF.max]
    have e' : XF.max (fin x) (fin c) = fin x := by rw [fin_max, max_eq_left hx]
    simp only [defaultV, e, e', fin_min, min_eq_right hx]
    exact ⟨trivial, trivial⟩
  | fin a =>
    have h' : a ≤ c := by simpa using hac
    simp only [defaultV, fin_max, fin_min, max_eq_left hx, max_eq_left (h'.trans hx), min_eq_right hx]
    exact ⟨trivial, trivial⟩

/-- the three clamps -/
theorem clamp_split {a b : XF} (ha : a ≠ pinf) (hb : b ≠ ninf) {c : ℝ} (hac : a ≤ fin c) (hcb : fin c ≤ b) :
    ∃ p q r : ℝ → ℝ, (∀ x, defaultV a b (fin x) = fin (r x)) ∧ (∀ x, defaultV a (fin c) (fin x) = fin (p x)) ∧
      (∀ x, defaultV (fin c) b (fin x) = fin (q x)) ∧ Monotone p ∧ Monotone q ∧ Monotone r ∧
      ∀ x, r x = p x + q x - c := by
  obtain ⟨p, hp, -, -, -, mp⟩ := defaultV_fin ha (show fin c ≠ ninf by simp) hac
  obtain ⟨q, hq, -, -, -, mq⟩ := defaultV_fin (show fin c ≠ pinf by simp) hb hcb
  obtain ⟨r, hr, -, -, -, mr⟩ := defaultV_fin ha hb (by
    revert hac hcb
    cases a <;> cases b <;> simp <;> intro h1 h2 <;> exact h1.trans h2)
  refine ⟨p, q, r, hr, hp, hq, mp, mq, mr, fun x => ?_⟩
  rcases le_total x c with h | h
  · obtain ⟨h1, h2⟩ := defaultV_left hac hcb h
    rw [hq, fin_inj] at h1
    rw [hr, hp, fin_inj] at h2
    rw [h1, h2]; ring
  · obtain ⟨h1, h2⟩ := defaultV_right hac hcb h
    rw [hp, fin_inj] at h1
    rw [hr, hq, fin_inj] at h2
    rw [h1, h2]; ring

theorem pairSum_split {p q r : ℝ → ℝ} {c : ℝ} (mp : Monotone p) (mq : Monotone q) (h : ∀ x, r x = p x + q x - c)
    (A : Fin M → Fin M → ℝ) (y : ℝ) (x : Fin M → ℝ) :
    pairSum A (r y) (fun i => r (x i)) = pairSum A (p y) (fun i => p (x i)) + pairSum A (q y) (fun i => q (x i)) := by
  have e : ∀ u v, dist (r u) (r v) = dist (p u) (p v) + dist (q u) (q v) := by
    intro u v
    rw [Real.dist_eq, Real.dist_eq, Real.dist_eq, h, h]
    rcases le_total u v with k | k
    · have := mp k; have := mq k
      rw [abs_of_nonpos (by linarith), abs_of_nonpos (by linarith), abs_of_nonpos (by linarith)]; ring
    · have := mp k; have := mq k
      rw [abs_of_nonneg (by linarith), abs_of_nonneg (by linarith), abs_of_nonneg (by linarith)]; ring
  simp only [pairSum, detour, e, ← Finset.sum_add_distrib]
  exact Finset.sum_congr rfl fun i _ => Finset.sum_congr rfl fun j _ => by ring

/-- value of `twcrps_ensemble`, slice by slice, as a sum over pairs of clamped values -/
theorem tw_pairs {obs fct : Arr ℝ} {W : Option (Arr ℝ)} {m : ℤ} {k : ℕ} (h : Spec.AxisIs m fct.ndim k)
    (hs : obs.shape = fct.shape.eraseIdx k) (hne : ∃ i, Arr.Valid obs.shape i)
    (hW : Spec.WShape (W.map fun w => w.map fin) fct.shape) (path : Path) (est : String) (sorted : Bool)
    (hsort : sorted = true → ∀ i, (fct.sliceAt k i).Pairwise (· ≤ ·)) {M : ℕ}
    (hM : ∀ i, (fct.sliceAt k i).length = M) (A : List ℕ → Fin M → Fin M → ℝ)
    (hA : ∀ i, Arr.Valid obs.shape i → ∀ s (y : ℝ) x, SortOK s (List.ofFn x) →
      crps1 path est s "propagate" (fin y) ((List.ofFn x).map fin) (W.map fun w => (w.sliceAt k i).map fin)
        = .ok (fin (pairSum (A i) y x))) {v : XF → XF} {c : ℝ → ℝ} (hc : ∀ x, v (fin x) = fin (c x)) (mc : Monotone c) :
    ∃ out, twcrpsEnsemble path (obs.map fin) (fct.map fin) v m (W.map fun w => w.map fin) est sorted "propagate"
        = .ok out ∧ out.shape = obs.shape ∧ ∀ i, Arr.Valid obs.shape i →
      out.get i = fin (pairSum (A i) (c (obs.get i)) fun j => c ((fct.sliceAt k i).get (j.cast (hM i).symm))) := by
  unfold twcrpsEnsemble
  refine C14_total (obs := (obs.map fin).map v) (fct := (fct.map fin).map v) h hs hW path est sorted "propagate" hne _ ?_
  intro i hi
  have e : ((fct.map fin).map v).sliceAt k i
      = (List.ofFn fun j : Fin M => c ((fct.sliceAt k i).get (j.cast (hM i).symm))).map fin := by
    rw [sliceAt_map, sliceAt_map, List.map_map]
    have : fct.sliceAt k i = List.ofFn fun j : Fin M => (fct.sliceAt k i).get (j.cast (hM i).symm) := by
      apply List.ext_get
      · simp [hM i]
      · intro n h1 h2
        simp
    conv_lhs => rw [this]
    rw [List.map_ofFn, List.map_ofFn]
    congr 1
    funext j
    exact hc _
  have ey : ((obs.map fin).map v).get i = fin (c (obs.get i)) := hc _
  have ew : ((W.map fun w => w.map fin).map fun w => w.sliceAt k i) = W.map fun w => (w.sliceAt k i).map fin := by
    cases W with
    | none => rfl
    | some w => simp [sliceAt_map]
  rw [e, ey, ew]
  refine hA i hi sorted _ _ fun hs1 => ?_
  rw [List.pairwise_ofFn]
  intro a b hab
  apply mc
  exact List.pairwise_iff_get.1 (hsort hs1 i) _ _ hab

/-- C133: `twcrps_ensemble` with the thresholds `a` and `b` is the sum of what it gives with `a` and `c` and with `c` and
`b`, for every `c` in between.  Every estimator, both paths, arrays of every rank, every ensemble axis; `a` and `b` may be
infinite. -/
theorem C133_split {obs fct : Arr ℝ} {m : ℤ} {k : ℕ} (h : Spec.AxisIs m fct.ndim k)
    (hs : obs.shape = fct.shape.eraseIdx k) (hk : fct.shape.getD k 0 ≠ 0) (hne : ∃ i, Arr.Valid obs.shape i) {a b : XF}
    {c : ℝ} (ha : a ≠ pinf) (hb : b ≠ ninf) (hac : a ≤ fin c) (hcb : fin c ≤ b) (path : Path) {est : String}
    (he : est ∈ Spec.estimators) (h2 : est = "fair" ∨ est = "pwm" → 2 ≤ fct.shape.getD k 0) (sorted : Bool)
    (hsort : sorted = true → ∀ i, (fct.sliceAt k i).Pairwise (· ≤ ·)) :
    ∃ whole low high, twcrpsEnsemble path (obs.map fin) (fct.map fin) (defaultV a b) m none est sorted "propagate"
        = .ok whole ∧
      twcrpsEnsemble path (obs.map fin) (fct.map fin) (defaultV a (fin c)) m none est sorted "propagate" = .ok low ∧
      twcrpsEnsemble path (obs.map fin) (fct.map fin) (defaultV (fin c) b) m none est sorted "propagate" = .ok high ∧
      whole.shape = obs.shape ∧ low.shape = obs.shape ∧ high.shape = obs.shape ∧
      ∀ i, Arr.Valid obs.shape i → ∃ s t : ℝ, low.get i = fin s ∧ high.get i = fin t ∧ whole.get i = fin (s + t) ∧
        0 ≤ s ∧ 0 ≤ t := by
  obtain ⟨p, q, r, hr, hp, hq, mp, mq, mr, e⟩ := clamp_split ha hb hac hcb
  obtain ⟨A, hA0, -, hA⟩ := crps1_pairs path he hk h2
  have hM : ∀ i, (fct.sliceAt k i).length = fct.shape.getD k 0 := fun i => by unfold Arr.sliceAt; simp
  have T := fun (v : XF → XF) (c : ℝ → ℝ) hc mc => tw_pairs (W := none) h hs hne (by simp [Spec.WShape]) path est sorted
    hsort hM (fun _ => A) (fun i _ => hA) (v := v) (c := c) hc mc
  obtain ⟨o1, h1, s1, v1⟩ := T _ _ hr mr
  obtain ⟨o2, h2, s2, v2⟩ := T _ _ hp mp
  obtain ⟨o3, h3, s3, v3⟩ := T _ _ hq mq
  refine ⟨o1, o2, o3, h1, h2, h3, s1, s2, s3, fun i hi => ⟨_, _, v2 i hi, v3 i hi, ?_, pairSum_nonneg hA0 _ _,
    pairSum_nonneg hA0 _ _⟩⟩
  rw [v1 i hi, pairSum_split mp mq e A (obs.get i) fun j => (fct.sliceAt k i).get (j.cast (hM i).symm)]

/-- three members along the last axis, split at 1 -/
example : let fct : Arr ℝ := ⟨[2, 3], fun i => i.sum⟩
    let obs : Arr ℝ := ⟨[2], fun i => i.sum⟩
    Spec.AxisIs (-1) fct.ndim 1 ∧ obs.shape = fct.shape.eraseIdx 1 ∧ fct.shape.getD 1 0 ≠ 0 ∧
      Arr.Valid obs.shape [1] ∧ (ninf : XF) ≤ fin 1 ∧ fin 1 ≤ fin 2 ∧ "pwm" ∈ Spec.estimators ∧ 2 ≤ fct.shape.getD 1 0 := by
  refine ⟨⟨by simp [Arr.ndim], Or.inr (by simp [Arr.ndim])⟩, rfl, by simp, by simp [Arr.Valid], by simp, by simp,
    by simp [Spec.estimators], by simp⟩

/-- C133 with ensemble weights, for the estimators `nrg`, `qd` and `int`. -/
theorem C133_split_weighted {obs fct W : Arr ℝ} {m : ℤ} {k : ℕ} (h : Spec.AxisIs m fct.ndim k)
    (hs : obs.shape = fct.shape.eraseIdx k) (hW : W.shape = fct.shape) (hne : ∃ i, Arr.Valid obs.shape i)
    (hw : ∀ i, 0 ≤ W.get i) (ht : ∀ i, Arr.Valid obs.shape i → 0 < (W.sliceAt k i).sum) {a b : XF} {c : ℝ}
    (ha : a ≠ pinf) (hb : b ≠ ninf) (hac : a ≤ fin c) (hcb : fin c ≤ b) (path : Path) {est : String}
    (he : est = "nrg" ∨ est = "qd" ∨ est = "int") (sorted : Bool)
    (hsort : sorted = true → ∀ i, (fct.sliceAt k i).Pairwise (· ≤ ·)) :
    ∃ whole low high,
      twcrpsEnsemble path (obs.map fin) (fct.map fin) (defaultV a b) m (some (W.map fin)) est sorted "propagate"
        = .ok whole ∧
      twcrpsEnsemble path (obs.map fin) (fct.map fin) (defaultV a (fin c)) m (some (W.map fin)) est sorted "propagate"
        = .ok low ∧
      twcrpsEnsemble path (obs.map fin) (fct.map fin) (defaultV (fin c) b) m (some (W.map fin)) est sorted "propagate"
        = .ok high ∧
      whole.shape = obs.shape ∧ low.shape = obs.shape ∧ high.shape = obs.shape ∧
      ∀ i, Arr.Valid obs.shape i → ∃ s t : ℝ, low.get i = fin s ∧ high.get i = fin t ∧ whole.get i = fin (s + t) ∧
        0 ≤ s ∧ 0 ≤ t := by
  obtain ⟨p, q, r, hr, hp, hq, mp, mq, mr, e⟩ := clamp_split ha hb hac hcb
  have hM : ∀ i, (fct.sliceAt k i).length = fct.shape.getD k 0 := fun i => by unfold Arr.sliceAt; simp
  have hMW : ∀ i, (W.sliceAt k i).length = fct.shape.getD k 0 := fun i => by unfold Arr.sliceAt; simp [hW]
  have key : ∀ i, ∃ A : Fin (fct.shape.getD k 0) → Fin (fct.shape.getD k 0) → ℝ, Arr.Valid obs.shape i →
      (∀ i j, 0 ≤ A i j) ∧ ∀ s (y : ℝ) x, SortOK s (List.ofFn x) →
      crps1 path est s "propagate" (fin y) ((List.ofFn x).map fin) (some ((W.sliceAt k i).map fin))
        = .ok (fin (pairSum A y x)) := by
    intro i
    by_cases hi : Arr.Valid obs.shape i
    · have eW : W.sliceAt k i = List.ofFn fun j : Fin (fct.shape.getD k 0) => (W.sliceAt k i).get (j.cast (hMW i).symm) := by
        apply List.ext_get
        · simp [hMW i]
        · intro n h1 h2
          simp
      obtain ⟨A, h1, -, h2⟩ := crps1W_pairs path he
        (w := fun j : Fin (fct.shape.getD k 0) => (W.sliceAt k i).get (j.cast (hMW i).symm)) (fun j => by
          have : (W.sliceAt k i).get (j.cast (hMW i).symm) ∈ W.sliceAt k i := List.get_mem ..
          unfold Arr.sliceAt at this ⊢
          obtain ⟨n, -, hn⟩ := List.mem_map.1 this
          rw [← hn]; exact hw _) (by
          have := ht i hi
          rw [eW, List.sum_ofFn] at this
          exact this)
      exact ⟨A, fun _ => ⟨h1, by rw [eW]; exact h2⟩⟩
    · exact ⟨0, fun h => absurd h hi⟩
  choose A hA using key
  have T := fun (v : XF → XF) (c : ℝ → ℝ) hc mc => tw_pairs (W := some W) h hs hne (fun w hw' => by cases hw'; exact hW) path est
    sorted hsort hM A (fun i hi => (hA i hi).2) (v := v) (c := c) hc mc
  obtain ⟨o1, h1, s1, v1⟩ := T _ _ hr mr
  obtain ⟨o2, h2, s2, v2⟩ := T _ _ hp mp
  obtain ⟨o3, h3, s3, v3⟩ := T _ _ hq mq
  refine ⟨o1, o2, o3, h1, h2, h3, s1, s2, s3, fun i hi => ⟨_, _, v2 i hi, v3 i hi, ?_, pairSum_nonneg (hA i hi).1 _ _,
    pairSum_nonneg (hA i hi).1 _ _⟩⟩
  rw [v1 i hi, pairSum_split mp mq e (A i) (obs.get i) fun j => (fct.sliceAt k i).get (j.cast (hM i).symm)]

/-- weights 1, 2, 3 -/
example : let W : Arr ℝ := ⟨[3], fun i => i.sum + 1⟩
    (∀ i, 0 ≤ W.get i) ∧ 0 < (W.sliceAt 0 []).sum := by
  refine ⟨fun i => by positivity, ?_⟩
  simp [Arr.sliceAt, List.range_succ]
  norm_num

/-- C133: for every threshold `c` the CRPS is the sum of the scores over the values up to `c` and from `c` on. -/
theorem C133_whole_line {obs fct : Arr ℝ} {m : ℤ} {k : ℕ} (h : Spec.AxisIs m fct.ndim k)
    (hs : obs.shape = fct.shape.eraseIdx k) (hk : fct.shape.getD k 0 ≠ 0) (hne : ∃ i, Arr.Valid obs.shape i) (c : ℝ)
    (path : Path) {est : String} (he : est ∈ Spec.estimators)
    (h2 : est = "fair" ∨ est = "pwm" → 2 ≤ fct.shape.getD k 0) (sorted : Bool)
    (hsort : sorted = true → ∀ i, (fct.sliceAt k i).Pairwise (· ≤ ·)) :
    ∃ whole low high, crpsEnsemble path (obs.map fin) (fct.map fin) m none est sorted "propagate" = .ok whole ∧
      twcrpsEnsemble path (obs.map fin) (fct.map fin) (defaultV ninf (fin c)) m none est sorted "propagate" = .ok low ∧
      twcrpsEnsemble path (obs.map fin) (fct.map fin) (defaultV (fin c) pinf) m none est sorted "propagate" = .ok high ∧
      ∀ i, Arr.Valid obs.shape i → whole.get i = low.get i + high.get i := by
  obtain ⟨w, l, u, h1, h2, h3, -, -, -, h4⟩ := C133_split h hs hk hne (a := ninf) (b := pinf) (c := c) (by simp) (by simp)
    (by simp) (by simp) path he h2 sorted hsort
  rw [C22_twcrps_default] at h1
  refine ⟨w, l, u, h1, h2, h3, fun i hi => ?_⟩
  obtain ⟨s, t, e1, e2, e3, -⟩ := h4 i hi
  rw [e1, e2, e3, fin_add]

/-- a single time series of four members -/
example : let fct : Arr ℝ := ⟨[4], fun i => i.sum⟩
    let obs : Arr ℝ := ⟨[], fun _ => 2⟩
    Spec.AxisIs 0 fct.ndim 0 ∧ obs.shape = fct.shape.eraseIdx 0 ∧ fct.shape.getD 0 0 ≠ 0 ∧ Arr.Valid obs.shape [] := by
  refine ⟨⟨by simp [Arr.ndim], Or.inl (by simp)⟩, rfl, by simp, by simp [Arr.Valid]⟩

/-- C133: a wider interval never gives a smaller score: with `a ≤ a' ≤ b' ≤ b`, finite `a'` and `b'`. -/
theorem C133_monotone {obs fct : Arr ℝ} {m : ℤ} {k : ℕ} (h : Spec.AxisIs m fct.ndim k)
    (hs : obs.shape = fct.shape.eraseIdx k) (hk : fct.shape.getD k 0 ≠ 0) (hne : ∃ i, Arr.Valid obs.shape i) {a b : XF}
    {a' b' : ℝ} (ha : a ≠ pinf) (hb : b ≠ ninf) (h1 : a ≤ fin a') (h2 : a' ≤ b') (h3 : fin b' ≤ b) (path : Path)
    {est : String} (he : est ∈ Spec.estimators) (h2' : est = "fair" ∨ est = "pwm" → 2 ≤ fct.shape.getD k 0)
    (sorted : Bool) (hsort : sorted = true → ∀ i, (fct.sliceAt k i).Pairwise (· ≤ ·)) :
    ∃ wide narrow, twcrpsEnsemble path (obs.map fin) (fct.map fin) (defaultV a b) m none est sorted "propagate"
        = .ok wide ∧
      twcrpsEnsemble path (obs.map fin) (fct.map fin) (defaultV (fin a') (fin b')) m none est sorted "propagate"
        = .ok narrow ∧ narrow.shape = wide.shape ∧
      ∀ i, Arr.Valid obs.shape i → ∃ s t : ℝ, narrow.get i = fin s ∧ wide.get i = fin t ∧ 0 ≤ s ∧ s ≤ t := by
  have hab : fin a' ≤ b := by
    revert h3
    cases b <;> simp
    intro h; exact h2.trans h
  obtain ⟨w, l, u, e1, e2, e3, s1, -, -, v⟩ := C133_split h hs hk hne ha hb h1 hab path he h2' sorted hsort
  obtain ⟨w', l', u', e1', e2', e3', -, s2', -, v'⟩ := C133_split h hs hk hne (a := fin a') (by simp) hb
    (by simpa using h2) h3 path he h2' sorted hsort
  refine ⟨w, l', e1, e2', s2'.trans s1.symm, fun i hi => ?_⟩
  obtain ⟨s, t, q1, q2, q3, q4, q5⟩ := v i hi
  obtain ⟨s', t', r1, r2, r3, r4, r5⟩ := v' i hi
  have : u = w' := by
    rw [e1'] at e3
    exact (Except.ok.inj e3).symm
  rw [this, r3, fin_inj] at q2
  exact ⟨s', s + t, r1, q3, r4, by linarith⟩

/-- the intervals [0, 1] and [-1, ∞) -/
example : fin (-1) ≤ fin 0 ∧ (0:ℝ) ≤ 1 ∧ fin 1 ≤ pinf := by simp

/-! ### C134: bounds -/

/-- the sum over pairs is at most the weighted mean distance -/
theorem pairSum_le {E : Type} [NormedAddCommGroup E] {A : Fin M → Fin M → ℝ} {w : Fin M → ℝ} (h0 : ∀ i j, 0 ≤ A i j)
    (h : ∀ i, ∑ j, (A i j + A j i) = w i) (y : E) (x : Fin M → E) : pairSum A y x ≤ ∑ i, w i * dist (x i) y := by
  rw [pairSum_eq h]
  have : 0 ≤ ∑ i, ∑ j, A i j * dist (x i) (x j) :=
    Finset.sum_nonneg fun i _ => Finset.sum_nonneg fun j _ => mul_nonneg (h0 i j) dist_nonneg
  linarith

/-- C134: every estimator of the ensemble CRPS lies between 0 and the mean distance of the members from the
observation, on both paths. -/
theorem C134_crps (path : Path) {est : String} (he : est ∈ Spec.estimators) (hM : M ≠ 0)
    (h2 : est = "fair" ∨ est = "pwm" → 2 ≤ M) (sorted : Bool) (y : ℝ) (x : Fin M → ℝ) (hs : sorted = true → Monotone x) :
    ∃ s : ℝ, crps1 path est sorted "propagate" (fin y) ((List.ofFn x).map fin) none = .ok (fin s) ∧
      0 ≤ s ∧ s ≤ (∑ i, |x i - y|) / M := by
  obtain ⟨A, h0, hr, h⟩ := crps1_pairs path he hM h2
  refine ⟨_, h sorted y x fun h1 => ?_, pairSum_nonneg h0 _ _, (pairSum_le h0 hr y x).trans (le_of_eq ?_)⟩
  · rw [List.pairwise_ofFn]
    exact fun i j hij => hs h1 hij.le
  · rw [Finset.sum_div]
    exact Finset.sum_congr rfl fun i _ => by rw [Real.dist_eq]; ring

/-- three members and the estimator `pwm` -/
example : "pwm" ∈ Spec.estimators ∧ 3 ≠ 0 ∧ 2 ≤ 3 := by simp [Spec.estimators]

/-- C134 for the energy score. -/
theorem C134_es (path : Path) {est : String} (he : est ∈ Spec.esEstimators) (hM : M ≠ 0) (h2 : est = "fair" → 2 ≤ M)
    (y : Eu D) (x : Fin M → Eu D) :
    ∃ s : ℝ, es1 path est D (vec y) ((List.ofFn x).map vec) none = .ok (fin s) ∧ 0 ≤ s ∧ s ≤ (∑ i, dist (x i) y) / M := by
  obtain ⟨A, h0, hr, h⟩ := es1_pairs path he hM h2
  refine ⟨_, h y x, pairSum_nonneg h0 _ _, (pairSum_le h0 hr y x).trans (le_of_eq ?_)⟩
  rw [Finset.sum_div]
  exact Finset.sum_congr rfl fun i _ => by ring

/-- four members -/
example : "akr_circperm" ∈ Spec.esEstimators ∧ 4 ≠ 0 := by simp [Spec.esEstimators]

/-- C134 with weights, for the estimators `nrg`, `qd` and `int`.  Missing: the other estimators, where it is false
(`C134_weighted_fair_false`). -/
theorem C134_weighted_partial (path : Path) {est : String} (he : est = "nrg" ∨ est = "qd" ∨ est = "int") {w : Fin M → ℝ}
    (hw : ∀ i, 0 ≤ w i) (ht : 0 < ∑ i, w i) (sorted : Bool) (y : ℝ) (x : Fin M → ℝ) (hs : sorted = true → Monotone x) :
    ∃ s : ℝ, crps1 path est sorted "propagate" (fin y) ((List.ofFn x).map fin) (some ((List.ofFn w).map fin))
        = .ok (fin s) ∧ 0 ≤ s ∧ s ≤ (∑ i, w i * |x i - y|) / ∑ i, w i := by
  obtain ⟨A, h0, hr, h⟩ := crps1W_pairs path he hw ht
  refine ⟨_, h sorted y x fun h1 => ?_, pairSum_nonneg h0 _ _, (pairSum_le h0 hr y x).trans (le_of_eq ?_)⟩
  · rw [List.pairwise_ofFn]
    exact fun i j hij => hs h1 hij.le
  · rw [Finset.sum_div]
    exact Finset.sum_congr rfl fun i _ => by rw [Real.dist_eq]; ring

/-- a weight of zero is allowed -/
example : (∀ i, 0 ≤ (![1, 0, 3] : Fin 3 → ℝ) i) ∧ 0 < ∑ i, (![1, 0, 3] : Fin 3 → ℝ) i := by
  refine ⟨fun i => ?_, ?_⟩
  · fin_cases i <;> simp
  · simp [Fin.sum_univ_succ]; norm_num

/-- C134 is false for weighted ensembles and the estimator `fair`: two members with weights `p > q > 0`, the
observation equal to the heavier one.  The spread is taken to be half the distance of the members whatever the weights
are, so the score is negative. -/
theorem C134_weighted_fair_false (path : Path) (sorted : Bool) {a b p q : ℝ} (hab : a ≠ b) (hq : 0 < q) (hpq : q < p) :
    ∃ s : ℝ, crps1 path "fair" sorted "propagate" (fin a) [fin a, fin b] (some [fin p, fin q]) = .ok (fin s) ∧
      s = (q / (p + q) - 1 / 2) * |a - b| ∧ s < 0 := by
  have hp : 0 < p := hq.trans hpq
  have ht : wtot [(a, p), (b, q)] = p + q := by simp [wtot]
  have hpq0 : p + q ≠ 0 := by positivity
  have hsq : wsq (norml [(a, p), (b, q)]) = 1 - 2 * p * q / (p + q) ^ 2 := by
    simp [wsq, norml, ht]; field_simp; ring
  have h := crps1W_fair path sorted a (l := [(a, p), (b, q)]) (by
      intro r hr; simp at hr; rcases hr with rfl | rfl <;> simp [hp.le, hq.le]) (by rw [ht]; exact hpq0) (by
      rw [hsq]; have : 0 < 2 * p * q / (p + q) ^ 2 := by positivity
      linarith)
  have e : wfair a (norml [(a, p), (b, q)]) = (q / (p + q) - 1 / 2) * |a - b| := by
    unfold wfair
    rw [hsq, sub_sub_cancel]
    simp only [norml, ht, wabs, wpair, pairsAll, List.map_cons, List.map_nil, List.sum_cons, List.sum_nil, sub_self, abs_zero]
    rw [abs_sub_comm b a]
    have hp0 := hp.ne'
    have hq0 := hq.ne'
    field_simp
    ring
  refine ⟨_, h, e, ?_⟩
  rw [e]
  have h1 : q / (p + q) < 1 / 2 := by rw [div_lt_div_iff₀ (by positivity) two_pos]; linarith
  exact mul_neg_of_neg_of_pos (by linarith) (abs_pos.2 (sub_ne_zero.2 hab))

/-- weights 9 and 1 -/
example : (0:ℝ) ≠ 1 ∧ (0:ℝ) < 1 ∧ (1:ℝ) < 9 := by norm_num

/-- The fair estimator is 0 for some imperfect forecasts: two members on either side of the observation. -/
theorem C134_fair_zero (path : Path) {a b y : ℝ} (h1 : a ≤ y) (h2 : y ≤ b) :
    crps1 path "fair" false "propagate" (fin y) [fin a, fin b] none = .ok (fin 0) := by
  have h := crps1_fair path false y (xs := [a, b]) (by simp)
  rw [fairCrps_ks, show [a, b] = List.ofFn ![a, b] by simp, pair_ksFair le_rfl] at h
  simp only [List.map_ofFn] at h
  rw [show [fin a, fin b] = List.ofFn (fin ∘ ![a, b]) by simp [List.ofFn_succ], h]
  congr 2
  have e : detour y a b = 0 := by
    simp only [detour, Real.dist_eq]
    rw [abs_of_nonpos (by linarith), abs_of_nonneg (by linarith), abs_of_nonpos (by linarith)]; ring
  have e' : detour y b a = 0 := by
    simp only [detour, Real.dist_eq]
    rw [abs_of_nonneg (by linarith), abs_of_nonpos (by linarith), abs_of_nonneg (by linarith)]; ring
  simp [pairSum, Fin.sum_univ_succ, e, e']

/-- members 0 and 4, observation 1 -/
example : (0:ℝ) ≤ 1 ∧ (1:ℝ) ≤ 4 := by norm_num

end Verif
