import Verif.Model.Multivariate
import Verif.Props.Crps

/-!
# Properties C13 - C17 and C66: arrays, axes, shapes, weights and estimator names

`Spec.AxisIs m nd k`: the Python axis number `m` denotes position `k` of an array with `nd` axes.
`a.sliceAt k i`: the slice of `a` along axis `k`, the other coordinates being `i`.
-/

noncomputable section

open scoped Classical

namespace Verif

open XF Py Api

/-! ### C14 -/

theorem sliceAt_length {α : Type} (a : Arr α) (k : ℕ) (i : List ℕ) :
    (a.sliceAt k i).length = a.shape.getD k 0 := by simp [Arr.sliceAt]

theorem weight_slice_length {fct : Arr XF} {W : Option (Arr XF)} (hw : Spec.WShape W fct.shape)
    (k : ℕ) (i : List ℕ) (w : List XF) (h : (W.map fun w => w.sliceAt k i) = some w) :
    w.length = (fct.sliceAt k i).length := by
  rw [Option.map_eq_some_iff] at h
  obtain ⟨w', h1, rfl⟩ := h
  rw [sliceAt_length, sliceAt_length, hw w' h1]

/-- C14: whenever the call succeeds, the result has the shape of the observations and every entry is
the score of the slice at that place, along whichever axis holds the ensemble. -/
theorem C14_slicewise {obs fct : Arr XF} {m : ℤ} {k : ℕ} {W : Option (Arr XF)}
    (h : Spec.AxisIs m fct.ndim k) (hs : obs.shape = fct.shape.eraseIdx k)
    (hw : Spec.WShape W fct.shape) {path : Path} {est : String} {sorted : Bool} {np : String}
    {out : Arr XF} (ho : crpsEnsemble path obs fct m W est sorted np = .ok out) :
    out.shape = obs.shape ∧ ∀ i, Arr.Valid obs.shape i →
      crps1 path est sorted np (obs.get i) (fct.sliceAt k i) (W.map fun w => w.sliceAt k i)
        = .ok (out.get i) := by
  obtain ⟨h1, h2⟩ := crpsEnsemble_ok h hs hw ho
  refine ⟨h1, fun i hi => ?_⟩
  rw [crps1_eq _ _ _ _ _ _ _ (weight_slice_length hw k i)]
  exact h2 i hi

/-- C14: the call fails only if the score of some slice fails, and with the same error. -/
theorem C14_error {obs fct : Arr XF} {m : ℤ} {k : ℕ} {W : Option (Arr XF)}
    (h : Spec.AxisIs m fct.ndim k) (hs : obs.shape = fct.shape.eraseIdx k)
    (hw : Spec.WShape W fct.shape) {path : Path} {est : String} {sorted : Bool} {np : String}
    {e : Err} (ho : crpsEnsemble path obs fct m W est sorted np = .error e)
    (hne : ∃ i, Arr.Valid obs.shape i) :
    ∃ i, Arr.Valid obs.shape i ∧
      crps1 path est sorted np (obs.get i) (fct.sliceAt k i) (W.map fun w => w.sliceAt k i)
        = .error e := by
  obtain ⟨i, h1, h2⟩ := crpsEnsemble_error h hs hw ho hne
  refine ⟨i, h1, ?_⟩
  rw [crps1_eq _ _ _ _ _ _ _ (weight_slice_length hw k i)]
  exact h2

/-- C14: if every slice can be scored the call succeeds. -/
theorem C14_total {obs fct : Arr XF} {m : ℤ} {k : ℕ} {W : Option (Arr XF)}
    (h : Spec.AxisIs m fct.ndim k) (hs : obs.shape = fct.shape.eraseIdx k)
    (hw : Spec.WShape W fct.shape) (path : Path) (est : String) (sorted : Bool) (np : String)
    (hne : ∃ i, Arr.Valid obs.shape i) (v : List ℕ → XF)
    (hv : ∀ i, Arr.Valid obs.shape i →
      crps1 path est sorted np (obs.get i) (fct.sliceAt k i) (W.map fun w => w.sliceAt k i)
        = .ok (v i)) :
    ∃ out, crpsEnsemble path obs fct m W est sorted np = .ok out ∧ out.shape = obs.shape ∧
      ∀ i, Arr.Valid obs.shape i → out.get i = v i := by
  cases ho : crpsEnsemble path obs fct m W est sorted np with
  | error e =>
    obtain ⟨i, h1, h2⟩ := C14_error h hs hw ho hne
    rw [hv i h1] at h2
    exact absurd h2 (by simp)
  | ok out =>
    obtain ⟨h1, h2⟩ := C14_slicewise h hs hw ho
    refine ⟨out, rfl, h1, fun i hi => ?_⟩
    have := h2 i hi
    rw [hv i hi] at this
    injection this with this
    exact this.symm

/-- C14: moving the ensemble axis elsewhere (with the same slices) gives the same result. -/
theorem C14_axis_irrelevant {obs fct fct' : Arr XF} {m m' : ℤ} {k k' : ℕ}
    (h : Spec.AxisIs m fct.ndim k) (h' : Spec.AxisIs m' fct'.ndim k')
    (hs : obs.shape = fct.shape.eraseIdx k) (hs' : obs.shape = fct'.shape.eraseIdx k')
    (hsl : ∀ i, Arr.Valid obs.shape i → fct.sliceAt k i = fct'.sliceAt k' i)
    {path : Path} {est : String} {sorted : Bool} {np : String} {out out' : Arr XF}
    (ho : crpsEnsemble path obs fct m none est sorted np = .ok out)
    (ho' : crpsEnsemble path obs fct' m' none est sorted np = .ok out') : out.Same out' := by
  obtain ⟨h1, h2⟩ := C14_slicewise h hs (by simp [Spec.WShape]) ho
  obtain ⟨h3, h4⟩ := C14_slicewise h' hs' (by simp [Spec.WShape]) ho'
  refine ⟨h1.trans h3.symm, fun i hi => ?_⟩
  rw [h1] at hi
  have e1 := h2 i hi
  have e2 := h4 i hi
  rw [hsl i hi, Option.map_none] at e1
  rw [Option.map_none, e1] at e2
  injection e2

/-- C14 and C01 together: on arrays of any rank, each entry is the integral. -/
theorem C14_nrg_array {obs fct : Arr XF} {m : ℤ} {k : ℕ}
    (h : Spec.AxisIs m fct.ndim k) (hs : obs.shape = fct.shape.eraseIdx k)
    (hk : fct.shape.getD k 0 ≠ 0) (path : Path) (y : List ℕ → ℝ) (x : List ℕ → ℝ)
    (hy : ∀ i, obs.get i = fin (y i)) (hx : ∀ i, fct.get i = fin (x i))
    (hne : ∃ i, Arr.Valid obs.shape i) :
    ∃ out, crpsEnsemble path obs fct m none "nrg" false "propagate" = .ok out ∧
      out.shape = obs.shape ∧ ∀ i, Arr.Valid obs.shape i →
        out.get i = fin (Spec.crps (Spec.ecdf
          ((List.range (fct.shape.getD k 0)).map fun j => x (i.insertIdx k j))) (y i)) := by
  refine C14_total h hs (by simp [Spec.WShape]) path "nrg" false "propagate" hne _ ?_
  intro i hi
  have e : fct.sliceAt k i
      = ((List.range (fct.shape.getD k 0)).map fun j => x (i.insertIdx k j)).map fin := by
    simp [Arr.sliceAt, hx, Function.comp_def]
  rw [e, hy, Option.map_none]
  apply C01_nrg_is_integral
  simpa using hk

/-- a (2, 5, 3) forecast with the ensemble on axis -2 and a (2, 3) observation (`C14_error`,
`C14_total`) -/
example : Spec.AxisIs (-2) 3 1 ∧ ([2, 3] : List ℕ) = [2, 5, 3].eraseIdx 1 ∧
    Arr.Valid [2, 3] [1, 2] := by
  refine ⟨⟨by norm_num, Or.inr (by norm_num)⟩, rfl, ?_⟩
  unfold Arr.Valid
  simp

/-! ### C15 -/

theorem insert_shape {o f : List ℕ} {k : ℕ} (hk : k < f.length)
    (h : o.take k ++ [f.getD k 0] ++ o.drop k = f) : o = f.eraseIdx k := by
  have hl : o.length + 1 = f.length := by
    have := congrArg List.length h
    simp at this
    omega
  have hk' : k ≤ o.length := by omega
  rw [← h, List.append_assoc, List.eraseIdx_append_of_length_le (by simp [hk'])]
  simp [hk']

/-- C15: shapes that do not fit are rejected; nothing is broadcast silently. -/
theorem C15_shape_mismatch {obs fct : Arr XF} {m : ℤ} {k : ℕ} (h : Spec.AxisIs m fct.ndim k)
    (hs : obs.shape ≠ fct.shape.eraseIdx k) (path : Path) (W : Option (Arr XF)) (est : String)
    (sorted : Bool) (np : String) :
    crpsEnsemble path obs fct m W est sorted np = .error .valueError := by
  have hk : k < fct.shape.length := h.1
  have hm : (if 0 ≤ m then m else (fct.ndim : ℤ) + m) = k := by
    rcases h.2 with h2 | h2
    · rw [if_pos (by omega)]; exact h2
    · have := h.1
      rw [if_neg (by omega)]; omega
  have : univariateArrayCheck obs fct m = .error .valueError := by
    unfold univariateArrayCheck shapeCheck
    have hg : Arr.pyGet fct.shape k = some (fct.shape.getD k 0) := by
      simp [Arr.pyGet, hk]
    rw [hm]
    simp only [hg, bind, Except.bind]
    rw [if_pos]
    intro h'
    apply hs
    apply insert_shape hk
    simpa [Arr.pyTo, Arr.pyFrom] using h'
  unfold crpsEnsemble
  rw [this]
  rfl

/-- an observation of shape (3,) against a forecast of shape (1, 5): broadcastable but rejected -/
example : Spec.AxisIs 1 2 1 ∧ ([3] : List ℕ) ≠ [1, 5].eraseIdx 1 := by
  exact ⟨⟨by norm_num, Or.inl rfl⟩, by simp⟩

/-! ### C66 -/

/-- C66, what holds: axis numbers at or above `ndim`, or below `-2 ndim`, raise an error.

Full statement: every axis number outside `-ndim, …, ndim - 1` raises an error.  It is false, see
`C66_out_of_range_axis_accepted`. -/
theorem C66_out_of_range_axis_partial (obs fct : Arr XF) (m : ℤ)
    (h : (fct.ndim : ℤ) ≤ m ∨ m < -2 * (fct.ndim : ℤ)) (path : Path) (W : Option (Arr XF))
    (est : String) (sorted : Bool) (np : String) :
    crpsEnsemble path obs fct m W est sorted np = .error .indexError := by
  have : univariateArrayCheck obs fct m = .error .indexError := by
    unfold univariateArrayCheck shapeCheck
    have hg : Arr.pyGet fct.shape (if 0 ≤ m then m else (fct.ndim : ℤ) + m) = none := by
      unfold Arr.pyGet
      unfold Arr.ndim at *
      rcases h with h | h
      · rw [if_pos (by omega : 0 ≤ m), if_pos (by omega : 0 ≤ m)]
        simp only [List.getElem?_eq_none_iff]
        omega
      · rw [if_neg (by omega : ¬ 0 ≤ m), if_neg (by omega), if_neg (by omega)]
    simp only [hg]
    rfl
  unfold crpsEnsemble
  rw [this]
  rfl

example : ((Arr.ofRows 3 [[1, 2, 3], [4, 5, 6]] : Arr XF).ndim : ℤ) ≤ 2 ∧
    (-5 : ℤ) < -2 * ((Arr.ofRows 3 [[1, 2, 3], [4, 5, 6]] : Arr XF).ndim : ℤ) := by
  simp [Arr.ofRows, Arr.ndim]

/-- C66 fails: on square data `m_axis = -3` is accepted for a forecast with two axes. -/
theorem C66_out_of_range_axis_accepted :
    ∃ out, crpsEnsemble .array ⟨[2], fun _ => fin 0⟩ ⟨[2, 2], fun _ => fin 1⟩ (-3) none "nrg" false
      "propagate" = .ok out := by
  refine ⟨perSlice Approx.nrg ⟨[2], fun _ => fin 0⟩ ⟨[2, 2], fun _ => fin 1⟩, ?_⟩
  unfold crpsEnsemble univariateArrayCheck shapeCheck
  simp [Arr.pyGet, Arr.pyTo, Arr.pyFrom, Arr.ndim, bind, Except.bind, applyNanPolicy,
    univariateSortEns, kernel, ensembleKernel, Except.map, sortingEstimator]

/-! ### C16 -/

theorem moveLast_shape_inj {a b : Arr XF} {k : ℕ} (ha : k < a.ndim) (hb : k < b.ndim)
    (h : (a.moveLast k).shape = (b.moveLast k).shape) : a.shape = b.shape := by
  rw [Arr.moveLast_shape, Arr.moveLast_shape] at h
  unfold Arr.ndim at ha hb
  obtain ⟨h1, h2⟩ := List.append_inj' h rfl
  have h3 : a.shape.getD k 0 = b.shape.getD k 0 := by simpa using h2
  have hl : a.shape.length = b.shape.length := by
    have := congrArg List.length h1
    rw [List.length_eraseIdx_of_lt ha, List.length_eraseIdx_of_lt hb] at this
    omega
  have ea := List.insertIdx_eraseIdx_getElem ha
  have eb := List.insertIdx_eraseIdx_getElem hb
  rw [← ea, ← eb, h1]
  congr 1
  simpa [ha, hb] using h3

/-- the weight check rejects arrays of another shape -/
theorem weightCheck_shape {w fct : Arr XF} (m : ℤ) (h : w.shape ≠ fct.shape)
    (hm : m = -1) (hf : fct.shape ≠ []) :
    ∃ e, univariateWeightCheck w fct m = .error e ∧ (e = .valueError ∨ e = .axisError) := by
  subst hm
  unfold univariateWeightCheck
  have hnd : 0 < fct.ndim := List.length_pos_of_ne_nil hf
  have e : (if (0 : ℤ) ≤ -1 then (-1 : ℤ) else (fct.ndim : ℤ) + -1) = ((fct.ndim - 1 : ℕ) : ℤ) := by
    rw [if_neg (by omega)]; omega
  simp only [e]
  unfold Arr.moveaxisLast
  have h0 : (0 : ℤ) ≤ ((fct.ndim - 1 : ℕ) : ℤ) := by positivity
  simp only [if_pos h0]
  split_ifs with h1
  · simp only [bind, Except.bind, Int.toNat_natCast]
    rw [if_pos]
    · exact ⟨_, rfl, Or.inl rfl⟩
    · intro h2
      have hlast : (fct.moveLast (fct.ndim - 1)).shape = fct.shape := by
        rw [Arr.moveLast_shape]
        obtain ⟨s, n, hsn⟩ : ∃ s n, fct.shape = s ++ [n] :=
          ⟨_, _, (List.dropLast_append_getLast hf).symm⟩
        unfold Arr.ndim
        rw [hsn]
        simp [List.eraseIdx_append_of_length_le]
      have h3 := h1.2
      exact h (moveLast_shape_inj (by omega) (by omega) (h2.trans hlast.symm))
  · exact ⟨_, rfl, Or.inr rfl⟩

theorem weightedCore_error {obs fct w : Arr XF} (path : Path) (est : String) (sorted : Bool)
    (h : w.shape ≠ fct.shape) (hf : fct.shape ≠ []) :
    ∃ e, coreArr path obs fct (some w) est sorted = .error e ∧
      (e = .valueError ∨ e = .axisError) := by
  unfold coreArr univariateSortEns
  obtain ⟨e, h1, h2⟩ := weightCheck_shape (w := w)
    (fct := if (!sorted && sortingEstimator est) = true then
      fct.mapRows (fun r => gather r (argsort r)) else fct) (-1)
    (by split_ifs <;> exact h) rfl (by split_ifs <;> exact hf)
  refine ⟨e, ?_, h2⟩
  simp only [bind, Except.bind, h1]

theorem moveaxisLast_error {a : Arr XF} {m : ℤ} {e : Err} (h : a.moveaxisLast m = .error e) :
    e = .axisError := by
  unfold Arr.moveaxisLast at h
  dsimp only at h
  generalize (if 0 ≤ m then m else (a.ndim : ℤ) + m) = z at h
  split_ifs at h
  injection h with h
  exact h.symm

theorem moveaxisLast_ok {a b : Arr XF} {m : ℤ} (h : a.moveaxisLast m = .ok b) :
    b = a.moveLast (if 0 ≤ m then m else (a.ndim : ℤ) + m).toNat ∧
      0 ≤ (if 0 ≤ m then m else (a.ndim : ℤ) + m) ∧
      (if 0 ≤ m then m else (a.ndim : ℤ) + m) < a.ndim := by
  unfold Arr.moveaxisLast at h
  dsimp only at h
  generalize (if 0 ≤ m then m else (a.ndim : ℤ) + m) = z at h
  split_ifs at h with h1
  injection h with h
  exact ⟨h.symm, h1⟩

/-- C16, policies 'propagate' and 'raise': weights of another shape are rejected. -/
theorem C16_weight_shape {obs fct w : Arr XF} {m : ℤ} {k : ℕ} (h : Spec.AxisIs m fct.ndim k)
    (hw : w.shape ≠ fct.shape) (path : Path) (est : String) (sorted : Bool) (np : String)
    (hnp : np = "propagate" ∨ np = "raise") :
    ∃ e, crpsEnsemble path obs fct m (some w) est sorted np = .error e ∧
      (e = .valueError ∨ e = .axisError) := by
  by_cases hs : obs.shape = fct.shape.eraseIdx k
  swap
  · exact ⟨_, C15_shape_mismatch h hs path _ est sorted np, Or.inl rfl⟩
  unfold crpsEnsemble
  rw [arrayCheck_axis h hs]
  simp only [bind, Except.bind]
  unfold applyNanPolicy
  cases hmv : w.moveaxisLast m with
  | error e =>
    refine ⟨e, ?_, Or.inr (moveaxisLast_error hmv)⟩
    simp only [hmv, Except.map, bind, Except.bind]
  | ok w' =>
    have hfne : (fct.moveLast k).shape ≠ [] := by simp [Arr.moveLast_shape]
    have hshape : w'.shape ≠ (fct.moveLast k).shape := by
      intro h2
      obtain ⟨rfl, h1⟩ := moveaxisLast_ok hmv
      have hl : w.ndim = fct.ndim := by
        have := congrArg List.length h2
        have hk := h.1
        unfold Arr.ndim at *
        rw [Arr.moveLast_shape, Arr.moveLast_shape, List.length_append, List.length_append,
          List.length_eraseIdx_of_lt (by omega), List.length_eraseIdx_of_lt (by omega)] at this
        simp at this
        omega
      have hk2 : (if 0 ≤ m then m else (w.ndim : ℤ) + m).toNat = k := by
        rw [hl]
        have := h.1
        rcases h.2 with h3 | h3
        · rw [if_pos (by omega)]; omega
        · rw [if_neg (by omega)]; omega
      rw [hk2] at h2
      exact hw (moveLast_shape_inj (by rw [hl]; exact h.1) h.1 h2)
    obtain ⟨e, h3, h4⟩ := weightedCore_error (obs := obs) path est sorted hshape hfne
    have key : (univariateSortEns (fct.moveLast k) (some w') (-1) est sorted >>= fun v =>
        match v.2 with
        | none => (kernel path est).map fun k => perSlice k obs v.1
        | some w => univariateWeightCheck w v.1 (-1) >>= fun w =>
            (kernelW path est).map fun k => perSliceW k obs v.1 w) = .error e := h3
    simp only [bind, Except.bind] at key
    rcases hnp with rfl | rfl
    · refine ⟨e, ?_, h4⟩
      simp only [hmv, Except.map, bind, Except.bind, if_true]
      exact key
    · have hne : ("raise" : String) ≠ "propagate" := by decide
      simp only [hmv, Except.map, bind, Except.bind, if_neg hne, if_true]
      unfold nanMask
      cases hmask : Arr.map2 (fun x v : XF => x.isnan ∨ v.isnan) (fct.moveLast k) w' with
      | error e' =>
        unfold Arr.map2 at hmask
        split at hmask
        · rename_i hb
          simp only [Arr.map2, hb]
          exact ⟨_, rfl, Or.inl rfl⟩
        · exact absurd hmask (by simp)
      | ok mask =>
        simp only [hmask]
        split_ifs
        · exact ⟨_, rfl, Or.inl rfl⟩
        · exact ⟨e, key, h4⟩

example : Spec.AxisIs (-1) (Arr.ofRows 3 [[1, 2, 3], [4, 5, 6]] : Arr XF).ndim 1 ∧
    (Arr.ofList [1, 1, 1] : Arr XF).shape ≠ (Arr.ofRows 3 [[1, 2, 3], [4, 5, 6]] : Arr XF).shape ∧
    ("raise" = "propagate" ∨ "raise" = "raise") := by
  refine ⟨⟨by simp [Arr.ofRows, Arr.ndim], Or.inr (by simp [Arr.ofRows, Arr.ndim])⟩,
    by simp [Arr.ofRows, Arr.ofList], by simp⟩

theorem kernelW_ok (path : Path) {est : String} (he : est ∈ Spec.estimators) :
    ∃ k, kernelW path est = .ok k := by
  simp only [Spec.estimators, List.mem_cons, List.not_mem_nil, or_false] at he
  rcases he with rfl | rfl | rfl | rfl | rfl | rfl | rfl <;> cases path <;>
    simp [kernelW, estimatorGufuncsW, ensembleKernelW]

theorem kernel_ok (path : Path) {est : String} (he : est ∈ Spec.estimators) :
    ∃ k, kernel path est = .ok k := by
  simp only [Spec.estimators, List.mem_cons, List.not_mem_nil, or_false] at he
  rcases he with rfl | rfl | rfl | rfl | rfl | rfl | rfl <;> cases path <;>
    simp [kernel, estimatorGufuncs, ensembleKernel]

theorem sliceCore_error {path : Path} {est : String} (he : est ∈ Spec.estimators) {sorted : Bool}
    {y : XF} {xs : List XF} {ws : Option (List XF)} {e : Err}
    (h : sliceCore path est sorted y xs ws = .error e) : e = .valueError := by
  obtain ⟨k, hk⟩ := kernel_ok path he
  obtain ⟨k', hk'⟩ := kernelW_ok path he
  unfold sliceCore at h
  rw [hk, hk'] at h
  cases ws with
  | none => simp [Except.map] at h
  | some w =>
    simp only [Except.map] at h
    split_ifs at h <;> (injection h with h; exact h.symm)

/-- a negative member of the weights is rejected by the first check -/
theorem sliceCore_neg (path : Path) (est : String) (sorted : Bool) (y : XF) (xs w : List XF)
    (h : ∃ v ∈ w, v < 0) : sliceCore path est sorted y xs (some w) = .error .valueError := by
  unfold sliceCore
  simp only
  rw [if_pos h]

theorem sliceNan_error {np : String} {est : String} {y : XF} {xs : List XF}
    {ws : Option (List XF)} {e : Err}
    (hest : np = "omit" → est ≠ "int" ∧ est ≠ "akr" ∧ est ≠ "akr_circperm")
    (h : sliceNan np (some est) y xs ws = .error e) : e = .valueError := by
  unfold sliceNan at h
  split_ifs at h with h1 h2 h3 h4 h5
  · injection h with h; exact h.symm
  · obtain ⟨a, b, c⟩ := hest h4
    simp [a, b, c] at h5
  · injection h with h; exact h.symm

/-- C16: a negative weight is rejected.  Under 'omit' the member must not be NaN and the estimator
must support 'omit'.

Full statement: the same without the first part of `homit`; it is false because the weight of a NaN
member is replaced by zero before the check, see `C16_omit_accepts_negative`. -/
theorem C16_negative_weight_partial {obs fct w : Arr XF} {m : ℤ} {k : ℕ}
    (h : Spec.AxisIs m fct.ndim k) (hs : obs.shape = fct.shape.eraseIdx k)
    (hw : w.shape = fct.shape) (path : Path) (est : String) (he : est ∈ Spec.estimators)
    (sorted : Bool) (np : String) (i : List ℕ) (hi : Arr.Valid obs.shape i) (j : ℕ)
    (hj : j < fct.shape.getD k 0) (hneg : w.get (i.insertIdx k j) < 0)
    (homit : np = "omit" → ¬ (fct.get (i.insertIdx k j)).isnan ∧
      est ≠ "int" ∧ est ≠ "akr" ∧ est ≠ "akr_circperm") :
    crpsEnsemble path obs fct m (some w) est sorted np = .error .valueError := by
  have hW : Spec.WShape (some w) fct.shape := by
    intro w' h'; injection h' with h'; rw [← h', hw]
  have hval : ∀ i e, sliceScore path est sorted np (obs.get i) (fct.sliceAt k i)
      (some (w.sliceAt k i)) = .error e → e = .valueError := by
    intro i e h1
    unfold sliceScore at h1
    cases h2 : sliceNan np (some est) (obs.get i) (fct.sliceAt k i) (some (w.sliceAt k i)) with
    | error e' =>
      rw [h2] at h1
      injection h1 with h1
      rw [← h1]
      exact sliceNan_error (fun h => (homit h).2) h2
    | ok p =>
      rw [h2] at h1
      exact sliceCore_error he h1
  have hbad : ∀ v, sliceScore path est sorted np (obs.get i) (fct.sliceAt k i)
      (some (w.sliceAt k i)) ≠ .ok v := by
    intro v
    have hwj : w.get (i.insertIdx k j) ∈ w.sliceAt k i := by
      unfold Arr.sliceAt
      rw [List.mem_map]
      exact ⟨j, by rw [hw]; simpa using hj, rfl⟩
    unfold sliceScore sliceNan
    by_cases h1 : np = "propagate"
    · simp only [if_pos h1, bind, Except.bind]
      rw [sliceCore_neg _ _ _ _ _ _ ⟨_, hwj, hneg⟩]
      simp
    simp only [if_neg h1]
    by_cases h2 : np = "raise"
    · simp only [if_pos h2]
      split_ifs
      · simp [bind, Except.bind]
      · simp only [bind, Except.bind]
        rw [sliceCore_neg _ _ _ _ _ _ ⟨_, hwj, hneg⟩]
        simp
    simp only [if_neg h2]
    by_cases h3 : np = "omit"
    · obtain ⟨a, b, c, d⟩ := homit h3
      simp only [if_pos h3, Option.some.injEq, b, c, d, or_self, if_false, bind, Except.bind]
      rw [sliceCore_neg]
      · simp
      · refine ⟨w.get (i.insertIdx k j), ?_, hneg⟩
        rw [List.mem_iff_getElem]
        refine ⟨j, by simpa [sliceAt_length, hw] using hj, ?_⟩
        have hnn : ¬ (w.get (i.insertIdx k j)).isnan := by
          intro h4
          rw [isnan_iff.1 h4] at hneg
          exact not_nan_lt _ hneg
        simp [Arr.sliceAt, a, hnn]
    · simp only [if_neg h3, bind, Except.bind]
      simp
  cases ho : crpsEnsemble path obs fct m (some w) est sorted np with
  | ok out => exact absurd ((crpsEnsemble_ok h hs hW ho).2 i hi) (hbad _)
  | error e =>
    obtain ⟨i', _, h2⟩ := crpsEnsemble_error h hs hW ho ⟨i, hi⟩
    rw [hval i' e h2]

example : Spec.AxisIs (-1) (Arr.ofList [1, 2, 3] : Arr XF).ndim 0 ∧
    (Arr.scalar 5 : Arr XF).shape = (Arr.ofList [1, 2, 3] : Arr XF).shape.eraseIdx 0 ∧
    (Arr.ofList [1, fin (-1), 1] : Arr XF).shape = (Arr.ofList [1, 2, 3] : Arr XF).shape ∧
    Arr.Valid (Arr.scalar 5 : Arr XF).shape [] ∧
    (1 : ℕ) < (Arr.ofList [1, 2, 3] : Arr XF).shape.getD 0 0 ∧
    (Arr.ofList [1, fin (-1), 1] : Arr XF).get (List.insertIdx [] 0 1) < 0 := by
  refine ⟨⟨by simp [Arr.ofList, Arr.ndim], Or.inr (by simp [Arr.ofList, Arr.ndim])⟩,
    by simp [Arr.ofList, Arr.scalar], by simp [Arr.ofList], by simp [Arr.Valid, Arr.scalar],
    by simp [Arr.ofList], ?_⟩
  simp [Arr.ofList, zero_def]

/-- C16 fails under 'omit': a negative weight on a NaN member goes unnoticed. -/
theorem C16_omit_accepts_negative (path : Path) :
    crps1 path "nrg" false "omit" (fin 0) [fin 1, nan] (some [fin 1, fin (-1)]) = .ok (fin 1) := by
  have h1 := C01_nrg_weighted_is_integral
  rw [crps1_eq _ _ _ _ _ _ _ (by simp)]
  have e : sliceScore path "nrg" false "omit" (fin 0) [fin 1, nan] (some [fin 1, fin (-1)])
      = sliceScore path "nrg" false "propagate" (fin 0) [fin 1, fin 0] (some [fin 1, fin 0]) := by
    simp [sliceScore, sliceNan, bind, Except.bind, zero_def]
  rw [e, ← crps1_eq _ _ _ _ _ _ _ (by simp)]
  have hw : ∀ p ∈ ([(1, 1), (0, 0)] : List (ℝ × ℝ)), 0 ≤ p.2 := by
    intro p hp; simp at hp; rcases hp with rfl | rfl <;> norm_num
  have := crps1W_nrg path false 0 hw (by norm_num [wtot])
  simp only [Xs, Ws, List.map_cons, List.map_nil] at this
  rw [this]
  norm_num [energy, wabs, wpair, pairsAll, norml, wtot]

/-- C16 fails under 'omit': weights of shape (1,) are silently broadcast to three members. -/
theorem C16_omit_broadcasts_weights (path : Path) :
    ∃ out, crpsEnsemble path (Arr.scalar (fin 0)) (Arr.ofList [fin 1, fin 2, fin 3]) (-1)
      (some (Arr.ofList [fin 1])) "nrg" false "omit" = .ok out := by
  have h : Spec.AxisIs (-1) (Arr.ofList [fin 1, fin 2, fin 3]).ndim 0 := by
    constructor <;> simp [Arr.ndim, Arr.ofList]
  have hs : (Arr.scalar (fin 0)).shape = (Arr.ofList [fin 1, fin 2, fin 3]).shape.eraseIdx 0 := rfl
  unfold crpsEnsemble
  rw [arrayCheck_axis h hs]
  have hm : ∀ l : List XF, l ≠ [] → (Arr.ofList l).moveaxisLast (-1)
      = .ok ((Arr.ofList l).moveLast 0) := by
    intro l _
    apply moveaxisLast_axis
    constructor <;> simp [Arr.ndim, Arr.ofList]
  simp only [applyNanPolicy, hm [fin 1] (by simp), nanMask, Arr.map2, Except.map, bind, Except.bind,
    whereZero]
  have hb : Arr.bshape ((Arr.ofList [fin 1, fin 2, fin 3]).moveLast 0).shape
      ((Arr.ofList [fin 1]).moveLast 0).shape = some [3] := by
    simp [Arr.moveLast, Arr.ofList, Arr.bshape, Arr.bshapeR]
  have hb2 : Arr.bshape [3] ((Arr.ofList [fin 1]).moveLast 0).shape = some [3] := by
    simp [Arr.moveLast, Arr.ofList, Arr.bshape, Arr.bshapeR]
  simp only [hb, hb2]
  rw [if_neg (by decide), if_neg (by decide), if_pos trivial, if_neg (by decide)]
  simp only
  set f' : Arr XF := ((Arr.ofList [fin 1, fin 2, fin 3]).moveLast 0).map
    (fun x => if x.isnan then 0 else x)
  have hf' : f'.shape = [] ++ [3] := by simp [f', Arr.map, Arr.moveLast, Arr.ofList]
  set w' : Arr XF := _
  show ∃ out, coreArr path (Arr.scalar (fin 0)) f' (some w') "nrg" false = .ok out
  have hw' : w'.shape = [] ++ [3] := rfl
  have hr : w'.row [] = Ws [(0, 1), (0, 1), (0, 1)] := by
    simp [w', Arr.row, Arr.bget, Arr.moveLast, Arr.ofList, Arr.ndim, List.range_succ, Ws]
  cases ho : coreArr path (Arr.scalar (fin 0)) f' (some w') "nrg" false with
  | ok out => exact ⟨out, rfl⟩
  | error e =>
    exfalso
    obtain ⟨i, hi, h2⟩ := coreArr_some_error hf' hw' path "nrg" false ho ⟨[], List.Forall₂.nil⟩
    cases hi
    obtain ⟨kk, hk⟩ := kernelW_ok path (est := "nrg") (by simp [Spec.estimators])
    have hpos : ∀ p ∈ ([(0, 1), (0, 1), (0, 1)] : List (ℝ × ℝ)), 0 ≤ p.2 := by
      intro p hp; simp at hp; rw [hp]; norm_num
    have ht : wtot ([(0, 1), (0, 1), (0, 1)] : List (ℝ × ℝ)) ≠ 0 := by norm_num [wtot]
    unfold sliceCore at h2
    simp only [hr, hk, if_neg (not_neg_Ws hpos), Except.map, normW_Ws ht, sortingEstimator] at h2
    have hn := not_neg_Ws (norml_nonneg hpos)
    simp [hn] at h2

/-! ### C17 -/

/-- C17: on valid input a documented estimator is never refused. -/
theorem C17_documented_accepted {obs fct : Arr XF} {m : ℤ} {k : ℕ}
    (h : Spec.AxisIs m fct.ndim k) (hs : obs.shape = fct.shape.eraseIdx k)
    (path : Path) {est : String} (he : est ∈ Spec.estimators) (sorted : Bool) :
    ∃ out, crpsEnsemble path obs fct m none est sorted "propagate" = .ok out := by
  obtain ⟨kk, hk⟩ := kernel_ok path he
  rw [crpsEnsemble_eq h hs (by simp [Spec.WShape])]
  simp [nanStage, coreArr, univariateSortEns, bind, Except.bind, hk, Except.map]

/-- `C17_documented_accepted`; it supplies the successful call that `C14_slicewise` and
`C14_axis_irrelevant` start from (members along the first or along the second axis). -/
example : (Spec.AxisIs 0 (Arr.ofRows 2 [[1, 2], [4, 5], [0, 7]] : Arr XF).ndim 0 ∧
      (Arr.ofList [3, 4] : Arr XF).shape
        = (Arr.ofRows 2 [[1, 2], [4, 5], [0, 7]] : Arr XF).shape.eraseIdx 0) ∧
    (Spec.AxisIs (-1) (Arr.ofRows 3 [[1, 4, 0], [2, 5, 7]] : Arr XF).ndim 1 ∧
      (Arr.ofList [3, 4] : Arr XF).shape
        = (Arr.ofRows 3 [[1, 4, 0], [2, 5, 7]] : Arr XF).shape.eraseIdx 1) ∧
    (∀ i, Arr.Valid [2] i → (Arr.ofRows 2 [[1, 2], [4, 5], [0, 7]] : Arr XF).sliceAt 0 i
      = (Arr.ofRows 3 [[1, 4, 0], [2, 5, 7]] : Arr XF).sliceAt 1 i) ∧
    (∃ out, crpsEnsemble .array (Arr.ofList [3, 4]) (Arr.ofRows 2 [[1, 2], [4, 5], [0, 7]]) 0 none
      "nrg" false "propagate" = .ok out) ∧
    ∃ out, crpsEnsemble .array (Arr.ofList [3, 4]) (Arr.ofRows 3 [[1, 4, 0], [2, 5, 7]]) (-1) none
      "nrg" false "propagate" = .ok out := by
  have h1 : Spec.AxisIs 0 (Arr.ofRows 2 [[1, 2], [4, 5], [0, 7]] : Arr XF).ndim 0 :=
    ⟨by simp [Arr.ofRows, Arr.ndim], Or.inl (by simp)⟩
  have h2 : Spec.AxisIs (-1) (Arr.ofRows 3 [[1, 4, 0], [2, 5, 7]] : Arr XF).ndim 1 :=
    ⟨by simp [Arr.ofRows, Arr.ndim], Or.inr (by simp [Arr.ofRows, Arr.ndim])⟩
  have h3 : (Arr.ofList [3, 4] : Arr XF).shape
        = (Arr.ofRows 2 [[1, 2], [4, 5], [0, 7]] : Arr XF).shape.eraseIdx 0 := by
    simp [Arr.ofRows, Arr.ofList]
  have h4 : (Arr.ofList [3, 4] : Arr XF).shape
        = (Arr.ofRows 3 [[1, 4, 0], [2, 5, 7]] : Arr XF).shape.eraseIdx 1 := by
    simp [Arr.ofRows, Arr.ofList]
  refine ⟨⟨h1, h3⟩, ⟨h2, h4⟩, fun i hi => ?_,
    C17_documented_accepted h1 h3 .array (by simp [Spec.estimators]) false,
    C17_documented_accepted h2 h4 .array (by simp [Spec.estimators]) false⟩
  obtain ⟨a, rfl, ha⟩ : ∃ a, i = [a] ∧ a < 2 := by
    unfold Arr.Valid at hi
    cases hi with
    | cons h0 h1 => cases h1; exact ⟨_, rfl, h0⟩
  interval_cases a <;> simp [Arr.sliceAt, Arr.ofRows, List.range_succ]

/-- C17 with weights: non-negative real weights are accepted with every documented estimator. -/
theorem C17_documented_accepted_weighted {obs fct w : Arr XF} {m : ℤ} {k : ℕ}
    (h : Spec.AxisIs m fct.ndim k) (hs : obs.shape = fct.shape.eraseIdx k)
    (hw : w.shape = fct.shape) (hne : ∃ i, Arr.Valid obs.shape i)
    (v : List ℕ → ℝ) (hv : ∀ i, w.get i = fin (v i)) (hpos : ∀ i, 0 ≤ v i)
    (htot : ∀ i, Arr.Valid obs.shape i →
      0 < ((List.range (fct.shape.getD k 0)).map fun j => v (i.insertIdx k j)).sum)
    (x : List ℕ → ℝ) (hx : ∀ i, fct.get i = fin (x i))
    (path : Path) {est : String} (he : est ∈ Spec.estimators) (sorted : Bool) :
    ∃ out, crpsEnsemble path obs fct m (some w) est sorted "propagate" = .ok out := by
  obtain ⟨kk, hk⟩ := kernelW_ok path he
  have hW : Spec.WShape (some w) fct.shape := by
    intro w' h'; injection h' with h'; rw [← h', hw]
  cases ho : crpsEnsemble path obs fct m (some w) est sorted "propagate" with
  | ok out => exact ⟨out, rfl⟩
  | error e =>
    exfalso
    obtain ⟨i, hi, h2⟩ := C14_error h hs hW ho hne
    set l := (List.range (fct.shape.getD k 0)).map fun j =>
      (x (i.insertIdx k j), v (i.insertIdx k j)) with hl
    have e1 : fct.sliceAt k i = Xs l := by
      simp [Arr.sliceAt, hx, hl, Xs, Function.comp_def]
    have e2 : w.sliceAt k i = Ws l := by
      simp [Arr.sliceAt, hv, hl, Ws, hw, Function.comp_def]
    have hwl : ∀ p ∈ l, 0 ≤ p.2 := by
      intro p hp
      rw [hl, List.mem_map] at hp
      obtain ⟨j, _, rfl⟩ := hp
      exact hpos _
    have htl : wtot l ≠ 0 := by
      have := htot i hi
      have e3 : wtot l = ((List.range (fct.shape.getD k 0)).map fun j =>
          v (i.insertIdx k j)).sum := by
        simp [wtot, hl, Function.comp_def]
      rw [e3]; exact this.ne'
    obtain ⟨l', _, _, _, h4⟩ := crps1_some path est sorted (obs.get i) hwl htl
    rw [Option.map_some, e1, e2, h4, hk] at h2
    simp [Except.map] at h2

example : Spec.AxisIs (-1) (Arr.ofList [1, 2, 3] : Arr XF).ndim 0 ∧
    (Arr.scalar 5 : Arr XF).shape = (Arr.ofList [1, 2, 3] : Arr XF).shape.eraseIdx 0 ∧
    (∃ i, Arr.Valid (Arr.scalar 5 : Arr XF).shape i) ∧
    0 < ((List.range ((Arr.ofList [1, 2, 3] : Arr XF).shape.getD 0 0)).map
      fun j => (fun i : List ℕ => (i.headD 0 : ℝ)) (List.insertIdx [] 0 j)).sum := by
  refine ⟨⟨by simp [Arr.ofList, Arr.ndim], Or.inr (by simp [Arr.ofList, Arr.ndim])⟩,
    by simp [Arr.ofList, Arr.scalar], ⟨[], by simp [Arr.Valid, Arr.scalar]⟩, ?_⟩
  simp [Arr.ofList, List.range_succ]
  norm_num

/-- errors of the kernel tables for other names -/
theorem kernel_unknown (path : Path) {est : String} (he : est ∉ Spec.estimators)
    (hn : path = .numba → est ≠ "ownrg" ∧ est ≠ "vrnrg") :
    kernel path est = .error .valueError ∧ kernelW path est = .error .valueError := by
  simp only [Spec.estimators, List.mem_cons, List.not_mem_nil, or_false, not_or] at he
  obtain ⟨a, b, c, d, e, f, g⟩ := he
  cases path
  · obtain ⟨h1, h2⟩ := hn rfl
    simp [kernel, kernelW, estimatorGufuncs, estimatorGufuncsW, *]
  · simp [kernel, kernelW, ensembleKernel, ensembleKernelW, *]

/-- C17: any estimator name outside the documented list raises `ValueError`, except the names
`ownrg` and `vrnrg` on the numba path.

Full statement: the same without `hn`; it is false, see `C17_numba_table_leaks_names`. -/
theorem C17_unknown_rejected_partial {obs fct : Arr XF} {m : ℤ} {k : ℕ} {W : Option (Arr XF)}
    (h : Spec.AxisIs m fct.ndim k) (hs : obs.shape = fct.shape.eraseIdx k)
    (hw : Spec.WShape W fct.shape) (hne : ∃ i, Arr.Valid obs.shape i) (path : Path) {est : String}
    (he : est ∉ Spec.estimators) (hn : path = .numba → est ≠ "ownrg" ∧ est ≠ "vrnrg")
    (sorted : Bool) (np : String) :
    crpsEnsemble path obs fct m W est sorted np = .error .valueError := by
  obtain ⟨hk, hkw⟩ := kernel_unknown path he hn
  have hcore : ∀ y xs ws, sliceCore path est sorted y xs ws = .error .valueError := by
    intro y xs ws
    unfold sliceCore
    rw [hk, hkw]
    cases ws with
    | none => rfl
    | some w =>
      simp only [Except.map]
      split_ifs <;> rfl
  have hall : ∀ y xs ws, sliceScore path est sorted np y xs ws = .error .valueError := by
    intro y xs ws
    unfold sliceScore
    cases h2 : sliceNan np (some est) y xs ws with
    | error e =>
      simp only [bind, Except.bind]
      rw [sliceNan_error _ h2]
      intro _
      simp only [Spec.estimators, List.mem_cons, List.not_mem_nil, or_false, not_or] at he
      exact ⟨he.2.2.2.2.1, he.2.2.2.2.2.1, he.2.2.2.2.2.2⟩
    | ok p =>
      simp only [bind, Except.bind]
      exact hcore _ _ _
  cases ho : crpsEnsemble path obs fct m W est sorted np with
  | ok out =>
    obtain ⟨i, hi⟩ := hne
    have := (crpsEnsemble_ok h hs hw ho).2 i hi
    rw [hall] at this
    exact absurd this (by simp)
  | error e =>
    obtain ⟨i, _, h2⟩ := crpsEnsemble_error h hs hw ho hne
    rw [hall] at h2
    injection h2 with h2
    rw [h2]

/-- C17 fails on the numba path: `ownrg` and `vrnrg` pass the name check and end in `TypeError`. -/
theorem C17_numba_table_leaks_names (y : XF) (xs : List XF) :
    "ownrg" ∉ Spec.estimators ∧ "vrnrg" ∉ Spec.estimators ∧
      crps1 .numba "ownrg" false "propagate" y xs none = .error .typeError ∧
      crps1 .numba "vrnrg" false "propagate" y xs none = .error .typeError := by
  refine ⟨by simp [Spec.estimators], by simp [Spec.estimators], ?_, ?_⟩ <;>
    · rw [crps1_none]
      simp [kernel, estimatorGufuncs, Except.map]

/-- `C17_unknown_rejected_partial` -/
example : "nrg2" ∉ Spec.estimators ∧ (Path.numba = .numba → "nrg2" ≠ "ownrg" ∧ "nrg2" ≠ "vrnrg") := by
  simp [Spec.estimators]

/-! ### C13 -/

/-- C13: 'omit' with an unsupported estimator raises `NotImplementedError`, NaNs or not. -/
theorem C13_omit_not_implemented {obs fct : Arr XF} {m : ℤ} {k : ℕ} {W : Option (Arr XF)}
    (h : Spec.AxisIs m fct.ndim k) (hs : obs.shape = fct.shape.eraseIdx k)
    (hw : Spec.WShape W fct.shape) (path : Path) {est : String}
    (he : est = "int" ∨ est = "akr" ∨ est = "akr_circperm") (sorted : Bool) :
    crpsEnsemble path obs fct m W est sorted "omit" = .error .notImplemented := by
  rw [crpsEnsemble_eq h hs hw]
  have hmask : ∃ mask, nanMask (fct.moveLast k) (W.map fun w => w.moveLast k) = .ok mask := by
    cases W with
    | none => exact ⟨_, rfl⟩
    | some w =>
      have : (w.moveLast k).shape = (fct.moveLast k).shape := by
        rw [Arr.moveLast_shape, Arr.moveLast_shape, hw w rfl]
      obtain ⟨m, h1, _⟩ := nanMask_some (fct := fct.moveLast k) (w := w.moveLast k) rfl this
      exact ⟨m, h1⟩
  obtain ⟨mask, hm⟩ := hmask
  unfold nanStage
  rw [if_neg (by decide)]
  simp only [hm, bind, Except.bind]
  rw [if_neg (by decide), if_pos trivial, if_pos (by simpa using he)]

example : ("akr" = "int" ∨ "akr" = "akr" ∨ "akr" = "akr_circperm") := by simp

end Verif
