import Verif.Lemmas.SliceBySlice
import Verif.Props.MvAxes
import Verif.Props.Energy2
import Verif.Props.DssMv

/-!
# Properties C92-C94: ensemble scores on arrays of any rank

`Spec.SliceBySlice call s one`: the array call returns an array of shape `s` whose entry `i` is what
the call on slice `i` alone returns, and it raises exactly when the call on some slice raises.
-/

noncomputable section

open scoped Classical

namespace Verif

open XF Py Api Spec Mv

/-! ### default weights of the variogram scores -/

theorem owvsEnsemble_getD {path : Path} {obs fct : Arr XF} {mAxis vAxis : ℤ} {m v : ℕ}
    (h : MvAxes mAxis vAxis fct.ndim m v) (hs : obs.shape = fct.shape.eraseIdx m)
    (f : List XF → XF) (w : Option (List (List XF))) (EW : Option (Arr XF)) (p : ℝ) :
    owvsEnsemble path obs fct f w mAxis vAxis EW p
      = owvsEnsemble path obs fct f (some (w.getD (pairOnes (fct.shape.getD v 0)))) mAxis vAxis EW
          p := by
  unfold owvsEnsemble
  rw [mvArrayCheck h hs]
  have : (fct.moveLast2 m v).shape.getD ((fct.moveLast2 m v).ndim - 1) 0 = fct.shape.getD v 0 := by
    simp only [Arr.moveLast2, Arr.ndim]
    generalize Arr.erase2 m v fct.shape = s
    simp [List.getD_eq_getElem?_getD, List.getElem?_append_right]
  simp only [bind, Except.bind, Option.getD_some, this]

theorem vrvsEnsemble_getD {path : Path} {obs fct : Arr XF} {mAxis vAxis : ℤ} {m v : ℕ}
    (h : MvAxes mAxis vAxis fct.ndim m v) (hs : obs.shape = fct.shape.eraseIdx m)
    (f : List XF → XF) (w : Option (List (List XF))) (EW : Option (Arr XF)) (p : ℝ) :
    vrvsEnsemble path obs fct f w mAxis vAxis EW p
      = vrvsEnsemble path obs fct f (some (w.getD (pairOnes (fct.shape.getD v 0)))) mAxis vAxis EW
          p := by
  unfold vrvsEnsemble
  rw [mvArrayCheck h hs]
  have : (fct.moveLast2 m v).shape.getD ((fct.moveLast2 m v).ndim - 1) 0 = fct.shape.getD v 0 := by
    simp only [Arr.moveLast2, Arr.ndim]
    generalize Arr.erase2 m v fct.shape = s
    simp [List.getD_eq_getElem?_getD, List.getElem?_append_right]
  simp only [bind, Except.bind, Option.getD_some, this]

theorem vsEnsemble_getD {path : Path} {obs fct : Arr XF} {mAxis vAxis : ℤ} {m v : ℕ}
    (h : MvAxes mAxis vAxis fct.ndim m v) (hs : obs.shape = fct.shape.eraseIdx m)
    (w : Option (List (List XF))) (EW : Option (Arr XF)) (p : ℝ) (est : String) :
    vsEnsemble path obs fct w mAxis vAxis EW p est
      = vsEnsemble path obs fct (some (w.getD (pairOnes (fct.shape.getD v 0)))) mAxis vAxis EW p
          est := by
  cases w with
  | none => exact vsEnsemble_ones h hs EW p est
  | some w => rfl

section slice
variable {obs fct : Arr XF} {mAxis vAxis : ℤ} {m v : ℕ}

/-- the variables of one slice -/
theorem slice_len (h : MvAxes mAxis vAxis fct.ndim m v) (hs : obs.shape = fct.shape.eraseIdx m)
    (i : List ℕ) : (obs.sliceAt (axisWithout m v) i).length = fct.shape.getD v 0 := by
  rw [sliceAt_len, hs, eraseIdx_getD_without h.ne]

theorem ofRows_getD (D : ℕ) (xs : List (List XF)) : (Arr.ofRows D xs).shape.getD 1 0 = D := rfl

end slice

/-! ### C92: outcome-weighted and vertically re-scaled scores, no ensemble weights -/

section C92
variable (path : Path) {obs fct : Arr XF} {mAxis vAxis : ℤ} {m v : ℕ}

/-- C92: `owes_ensemble` acts slice by slice for every pair of distinct axes. -/
theorem C92_owes (f : List XF → XF) (h : MvAxes mAxis vAxis fct.ndim m v)
    (hs : obs.shape = fct.shape.eraseIdx m) :
    SliceBySlice (owesEnsemble path obs fct f mAxis vAxis none)
      (obs.shape.eraseIdx (axisWithout m v)) fun i =>
        owes1 path (fct.shape.getD v 0) f (obs.sliceAt (axisWithout m v) i) (fct.matAt m v i)
          none := by
  unfold owes1
  simp only [owesEnsemble_eq, Option.map_none]
  exact mvScoreO_slices path f h hs

/-- C92: `vres_ensemble` acts slice by slice for every pair of distinct axes. -/
theorem C92_vres (f : List XF → XF) (h : MvAxes mAxis vAxis fct.ndim m v)
    (hs : obs.shape = fct.shape.eraseIdx m) :
    SliceBySlice (vresEnsemble path obs fct f mAxis vAxis none)
      (obs.shape.eraseIdx (axisWithout m v)) fun i =>
        vres1 path (fct.shape.getD v 0) f (obs.sliceAt (axisWithout m v) i) (fct.matAt m v i)
          none := by
  unfold vres1
  simp only [vresEnsemble_eq, Option.map_none]
  exact mvScoreO_slices path f h hs

/-- C92: `owvs_ensemble` acts slice by slice for every pair of distinct axes, with given or default
pair weights. -/
theorem C92_owvs (f : List XF → XF) (p : ℝ) (w : Option (List (List XF)))
    (h : MvAxes mAxis vAxis fct.ndim m v) (hs : obs.shape = fct.shape.eraseIdx m) :
    SliceBySlice (owvsEnsemble path obs fct f w mAxis vAxis none p)
      (obs.shape.eraseIdx (axisWithout m v)) fun i =>
        owvs1 path p w (fct.shape.getD v 0) f (obs.sliceAt (axisWithout m v) i) (fct.matAt m v i)
          none := by
  unfold owvs1
  have e : ∀ i, owvsEnsemble path (Arr.ofList (obs.sliceAt (axisWithout m v) i))
      (Arr.ofRows (fct.shape.getD v 0) (fct.matAt m v i)) f w (-2) (-1) none p = _ := fun i =>
    owvsEnsemble_getD (ofRows_axes _ _) (ofRows_shape (slice_len h hs i)) f w none p
  simp only [Option.map_none, e, ofRows_getD]
  rw [owvsEnsemble_getD h hs]
  simp only [owvsEnsemble_eq]
  exact mvScoreO_slices path f h hs

/-- C92: `vrvs_ensemble` acts slice by slice for every pair of distinct axes, with given or default
pair weights. -/
theorem C92_vrvs (f : List XF → XF) (p : ℝ) (w : Option (List (List XF)))
    (h : MvAxes mAxis vAxis fct.ndim m v) (hs : obs.shape = fct.shape.eraseIdx m) :
    SliceBySlice (vrvsEnsemble path obs fct f w mAxis vAxis none p)
      (obs.shape.eraseIdx (axisWithout m v)) fun i =>
        vrvs1 path p w (fct.shape.getD v 0) f (obs.sliceAt (axisWithout m v) i) (fct.matAt m v i)
          none := by
  unfold vrvs1
  have e : ∀ i, vrvsEnsemble path (Arr.ofList (obs.sliceAt (axisWithout m v) i))
      (Arr.ofRows (fct.shape.getD v 0) (fct.matAt m v i)) f w (-2) (-1) none p = _ := fun i =>
    vrvsEnsemble_getD (ofRows_axes _ _) (ofRows_shape (slice_len h hs i)) f w none p
  simp only [Option.map_none, e, ofRows_getD]
  rw [vrvsEnsemble_getD h hs]
  simp only [vrvsEnsemble_eq]
  exact mvScoreO_slices path f h hs

/-- C92: `owgksmv_ensemble` acts slice by slice for every pair of distinct axes. -/
theorem C92_owgksmv (f : List XF → XF) (h : MvAxes mAxis vAxis fct.ndim m v)
    (hs : obs.shape = fct.shape.eraseIdx m) :
    SliceBySlice (owgksmvEnsemble path obs fct f mAxis vAxis none)
      (obs.shape.eraseIdx (axisWithout m v)) fun i =>
        owgksmv1 path (fct.shape.getD v 0) f (obs.sliceAt (axisWithout m v) i) (fct.matAt m v i)
          none := by
  unfold owgksmv1
  simp only [owgksmvEnsemble_eq, Option.map_none]
  exact mvScoreO_slices path f h hs

/-- C92: `vrgksmv_ensemble` acts slice by slice for every pair of distinct axes. -/
theorem C92_vrgksmv (f : List XF → XF) (h : MvAxes mAxis vAxis fct.ndim m v)
    (hs : obs.shape = fct.shape.eraseIdx m) :
    SliceBySlice (vrgksmvEnsemble path obs fct f mAxis vAxis none)
      (obs.shape.eraseIdx (axisWithout m v)) fun i =>
        vrgksmv1 path (fct.shape.getD v 0) f (obs.sliceAt (axisWithout m v) i) (fct.matAt m v i)
          none := by
  unfold vrgksmv1
  simp only [vrgksmvEnsemble_none, Option.map_none]
  exact mvScoreO_slices path f h hs

/-- `C92_owes`, `C92_vres`, `C92_owvs`, `C92_vrvs`, `C92_owgksmv`, `C92_vrgksmv`: an array of shape
(variables, members, times) with `m_axis = 1`, `v_axis = 0`. -/
example : MvAxes 1 0 (⟨[3, 5, 4], fun _ => 0⟩ : Arr XF).ndim 1 0 ∧
    (⟨[3, 4], fun _ => 0⟩ : Arr XF).shape = (⟨[3, 5, 4], fun _ => 0⟩ : Arr XF).shape.eraseIdx 1 ∧
    (⟨[3, 4], fun _ => 0⟩ : Arr XF).shape.eraseIdx (axisWithout 1 0) = [4] := by
  refine ⟨⟨⟨by simp [Arr.ndim], by simp⟩, ⟨by simp [Arr.ndim], by simp⟩, by simp⟩, by simp,
    by simp [axisWithout]⟩

/-- both outcomes of `C92_owes` occur: a weight function that is negative somewhere makes the call
raise, a non-negative one makes it return. -/
example (h : MvAxes mAxis vAxis fct.ndim m v) (hs : obs.shape = fct.shape.eraseIdx m)
    (hi : ∃ i, Arr.Valid (obs.shape.eraseIdx (axisWithout m v)) i) :
    owesEnsemble path obs fct (fun _ => fin (-1)) mAxis vAxis none = .error .valueError ∧
    ∃ out, owesEnsemble path obs fct (fun _ => fin 1) mAxis vAxis none = .ok out := by
  have a : (fin (-1) : XF) < 0 := by rw [zero_def, fin_lt]; norm_num
  have b : ¬ (fin 1 : XF) < 0 := by rw [zero_def, fin_lt]; norm_num
  constructor
  · obtain ⟨i, hi⟩ := hi
    rw [owesEnsemble_eq]
    unfold mvScoreO
    rw [mvArrayCheck h hs]
    simp only [bind, Except.bind]
    rw [mvWeights_array _ h.ne hs, if_pos ⟨i, hi, Or.inl a⟩]
  · have := C92_owes path (fun _ => fin 1) h hs
    cases hc : owesEnsemble path obs fct (fun _ => fin 1) mAxis vAxis none with
    | ok out => exact ⟨out, rfl⟩
    | error e =>
      rw [hc] at this
      obtain ⟨i, -, h1⟩ := this
      change owes1 .. = _ at h1
      unfold owes1 at h1
      rw [owesEnsemble_eq, Option.map_none,
        mvO_none path _ (slice_len h hs i) (matAt_row_len fct m v i), if_neg (by simp [b])] at h1
      exact absurd h1 (by simp)

/-- C92: `owgksuv_ensemble` acts slice by slice along any axis. -/
theorem C92_owgksuv (f : XF → XF) {ax : ℤ} {k : ℕ} (h : AxisIs ax fct.ndim k)
    (hs : obs.shape = fct.shape.eraseIdx k) :
    SliceBySlice (owgksuvEnsemble path obs fct f ax none) obs.shape fun i =>
      owgksuv1 path f (obs.get i) (fct.sliceAt k i) none := by
  unfold owgksuv1
  simp only [owgksuvEnsemble_eq, Option.map_none]
  exact uvScoreO_slices path f h hs

/-- C92: `vrgksuv_ensemble` acts slice by slice along any axis. -/
theorem C92_vrgksuv (f : XF → XF) {ax : ℤ} {k : ℕ} (h : AxisIs ax fct.ndim k)
    (hs : obs.shape = fct.shape.eraseIdx k) :
    SliceBySlice (vrgksuvEnsemble path obs fct f ax none) obs.shape fun i =>
      vrgksuv1 path f (obs.get i) (fct.sliceAt k i) none := by
  unfold vrgksuv1
  simp only [vrgksuvEnsemble_eq, Option.map_none]
  exact uvScoreO_slices path f h hs

/-- C92: `owgksuv_ensemble` with ensemble weights acts slice by slice along any axis. -/
theorem C92_owgksuv_weighted (f : XF → XF) {W : Arr XF} {ax : ℤ} {k : ℕ} (h : AxisIs ax fct.ndim k)
    (hs : obs.shape = fct.shape.eraseIdx k) (hW : W.shape = fct.shape) :
    SliceBySlice (owgksuvEnsemble path obs fct f ax (some W)) obs.shape fun i =>
      owgksuv1 path f (obs.get i) (fct.sliceAt k i) (some (W.sliceAt k i)) := by
  unfold owgksuv1
  simp only [owgksuvEnsemble_eq, Option.map_some]
  exact uvScoreO_slices_w path f h hs hW

/-- C92: `vrgksuv_ensemble` with ensemble weights acts slice by slice along any axis. -/
theorem C92_vrgksuv_weighted (f : XF → XF) {W : Arr XF} {ax : ℤ} {k : ℕ} (h : AxisIs ax fct.ndim k)
    (hs : obs.shape = fct.shape.eraseIdx k) (hW : W.shape = fct.shape) :
    SliceBySlice (vrgksuvEnsemble path obs fct f ax (some W)) obs.shape fun i =>
      vrgksuv1 path f (obs.get i) (fct.sliceAt k i) (some (W.sliceAt k i)) := by
  unfold vrgksuv1
  simp only [vrgksuvEnsemble_eq, Option.map_some]
  exact uvScoreO_slices_w path f h hs hW

/-- `C92_owgksuv`, `C92_vrgksuv`, `C92_owgksuv_weighted`, `C92_vrgksuv_weighted`: members along the
first of two axes. -/
example : AxisIs 0 (Arr.ofRows 3 [[1, 2, 3], [4, 5, 6]] : Arr XF).ndim 0 ∧
    (Arr.ofList [1, 2, 3] : Arr XF).shape
      = (Arr.ofRows 3 [[1, 2, 3], [4, 5, 6]] : Arr XF).shape.eraseIdx 0 ∧
    (Arr.ofRows 3 [[1, 1, 1], [2, 0, 1]] : Arr XF).shape
      = (Arr.ofRows 3 [[1, 2, 3], [4, 5, 6]] : Arr XF).shape := by
  refine ⟨⟨by simp [Arr.ofRows, Arr.ndim], Or.inl (by simp)⟩, by simp [Arr.ofRows, Arr.ofList],
    by simp [Arr.ofRows]⟩

end C92

/-! ### C93: the multivariate ones with ensemble weights -/

section C93
variable (path : Path) {obs fct W : Arr XF} {mAxis vAxis : ℤ} {m v : ℕ}

/-- C93 (partial): `owes_ensemble` with ensemble weights acts slice by slice when the ensemble axis
comes before the variable axis; for the other order see `C93_false`. -/
theorem C93_owes_partial (f : List XF → XF) (h : MvAxes mAxis vAxis fct.ndim m v)
    (hs : obs.shape = fct.shape.eraseIdx m) (hlt : m < v) (hw : W.shape = fct.shape.eraseIdx v) :
    SliceBySlice (owesEnsemble path obs fct f mAxis vAxis (some W)) (obs.shape.eraseIdx (v - 1))
      fun i => owes1 path (fct.shape.getD v 0) f (obs.sliceAt (v - 1) i) (fct.matAt m v i)
        (some (W.sliceAt m i)) := by
  unfold owes1
  simp only [owesEnsemble_eq, Option.map_some]
  exact mvScoreO_slices_w path f h hs hlt hw

/-- C93 (partial): the same for `vres_ensemble`. -/
theorem C93_vres_partial (f : List XF → XF) (h : MvAxes mAxis vAxis fct.ndim m v)
    (hs : obs.shape = fct.shape.eraseIdx m) (hlt : m < v) (hw : W.shape = fct.shape.eraseIdx v) :
    SliceBySlice (vresEnsemble path obs fct f mAxis vAxis (some W)) (obs.shape.eraseIdx (v - 1))
      fun i => vres1 path (fct.shape.getD v 0) f (obs.sliceAt (v - 1) i) (fct.matAt m v i)
        (some (W.sliceAt m i)) := by
  unfold vres1
  simp only [vresEnsemble_eq, Option.map_some]
  exact mvScoreO_slices_w path f h hs hlt hw

/-- C93 (partial): the same for `owvs_ensemble`. -/
theorem C93_owvs_partial (f : List XF → XF) (p : ℝ) (w : Option (List (List XF)))
    (h : MvAxes mAxis vAxis fct.ndim m v)
    (hs : obs.shape = fct.shape.eraseIdx m) (hlt : m < v) (hw : W.shape = fct.shape.eraseIdx v) :
    SliceBySlice (owvsEnsemble path obs fct f w mAxis vAxis (some W) p) (obs.shape.eraseIdx (v - 1))
      fun i => owvs1 path p w (fct.shape.getD v 0) f (obs.sliceAt (v - 1) i) (fct.matAt m v i)
        (some (W.sliceAt m i)) := by
  unfold owvs1
  have ha : axisWithout m v = v - 1 := by simp [axisWithout, hlt]
  have e : ∀ i, owvsEnsemble path (Arr.ofList (obs.sliceAt (v - 1) i))
      (Arr.ofRows (fct.shape.getD v 0) (fct.matAt m v i)) f w (-2) (-1)
      (some (Arr.ofList (W.sliceAt m i))) p = _ := fun i =>
    owvsEnsemble_getD (ofRows_axes _ _) (ofRows_shape (ha ▸ slice_len h hs i)) f w _ p
  simp only [Option.map_some, e, ofRows_getD]
  rw [owvsEnsemble_getD h hs]
  simp only [owvsEnsemble_eq]
  exact mvScoreO_slices_w path f h hs hlt hw

/-- C93 (partial): the same for `vrvs_ensemble`. -/
theorem C93_vrvs_partial (f : List XF → XF) (p : ℝ) (w : Option (List (List XF)))
    (h : MvAxes mAxis vAxis fct.ndim m v)
    (hs : obs.shape = fct.shape.eraseIdx m) (hlt : m < v) (hw : W.shape = fct.shape.eraseIdx v) :
    SliceBySlice (vrvsEnsemble path obs fct f w mAxis vAxis (some W) p) (obs.shape.eraseIdx (v - 1))
      fun i => vrvs1 path p w (fct.shape.getD v 0) f (obs.sliceAt (v - 1) i) (fct.matAt m v i)
        (some (W.sliceAt m i)) := by
  unfold vrvs1
  have ha : axisWithout m v = v - 1 := by simp [axisWithout, hlt]
  have e : ∀ i, vrvsEnsemble path (Arr.ofList (obs.sliceAt (v - 1) i))
      (Arr.ofRows (fct.shape.getD v 0) (fct.matAt m v i)) f w (-2) (-1)
      (some (Arr.ofList (W.sliceAt m i))) p = _ := fun i =>
    vrvsEnsemble_getD (ofRows_axes _ _) (ofRows_shape (ha ▸ slice_len h hs i)) f w _ p
  simp only [Option.map_some, e, ofRows_getD]
  rw [vrvsEnsemble_getD h hs]
  simp only [vrvsEnsemble_eq]
  exact mvScoreO_slices_w path f h hs hlt hw

/-- C93 (partial): the same for `owgksmv_ensemble`. -/
theorem C93_owgksmv_partial (f : List XF → XF) (h : MvAxes mAxis vAxis fct.ndim m v)
    (hs : obs.shape = fct.shape.eraseIdx m) (hlt : m < v) (hw : W.shape = fct.shape.eraseIdx v) :
    SliceBySlice (owgksmvEnsemble path obs fct f mAxis vAxis (some W)) (obs.shape.eraseIdx (v - 1))
      fun i => owgksmv1 path (fct.shape.getD v 0) f (obs.sliceAt (v - 1) i) (fct.matAt m v i)
        (some (W.sliceAt m i)) := by
  unfold owgksmv1
  simp only [owgksmvEnsemble_eq, Option.map_some]
  exact mvScoreO_slices_w path f h hs hlt hw

/-- C93 (partial): the same for `vrgksmv_ensemble` on the array backends.  (With numba the weighted
call always raises: `C93_vrgksmv_numba_raises`.) -/
theorem C93_vrgksmv_partial (f : List XF → XF) (h : MvAxes mAxis vAxis fct.ndim m v)
    (hs : obs.shape = fct.shape.eraseIdx m) (hlt : m < v) (hw : W.shape = fct.shape.eraseIdx v) :
    SliceBySlice (vrgksmvEnsemble .array obs fct f mAxis vAxis (some W)) (obs.shape.eraseIdx (v - 1))
      fun i => vrgksmv1 .array (fct.shape.getD v 0) f (obs.sliceAt (v - 1) i) (fct.matAt m v i)
        (some (W.sliceAt m i)) := by
  unfold vrgksmv1
  simp only [vrgksmvEnsemble_array, Option.map_some]
  exact mvScoreO_slices_w .array f h hs hlt hw

/-- `C93_owes_partial`, `C93_vres_partial`, `C93_owvs_partial`, `C93_vrvs_partial`,
`C93_owgksmv_partial`, `C93_vrgksmv_partial`: members first, variables last, times in between. -/
example : MvAxes 0 (-1) (⟨[5, 4, 3], fun _ => 0⟩ : Arr XF).ndim 0 2 ∧
    (⟨[4, 3], fun _ => 0⟩ : Arr XF).shape = (⟨[5, 4, 3], fun _ => 0⟩ : Arr XF).shape.eraseIdx 0 ∧
    0 < 2 ∧
    (⟨[5, 4], fun _ => 1⟩ : Arr XF).shape = (⟨[5, 4, 3], fun _ => 0⟩ : Arr XF).shape.eraseIdx 2 := by
  refine ⟨⟨⟨by simp [Arr.ndim], by simp⟩, ⟨by simp [Arr.ndim], by simp [Arr.ndim]⟩, by simp⟩,
    by simp, by simp, by simp⟩

/-- `vrgksmv_ensemble` with ensemble weights and numba raises for all arrays. -/
theorem C93_vrgksmv_numba_raises (f : List XF → XF) (W : Arr XF) :
    ∃ e, vrgksmvEnsemble .numba obs fct f mAxis vAxis (some W) = .error e := by
  unfold vrgksmvEnsemble
  cases multivariateArrayCheck obs fct mAxis vAxis with
  | error e => exact ⟨e, rfl⟩
  | ok a =>
    simp only [bind, Except.bind]
    cases mvWeights a.1 a.2 f with
    | error e => exact ⟨e, rfl⟩
    | ok b =>
      dsimp only
      cases multivariateWeightCheck W a.2 mAxis with
      | error e => exact ⟨e, rfl⟩
      | ok c =>
        dsimp only
        unfold vrksMvW
        split_ifs
        · exact ⟨_, rfl⟩
        · exact ⟨_, rfl⟩

/-- … and, where no weight is negative, the kind of exception: `IndexError` for a single observation vector and for
an empty first axis, where `ow[0]` does not exist, and `TypeError` for every other array of observations. -/
theorem C93_vrgksmv_numba_kind {f : List XF → XF} (hf : ∀ x, ¬ f x < 0) (h : MvAxes mAxis vAxis fct.ndim m v)
    (hs : obs.shape = fct.shape.eraseIdx m) (hlt : m < v) (hw : W.shape = fct.shape.eraseIdx v)
    (hW : ¬ (W.moveLast m).Any (fun x => x < 0)) :
    vrgksmvEnsemble .numba obs fct f mAxis vAxis (some W)
      = .error (match obs.shape.eraseIdx (v - 1) with
        | [] => .indexError
        | 0 :: _ => .indexError
        | _ => .typeError) := by
  have ha : axisWithout m v = v - 1 := by simp [axisWithout, hlt]
  unfold vrgksmvEnsemble
  rw [mvArrayCheck h hs]
  simp only [bind, Except.bind]
  rw [mvWeights_array f h.ne hs, ha, if_neg (by
    rintro ⟨i, -, hx | ⟨x, -, hx⟩⟩
    · exact hf _ hx
    · exact hf _ hx)]
  dsimp only
  rw [mvWeightCheck h hlt hw, if_neg hW]
  dsimp only
  have e : (alongLast f (obs.moveLast (v - 1))).shape = obs.shape.eraseIdx (v - 1) := by
    simp [alongLast, Arr.moveLast]
  unfold vrksMvW
  rw [e]
  cases obs.shape.eraseIdx (v - 1) with
  | nil => simp
  | cons n l =>
    cases n with
    | zero => simp
    | succ n => simp

/-- four observations of three variables, five members -/
example : vrgksmvEnsemble .numba ⟨[4, 3], fun _ => 0⟩ ⟨[5, 4, 3], fun _ => 0⟩ (fun _ => 1) 0 (-1)
    (some ⟨[5, 4], fun _ => 1⟩) = .error .typeError :=
  C93_vrgksmv_numba_kind (m := 0) (v := 2) (by simp [one_def, zero_def])
    ⟨⟨by simp [Arr.ndim], by simp⟩, ⟨by simp [Arr.ndim], by simp [Arr.ndim]⟩, by simp⟩ (by simp) (by simp) (by simp)
    (by simp [Arr.Any, Arr.moveLast, one_def, zero_def])

/-- C93 is false for the other order of the axes: with the ensemble axis last and weights of the
documented shape, all six calls raise `AxisError` although no weight is negative. -/
theorem C93_false {f : List XF → XF} (hf : ∀ x, ¬ f x < 0) (p : ℝ) (w : Option (List (List XF)))
    (h : MvAxes mAxis vAxis fct.ndim m v) (hs : obs.shape = fct.shape.eraseIdx m)
    (hm : m + 1 = fct.ndim) (hw : W.shape = fct.shape.eraseIdx v) :
    owesEnsemble path obs fct f mAxis vAxis (some W) = .error .axisError ∧
    vresEnsemble path obs fct f mAxis vAxis (some W) = .error .axisError ∧
    owvsEnsemble path obs fct f w mAxis vAxis (some W) p = .error .axisError ∧
    vrvsEnsemble path obs fct f w mAxis vAxis (some W) p = .error .axisError ∧
    owgksmvEnsemble path obs fct f mAxis vAxis (some W) = .error .axisError ∧
    vrgksmvEnsemble path obs fct f mAxis vAxis (some W) = .error .axisError := by
  have hv : v < fct.ndim := h.hv.1
  have hn : W.ndim = m := by
    unfold Arr.ndim at *
    rw [hw, List.length_eraseIdx_of_lt hv]
    omega
  have h1 : multivariateWeightCheck W (fct.moveLast2 m v) mAxis = .error .axisError := by
    unfold multivariateWeightCheck
    rw [moveLast2_ndim h.hm.1 h.hv.1 h.ne]
    simp only [axis_norm h.hm]
    have : W.moveaxisLast (m : ℤ) = .error .axisError := by
      unfold Arr.moveaxisLast
      simp only [hn]
      simp
    rw [this]
    rfl
  have h2 := mvWeights_array (obs := obs) (fct := fct) f h.ne hs
  rw [if_neg (by simp [hf])] at h2
  refine ⟨?_, ?_, ?_, ?_, ?_, ?_⟩
  · simp only [owesEnsemble, mvArrayCheck h hs, bind, Except.bind, h2, h1]
  · simp only [vresEnsemble, mvArrayCheck h hs, bind, Except.bind, h2, h1]
  · simp only [owvsEnsemble, mvArrayCheck h hs, bind, Except.bind, h2, h1]
  · simp only [vrvsEnsemble, mvArrayCheck h hs, bind, Except.bind, h2, h1]
  · simp only [owgksmvEnsemble, mvArrayCheck h hs, bind, Except.bind, h2, h1]
  · simp only [vrgksmvEnsemble, mvArrayCheck h hs, bind, Except.bind, h2, h1]

example : (∀ x : List XF, ¬ (fun _ => fin 1 : List XF → XF) x < 0) ∧
    MvAxes (-1) (-2) (⟨[3, 5], fun _ => 0⟩ : Arr XF).ndim 1 0 ∧
    (⟨[3], fun _ => 0⟩ : Arr XF).shape = (⟨[3, 5], fun _ => 0⟩ : Arr XF).shape.eraseIdx 1 ∧
    1 + 1 = (⟨[3, 5], fun _ => 0⟩ : Arr XF).ndim ∧
    (⟨[5], fun _ => 1⟩ : Arr XF).shape = (⟨[3, 5], fun _ => 0⟩ : Arr XF).shape.eraseIdx 0 := by
  refine ⟨fun _ => by rw [zero_def, fin_lt]; norm_num,
    ⟨⟨by simp [Arr.ndim], by simp [Arr.ndim]⟩, ⟨by simp [Arr.ndim], by simp [Arr.ndim]⟩,
    by simp⟩, by simp, by simp [Arr.ndim], by simp⟩

end C93

/-! ### C94: the scores without outcome weights -/

section C94
variable (path : Path) {obs fct W : Arr XF} {mAxis vAxis : ℤ} {m v : ℕ}

theorem esKernel_ok {est : String} (h : est ∈ Spec.esEstimators) :
    (∃ k, esKernel path est = .ok k) ∧ ∃ k, esKernelW path est = .ok k := by
  simp only [Spec.esEstimators, List.mem_cons, List.not_mem_nil, or_false] at h
  rcases h with rfl | rfl | rfl | rfl <;> cases path <;> simp [esKernel, esKernelW]

theorem gksmvKernel_ok {est : String} (h : est ∈ Spec.gksEstimators) :
    (∃ k, gksmvKernel path est = .ok k) ∧ ∃ k, gksmvKernelW path est = .ok k := by
  simp only [Spec.gksEstimators, List.mem_cons, List.not_mem_nil, or_false] at h
  rcases h with rfl | rfl | rfl | rfl <;> cases path <;> simp [gksmvKernel, gksmvKernelW]

theorem gksuvKernel_ok {est : String} (h : est ∈ Spec.gksEstimators) :
    ∃ k, gksuvKernel path est = .ok k := by
  simp only [Spec.gksEstimators, List.mem_cons, List.not_mem_nil, or_false] at h
  rcases h with rfl | rfl | rfl | rfl <;> cases path <;> simp [gksuvKernel]

theorem vsKernel_ok {est : String} (h : est ∈ Spec.vsEstimators) (w : List (List XF)) (p : ℝ) :
    (∃ k, vsKernel path est w p = .ok k) ∧ ∃ k, vsKernelW path est w p = .ok k := by
  simp only [Spec.vsEstimators, List.mem_cons, List.not_mem_nil, or_false] at h
  rcases h with rfl | rfl <;> cases path <;> simp [vsKernel, vsKernelW]

/-- C94: `es_ensemble` with a documented estimator returns for all consistent shapes and every pair of
distinct axes, and entry `i` is the score of slice `i` alone. -/
theorem C94_es {est : String} (he : est ∈ Spec.esEstimators)
    (h : MvAxes mAxis vAxis fct.ndim m v) (hs : obs.shape = fct.shape.eraseIdx m) :
    ∃ out, esEnsemble path obs fct mAxis vAxis none est = .ok out ∧
      out.shape = obs.shape.eraseIdx (axisWithout m v) ∧
      ∀ i, es1 path est (fct.shape.getD v 0) (obs.sliceAt (axisWithout m v) i) (fct.matAt m v i)
        none = .ok (out.get i) := by
  obtain ⟨k, hk⟩ := (esKernel_ok path he).1
  obtain ⟨out, ho⟩ : ∃ out, esEnsemble path obs fct mAxis vAxis none est = .ok out := by
    rw [esEnsemble_eq, mvScore_none h hs, hk]; exact ⟨_, rfl⟩
  exact ⟨_, ho, C64_es_axes path est h hs ho⟩

/-- C94: the same for `gksmv_ensemble`. -/
theorem C94_gksmv {est : String} (he : est ∈ Spec.gksEstimators)
    (h : MvAxes mAxis vAxis fct.ndim m v) (hs : obs.shape = fct.shape.eraseIdx m) :
    ∃ out, gksmvEnsemble path obs fct mAxis vAxis none est = .ok out ∧
      out.shape = obs.shape.eraseIdx (axisWithout m v) ∧
      ∀ i, gksmv1 path est (fct.shape.getD v 0) (obs.sliceAt (axisWithout m v) i) (fct.matAt m v i)
        none = .ok (out.get i) := by
  obtain ⟨k, hk⟩ := (gksmvKernel_ok path he).1
  obtain ⟨out, ho⟩ : ∃ out, gksmvEnsemble path obs fct mAxis vAxis none est = .ok out := by
    rw [gksmvEnsemble_eq, mvScore_none h hs, hk]; exact ⟨_, rfl⟩
  exact ⟨_, ho, C64_gksmv_axes path est h hs ho⟩

/-- C94: the same for `vs_ensemble` with given or default pair weights. -/
theorem C94_vs {est : String} (he : est ∈ Spec.vsEstimators) (p : ℝ) (w : Option (List (List XF)))
    (h : MvAxes mAxis vAxis fct.ndim m v) (hs : obs.shape = fct.shape.eraseIdx m) :
    ∃ out, vsEnsemble path obs fct w mAxis vAxis none p est = .ok out ∧
      out.shape = obs.shape.eraseIdx (axisWithout m v) ∧
      ∀ i, vs1 path est p w (fct.shape.getD v 0) (obs.sliceAt (axisWithout m v) i) (fct.matAt m v i)
        none = .ok (out.get i) := by
  obtain ⟨k, hk⟩ := (vsKernel_ok path he (w.getD (pairOnes (fct.shape.getD v 0))) p).1
  obtain ⟨out, ho⟩ : ∃ out, vsEnsemble path obs fct (some (w.getD (pairOnes (fct.shape.getD v 0)))) mAxis vAxis none
      p est = .ok out := by
    rw [vsEnsemble_eq, mvScore_none h hs, hk]; exact ⟨_, rfl⟩
  obtain ⟨h1, h2⟩ := C64_vs_axes path est p _ h hs ho
  rw [vsEnsemble_getD h hs]
  refine ⟨_, ho, h1, fun i => ?_⟩
  rw [← h2 i]
  unfold vs1
  rw [vsEnsemble_getD (ofRows_axes _ _) (ofRows_shape (slice_len h hs i)), ofRows_getD]

/-- `C94_es`, `C94_gksmv`, `C94_vs` -/
example : MvAxes 1 0 (⟨[3, 5, 4], fun _ => 0⟩ : Arr XF).ndim 1 0 ∧
    (⟨[3, 4], fun _ => 0⟩ : Arr XF).shape = (⟨[3, 5, 4], fun _ => 0⟩ : Arr XF).shape.eraseIdx 1 ∧
    "akr" ∈ Spec.esEstimators ∧ "fair" ∈ Spec.vsEstimators := by
  refine ⟨⟨⟨by simp [Arr.ndim], by simp⟩, ⟨by simp [Arr.ndim], by simp⟩, by simp⟩, by simp,
    by simp [Spec.esEstimators], by simp [Spec.vsEstimators]⟩

/-- C94: `gksuv_ensemble` with a documented estimator returns for all consistent shapes and every
axis, and entry `i` is the score of slice `i` alone. -/
theorem C94_gksuv {est : String} (he : est ∈ Spec.gksEstimators) {ax : ℤ} {k : ℕ}
    (h : AxisIs ax fct.ndim k) (hs : obs.shape = fct.shape.eraseIdx k) :
    ∃ out, gksuvEnsemble path obs fct ax none est = .ok out ∧ out.shape = obs.shape ∧
      ∀ i, Arr.Valid obs.shape i →
        gksuv1 path est (obs.get i) (fct.sliceAt k i) none = .ok (out.get i) := by
  obtain ⟨κ, hk⟩ := gksuvKernel_ok path he
  obtain ⟨out, ho⟩ : ∃ out, gksuvEnsemble path obs fct ax none est = .ok out := by
    rw [gksuvEnsemble_eq, uvScore_none h hs, hk]; exact ⟨_, rfl⟩
  exact ⟨_, ho, C37_gksuv_slicewise path est h hs ho⟩

example : AxisIs 0 (Arr.ofRows 3 [[1, 2, 3], [4, 5, 6]] : Arr XF).ndim 0 ∧
    (Arr.ofList [1, 2, 3] : Arr XF).shape
      = (Arr.ofRows 3 [[1, 2, 3], [4, 5, 6]] : Arr XF).shape.eraseIdx 0 ∧
    "akr_circperm" ∈ Spec.gksEstimators := by
  refine ⟨⟨by simp [Arr.ofRows, Arr.ndim], Or.inl (by simp)⟩, by simp [Arr.ofRows, Arr.ofList],
    by simp [Spec.gksEstimators]⟩

/-- C94: with ensemble weights and a documented estimator `es_ensemble` acts slice by slice when the
ensemble axis comes before the variable axis (for the other order see C64): it raises only for a
negative weight. -/
theorem C94_es_weighted {est : String} (he : est ∈ Spec.esEstimators)
    (h : MvAxes mAxis vAxis fct.ndim m v) (hs : obs.shape = fct.shape.eraseIdx m) (hlt : m < v)
    (hw : W.shape = fct.shape.eraseIdx v) :
    SliceBySlice (esEnsemble path obs fct mAxis vAxis (some W) est) (obs.shape.eraseIdx (v - 1))
      fun i => es1 path est (fct.shape.getD v 0) (obs.sliceAt (v - 1) i) (fct.matAt m v i)
        (some (W.sliceAt m i)) := by
  unfold es1
  simp only [esEnsemble_eq, Option.map_some]
  exact mvScore_slices_w h hs hlt hw (Or.inl (esKernel_ok path he).2)

/-- C94: the same for `gksmv_ensemble`. -/
theorem C94_gksmv_weighted {est : String} (he : est ∈ Spec.gksEstimators)
    (h : MvAxes mAxis vAxis fct.ndim m v) (hs : obs.shape = fct.shape.eraseIdx m) (hlt : m < v)
    (hw : W.shape = fct.shape.eraseIdx v) :
    SliceBySlice (gksmvEnsemble path obs fct mAxis vAxis (some W) est) (obs.shape.eraseIdx (v - 1))
      fun i => gksmv1 path est (fct.shape.getD v 0) (obs.sliceAt (v - 1) i) (fct.matAt m v i)
        (some (W.sliceAt m i)) := by
  unfold gksmv1
  simp only [gksmvEnsemble_eq, Option.map_some]
  exact mvScore_slices_w h hs hlt hw (Or.inl (gksmvKernel_ok path he).2)

/-- C94: the same for `vs_ensemble`. -/
theorem C94_vs_weighted {est : String} (he : est ∈ Spec.vsEstimators) (p : ℝ)
    (w : Option (List (List XF)))
    (h : MvAxes mAxis vAxis fct.ndim m v) (hs : obs.shape = fct.shape.eraseIdx m) (hlt : m < v)
    (hw : W.shape = fct.shape.eraseIdx v) :
    SliceBySlice (vsEnsemble path obs fct w mAxis vAxis (some W) p est) (obs.shape.eraseIdx (v - 1))
      fun i => vs1 path est p w (fct.shape.getD v 0) (obs.sliceAt (v - 1) i) (fct.matAt m v i)
        (some (W.sliceAt m i)) := by
  unfold vs1
  have ha : axisWithout m v = v - 1 := by simp [axisWithout, hlt]
  have e : ∀ i, vsEnsemble path (Arr.ofList (obs.sliceAt (v - 1) i))
      (Arr.ofRows (fct.shape.getD v 0) (fct.matAt m v i)) w (-2) (-1)
      (some (Arr.ofList (W.sliceAt m i))) p est = _ := fun i =>
    vsEnsemble_getD (ofRows_axes _ _) (ofRows_shape (ha ▸ slice_len h hs i)) w _ p est
  simp only [Option.map_some, e, ofRows_getD]
  rw [vsEnsemble_getD h hs]
  simp only [vsEnsemble_eq]
  exact mvScore_slices_w h hs hlt hw (Or.inl (vsKernel_ok path he _ p).2)

/-- `C94_es_weighted`, `C94_gksmv_weighted`, `C94_vs_weighted` -/
example : MvAxes 0 (-1) (⟨[5, 4, 3], fun _ => 0⟩ : Arr XF).ndim 0 2 ∧
    (⟨[4, 3], fun _ => 0⟩ : Arr XF).shape = (⟨[5, 4, 3], fun _ => 0⟩ : Arr XF).shape.eraseIdx 0 ∧
    0 < 2 ∧
    (⟨[5, 4], fun _ => 1⟩ : Arr XF).shape = (⟨[5, 4, 3], fun _ => 0⟩ : Arr XF).shape.eraseIdx 2 ∧
    "akr" ∈ Spec.esEstimators ∧ "fair" ∈ Spec.vsEstimators := by
  refine ⟨⟨⟨by simp [Arr.ndim], by simp⟩, ⟨by simp [Arr.ndim], by simp [Arr.ndim]⟩, by simp⟩,
    by simp, by simp, by simp, by simp [Spec.esEstimators], by simp [Spec.vsEstimators]⟩

/-- C94: `gksuv_ensemble` with ensemble weights acts slice by slice along any axis, for every
estimator name (the array backends reject `"akr_circperm"` here, slice by slice as well). -/
theorem C94_gksuv_weighted (est : String) {ax : ℤ} {k : ℕ}
    (h : AxisIs ax fct.ndim k) (hs : obs.shape = fct.shape.eraseIdx k) (hW : W.shape = fct.shape)
    (hi : ∃ i, Arr.Valid obs.shape i) :
    SliceBySlice (gksuvEnsemble path obs fct ax (some W) est) obs.shape fun i =>
      gksuv1 path est (obs.get i) (fct.sliceAt k i) (some (W.sliceAt k i)) := by
  unfold gksuv1
  simp only [gksuvEnsemble_eq, Option.map_some]
  exact uvScore_slices_w h hs hW (Or.inr hi)

example : AxisIs 0 (Arr.ofRows 3 [[1, 2, 3], [4, 5, 6]] : Arr XF).ndim 0 ∧
    (Arr.ofList [1, 2, 3] : Arr XF).shape
      = (Arr.ofRows 3 [[1, 2, 3], [4, 5, 6]] : Arr XF).shape.eraseIdx 0 ∧
    (Arr.ofRows 3 [[1, 1, 1], [2, 0, 1]] : Arr XF).shape
      = (Arr.ofRows 3 [[1, 2, 3], [4, 5, 6]] : Arr XF).shape ∧
    ∃ i, Arr.Valid (Arr.ofList [1, 2, 3] : Arr XF).shape i := by
  refine ⟨⟨by simp [Arr.ofRows, Arr.ndim], Or.inl (by simp)⟩, by simp [Arr.ofRows, Arr.ofList],
    by simp [Arr.ofRows], [0], ?_⟩
  simp [Arr.Valid, Arr.ofList]

end C94

/-- C84: on a non-empty batch `dssmv_ensemble` acts slice by slice; it raises exactly when some slice
has a covariance matrix that cannot be inverted. -/
theorem C84_slice_by_slice (path : Path) (bias : Bool) {obs fct : Arr XF} {mAxis vAxis : ℤ}
    {m v : ℕ} (h : MvAxes mAxis vAxis fct.ndim m v) (hs : obs.shape = fct.shape.eraseIdx m)
    (hi : ∃ i, Arr.Valid (obs.shape.eraseIdx (axisWithout m v)) i) :
    SliceBySlice (dssmvEnsemble path obs fct mAxis vAxis bias)
      (obs.shape.eraseIdx (axisWithout m v)) fun i =>
        dssmv1 path bias (fct.shape.getD v 0) (obs.sliceAt (axisWithout m v) i)
          (fct.matAt m v i) := by
  cases hc : dssmvEnsemble path obs fct mAxis vAxis bias with
  | ok out =>
    obtain ⟨h1, h2⟩ := C84_slices path bias h hs hc
    exact ⟨h1, fun i hv => h2 i (h1 ▸ hv)⟩
  | error e =>
    have hsh : (obs.moveLast (axisWithout m v)).shape.dropLast
        = obs.shape.eraseIdx (axisWithout m v) := by simp [Arr.moveLast]
    have key : perMatE (dssKernel path bias) (obs.moveLast (axisWithout m v)) (fct.moveLast2 m v)
        = .error e := by
      unfold dssmvEnsemble at hc
      rw [mvArrayCheck h hs] at hc
      simp only [bind, Except.bind] at hc
      cases path
      · exact hc
      · unfold dsScoreMv at hc
        simp only [hsh, if_pos hi] at hc
        exact hc
    unfold perMatE at key
    split_ifs at key with hn
    cases key
    obtain ⟨i, hv, e', he'⟩ := hn
    rw [hsh] at hv
    rw [Arr.row_moveLast, Arr.moveLast2_mat] at he'
    refine ⟨i, hv, ?_⟩
    dsimp only
    rw [dssmv1_eq path bias (slice_len h hs i) (matAt_row_len fct m v i), he']

example : MvAxes (-2) (-1) (Arr.ofRows 2 [[1, 2], [4, 5], [0, 3]] : Arr XF).ndim 0 1 ∧
    (Arr.ofList [7, 8] : Arr XF).shape
      = (Arr.ofRows 2 [[1, 2], [4, 5], [0, 3]] : Arr XF).shape.eraseIdx 0 ∧
    ∃ i, Arr.Valid ((Arr.ofList [7, 8] : Arr XF).shape.eraseIdx (axisWithout 0 1)) i :=
  ⟨ofRows_axes 2 _, ofRows_shape (by simp), [], by simp [Arr.ofList, axisWithout, Arr.Valid]⟩

end Verif
