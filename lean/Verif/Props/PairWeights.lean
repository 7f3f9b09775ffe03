import Verif.Model.PairWeights
import Verif.Props.ApiNp
import Verif.Props.MvOwArr

/-!
# C100: the variogram scores with a matrix of pair weights per observation

`w` may carry the axes of the observations in front of its last two axes.  Each observation is then scored
with its own matrix, on both paths, for every pair of distinct axes.
-/

noncomputable section

open scoped Classical

namespace Verif

open XF Py Np Spec Api ApiNp

section lemmas

theorem slices_of_returns {call : Except Err (Arr XF)} {s : List ℕ} {v : List ℕ → XF}
    {one : List ℕ → Except Err XF} (h : Returns call s v)
    (h' : ∀ i, Arr.Valid s i → one i = .ok (v i)) : SliceBySlice call s one := by
  obtain ⟨out, e, h1, h2⟩ := h
  rw [e]
  exact ⟨h1, fun i hi => by rw [h' i hi, h2 i hi]⟩

variable {o w : Arr XF} {s : List ℕ} {D : ℕ}

theorem valid_pair {i : List ℕ} {a b : ℕ} (hi : Arr.Valid s i) (ha : a < D) (hb : b < D) :
    Arr.Valid (s ++ [D, D]) (i ++ [a, b]) :=
  List.rel_append hi (List.Forall₂.cons ha (List.Forall₂.cons hb List.Forall₂.nil))

theorem guPair_returns (k : List (List XF) → List ℕ → XF) (ho : o.shape = s ++ [D])
    (hw : w.shape = s ++ [D, D]) : Returns (guPair k o w) s fun i => k (w.mat i) i := by
  have hok : pairLoopOk o w := by
    refine ⟨by simp [Arr.ndim, hw], by simp [Arr.ndim, hw, ho], by simp [Arr.ndim, hw, ho], ?_⟩
    simp [Arr.ndim, hw, ho, Arr.bshape_self]
  unfold guPair
  rw [if_pos hok]
  refine ⟨_, rfl, by simp [ho], fun i hi => ?_⟩
  have : loopMat w i = w.mat i := by
    unfold loopMat Arr.mat
    refine List.map_congr_left fun a ha => List.map_congr_left fun b hb => ?_
    rw [List.mem_range] at ha hb
    exact Arr.bget_self (by
      rw [hw]
      exact valid_pair hi (by simpa [Arr.ndim, hw] using ha) (by simpa [Arr.ndim, hw] using hb))
  dsimp only
  rw [this]

theorem guPair_shared (k : List (List XF) → List ℕ → XF) (ho : o.shape = s ++ [D])
    (hw : w.shape = [D, D]) : guPair k o w = .ok ⟨o.shape.dropLast, fun i => k (w.mat []) i⟩ := by
  have hok : pairLoopOk o w := by
    refine ⟨by simp [Arr.ndim, hw], by simp [Arr.ndim, hw, ho], by simp [Arr.ndim, hw, ho], ?_⟩
    simp only [Arr.ndim, hw, ho]
    simp [Arr.bshape]
    cases h : s.reverse <;> simp [Arr.bshapeR, ← h]
  unfold guPair
  rw [if_pos hok]
  congr 2
  funext i
  have : loopMat w i = w.mat [] := by
    unfold loopMat Arr.mat
    refine List.map_congr_left fun a ha => List.map_congr_left fun b hb => ?_
    rw [List.mem_range] at ha hb
    simp only [Arr.ndim, hw, List.length_cons, List.length_nil] at ha hb
    simp only [List.getD_cons_zero, List.getD_cons_succ] at ha hb
    have ha' : a < D := by simpa using ha
    have hb' : b < D := by simpa using hb
    unfold Arr.bget
    have e : (i ++ [a, b]).length - w.ndim = i.length := by simp [Arr.ndim, hw]
    rw [e, List.drop_left, hw]
    congr 1
    by_cases h1 : D = 1
    · subst h1
      simp only [List.zipWith_cons_cons, if_true, List.zipWith_nil_right, List.nil_append]
      congr 1
      · omega
      · congr 1; omega
    · simp [h1]
  rw [this]

end lemmas

variable (path : Path) {obs fct w : Arr XF} {mAxis vAxis : ℤ} {m v : ℕ}

/-- The shapes of the permuted arrays. -/
theorem moved_shapes (h : MvAxes mAxis vAxis fct.ndim m v) (hs : obs.shape = fct.shape.eraseIdx m) :
    (obs.moveLast (axisWithout m v)).shape
      = obs.shape.eraseIdx (axisWithout m v) ++ [fct.shape.getD v 0] ∧
    (fct.moveLast2 m v).shape
      = obs.shape.eraseIdx (axisWithout m v) ++ [fct.shape.getD m 0, fct.shape.getD v 0] := by
  constructor
  · rw [Arr.moveLast]
    dsimp only
    rw [hs, eraseIdx_getD_without h.ne]
  · rw [Arr.moveLast2]
    dsimp only
    rw [hs, ← erase2_eq h.ne]

/-- C100: `vs_ensemble` scores every observation with its own matrix of pair weights. -/
theorem C100_vs (est : String) (he : est = "nrg" ∨ est = "fair") (p : ℝ)
    (h : MvAxes mAxis vAxis fct.ndim m v) (hs : obs.shape = fct.shape.eraseIdx m)
    (hw : w.shape = obs.shape.eraseIdx (axisWithout m v) ++ [fct.shape.getD v 0, fct.shape.getD v 0]) :
    SliceBySlice (vsEnsembleP path obs fct (some w) mAxis vAxis none p est)
      (obs.shape.eraseIdx (axisWithout m v)) fun i =>
        vs1 path est p (some (w.mat i)) (fct.shape.getD v 0) (obs.sliceAt (axisWithout m v) i)
          (fct.matAt m v i) none := by
  obtain ⟨h1, h2⟩ := moved_shapes h hs
  have e : ∀ i, vs1 path est p (some (w.mat i)) (fct.shape.getD v 0)
      (obs.sliceAt (axisWithout m v) i) (fct.matAt m v i) none = _ := fun i =>
    vs1_none path est (slice_len h hs i) (matAt_row_len fct m v i)
  cases path with
  | numba =>
    unfold vsEnsembleP
    dsimp only
    rw [mvArrayCheck h hs]
    simp only [bind, Except.bind, pairWeights, Option.getD_some]
    rcases he with rfl | rfl
    · refine slices_of_returns (guPair_returns _ h1 hw) fun i _ => ?_
      rw [e]
      simp [vsKernel, Except.map, Arr.row_moveLast, Arr.moveLast2_mat]
    · refine slices_of_returns (guPair_returns _ h1 hw) fun i _ => ?_
      rw [e]
      simp [vsKernel, Except.map, Arr.row_moveLast, Arr.moveLast2_mat]
  | array =>
    unfold vsEnsembleP ApiNp.vsEnsemble
    dsimp only
    rw [mvArrayCheck h hs]
    simp only [bind, Except.bind, pairWeights, Option.getD_some]
    have H := C97_estimators (w := w) (ensW := ⟨_ ++ [fct.shape.getD m 0], fun _ => 1⟩) p h1 h2 hw rfl
    rcases he with rfl | rfl
    · refine slices_of_returns H.1 fun i _ => ?_
      rw [e]
      simp [vsKernel, Except.map, Arr.row_moveLast, Arr.moveLast2_mat]
    · refine slices_of_returns H.2.1 fun i _ => ?_
      rw [e]
      simp [vsKernel, Except.map, Arr.row_moveLast, Arr.moveLast2_mat]

/-- two observation vectors of length three, each with its own matrix of pair weights -/
example : ∃ obs fct w : Arr XF, MvAxes (-2) (-1) fct.ndim 1 2 ∧ obs.shape = fct.shape.eraseIdx 1 ∧
    w.shape = obs.shape.eraseIdx (axisWithout 1 2) ++ [fct.shape.getD 2 0, fct.shape.getD 2 0] ∧
    w.mat [0] ≠ w.mat [1] :=
  ⟨⟨[2, 3], fun _ => 1⟩, ⟨[2, 5, 3], fun _ => 1⟩, ⟨[2, 3, 3], fun i => fin (i.headD 0)⟩,
    ⟨⟨by simp [Arr.ndim], Or.inr (by simp [Arr.ndim])⟩, ⟨by simp [Arr.ndim], Or.inr (by simp [Arr.ndim])⟩,
      by simp⟩, rfl, rfl, by simp [Arr.mat, Arr.ndim, List.range_succ]⟩

theorem weights_any {W : Arr XF} (hs : obs.shape = fct.shape.eraseIdx m) (hlt : m < v)
    (hW : W.shape = fct.shape.eraseIdx v) : (W.moveLast m).Any (fun x => x < 0) ↔
      ∃ i, Arr.Valid (obs.shape.eraseIdx (v - 1)) i ∧ ∃ x ∈ W.sliceAt m i, x < 0 := by
  rw [Arr.any_iff (s := obs.shape.eraseIdx (v - 1)) (n := W.shape.getD m 0)
    (by rw [hs, eraseIdx_eraseIdx hlt, ← hW]; simp [Arr.moveLast])]
  simp only [Arr.row_moveLast]

theorem weights_shape {W : Arr XF} (hs : obs.shape = fct.shape.eraseIdx m) (hlt : m < v)
    (hW : W.shape = fct.shape.eraseIdx v) :
    ((W.moveLast m).mapRows fun r => r.map fun x => x / r.sum).shape
      = obs.shape.eraseIdx (axisWithout m v) ++ [fct.shape.getD m 0] := by
  have ha : axisWithout m v = v - 1 := by simp [axisWithout, hlt]
  rw [Arr.mapRows, Arr.moveLast]
  dsimp only
  rw [ha, hs, eraseIdx_eraseIdx hlt, hW]
  simp only [List.getD_eq_getElem?_getD]
  rw [List.getElem?_eraseIdx_of_lt hlt]

theorem weights_len {W : Arr XF} (hlt : m < v) (hW : W.shape = fct.shape.eraseIdx v) (i : List ℕ) :
    (W.sliceAt m i).length = (fct.matAt m v i).length := by
  rw [sliceAt_len, matAt_len, hW]
  simp only [List.getD_eq_getElem?_getD]
  rw [List.getElem?_eraseIdx_of_lt hlt]

/-- C100: the same with ensemble weights.  The ensemble axis comes before the variable axis: see C64 for the
other order. -/
theorem C100_vs_weights (est : String) (he : est = "nrg" ∨ est = "fair") (p : ℝ) {W : Arr XF}
    (h : MvAxes mAxis vAxis fct.ndim m v) (hs : obs.shape = fct.shape.eraseIdx m) (hlt : m < v)
    (hW : W.shape = fct.shape.eraseIdx v)
    (hw : w.shape = obs.shape.eraseIdx (axisWithout m v) ++ [fct.shape.getD v 0, fct.shape.getD v 0]) :
    SliceBySlice (vsEnsembleP path obs fct (some w) mAxis vAxis (some W) p est)
      (obs.shape.eraseIdx (axisWithout m v)) fun i =>
        vs1 path est p (some (w.mat i)) (fct.shape.getD v 0) (obs.sliceAt (axisWithout m v) i)
          (fct.matAt m v i) (some (W.sliceAt m i)) := by
  obtain ⟨h1, h2⟩ := moved_shapes h hs
  have ha : axisWithout m v = v - 1 := by simp [axisWithout, hlt]
  have hs3 := weights_shape hs hlt hW
  have e : ∀ i, vs1 path est p (some (w.mat i)) (fct.shape.getD v 0)
      (obs.sliceAt (axisWithout m v) i) (fct.matAt m v i) (some (W.sliceAt m i)) = _ := fun i =>
    vs1_some path est (slice_len h hs i) (matAt_row_len fct m v i) (weights_len hlt hW i)
  have hA := weights_any hs hlt hW
  by_cases hn : (W.moveLast m).Any (fun x => x < 0)
  · have : vsEnsembleP path obs fct (some w) mAxis vAxis (some W) p est = .error .valueError := by
      cases path
      all_goals
        unfold vsEnsembleP
        dsimp only
        try unfold ApiNp.vsEnsemble
        rw [mvArrayCheck h hs]
        simp only [bind, Except.bind]
        rw [mvWeightCheck h hlt hW, if_pos hn]
    rw [this]
    obtain ⟨i, hi, hx⟩ := hA.1 hn
    refine ⟨i, by rw [ha]; exact hi, ?_⟩
    dsimp only
    rw [e, if_pos hx]
  · have hx : ∀ i, Arr.Valid (obs.shape.eraseIdx (axisWithout m v)) i →
        ¬ ∃ x ∈ W.sliceAt m i, x < 0 := fun i hi hx => hn (hA.2 ⟨i, by rw [← ha]; exact hi, hx⟩)
    cases path with
    | numba =>
      unfold vsEnsembleP
      dsimp only
      rw [mvArrayCheck h hs]
      simp only [bind, Except.bind, pairWeights, Option.getD_some]
      rw [mvWeightCheck h hlt hW, if_neg hn]
      rcases he with rfl | rfl
      all_goals
        refine slices_of_returns (guPair_returns _ h1 hw) fun i hi => ?_
        rw [e, if_neg (hx i hi)]
        simp [vsKernelW, Except.map, Arr.row_moveLast, Arr.moveLast2_mat, mvRow_norm]
    | array =>
      unfold vsEnsembleP ApiNp.vsEnsemble
      dsimp only
      rw [mvArrayCheck h hs]
      simp only [bind, Except.bind, pairWeights, Option.getD_some]
      rw [mvWeightCheck h hlt hW, if_neg hn]
      have H := C97_estimators (w := w) p h1 h2 hw hs3
      rcases he with rfl | rfl
      · refine slices_of_returns H.2.2.1 fun i hi => ?_
        rw [e, if_neg (hx i hi)]
        simp [vsKernelW, Except.map, Arr.row_moveLast, Arr.moveLast2_mat, mvRow_norm]
      · refine slices_of_returns H.2.2.2 fun i hi => ?_
        rw [e, if_neg (hx i hi)]
        simp [vsKernelW, Except.map, Arr.row_moveLast, Arr.moveLast2_mat, mvRow_norm]

/-- the same with weighted members -/
example : ∃ obs fct w W : Arr XF, MvAxes (-2) (-1) fct.ndim 1 2 ∧ obs.shape = fct.shape.eraseIdx 1 ∧
    W.shape = fct.shape.eraseIdx 2 ∧
    w.shape = obs.shape.eraseIdx (axisWithout 1 2) ++ [fct.shape.getD 2 0, fct.shape.getD 2 0] ∧
    w.mat [0] ≠ w.mat [1] :=
  ⟨⟨[2, 3], fun _ => 1⟩, ⟨[2, 5, 3], fun _ => 1⟩, ⟨[2, 3, 3], fun i => fin (i.headD 0)⟩,
    ⟨[2, 5], fun i => fin (i.getD 1 0)⟩,
    ⟨⟨by simp [Arr.ndim], Or.inr (by simp [Arr.ndim])⟩, ⟨by simp [Arr.ndim], Or.inr (by simp [Arr.ndim])⟩,
      by simp⟩, rfl, rfl, rfl, by simp [Arr.mat, Arr.ndim, List.range_succ]⟩

/-- C100: `owvs_ensemble` scores every observation with its own matrix of pair weights. -/
theorem C100_owvs (f : List XF → XF) (p : ℝ)
    (h : MvAxes mAxis vAxis fct.ndim m v) (hs : obs.shape = fct.shape.eraseIdx m)
    (hw : w.shape = obs.shape.eraseIdx (axisWithout m v) ++ [fct.shape.getD v 0, fct.shape.getD v 0]) :
    SliceBySlice (owvsEnsembleP path obs fct f (some w) mAxis vAxis none p)
      (obs.shape.eraseIdx (axisWithout m v)) fun i =>
        owvs1 path p (some (w.mat i)) (fct.shape.getD v 0) f (obs.sliceAt (axisWithout m v) i)
          (fct.matAt m v i) none := by
  obtain ⟨h1, h2⟩ := moved_shapes h hs
  have e : ∀ i, owvs1 path p (some (w.mat i)) (fct.shape.getD v 0) f
      (obs.sliceAt (axisWithout m v) i) (fct.matAt m v i) none = _ := fun i =>
    (congrArg item (owvsEnsemble_eq path _ _ f (w.mat i) (-2) (-1) none p)).trans
      (mvO_none path f (slice_len h hs i) (matAt_row_len fct m v i))
  have hW := mvWeights_array f h.ne hs
  by_cases hn : ∃ i, Arr.Valid (obs.shape.eraseIdx (axisWithout m v)) i ∧
      (f (obs.sliceAt (axisWithout m v) i) < 0 ∨ ∃ x ∈ fct.matAt m v i, f x < 0)
  · rw [if_pos hn] at hW
    have : owvsEnsembleP path obs fct f (some w) mAxis vAxis none p = .error .valueError := by
      cases path
      all_goals
        unfold owvsEnsembleP
        dsimp only
        try unfold ApiNp.owvsEnsemble
        rw [mvArrayCheck h hs]
        simp only [bind, Except.bind]
        rw [hW]
    rw [this]
    obtain ⟨i, hi, hx⟩ := hn
    refine ⟨i, hi, ?_⟩
    dsimp only
    rw [e, if_pos hx]
  · rw [if_neg hn] at hW
    have hx : ∀ i, Arr.Valid (obs.shape.eraseIdx (axisWithout m v)) i →
        ¬ (f (obs.sliceAt (axisWithout m v) i) < 0 ∨ ∃ x ∈ fct.matAt m v i, f x < 0) :=
      fun i hi hx => hn ⟨i, hi, hx⟩
    cases path with
    | numba =>
      unfold owvsEnsembleP
      dsimp only
      rw [mvArrayCheck h hs]
      simp only [bind, Except.bind, pairWeights, Option.getD_some]
      rw [hW]
      refine slices_of_returns (guPair_returns _ h1 hw) fun i hi => ?_
      rw [e, if_neg (hx i hi)]
      simp only [Arr.row_moveLast, Arr.moveLast2_mat, alongLast_get, alongLast_row]
    | array =>
      unfold owvsEnsembleP ApiNp.owvsEnsemble
      dsimp only
      rw [mvArrayCheck h hs]
      simp only [bind, Except.bind, pairWeights, Option.getD_some]
      rw [hW]
      obtain ⟨h4, h5⟩ := mvWeights_shape h1 h2 hW
      refine slices_of_returns (C97_outcome p h1 h2 hw h5 h4 h5).1 fun i hi => ?_
      rw [e, if_neg (hx i hi)]
      simp only [Arr.row_moveLast, Arr.moveLast2_mat, alongLast_get, alongLast_row]

/-- two observation vectors of length three, each with its own matrix of pair weights; the variable axis
comes first -/
example : ∃ obs fct w : Arr XF, MvAxes 1 0 fct.ndim 1 0 ∧ obs.shape = fct.shape.eraseIdx 1 ∧
    w.shape = obs.shape.eraseIdx (axisWithout 1 0) ++ [fct.shape.getD 0 0, fct.shape.getD 0 0] ∧
    w.mat [0] ≠ w.mat [1] :=
  ⟨⟨[3, 2], fun _ => 1⟩, ⟨[3, 5, 2], fun _ => 1⟩, ⟨[2, 3, 3], fun i => fin (i.headD 0)⟩,
    ⟨⟨by simp [Arr.ndim], Or.inl rfl⟩, ⟨by simp [Arr.ndim], Or.inl rfl⟩, by simp⟩, rfl, rfl,
      by simp [Arr.mat, Arr.ndim, List.range_succ]⟩

/-- C100: `owvs_ensemble` with ensemble weights, the ensemble axis before the variable axis. -/
theorem C100_owvs_weights (f : List XF → XF) (p : ℝ) {W : Arr XF}
    (h : MvAxes mAxis vAxis fct.ndim m v) (hs : obs.shape = fct.shape.eraseIdx m) (hlt : m < v)
    (hW : W.shape = fct.shape.eraseIdx v)
    (hw : w.shape = obs.shape.eraseIdx (axisWithout m v) ++ [fct.shape.getD v 0, fct.shape.getD v 0]) :
    SliceBySlice (owvsEnsembleP path obs fct f (some w) mAxis vAxis (some W) p)
      (obs.shape.eraseIdx (axisWithout m v)) fun i =>
        owvs1 path p (some (w.mat i)) (fct.shape.getD v 0) f (obs.sliceAt (axisWithout m v) i)
          (fct.matAt m v i) (some (W.sliceAt m i)) := by
  obtain ⟨h1, h2⟩ := moved_shapes h hs
  have ha : axisWithout m v = v - 1 := by simp [axisWithout, hlt]
  have hs3 := weights_shape hs hlt hW
  have hA := weights_any hs hlt hW
  have e : ∀ i, owvs1 path p (some (w.mat i)) (fct.shape.getD v 0) f
      (obs.sliceAt (axisWithout m v) i) (fct.matAt m v i) (some (W.sliceAt m i)) = _ := fun i =>
    (congrArg item (owvsEnsemble_eq path _ _ f (w.mat i) (-2) (-1)
        (some (Arr.ofList (W.sliceAt m i))) p)).trans
      (mvO_some path f (slice_len h hs i) (matAt_row_len fct m v i) (weights_len hlt hW i))
  have hV := mvWeights_array f h.ne hs
  by_cases hn : ∃ i, Arr.Valid (obs.shape.eraseIdx (axisWithout m v)) i ∧
      (f (obs.sliceAt (axisWithout m v) i) < 0 ∨ ∃ x ∈ fct.matAt m v i, f x < 0)
  · rw [if_pos hn] at hV
    have : owvsEnsembleP path obs fct f (some w) mAxis vAxis (some W) p = .error .valueError := by
      cases path
      all_goals
        unfold owvsEnsembleP
        dsimp only
        try unfold ApiNp.owvsEnsemble
        rw [mvArrayCheck h hs]
        simp only [bind, Except.bind]
        rw [hV]
    rw [this]
    obtain ⟨i, hi, hx⟩ := hn
    refine ⟨i, hi, ?_⟩
    dsimp only
    rw [e, if_pos (Or.inl hx)]
  rw [if_neg hn] at hV
  by_cases hk : (W.moveLast m).Any (fun x => x < 0)
  · have : owvsEnsembleP path obs fct f (some w) mAxis vAxis (some W) p = .error .valueError := by
      cases path
      all_goals
        unfold owvsEnsembleP
        dsimp only
        try unfold ApiNp.owvsEnsemble
        rw [mvArrayCheck h hs]
        simp only [bind, Except.bind]
        rw [hV]
        dsimp only
        rw [mvWeightCheck h hlt hW, if_pos hk]
    rw [this]
    obtain ⟨i, hi, hx⟩ := hA.1 hk
    refine ⟨i, by rw [ha]; exact hi, ?_⟩
    dsimp only
    rw [e, if_pos (Or.inr hx)]
  · have hx : ∀ i, Arr.Valid (obs.shape.eraseIdx (axisWithout m v)) i →
        ¬ ((f (obs.sliceAt (axisWithout m v) i) < 0 ∨ ∃ x ∈ fct.matAt m v i, f x < 0) ∨
          ∃ x ∈ W.sliceAt m i, x < 0) := by
      rintro i hi (hx | hx)
      · exact hn ⟨i, hi, hx⟩
      · exact hk (hA.2 ⟨i, by rw [← ha]; exact hi, hx⟩)
    cases path with
    | numba =>
      unfold owvsEnsembleP
      dsimp only
      rw [mvArrayCheck h hs]
      simp only [bind, Except.bind, pairWeights, Option.getD_some]
      rw [hV]
      dsimp only
      rw [mvWeightCheck h hlt hW, if_neg hk]
      refine slices_of_returns (guPair_returns _ h1 hw) fun i hi => ?_
      rw [e, if_neg (hx i hi)]
      simp only [Arr.row_moveLast, Arr.moveLast2_mat, alongLast_get, alongLast_row, mvRow_norm]
    | array =>
      unfold owvsEnsembleP ApiNp.owvsEnsemble
      dsimp only
      rw [mvArrayCheck h hs]
      simp only [bind, Except.bind, pairWeights, Option.getD_some]
      rw [hV]
      dsimp only
      rw [mvWeightCheck h hlt hW, if_neg hk]
      obtain ⟨h4, h5⟩ := mvWeights_shape h1 h2 hV
      refine slices_of_returns (C97_outcome p h1 h2 hw hs3 h4 h5).2.2.1 fun i hi => ?_
      rw [e, if_neg (hx i hi)]
      simp only [Arr.row_moveLast, Arr.moveLast2_mat, alongLast_get, alongLast_row, mvRow_norm]

/-- the same shapes as for `C100_vs_weights` -/
example : ∃ obs fct w W : Arr XF, MvAxes (-2) (-1) fct.ndim 1 2 ∧ obs.shape = fct.shape.eraseIdx 1 ∧
    W.shape = fct.shape.eraseIdx 2 ∧
    w.shape = obs.shape.eraseIdx (axisWithout 1 2) ++ [fct.shape.getD 2 0, fct.shape.getD 2 0] ∧
    w.mat [0] ≠ w.mat [1] :=
  ⟨⟨[2, 3], fun _ => 1⟩, ⟨[2, 5, 3], fun _ => 1⟩, ⟨[2, 3, 3], fun i => fin (i.headD 0)⟩,
    ⟨[2, 5], fun i => fin (i.getD 1 0)⟩,
    ⟨⟨by simp [Arr.ndim], Or.inr (by simp [Arr.ndim])⟩, ⟨by simp [Arr.ndim], Or.inr (by simp [Arr.ndim])⟩,
      by simp⟩, rfl, rfl, rfl, by simp [Arr.mat, Arr.ndim, List.range_succ]⟩

/-- C100: `vrvs_ensemble` scores every observation with its own matrix of pair weights. -/
theorem C100_vrvs (f : List XF → XF) (p : ℝ)
    (h : MvAxes mAxis vAxis fct.ndim m v) (hs : obs.shape = fct.shape.eraseIdx m)
    (hw : w.shape = obs.shape.eraseIdx (axisWithout m v) ++ [fct.shape.getD v 0, fct.shape.getD v 0]) :
    SliceBySlice (vrvsEnsembleP path obs fct f (some w) mAxis vAxis none p)
      (obs.shape.eraseIdx (axisWithout m v)) fun i =>
        vrvs1 path p (some (w.mat i)) (fct.shape.getD v 0) f (obs.sliceAt (axisWithout m v) i)
          (fct.matAt m v i) none := by
  obtain ⟨h1, h2⟩ := moved_shapes h hs
  have e : ∀ i, vrvs1 path p (some (w.mat i)) (fct.shape.getD v 0) f
      (obs.sliceAt (axisWithout m v) i) (fct.matAt m v i) none = _ := fun i =>
    (congrArg item (vrvsEnsemble_eq path _ _ f (w.mat i) (-2) (-1) none p)).trans
      (mvO_none path f (slice_len h hs i) (matAt_row_len fct m v i))
  have hW := mvWeights_array f h.ne hs
  by_cases hn : ∃ i, Arr.Valid (obs.shape.eraseIdx (axisWithout m v)) i ∧
      (f (obs.sliceAt (axisWithout m v) i) < 0 ∨ ∃ x ∈ fct.matAt m v i, f x < 0)
  · rw [if_pos hn] at hW
    have : vrvsEnsembleP path obs fct f (some w) mAxis vAxis none p = .error .valueError := by
      cases path
      all_goals
        unfold vrvsEnsembleP
        dsimp only
        try unfold ApiNp.vrvsEnsemble
        rw [mvArrayCheck h hs]
        simp only [bind, Except.bind]
        rw [hW]
    rw [this]
    obtain ⟨i, hi, hx⟩ := hn
    refine ⟨i, hi, ?_⟩
    dsimp only
    rw [e, if_pos hx]
  · rw [if_neg hn] at hW
    have hx : ∀ i, Arr.Valid (obs.shape.eraseIdx (axisWithout m v)) i →
        ¬ (f (obs.sliceAt (axisWithout m v) i) < 0 ∨ ∃ x ∈ fct.matAt m v i, f x < 0) :=
      fun i hi hx => hn ⟨i, hi, hx⟩
    cases path with
    | numba =>
      unfold vrvsEnsembleP
      dsimp only
      rw [mvArrayCheck h hs]
      simp only [bind, Except.bind, pairWeights, Option.getD_some]
      rw [hW]
      refine slices_of_returns (guPair_returns _ h1 hw) fun i hi => ?_
      rw [e, if_neg (hx i hi)]
      simp only [Arr.row_moveLast, Arr.moveLast2_mat, alongLast_get, alongLast_row]
    | array =>
      unfold vrvsEnsembleP ApiNp.vrvsEnsemble
      dsimp only
      rw [mvArrayCheck h hs]
      simp only [bind, Except.bind, pairWeights, Option.getD_some]
      rw [hW]
      obtain ⟨h4, h5⟩ := mvWeights_shape h1 h2 hW
      refine slices_of_returns (C97_outcome p h1 h2 hw h5 h4 h5).2.1 fun i hi => ?_
      rw [e, if_neg (hx i hi)]
      simp only [Arr.row_moveLast, Arr.moveLast2_mat, alongLast_get, alongLast_row]

/-- two observation vectors of length three, each with its own matrix of pair weights; the variable axis
comes first -/
example : ∃ obs fct w : Arr XF, MvAxes 1 0 fct.ndim 1 0 ∧ obs.shape = fct.shape.eraseIdx 1 ∧
    w.shape = obs.shape.eraseIdx (axisWithout 1 0) ++ [fct.shape.getD 0 0, fct.shape.getD 0 0] ∧
    w.mat [0] ≠ w.mat [1] :=
  ⟨⟨[3, 2], fun _ => 1⟩, ⟨[3, 5, 2], fun _ => 1⟩, ⟨[2, 3, 3], fun i => fin (i.headD 0)⟩,
    ⟨⟨by simp [Arr.ndim], Or.inl rfl⟩, ⟨by simp [Arr.ndim], Or.inl rfl⟩, by simp⟩, rfl, rfl,
      by simp [Arr.mat, Arr.ndim, List.range_succ]⟩

/-- C100: `vrvs_ensemble` with ensemble weights, the ensemble axis before the variable axis. -/
theorem C100_vrvs_weights (f : List XF → XF) (p : ℝ) {W : Arr XF}
    (h : MvAxes mAxis vAxis fct.ndim m v) (hs : obs.shape = fct.shape.eraseIdx m) (hlt : m < v)
    (hW : W.shape = fct.shape.eraseIdx v)
    (hw : w.shape = obs.shape.eraseIdx (axisWithout m v) ++ [fct.shape.getD v 0, fct.shape.getD v 0]) :
    SliceBySlice (vrvsEnsembleP path obs fct f (some w) mAxis vAxis (some W) p)
      (obs.shape.eraseIdx (axisWithout m v)) fun i =>
        vrvs1 path p (some (w.mat i)) (fct.shape.getD v 0) f (obs.sliceAt (axisWithout m v) i)
          (fct.matAt m v i) (some (W.sliceAt m i)) := by
  obtain ⟨h1, h2⟩ := moved_shapes h hs
  have ha : axisWithout m v = v - 1 := by simp [axisWithout, hlt]
  have hs3 := weights_shape hs hlt hW
  have hA := weights_any hs hlt hW
  have e : ∀ i, vrvs1 path p (some (w.mat i)) (fct.shape.getD v 0) f
      (obs.sliceAt (axisWithout m v) i) (fct.matAt m v i) (some (W.sliceAt m i)) = _ := fun i =>
    (congrArg item (vrvsEnsemble_eq path _ _ f (w.mat i) (-2) (-1)
        (some (Arr.ofList (W.sliceAt m i))) p)).trans
      (mvO_some path f (slice_len h hs i) (matAt_row_len fct m v i) (weights_len hlt hW i))
  have hV := mvWeights_array f h.ne hs
  by_cases hn : ∃ i, Arr.Valid (obs.shape.eraseIdx (axisWithout m v)) i ∧
      (f (obs.sliceAt (axisWithout m v) i) < 0 ∨ ∃ x ∈ fct.matAt m v i, f x < 0)
  · rw [if_pos hn] at hV
    have : vrvsEnsembleP path obs fct f (some w) mAxis vAxis (some W) p = .error .valueError := by
      cases path
      all_goals
        unfold vrvsEnsembleP
        dsimp only
        try unfold ApiNp.vrvsEnsemble
        rw [mvArrayCheck h hs]
        simp only [bind, Except.bind]
        rw [hV]
    rw [this]
    obtain ⟨i, hi, hx⟩ := hn
    refine ⟨i, hi, ?_⟩
    dsimp only
    rw [e, if_pos (Or.inl hx)]
  rw [if_neg hn] at hV
  by_cases hk : (W.moveLast m).Any (fun x => x < 0)
  · have : vrvsEnsembleP path obs fct f (some w) mAxis vAxis (some W) p = .error .valueError := by
      cases path
      all_goals
        unfold vrvsEnsembleP
        dsimp only
        try unfold ApiNp.vrvsEnsemble
        rw [mvArrayCheck h hs]
        simp only [bind, Except.bind]
        rw [hV]
        dsimp only
        rw [mvWeightCheck h hlt hW, if_pos hk]
    rw [this]
    obtain ⟨i, hi, hx⟩ := hA.1 hk
    refine ⟨i, by rw [ha]; exact hi, ?_⟩
    dsimp only
    rw [e, if_pos (Or.inr hx)]
  · have hx : ∀ i, Arr.Valid (obs.shape.eraseIdx (axisWithout m v)) i →
        ¬ ((f (obs.sliceAt (axisWithout m v) i) < 0 ∨ ∃ x ∈ fct.matAt m v i, f x < 0) ∨
          ∃ x ∈ W.sliceAt m i, x < 0) := by
      rintro i hi (hx | hx)
      · exact hn ⟨i, hi, hx⟩
      · exact hk (hA.2 ⟨i, by rw [← ha]; exact hi, hx⟩)
    cases path with
    | numba =>
      unfold vrvsEnsembleP
      dsimp only
      rw [mvArrayCheck h hs]
      simp only [bind, Except.bind, pairWeights, Option.getD_some]
      rw [hV]
      dsimp only
      rw [mvWeightCheck h hlt hW, if_neg hk]
      refine slices_of_returns (guPair_returns _ h1 hw) fun i hi => ?_
      rw [e, if_neg (hx i hi)]
      simp only [Arr.row_moveLast, Arr.moveLast2_mat, alongLast_get, alongLast_row, mvRow_norm]
    | array =>
      unfold vrvsEnsembleP ApiNp.vrvsEnsemble
      dsimp only
      rw [mvArrayCheck h hs]
      simp only [bind, Except.bind, pairWeights, Option.getD_some]
      rw [hV]
      dsimp only
      rw [mvWeightCheck h hlt hW, if_neg hk]
      obtain ⟨h4, h5⟩ := mvWeights_shape h1 h2 hV
      refine slices_of_returns (C97_outcome p h1 h2 hw hs3 h4 h5).2.2.2 fun i hi => ?_
      rw [e, if_neg (hx i hi)]
      simp only [Arr.row_moveLast, Arr.moveLast2_mat, alongLast_get, alongLast_row, mvRow_norm]

/-- the same shapes as for `C100_vs_weights` -/
example : ∃ obs fct w W : Arr XF, MvAxes (-2) (-1) fct.ndim 1 2 ∧ obs.shape = fct.shape.eraseIdx 1 ∧
    W.shape = fct.shape.eraseIdx 2 ∧
    w.shape = obs.shape.eraseIdx (axisWithout 1 2) ++ [fct.shape.getD 2 0, fct.shape.getD 2 0] ∧
    w.mat [0] ≠ w.mat [1] :=
  ⟨⟨[2, 3], fun _ => 1⟩, ⟨[2, 5, 3], fun _ => 1⟩, ⟨[2, 3, 3], fun i => fin (i.headD 0)⟩,
    ⟨[2, 5], fun i => fin (i.getD 1 0)⟩,
    ⟨⟨by simp [Arr.ndim], Or.inr (by simp [Arr.ndim])⟩, ⟨by simp [Arr.ndim], Or.inr (by simp [Arr.ndim])⟩,
      by simp⟩, rfl, rfl, rfl, by simp [Arr.mat, Arr.ndim, List.range_succ]⟩

/-- C100: one matrix without observation axes is used for every observation: `vs_ensemble` then is the
function of `Verif.Model.Variogram`, on both paths, exceptions included. -/
theorem C100_shared (est : String) (p : ℝ) (ensW : Option (Arr XF))
    (h : MvAxes mAxis vAxis fct.ndim m v) (hw : w.shape = [fct.shape.getD v 0, fct.shape.getD v 0]) :
    SameResult (vsEnsembleP path obs fct (some w) mAxis vAxis ensW p est)
      (Api.vsEnsemble path obs fct (some (w.mat [])) mAxis vAxis ensW p est) := by
  cases path with
  | array => exact C99_vs h (some w) (fun W hW => by cases hW; exact hw) ensW p est
  | numba =>
    unfold vsEnsembleP Api.vsEnsemble
    refine same_bind _ fun ⟨o, f⟩ hc => ?_
    obtain ⟨s, M, h1, h2⟩ := mv_shapeD h hc
    dsimp only
    simp only [pairWeights, Option.getD_some]
    cases ensW with
    | none =>
      simp only [guPair_shared _ h1 hw, vsGufuncs, vsKernel]
      split_ifs <;> first | exact ⟨rfl, fun _ _ => rfl⟩ | exact rfl
    | some ew =>
      refine same_bind _ fun u hu => ?_
      simp only [guPair_shared _ h1 hw, vsGufuncsW, vsKernelW]
      split_ifs <;> first | exact ⟨rfl, fun _ _ => rfl⟩ | exact rfl

/-- one matrix of unequal pair weights for vectors of length three -/
example : ∃ fct w : Arr XF, MvAxes 1 (-1) fct.ndim 1 2 ∧
    w.shape = [fct.shape.getD 2 0, fct.shape.getD 2 0] ∧ w.get [0, 1] ≠ w.get [1, 0] :=
  ⟨⟨[2, 5, 3], fun _ => fin 1⟩, ⟨[3, 3], fun i => fin (i.headD 0)⟩,
    ⟨⟨by simp [Arr.ndim], Or.inl rfl⟩, ⟨by simp [Arr.ndim], Or.inr (by simp [Arr.ndim])⟩, by simp⟩,
    rfl, by simp⟩

end Verif
