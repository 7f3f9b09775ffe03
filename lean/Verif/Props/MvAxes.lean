import Verif.Props.Kernel
import Verif.Props.Variogram

/-!
# Property C64: axes of the multivariate scores

`axisWithout m v` is the position of the variable axis in the observation array.
The matrix `fct.matAt m v i` has the members along axis `m` as rows and the variables along axis `v` as
columns, at the leading index `i`; `W.sliceAt m i` are the weights of the same members.
-/

noncomputable section

open scoped Classical

namespace Verif

open XF Py Api Spec Mv

variable {D : ℕ}

/-- C64: without ensemble weights `es_ensemble` follows `m_axis` and `v_axis` for every pair of
distinct axes of arrays of every rank. -/
theorem C64_es_axes (path : Path) (est : String) {obs fct : Arr XF} {mAxis vAxis : ℤ}
    {m v : ℕ} (h : MvAxes mAxis vAxis fct.ndim m v) (hs : obs.shape = fct.shape.eraseIdx m)
    {out : Arr XF} (ho : esEnsemble path obs fct mAxis vAxis none est = .ok out) :
    out.shape = obs.shape.eraseIdx (axisWithout m v) ∧ ∀ i,
      es1 path est (fct.shape.getD v 0) (obs.sliceAt (axisWithout m v) i) (fct.matAt m v i) none
        = .ok (out.get i) := by
  rw [esEnsemble_eq] at ho
  obtain ⟨h1, h2⟩ := slicewise_none h hs ho
  refine ⟨h1, fun i => ?_⟩
  unfold es1
  rw [esEnsemble_eq, Option.map_none]
  exact h2 i

theorem C64_vs_axes (path : Path) (est : String) (p : ℝ) (w : List (List XF)) {obs fct : Arr XF}
    {mAxis vAxis : ℤ} {m v : ℕ} (h : MvAxes mAxis vAxis fct.ndim m v)
    (hs : obs.shape = fct.shape.eraseIdx m)
    {out : Arr XF} (ho : vsEnsemble path obs fct (some w) mAxis vAxis none p est = .ok out) :
    out.shape = obs.shape.eraseIdx (axisWithout m v) ∧ ∀ i,
      vs1 path est p (some w) (fct.shape.getD v 0) (obs.sliceAt (axisWithout m v) i)
        (fct.matAt m v i) none = .ok (out.get i) := by
  rw [vsEnsemble_eq] at ho
  obtain ⟨h1, h2⟩ := slicewise_none h hs ho
  refine ⟨h1, fun i => ?_⟩
  unfold vs1
  rw [vsEnsemble_eq, Option.map_none]
  exact h2 i

theorem C64_gksmv_axes (path : Path) (est : String) {obs fct : Arr XF} {mAxis vAxis : ℤ}
    {m v : ℕ} (h : MvAxes mAxis vAxis fct.ndim m v) (hs : obs.shape = fct.shape.eraseIdx m)
    {out : Arr XF} (ho : gksmvEnsemble path obs fct mAxis vAxis none est = .ok out) :
    out.shape = obs.shape.eraseIdx (axisWithout m v) ∧ ∀ i,
      gksmv1 path est (fct.shape.getD v 0) (obs.sliceAt (axisWithout m v) i) (fct.matAt m v i) none
        = .ok (out.get i) :=
  C37_gksmv_slicewise path est h hs ho

/-- `C64_es_axes`, `C64_vs_axes`: an array of shape (variables, members, times) with `m_axis = 1`,
`v_axis = 0` -/
example : MvAxes 1 0 (⟨[3, 5, 4], fun _ => 0⟩ : Arr XF).ndim 1 0 ∧
    (⟨[3, 4], fun _ => 0⟩ : Arr XF).shape = (⟨[3, 5, 4], fun _ => 0⟩ : Arr XF).shape.eraseIdx 1 := by
  refine ⟨⟨⟨by simp [Arr.ndim], by simp⟩, ⟨by simp [Arr.ndim], by simp⟩, by simp⟩, by simp⟩

/-- C64 (partial): with ensemble weights `es_ensemble` follows the axes when the ensemble axis comes
before the variable axis.  For the other order the claim fails: `C64_weights_last_axis_fails`,
`C64_weights_silently_wrong`. -/
theorem C64_es_weights_partial (path : Path) (est : String) {obs fct W : Arr XF} {mAxis vAxis : ℤ}
    {m v : ℕ} (h : MvAxes mAxis vAxis fct.ndim m v) (hs : obs.shape = fct.shape.eraseIdx m)
    (hlt : m < v) (hw : W.shape = fct.shape.eraseIdx v)
    {out : Arr XF} (ho : esEnsemble path obs fct mAxis vAxis (some W) est = .ok out) :
    out.shape = obs.shape.eraseIdx (v - 1) ∧ ∀ i, Arr.Valid out.shape i →
      es1 path est (fct.shape.getD v 0) (obs.sliceAt (v - 1) i) (fct.matAt m v i)
        (some (W.sliceAt m i)) = .ok (out.get i) := by
  rw [esEnsemble_eq] at ho
  obtain ⟨h1, h2⟩ := slicewise_some h hs hlt hw ho
  refine ⟨h1, fun i hi => ?_⟩
  unfold es1
  rw [esEnsemble_eq, Option.map_some]
  exact h2 i hi

theorem C64_vs_weights_partial (path : Path) (est : String) (p : ℝ) (w : List (List XF))
    {obs fct W : Arr XF} {mAxis vAxis : ℤ}
    {m v : ℕ} (h : MvAxes mAxis vAxis fct.ndim m v) (hs : obs.shape = fct.shape.eraseIdx m)
    (hlt : m < v) (hw : W.shape = fct.shape.eraseIdx v)
    {out : Arr XF} (ho : vsEnsemble path obs fct (some w) mAxis vAxis (some W) p est = .ok out) :
    out.shape = obs.shape.eraseIdx (v - 1) ∧ ∀ i, Arr.Valid out.shape i →
      vs1 path est p (some w) (fct.shape.getD v 0) (obs.sliceAt (v - 1) i) (fct.matAt m v i)
        (some (W.sliceAt m i)) = .ok (out.get i) := by
  rw [vsEnsemble_eq] at ho
  obtain ⟨h1, h2⟩ := slicewise_some h hs hlt hw ho
  refine ⟨h1, fun i hi => ?_⟩
  unfold vs1
  rw [vsEnsemble_eq, Option.map_some]
  exact h2 i hi

theorem C64_gksmv_weights_partial (path : Path) (est : String) {obs fct W : Arr XF}
    {mAxis vAxis : ℤ}
    {m v : ℕ} (h : MvAxes mAxis vAxis fct.ndim m v) (hs : obs.shape = fct.shape.eraseIdx m)
    (hlt : m < v) (hw : W.shape = fct.shape.eraseIdx v)
    {out : Arr XF} (ho : gksmvEnsemble path obs fct mAxis vAxis (some W) est = .ok out) :
    out.shape = obs.shape.eraseIdx (v - 1) ∧ ∀ i, Arr.Valid out.shape i →
      gksmv1 path est (fct.shape.getD v 0) (obs.sliceAt (v - 1) i) (fct.matAt m v i)
        (some (W.sliceAt m i)) = .ok (out.get i) := by
  rw [gksmvEnsemble_eq] at ho
  obtain ⟨h1, h2⟩ := slicewise_some h hs hlt hw ho
  refine ⟨h1, fun i hi => ?_⟩
  unfold gksmv1
  rw [gksmvEnsemble_eq, Option.map_some]
  exact h2 i hi

/-- `C64_es_weights_partial`, `C64_vs_weights_partial`: members first, variables last, times in
between -/
example : MvAxes 0 (-1) (⟨[5, 4, 3], fun _ => 0⟩ : Arr XF).ndim 0 2 ∧ 0 < 2 ∧
    (⟨[4, 3], fun _ => 0⟩ : Arr XF).shape = (⟨[5, 4, 3], fun _ => 0⟩ : Arr XF).shape.eraseIdx 0 ∧
    (⟨[5, 4], fun _ => 1⟩ : Arr XF).shape = (⟨[5, 4, 3], fun _ => 0⟩ : Arr XF).shape.eraseIdx 2 := by
  refine ⟨⟨⟨by simp [Arr.ndim], by simp⟩, ⟨by simp [Arr.ndim], by simp [Arr.ndim]⟩, by simp⟩,
    by simp, by simp, by simp⟩

/-- C64, negation: when the ensemble axis is the last axis, every weighted call fails with an
`AxisError`, whatever the estimator and the values (the ensemble axis is looked up in the weight
array, which has one axis fewer). -/
theorem C64_weights_last_axis_fails (path : Path) (est : String) (p : ℝ) (w : List (List XF))
    {obs fct W : Arr XF} {mAxis vAxis : ℤ}
    {m v : ℕ} (h : MvAxes mAxis vAxis fct.ndim m v) (hs : obs.shape = fct.shape.eraseIdx m)
    (hm : m + 1 = fct.ndim) (hw : W.shape = fct.shape.eraseIdx v) :
    esEnsemble path obs fct mAxis vAxis (some W) est = .error .axisError ∧
    vsEnsemble path obs fct (some w) mAxis vAxis (some W) p est = .error .axisError ∧
    gksmvEnsemble path obs fct mAxis vAxis (some W) est = .error .axisError := by
  rw [esEnsemble_eq, vsEnsemble_eq, gksmvEnsemble_eq]
  exact ⟨mvScore_last h hs hm hw, mvScore_last h hs hm hw, mvScore_last h hs hm hw⟩

example : MvAxes (-1) (-2) (⟨[3, 5], fun _ => 0⟩ : Arr XF).ndim 1 0 ∧
    (⟨[3], fun _ => 0⟩ : Arr XF).shape = (⟨[3, 5], fun _ => 0⟩ : Arr XF).shape.eraseIdx 1 ∧
    1 + 1 = (⟨[3, 5], fun _ => 0⟩ : Arr XF).ndim ∧
    (⟨[5], fun _ => 1⟩ : Arr XF).shape = (⟨[3, 5], fun _ => 0⟩ : Arr XF).shape.eraseIdx 0 := by
  refine ⟨⟨⟨by simp [Arr.ndim], by simp [Arr.ndim]⟩, ⟨by simp [Arr.ndim], by simp [Arr.ndim]⟩,
    by simp⟩, by simp, by simp [Arr.ndim], by simp⟩

namespace C64

/-- forecasts of shape (1 variable, 2 members, 2 times): member `j` predicts `j` at both times -/
def fct : Arr XF := ⟨[1, 2, 2], fun i => fin (i.getD 1 0 : ℕ)⟩
/-- observations of shape (1 variable, 2 times): zero -/
def obs : Arr XF := ⟨[1, 2], fun _ => fin 0⟩
/-- weights of shape (2 members, 2 times): the first member has weight 1, the second 0 -/
def W : Arr XF := ⟨[2, 2], fun i => if i.headD 0 = 0 then fin 1 else fin 0⟩

theorem axes : MvAxes 1 0 fct.ndim 1 0 :=
  ⟨⟨by simp [fct, Arr.ndim], by simp⟩, ⟨by simp [fct, Arr.ndim], by simp⟩, by simp⟩

end C64

/-- C64, negation: with the ensemble axis between the variable axis and another axis of the same
length the call succeeds with a wrong value.  The second member has weight zero and the first predicts
the observation, so the score at time 0 is zero, but `es_ensemble` returns 1/4. -/
theorem C64_weights_silently_wrong (path : Path) :
    (∃ out, esEnsemble path C64.obs C64.fct 1 0 (some C64.W) "nrg" = .ok out ∧
      out.get [0] = fin (1 / 4)) ∧
    es1 path "nrg" 1 (C64.obs.sliceAt 0 [0]) (C64.fct.matAt 1 0 [0]) (some (C64.W.sliceAt 0 [0]))
      = .ok (fin 0) := by
  have eo : C64.obs.sliceAt 0 [0] = [fin 0] := by
    simp [C64.obs, Arr.sliceAt]
  have ef : C64.fct.matAt 1 0 [0] = [[fin 0], [fin 1]] := by
    simp [C64.fct, Arr.matAt, Arr.insert2, List.range_succ]
  have ew : C64.W.sliceAt 0 [0] = [fin 1, fin 0] := by
    simp [C64.W, Arr.sliceAt, List.range_succ]
  constructor
  · rw [esEnsemble_eq]
    unfold mvScore
    rw [mvArrayCheck C64.axes (by simp [C64.obs, C64.fct])]
    simp only [bind, Except.bind]
    have hc : multivariateWeightCheck C64.W (C64.fct.moveLast2 1 0) 1
        = .ok ((C64.W.moveLast 1).mapRows fun r => r.map fun v => v / r.sum) := by
      unfold multivariateWeightCheck
      have : C64.W.moveaxisLast 1 = .ok (C64.W.moveLast 1) := by
        simp [Arr.moveaxisLast, C64.W, Arr.ndim]
      simp only [if_pos (show (0 : ℤ) ≤ 1 by norm_num), this, bind, Except.bind]
      rw [if_neg (by simp [C64.W, C64.fct, Arr.moveLast, Arr.moveLast2, Arr.erase2]), if_neg]
      rintro ⟨i, _, hi⟩
      simp only [C64.W, Arr.moveLast, zero_def] at hi
      split_ifs at hi
      · exact absurd ((fin_lt _ _).1 hi) (by norm_num)
      · exact absurd ((fin_lt _ _).1 hi) (by norm_num)
    rw [hc]
    dsimp only
    have er : C64.W.sliceAt 1 [0] = [fin 1, fin 1] := by
      simp [C64.W, Arr.sliceAt, List.range_succ]
    have hn : [fin 1, fin 1].map (fun x => x / [fin 1, fin 1].sum) = [fin (1 / 2), fin (1 / 2)] := by
      simp only [List.map_cons, List.map_nil, List.sum_cons, List.sum_nil, zero_def, fin_add]
      rw [fin_div (by norm_num)]
      norm_num
    have hv : es (toEu 0) [(toEu 0, 1 / 2), (toEu 1, 1 / 2)] = 1 / 4 := by
      simp [es, dist_toEu]
      norm_num
    have g1 := EsGufuncW.nrg_fin (toEu 0) [(toEu 0, 1 / 2), (toEu 1, 1 / 2)]
    have g2 := EsApproxW.nrg_fin (toEu 0) [(toEu 0, 1 / 2), (toEu 1, 1 / 2)]
    simp only [List.map_cons, List.map_nil, vec_toEu, hv] at g1 g2
    cases path
    · refine ⟨perMatW EsGufuncW.nrg (C64.obs.moveLast (axisWithout 1 0)) (C64.fct.moveLast2 1 0)
        ((C64.W.moveLast 1).mapRows fun r => r.map fun v => v / r.sum), by simp [esKernelW, Except.map],
        ?_⟩
      rw [perMatW_get, er, hn, ef]
      simp only [axisWithout]
      rw [show (if (1 : ℕ) < 0 then 0 - 1 else 0) = 0 from rfl, eo]
      exact g1
    · refine ⟨perMatW EsApproxW.nrg (C64.obs.moveLast (axisWithout 1 0)) (C64.fct.moveLast2 1 0)
        ((C64.W.moveLast 1).mapRows fun r => r.map fun v => v / r.sum), by simp [esKernelW, Except.map],
        ?_⟩
      rw [perMatW_get, er, hn, ef]
      simp only [axisWithout]
      rw [show (if (1 : ℕ) < 0 then 0 - 1 else 0) = 0 from rfl, eo]
      exact g2
  · have := es1_weighted path "nrg" (toEu 0) [(toEu 0, 1), (toEu 1, 0)] (by simp) (by simp)
    simp only [List.map_cons, List.map_nil, vec_toEu] at this
    rw [eo, ef, ew, this]
    have hv : es (toEu 0) (Spec.normW [(toEu 0, 1), (toEu 1, 0)]) = 0 := by
      simp [es, dist_toEu, Spec.normW]
    have g1 := EsGufuncW.nrg_fin (toEu 0) (Spec.normW [(toEu 0, 1), (toEu 1, 0)])
    have g2 := EsApproxW.nrg_fin (toEu 0) (Spec.normW [(toEu 0, 1), (toEu 1, 0)])
    rw [hv] at g1 g2
    rw [vec_toEu] at g1 g2
    cases path
    · simp only [esKernelW, Except.map]
      simpa using g1
    · simp only [esKernelW, Except.map]
      simpa using g2

end Verif
