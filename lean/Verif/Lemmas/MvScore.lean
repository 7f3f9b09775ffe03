import Verif.Lemmas.MvArr

/-! The pattern shared by the multivariate ensemble scores: check the arrays, check the weights,
apply a kernel to every (vector, ensemble) pair. -/

noncomputable section

open scoped Classical

namespace Verif

open XF Py

open Spec (AxisIs WShape MvAxes axisWithout)

namespace Api

def mvScore (K : Except Err (List XF → List (List XF) → XF))
    (KW : Except Err (List XF → List (List XF) → List XF → XF))
    (obs fct : Arr XF) (mAxis vAxis : ℤ) (ensW : Option (Arr XF)) : Except Err (Arr XF) := do
  let (obs, fct) ← multivariateArrayCheck obs fct mAxis vAxis
  match ensW with
  | none => K.map fun k => perMat k obs fct
  | some w =>
    let w ← multivariateWeightCheck w fct mAxis
    KW.map fun k => perMatW k obs fct w

variable {K : Except Err (List XF → List (List XF) → XF)}
  {KW : Except Err (List XF → List (List XF) → List XF → XF)}

theorem mvScore_none {obs fct : Arr XF} {mAxis vAxis : ℤ} {m v : ℕ}
    (h : MvAxes mAxis vAxis fct.ndim m v) (hs : obs.shape = fct.shape.eraseIdx m) :
    mvScore K KW obs fct mAxis vAxis none
      = K.map fun k => perMat k (obs.moveLast (axisWithout m v)) (fct.moveLast2 m v) := by
  unfold mvScore
  rw [mvArrayCheck h hs]
  simp only [bind, Except.bind]

theorem mvScore_some {obs fct W : Arr XF} {mAxis vAxis : ℤ} {m v : ℕ}
    (h : MvAxes mAxis vAxis fct.ndim m v) (hs : obs.shape = fct.shape.eraseIdx m)
    (hlt : m < v) (hw : W.shape = fct.shape.eraseIdx v) :
    mvScore K KW obs fct mAxis vAxis (some W)
      = if (W.moveLast m).Any (fun x => x < 0) then .error .valueError
        else KW.map fun k => perMatW k (obs.moveLast (axisWithout m v)) (fct.moveLast2 m v)
          ((W.moveLast m).mapRows fun r => r.map fun x => x / r.sum) := by
  unfold mvScore
  rw [mvArrayCheck h hs]
  simp only [bind, Except.bind]
  rw [mvWeightCheck h hlt hw]
  split_ifs <;> rfl

theorem perMat_get (k : List XF → List (List XF) → XF) (obs fct : Arr XF) (o m v : ℕ) (i : List ℕ) :
    (perMat k (obs.moveLast o) (fct.moveLast2 m v)).get i
      = k (obs.sliceAt o i) (fct.matAt m v i) := by
  simp only [perMat, Arr.row_moveLast, Arr.moveLast2_mat]

theorem perMatW_get (k : List XF → List (List XF) → List XF → XF) (obs fct W : Arr XF)
    (o m v : ℕ) (i : List ℕ) :
    (perMatW k (obs.moveLast o) (fct.moveLast2 m v)
        ((W.moveLast m).mapRows fun r => r.map fun x => x / r.sum)).get i
      = k (obs.sliceAt o i) (fct.matAt m v i)
        ((W.sliceAt m i).map fun x => x / (W.sliceAt m i).sum) := by
  simp only [perMatW, Arr.row_moveLast, Arr.moveLast2_mat, mvRow_norm]

theorem mv1_none {D : ℕ} {y : List XF} {xs : List (List XF)} (hy : y.length = D)
    (hx : ∀ x ∈ xs, x.length = D) :
    item (mvScore K KW (Arr.ofList y) (Arr.ofRows D xs) (-2) (-1) none)
      = K.map fun k => k y xs := by
  rw [mvScore_none (ofRows_axes D xs) (ofRows_shape hy)]
  cases K with
  | error e => rfl
  | ok k =>
    simp only [item, Except.map]
    rw [perMat_get, ofRows_matAt hx]
    simp only [axisWithout]
    rw [show (if (0 : ℕ) < 1 then 1 - 1 else 1) = 0 from rfl, ofList_sliceAt]

theorem mv1_some {D : ℕ} {y : List XF} {xs : List (List XF)} {ws : List XF} (hy : y.length = D)
    (hx : ∀ x ∈ xs, x.length = D) (hw : ws.length = xs.length) :
    item (mvScore K KW (Arr.ofList y) (Arr.ofRows D xs) (-2) (-1) (some (Arr.ofList ws)))
      = if ∃ x ∈ ws, x < 0 then .error .valueError
        else KW.map fun k => k y xs (ws.map fun x => x / ws.sum) := by
  rw [mvScore_some (ofRows_axes D xs) (ofRows_shape hy) (by decide)
    (by simp [Arr.ofList, Arr.ofRows, hw])]
  by_cases hn : ∃ x ∈ ws, x < 0
  · rw [if_pos ((ofList_any ws _).2 hn), if_pos hn]; rfl
  · rw [if_neg (fun h => hn ((ofList_any ws _).1 h)), if_neg hn]
    cases KW with
    | error e => rfl
    | ok k =>
      simp only [item, Except.map]
      rw [perMatW_get, ofRows_matAt hx, ofList_sliceAt]
      simp only [axisWithout]
      rw [show (if (0 : ℕ) < 1 then 1 - 1 else 1) = 0 from rfl, ofList_sliceAt]

theorem eraseIdx_getD_without {s : List ℕ} {m v : ℕ} (h : m ≠ v) :
    (s.eraseIdx m).getD (axisWithout m v) 0 = s.getD v 0 := by
  simp only [List.getD_eq_getElem?_getD]
  congr 1
  unfold axisWithout
  split_ifs with hlt
  · rw [List.getElem?_eraseIdx_of_ge (by omega)]
    congr 1; omega
  · rw [List.getElem?_eraseIdx_of_lt (by omega)]

theorem sliceAt_len (a : Arr XF) (k : ℕ) (i : List ℕ) :
    (a.sliceAt k i).length = a.shape.getD k 0 := by simp [Arr.sliceAt]

theorem matAt_len (a : Arr XF) (m v : ℕ) (i : List ℕ) :
    (a.matAt m v i).length = a.shape.getD m 0 := by simp [Arr.matAt]

theorem matAt_row_len (a : Arr XF) (m v : ℕ) (i : List ℕ) :
    ∀ x ∈ a.matAt m v i, x.length = a.shape.getD v 0 := by
  intro x hx
  simp only [Arr.matAt, List.mem_map] at hx
  obtain ⟨j, _, rfl⟩ := hx
  simp

theorem slicewise_none {obs fct : Arr XF} {mAxis vAxis : ℤ} {m v : ℕ}
    (h : MvAxes mAxis vAxis fct.ndim m v) (hs : obs.shape = fct.shape.eraseIdx m)
    {out : Arr XF} (ho : mvScore K KW obs fct mAxis vAxis none = .ok out) :
    out.shape = obs.shape.eraseIdx (axisWithout m v) ∧ ∀ i,
      item (mvScore K KW (Arr.ofList (obs.sliceAt (axisWithout m v) i))
        (Arr.ofRows (fct.shape.getD v 0) (fct.matAt m v i)) (-2) (-1) none) = .ok (out.get i) := by
  rw [mvScore_none h hs] at ho
  cases K with
  | error e => simp [Except.map] at ho
  | ok k =>
    simp only [Except.map, Except.ok.injEq] at ho
    subst ho
    refine ⟨by simp [perMat, Arr.moveLast], fun i => ?_⟩
    rw [mv1_none (by rw [sliceAt_len, hs, eraseIdx_getD_without h.ne]) (matAt_row_len fct m v i)]
    rw [perMat_get]
    rfl

theorem eraseIdx_eraseIdx {s : List ℕ} {m v : ℕ} (h : m < v) :
    (s.eraseIdx m).eraseIdx (v - 1) = (s.eraseIdx v).eraseIdx m := by
  apply List.ext_getElem?
  intro j
  simp only [List.getElem?_eraseIdx]
  split_ifs <;> first | rfl | omega | (congr 1; omega)

theorem slicewise_some {obs fct W : Arr XF} {mAxis vAxis : ℤ} {m v : ℕ}
    (h : MvAxes mAxis vAxis fct.ndim m v) (hs : obs.shape = fct.shape.eraseIdx m) (hlt : m < v)
    (hw : W.shape = fct.shape.eraseIdx v)
    {out : Arr XF} (ho : mvScore K KW obs fct mAxis vAxis (some W) = .ok out) :
    out.shape = obs.shape.eraseIdx (v - 1) ∧ ∀ i, Arr.Valid out.shape i →
      item (mvScore K KW (Arr.ofList (obs.sliceAt (v - 1) i))
        (Arr.ofRows (fct.shape.getD v 0) (fct.matAt m v i)) (-2) (-1)
        (some (Arr.ofList (W.sliceAt m i)))) = .ok (out.get i) := by
  rw [mvScore_some h hs hlt hw] at ho
  have ha : axisWithout m v = v - 1 := by simp [axisWithout, hlt]
  split_ifs at ho with hn
  cases KW with
  | error e => simp [Except.map] at ho
  | ok k =>
    simp only [Except.map, Except.ok.injEq] at ho
    subst ho
    rw [ha]
    have e1 : (perMatW k (obs.moveLast (v - 1)) (fct.moveLast2 m v)
        ((W.moveLast m).mapRows fun r => r.map fun x => x / r.sum)).shape
        = obs.shape.eraseIdx (v - 1) := by simp [perMatW, Arr.moveLast]
    refine ⟨e1, fun i hi => ?_⟩
    rw [e1] at hi
    have h2 := eraseIdx_getD_without (s := fct.shape) h.ne
    rw [ha] at h2
    rw [mv1_some (by rw [sliceAt_len, hs, h2]) (matAt_row_len fct m v i)
      (by rw [sliceAt_len, matAt_len, hw]; simp only [List.getD_eq_getElem?_getD];
          rw [List.getElem?_eraseIdx_of_lt hlt])]
    rw [if_neg, perMatW_get]
    · rfl
    · rintro ⟨x, hx, hneg⟩
      apply hn
      rw [Arr.any_iff (s := W.shape.eraseIdx m) (n := W.shape.getD m 0) (by simp [Arr.moveLast])]
      refine ⟨i, ?_, x, ?_, hneg⟩
      · rw [hw, ← eraseIdx_eraseIdx hlt, ← hs]
        exact hi
      · rw [Arr.row_moveLast]
        exact hx

/-- An ensemble axis behind every other axis makes the weight check fail. -/
theorem mvScore_last {obs fct W : Arr XF} {mAxis vAxis : ℤ} {m v : ℕ}
    (h : MvAxes mAxis vAxis fct.ndim m v) (hs : obs.shape = fct.shape.eraseIdx m)
    (hm : m + 1 = fct.ndim) (hw : W.shape = fct.shape.eraseIdx v) :
    mvScore K KW obs fct mAxis vAxis (some W) = .error .axisError := by
  unfold mvScore
  rw [mvArrayCheck h hs]
  simp only [bind, Except.bind]
  have hv : v < fct.ndim := h.hv.1
  have hn : W.ndim = m := by
    unfold Arr.ndim at *
    rw [hw, List.length_eraseIdx_of_lt hv]
    omega
  have : multivariateWeightCheck W (fct.moveLast2 m v) mAxis = .error .axisError := by
    unfold multivariateWeightCheck
    rw [moveLast2_ndim h.hm.1 h.hv.1 h.ne]
    simp only [axis_norm h.hm]
    have : W.moveaxisLast (m : ℤ) = .error .axisError := by
      unfold Arr.moveaxisLast
      simp only [hn]
      simp
    rw [this]
    rfl
  rw [this]

end Api
end Verif
