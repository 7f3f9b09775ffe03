import Verif.Spec.MvSlices
import Verif.Lemmas.WeightedUv

/-! Array handling of the multivariate scores. -/

noncomputable section

open scoped Classical

namespace Verif

open XF Py

open Spec (AxisIs WShape MvAxes axisWithout)

namespace Arr

theorem erase2_length {m v : ℕ} {l : List ℕ} (hm : m < l.length) (hv : v < l.length)
    (h : m ≠ v) : (erase2 m v l).length = l.length - 2 := by
  unfold erase2
  split_ifs with hlt
  · rw [List.length_eraseIdx_of_lt (by rw [List.length_eraseIdx_of_lt hv]; omega),
      List.length_eraseIdx_of_lt hv]; omega
  · rw [List.length_eraseIdx_of_lt (by rw [List.length_eraseIdx_of_lt hm]; omega),
      List.length_eraseIdx_of_lt hm]; omega

theorem moveLast2_mat (a : Arr XF) (m v : ℕ) (i : List ℕ) :
    (a.moveLast2 m v).mat i = a.matAt m v i := by
  unfold mat matAt
  have h1 : (a.moveLast2 m v).shape.getD ((a.moveLast2 m v).ndim - 2) 0 = a.shape.getD m 0 := by
    simp [moveLast2, ndim]
  have h2 : (a.moveLast2 m v).shape.getD ((a.moveLast2 m v).ndim - 1) 0 = a.shape.getD v 0 := by
    simp [moveLast2, ndim]
  rw [h1, h2]
  apply List.map_congr_left
  intro j _
  apply List.map_congr_left
  intro k _
  simp [moveLast2]

end Arr

namespace Api

theorem axis_norm {mAxis : ℤ} {nd m : ℕ} (h : AxisIs mAxis nd m) :
    (if 0 ≤ mAxis then mAxis else (nd : ℤ) + mAxis) = m := by
  have := h.1
  rcases h.2 with h2 | h2
  · rw [if_pos (by omega)]; exact h2
  · rw [if_neg (by omega)]; omega

theorem shapeCheck_ok {obs fct : Arr XF} {k : ℕ} (hk : k < fct.ndim)
    (hs : obs.shape = fct.shape.eraseIdx k) : shapeCheck obs fct (k : ℤ) = .ok () := by
  have hk' : k < fct.shape.length := hk
  unfold shapeCheck Arr.pyGet Arr.pyTo Arr.pyFrom
  have h0 : (0 : ℤ) ≤ k := by omega
  simp only [h0, if_true, Int.toNat_natCast]
  rw [List.getElem?_eq_getElem hk']
  simp only
  rw [if_neg]
  push Not
  rw [hs, List.eraseIdx_eq_take_drop_succ]
  rw [List.take_append_of_le_length (by simp; omega), List.take_take, min_self]
  rw [List.drop_append, List.length_take, min_eq_left hk'.le, Nat.sub_self, List.drop_zero]
  rw [List.drop_eq_nil_of_le (by simp), List.nil_append]
  rw [List.append_assoc, List.singleton_append, ← List.drop_eq_getElem_cons hk']
  exact List.take_append_drop k _

theorem mvArrayCheck {obs fct : Arr XF} {mAxis vAxis : ℤ} {m v : ℕ}
    (h : MvAxes mAxis vAxis fct.ndim m v) (hs : obs.shape = fct.shape.eraseIdx m) :
    multivariateArrayCheck obs fct mAxis vAxis
      = .ok (obs.moveLast (axisWithout m v), fct.moveLast2 m v) := by
  unfold multivariateArrayCheck
  have hm := h.hm.1
  have hv := h.hv.1
  have hne := h.ne
  simp only [axis_norm h.hm, axis_norm h.hv]
  rw [shapeCheck_ok hm hs]
  have e1 : fct.moveaxisLast2 m v = .ok (fct.moveLast2 m v) := by
    unfold Arr.moveaxisLast2
    have a1 : (0 : ℤ) ≤ m := by omega
    have a2 : (0 : ℤ) ≤ v := by omega
    simp only [a1, a2, if_true]
    rw [if_neg (not_not.2 ⟨trivial, by omega, trivial, by omega⟩), if_neg (by omega)]
    simp
  have hn : obs.ndim = fct.ndim - 1 := by
    unfold Arr.ndim; rw [hs, List.length_eraseIdx_of_lt hm]
  have e2 : obs.moveaxisLast (if (m : ℤ) < v then (v : ℤ) - 1 else v)
      = .ok (obs.moveLast (axisWithout m v)) := by
    apply moveaxisLast_axis
    unfold axisWithout
    refine ⟨?_, Or.inl ?_⟩
    · split_ifs <;> omega
    · split_ifs <;> omega
  simp only [bind, Except.bind, e1, e2]

theorem moveLast2_ndim {a : Arr XF} {m v : ℕ} (hm : m < a.ndim) (hv : v < a.ndim) (h : m ≠ v) :
    (a.moveLast2 m v).ndim = a.ndim := by
  have := Arr.erase2_length (l := a.shape) hm hv h
  unfold Arr.ndim at *
  simp only [Arr.moveLast2, List.length_append, this, List.length_cons, List.length_nil]
  omega

/-- The weight check when the ensemble axis comes before the variable axis. -/
theorem mvWeightCheck {W fct : Arr XF} {mAxis vAxis : ℤ} {m v : ℕ}
    (h : MvAxes mAxis vAxis fct.ndim m v) (hlt : m < v) (hs : W.shape = fct.shape.eraseIdx v) :
    multivariateWeightCheck W (fct.moveLast2 m v) mAxis =
      if (W.moveLast m).Any (fun x => x < 0) then .error .valueError
      else .ok ((W.moveLast m).mapRows fun r => r.map fun x => x / r.sum) := by
  have hm := h.hm.1
  have hv := h.hv.1
  have hv' : v < fct.shape.length := hv
  unfold multivariateWeightCheck
  rw [moveLast2_ndim hm hv h.ne]
  simp only [axis_norm h.hm]
  have hn : W.ndim = fct.ndim - 1 := by
    unfold Arr.ndim; rw [hs, List.length_eraseIdx_of_lt hv]
  rw [moveaxisLast_axis (k := m) ⟨by omega, Or.inl rfl⟩]
  simp only [bind, Except.bind]
  have e : (W.moveLast m).shape = (fct.moveLast2 m v).shape.dropLast := by
    simp only [Arr.moveLast, Arr.moveLast2, Arr.erase2, hs, if_pos hlt]
    rw [show [fct.shape.getD m 0, fct.shape.getD v 0] = [fct.shape.getD m 0] ++ [fct.shape.getD v 0]
      from rfl, ← List.append_assoc, List.dropLast_concat]
    congr 2
    simp only [List.getD_eq_getElem?_getD]
    rw [List.getElem?_eraseIdx_of_lt hlt]
  rw [if_neg (by rw [e]; simp)]

theorem mvRow_norm {W : Arr XF} {m : ℕ} (i : List ℕ) :
    ((W.moveLast m).mapRows fun r => r.map fun x => x / r.sum).row i
      = (W.sliceAt m i).map fun x => x / (W.sliceAt m i).sum := by
  rw [Arr.row_mapRows (s := W.shape.eraseIdx m) (n := W.shape.getD m 0) rfl _ i (by
    simp [Arr.row, Arr.moveLast])]
  rw [Arr.row_moveLast]

/-! ### one observation -/

theorem ofRows_axes (D : ℕ) (xs : List (List XF)) :
    MvAxes (-2) (-1) (Arr.ofRows D xs).ndim 0 1 := by
  refine ⟨⟨?_, Or.inr ?_⟩, ⟨?_, Or.inr ?_⟩, by decide⟩ <;> simp [Arr.ofRows, Arr.ndim]

theorem ofRows_matAt {D : ℕ} {xs : List (List XF)} (h : ∀ x ∈ xs, x.length = D) :
    (Arr.ofRows D xs).matAt 0 1 [] = xs := by
  unfold Arr.matAt Arr.ofRows
  simp only [List.getD_cons_zero, List.getD_cons_succ]
  apply List.ext_getElem
  · simp
  · intro i h1 h2
    simp only [List.getElem_map, List.getElem_range]
    have hx := h xs[i] (List.getElem_mem h2)
    apply List.ext_getElem
    · simp [hx]
    · intro j h3 h4
      simp [Arr.insert2, h2, h4]

theorem ofList_sliceAt (y : List XF) : (Arr.ofList y).sliceAt 0 [] = y := by
  unfold Arr.sliceAt Arr.ofList
  apply List.ext_getElem
  · simp
  · intro i h1 h2
    simp [h2]

theorem ofList_any (w : List XF) (p : XF → Prop) :
    ((Arr.ofList w).moveLast 0).Any p ↔ ∃ x ∈ w, p x := by
  rw [Arr.any_iff (s := []) (n := w.length) (by simp [Arr.moveLast, Arr.ofList])]
  constructor
  · rintro ⟨i, hi, x, hx, h⟩
    have : i = [] := by cases hi; rfl
    subst this
    rw [Arr.row_moveLast, ofList_sliceAt] at hx
    exact ⟨x, hx, h⟩
  · rintro ⟨x, hx, h⟩
    refine ⟨[], List.Forall₂.nil, x, ?_, h⟩
    rw [Arr.row_moveLast, ofList_sliceAt]
    exact hx

theorem ofRows_shape {D : ℕ} {y : List XF} {xs : List (List XF)} (hy : y.length = D) :
    (Arr.ofList y).shape = (Arr.ofRows D xs).shape.eraseIdx 0 := by
  simp [Arr.ofList, Arr.ofRows, hy]

end Api
end Verif
