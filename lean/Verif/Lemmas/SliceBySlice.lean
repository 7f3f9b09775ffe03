import Verif.Spec.SliceBySlice
import Verif.Lemmas.KernelApi
import Verif.Lemmas.VariogramApi

/-! The shared patterns of the ensemble scores act slice by slice. -/

noncomputable section

open scoped Classical

namespace Verif

open XF Py

open Spec (AxisIs MvAxes axisWithout SliceBySlice)

namespace Api

theorem erase2_eq {s : List ℕ} {m v : ℕ} (h : m ≠ v) :
    Arr.erase2 m v s = (s.eraseIdx m).eraseIdx (axisWithout m v) := by
  unfold Arr.erase2 axisWithout
  split_ifs with hlt
  · rw [eraseIdx_eraseIdx hlt]
  · rfl

theorem alongLast_row (f : List XF → XF) (a : Arr XF) (m v : ℕ) (i : List ℕ) :
    (alongLast f (a.moveLast2 m v)).row i = (a.matAt m v i).map f := by
  rw [← Arr.moveLast2_mat]
  have e : (a.moveLast2 m v).shape
      = (Arr.erase2 m v a.shape ++ [a.shape.getD m 0]) ++ [a.shape.getD v 0] := by
    simp [Arr.moveLast2]
  have e1 : (alongLast f (a.moveLast2 m v)).shape = Arr.erase2 m v a.shape ++ [a.shape.getD m 0] := by
    unfold alongLast
    rw [e, List.dropLast_concat]
  unfold Arr.mat
  rw [List.map_map]
  unfold Arr.row
  rw [e1]
  simp only [Arr.ndim, e, alongLast, Arr.row]
  simp

theorem alongLast_get (f : List XF → XF) (a : Arr XF) (o : ℕ) (i : List ℕ) :
    (alongLast f (a.moveLast o)).get i = f (a.sliceAt o i) := by
  simp only [alongLast, Arr.row_moveLast]

theorem mvWeights_array {obs fct : Arr XF} {m v : ℕ} (f : List XF → XF) (hne : m ≠ v)
    (hs : obs.shape = fct.shape.eraseIdx m) :
    mvWeights (obs.moveLast (axisWithout m v)) (fct.moveLast2 m v) f
      = if ∃ i, Arr.Valid (obs.shape.eraseIdx (axisWithout m v)) i ∧
          (f (obs.sliceAt (axisWithout m v) i) < 0 ∨ ∃ x ∈ fct.matAt m v i, f x < 0)
        then .error .valueError
        else .ok (alongLast f (obs.moveLast (axisWithout m v)), alongLast f (fct.moveLast2 m v)) := by
  unfold mvWeights
  dsimp only
  have a1 : (alongLast f (obs.moveLast (axisWithout m v))).Any (fun v => v < 0)
      ↔ ∃ i, Arr.Valid (obs.shape.eraseIdx (axisWithout m v)) i ∧
          f (obs.sliceAt (axisWithout m v) i) < 0 := by
    unfold Arr.Any
    have : (alongLast f (obs.moveLast (axisWithout m v))).shape
        = obs.shape.eraseIdx (axisWithout m v) := by simp [alongLast, Arr.moveLast]
    rw [this]
    simp only [alongLast_get]
  have a2 : (alongLast f (fct.moveLast2 m v)).Any (fun v => v < 0)
      ↔ ∃ i, Arr.Valid (obs.shape.eraseIdx (axisWithout m v)) i ∧
          ∃ x ∈ fct.matAt m v i, f x < 0 := by
    rw [Arr.any_iff (s := obs.shape.eraseIdx (axisWithout m v)) (n := fct.shape.getD m 0) (by
      rw [hs, ← erase2_eq hne]
      unfold alongLast
      rw [show (fct.moveLast2 m v).shape
        = (Arr.erase2 m v fct.shape ++ [fct.shape.getD m 0]) ++ [fct.shape.getD v 0] by
          simp [Arr.moveLast2], List.dropLast_concat])]
    simp only [alongLast_row, List.mem_map, exists_exists_and_eq_and]
  have : (∃ i, Arr.Valid (obs.shape.eraseIdx (axisWithout m v)) i ∧
          (f (obs.sliceAt (axisWithout m v) i) < 0 ∨ ∃ x ∈ fct.matAt m v i, f x < 0)) ↔
      ((alongLast f (obs.moveLast (axisWithout m v))).Any (fun v => v < 0) ∨
        (alongLast f (fct.moveLast2 m v)).Any (fun v => v < 0)) := by
    rw [a1, a2, ← exists_or]
    simp only [and_or_left]
  simp only [this]

section mvO
variable {kg ka : List XF → List (List XF) → XF → List XF → XF}
    {kgw kaw : List XF → List (List XF) → XF → List XF → List XF → XF}

theorem mvScoreO_slices {obs fct : Arr XF} {mAxis vAxis : ℤ} {m v : ℕ} (path : Path)
    (f : List XF → XF) (h : MvAxes mAxis vAxis fct.ndim m v)
    (hs : obs.shape = fct.shape.eraseIdx m) :
    SliceBySlice (mvScoreO kg ka kgw kaw path obs fct f mAxis vAxis none)
      (obs.shape.eraseIdx (axisWithout m v)) fun i =>
        item (mvScoreO kg ka kgw kaw path (Arr.ofList (obs.sliceAt (axisWithout m v) i))
          (Arr.ofRows (fct.shape.getD v 0) (fct.matAt m v i)) f (-2) (-1) none) := by
  have e : ∀ i, item (mvScoreO kg ka kgw kaw path (Arr.ofList (obs.sliceAt (axisWithout m v) i))
          (Arr.ofRows (fct.shape.getD v 0) (fct.matAt m v i)) f (-2) (-1) none) = _ := fun i =>
    mvO_none path f (by rw [sliceAt_len, hs, eraseIdx_getD_without h.ne]) (matAt_row_len fct m v i)
  simp only [e]
  unfold mvScoreO
  rw [mvArrayCheck h hs]
  simp only [bind, Except.bind]
  rw [mvWeights_array f h.ne hs]
  by_cases hn : ∃ i, Arr.Valid (obs.shape.eraseIdx (axisWithout m v)) i ∧
          (f (obs.sliceAt (axisWithout m v) i) < 0 ∨ ∃ x ∈ fct.matAt m v i, f x < 0)
  · rw [if_pos hn]
    obtain ⟨i, hi, hneg⟩ := hn
    exact ⟨i, hi, by dsimp only; rw [if_pos hneg]⟩
  · rw [if_neg hn]
    have hn' : ∀ i, Arr.Valid (obs.shape.eraseIdx (axisWithout m v)) i →
        ¬ (f (obs.sliceAt (axisWithout m v) i) < 0 ∨ ∃ x ∈ fct.matAt m v i, f x < 0) :=
      fun i hi hneg => hn ⟨i, hi, hneg⟩
    cases path <;>
    · refine ⟨by simp [perMatO, Arr.moveLast], fun i hi => ?_⟩
      dsimp only
      rw [if_neg (hn' i hi)]
      simp only [perMatO, Arr.row_moveLast, Arr.moveLast2_mat, alongLast_get, alongLast_row]

theorem mvScoreO_slices_w {obs fct W : Arr XF} {mAxis vAxis : ℤ} {m v : ℕ} (path : Path)
    (f : List XF → XF) (h : MvAxes mAxis vAxis fct.ndim m v)
    (hs : obs.shape = fct.shape.eraseIdx m) (hlt : m < v) (hw : W.shape = fct.shape.eraseIdx v) :
    SliceBySlice (mvScoreO kg ka kgw kaw path obs fct f mAxis vAxis (some W))
      (obs.shape.eraseIdx (v - 1)) fun i =>
        item (mvScoreO kg ka kgw kaw path (Arr.ofList (obs.sliceAt (v - 1) i))
          (Arr.ofRows (fct.shape.getD v 0) (fct.matAt m v i)) f (-2) (-1)
          (some (Arr.ofList (W.sliceAt m i)))) := by
  have ha : axisWithout m v = v - 1 := by simp [axisWithout, hlt]
  have e : ∀ i, item (mvScoreO kg ka kgw kaw path (Arr.ofList (obs.sliceAt (v - 1) i))
          (Arr.ofRows (fct.shape.getD v 0) (fct.matAt m v i)) f (-2) (-1)
          (some (Arr.ofList (W.sliceAt m i)))) = _ := fun i =>
    mvO_some path f (by rw [sliceAt_len, hs, ← ha, eraseIdx_getD_without h.ne])
      (matAt_row_len fct m v i)
      (by rw [sliceAt_len, matAt_len, hw]; simp only [List.getD_eq_getElem?_getD];
          rw [List.getElem?_eraseIdx_of_lt hlt])
  simp only [e]
  have hW : (W.moveLast m).Any (fun x => x < 0) ↔
      ∃ i, Arr.Valid (obs.shape.eraseIdx (v - 1)) i ∧ ∃ x ∈ W.sliceAt m i, x < 0 := by
    rw [Arr.any_iff (s := obs.shape.eraseIdx (v - 1)) (n := W.shape.getD m 0)
      (by rw [hs, eraseIdx_eraseIdx hlt, ← hw]; simp [Arr.moveLast])]
    simp only [Arr.row_moveLast]
  unfold mvScoreO
  rw [mvArrayCheck h hs]
  simp only [bind, Except.bind]
  rw [mvWeights_array f h.ne hs, ha]
  by_cases hn : ∃ i, Arr.Valid (obs.shape.eraseIdx (v - 1)) i ∧
          (f (obs.sliceAt (v - 1) i) < 0 ∨ ∃ x ∈ fct.matAt m v i, f x < 0)
  · rw [if_pos hn]
    obtain ⟨i, hi, hneg⟩ := hn
    exact ⟨i, hi, by dsimp only; rw [if_pos (Or.inl hneg)]⟩
  · rw [if_neg hn]
    dsimp only
    rw [mvWeightCheck h hlt hw]
    by_cases hk : (W.moveLast m).Any (fun x => x < 0)
    · rw [if_pos hk]
      obtain ⟨i, hi, hneg⟩ := hW.1 hk
      exact ⟨i, hi, by dsimp only; rw [if_pos (Or.inr hneg)]⟩
    · rw [if_neg hk]
      have hn' : ∀ i, Arr.Valid (obs.shape.eraseIdx (v - 1)) i →
          ¬ ((f (obs.sliceAt (v - 1) i) < 0 ∨ ∃ x ∈ fct.matAt m v i, f x < 0) ∨
            ∃ x ∈ W.sliceAt m i, x < 0) := by
        rintro i hi (hneg | hneg)
        · exact hn ⟨i, hi, hneg⟩
        · exact hk (hW.2 ⟨i, hi, hneg⟩)
      cases path <;>
      · refine ⟨by simp [perMatOW, Arr.moveLast], fun i hi => ?_⟩
        dsimp only
        rw [if_neg (hn' i hi)]
        simp only [perMatOW, Arr.row_moveLast, Arr.moveLast2_mat, alongLast_get, alongLast_row,
          mvRow_norm]

end mvO

section mv
variable {K : Except Err (List XF → List (List XF) → XF)}
  {KW : Except Err (List XF → List (List XF) → List XF → XF)}

theorem mvScore_slices {obs fct : Arr XF} {mAxis vAxis : ℤ} {m v : ℕ}
    (h : MvAxes mAxis vAxis fct.ndim m v) (hs : obs.shape = fct.shape.eraseIdx m)
    (hi : (∃ k, K = .ok k) ∨ ∃ i, Arr.Valid (obs.shape.eraseIdx (axisWithout m v)) i) :
    SliceBySlice (mvScore K KW obs fct mAxis vAxis none)
      (obs.shape.eraseIdx (axisWithout m v)) fun i =>
        item (mvScore K KW (Arr.ofList (obs.sliceAt (axisWithout m v) i))
          (Arr.ofRows (fct.shape.getD v 0) (fct.matAt m v i)) (-2) (-1) none) := by
  cases K with
  | error e =>
    obtain ⟨_, hk⟩ | ⟨i, hi⟩ := hi
    · exact absurd hk (by simp)
    · rw [mvScore_none h hs]
      refine ⟨i, hi, ?_⟩
      dsimp only
      rw [mv1_none (by rw [sliceAt_len, hs, eraseIdx_getD_without h.ne]) (matAt_row_len fct m v i)]
      rfl
  | ok k =>
    have ho : mvScore (Except.ok k) KW obs fct mAxis vAxis none = .ok _ := mvScore_none h hs
    obtain ⟨h1, h2⟩ := slicewise_none h hs ho
    rw [ho]
    exact ⟨h1, fun i _ => h2 i⟩

theorem mvScore_slices_w {obs fct W : Arr XF} {mAxis vAxis : ℤ} {m v : ℕ}
    (h : MvAxes mAxis vAxis fct.ndim m v) (hs : obs.shape = fct.shape.eraseIdx m) (hlt : m < v)
    (hw : W.shape = fct.shape.eraseIdx v)
    (hi : (∃ k, KW = .ok k) ∨ ∃ i, Arr.Valid (obs.shape.eraseIdx (v - 1)) i) :
    SliceBySlice (mvScore K KW obs fct mAxis vAxis (some W))
      (obs.shape.eraseIdx (v - 1)) fun i =>
        item (mvScore K KW (Arr.ofList (obs.sliceAt (v - 1) i))
          (Arr.ofRows (fct.shape.getD v 0) (fct.matAt m v i)) (-2) (-1)
          (some (Arr.ofList (W.sliceAt m i)))) := by
  have ha : axisWithout m v = v - 1 := by simp [axisWithout, hlt]
  have e : ∀ i, item (mvScore K KW (Arr.ofList (obs.sliceAt (v - 1) i))
          (Arr.ofRows (fct.shape.getD v 0) (fct.matAt m v i)) (-2) (-1)
          (some (Arr.ofList (W.sliceAt m i)))) = _ := fun i =>
    mv1_some (by rw [sliceAt_len, hs, ← ha, eraseIdx_getD_without h.ne])
      (matAt_row_len fct m v i)
      (by rw [sliceAt_len, matAt_len, hw]; simp only [List.getD_eq_getElem?_getD];
          rw [List.getElem?_eraseIdx_of_lt hlt])
  have hW : (W.moveLast m).Any (fun x => x < 0) ↔
      ∃ i, Arr.Valid (obs.shape.eraseIdx (v - 1)) i ∧ ∃ x ∈ W.sliceAt m i, x < 0 := by
    rw [Arr.any_iff (s := obs.shape.eraseIdx (v - 1)) (n := W.shape.getD m 0)
      (by rw [hs, eraseIdx_eraseIdx hlt, ← hw]; simp [Arr.moveLast])]
    simp only [Arr.row_moveLast]
  simp only [e]
  rw [mvScore_some h hs hlt hw]
  by_cases hk : (W.moveLast m).Any (fun x => x < 0)
  · rw [if_pos hk]
    obtain ⟨i, hi, hneg⟩ := hW.1 hk
    exact ⟨i, hi, by dsimp only; rw [if_pos hneg]⟩
  · rw [if_neg hk, ha]
    have hn' : ∀ i, Arr.Valid (obs.shape.eraseIdx (v - 1)) i → ¬ ∃ x ∈ W.sliceAt m i, x < 0 :=
      fun i hi hneg => hk (hW.2 ⟨i, hi, hneg⟩)
    cases KW with
    | error e =>
      obtain ⟨_, hk⟩ | ⟨i, hi⟩ := hi
      · exact absurd hk (by simp)
      · exact ⟨i, hi, by dsimp only; rw [if_neg (hn' i hi)]; rfl⟩
    | ok k =>
      refine ⟨by simp [perMatW, Arr.moveLast], fun i hi => ?_⟩
      dsimp only
      rw [if_neg (hn' i hi), perMatW_get]
      rfl

end mv

section uv
variable {K : Except Err (XF → List XF → XF)} {KW : Except Err (XF → List XF → List XF → XF)}
  {kg ka : XF → List XF → XF → List XF → XF} {kgw kaw : XF → List XF → XF → List XF → List XF → XF}

theorem uvScore_slices {obs fct : Arr XF} {m : ℤ} {k : ℕ} (h : AxisIs m fct.ndim k)
    (hs : obs.shape = fct.shape.eraseIdx k)
    (hi : (∃ k, K = .ok k) ∨ ∃ i, Arr.Valid obs.shape i) :
    SliceBySlice (uvScore K KW obs fct m none) obs.shape fun i =>
      item (uvScore K KW (Arr.scalar (obs.get i)) (Arr.ofList (fct.sliceAt k i)) (-1) none) := by
  simp only [uv1_none]
  rw [uvScore_none h hs]
  cases K with
  | error e =>
    obtain ⟨_, hk⟩ | ⟨i, hi⟩ := hi
    · exact absurd hk (by simp)
    · exact ⟨i, hi, rfl⟩
  | ok κ =>
    refine ⟨rfl, fun i _ => ?_⟩
    simp only [Except.map, perSlice, Arr.row_moveLast]

theorem uvW_any {W fct obs : Arr XF} {k : ℕ} (hs : obs.shape = fct.shape.eraseIdx k)
    (hW : W.shape = fct.shape) (p : XF → Prop) : (W.moveLast k).Any p ↔
      ∃ i, Arr.Valid obs.shape i ∧ ∃ x ∈ W.sliceAt k i, p x := by
  rw [Arr.any_iff (s := obs.shape) (n := W.shape.getD k 0) (by rw [hs, ← hW]; rfl)]
  simp only [Arr.row_moveLast]

theorem uvScore_slices_w {obs fct W : Arr XF} {m : ℤ} {k : ℕ} (h : AxisIs m fct.ndim k)
    (hs : obs.shape = fct.shape.eraseIdx k) (hW : W.shape = fct.shape)
    (hi : (∃ k, KW = .ok k) ∨ ∃ i, Arr.Valid obs.shape i) :
    SliceBySlice (uvScore K KW obs fct m (some W)) obs.shape fun i =>
      item (uvScore K KW (Arr.scalar (obs.get i)) (Arr.ofList (fct.sliceAt k i)) (-1)
        (some (Arr.ofList (W.sliceAt k i)))) := by
  have e : ∀ i, item (uvScore K KW (Arr.scalar (obs.get i)) (Arr.ofList (fct.sliceAt k i)) (-1)
        (some (Arr.ofList (W.sliceAt k i)))) = _ := fun i =>
    uv1_some _ (by rw [sliceAt_len, sliceAt_len, hW])
  simp only [e]
  rw [uvScore_some h hs hW]
  by_cases hk : (W.moveLast k).Any (fun x => x < 0)
  · rw [if_pos hk]
    obtain ⟨i, hi, hneg⟩ := (uvW_any hs hW _).1 hk
    exact ⟨i, hi, by dsimp only; rw [if_pos hneg]⟩
  · rw [if_neg hk]
    have hn' : ∀ i, Arr.Valid obs.shape i → ¬ ∃ x ∈ W.sliceAt k i, x < 0 :=
      fun i hi hneg => hk ((uvW_any hs hW _).2 ⟨i, hi, hneg⟩)
    cases KW with
    | error e =>
      obtain ⟨_, hk⟩ | ⟨i, hi⟩ := hi
      · exact absurd hk (by simp)
      · exact ⟨i, hi, by dsimp only; rw [if_neg (hn' i hi)]; rfl⟩
    | ok κ =>
      refine ⟨rfl, fun i hi => ?_⟩
      dsimp only
      rw [if_neg (hn' i hi)]
      simp only [Except.map, perSliceW, Arr.row_moveLast, uvRow_norm]

theorem uvWeights_array {obs fct : Arr XF} {k : ℕ} (f : XF → XF)
    (hs : obs.shape = fct.shape.eraseIdx k) :
    uvWeights obs (fct.moveLast k) f
      = if ∃ i, Arr.Valid obs.shape i ∧ (f (obs.get i) < 0 ∨ ∃ x ∈ fct.sliceAt k i, f x < 0)
        then .error .valueError else .ok (obs.map f, (fct.moveLast k).map f) := by
  unfold uvWeights
  dsimp only
  have a2 : ((fct.moveLast k).map f).Any (fun v => v < 0)
      ↔ ∃ i, Arr.Valid obs.shape i ∧ ∃ x ∈ fct.sliceAt k i, f x < 0 :=
    uvW_any hs rfl (fun x => f x < 0)
  have : (∃ i, Arr.Valid obs.shape i ∧ (f (obs.get i) < 0 ∨ ∃ x ∈ fct.sliceAt k i, f x < 0)) ↔
      ((obs.map f).Any (fun v => v < 0) ∨ ((fct.moveLast k).map f).Any (fun v => v < 0)) := by
    rw [a2]
    unfold Arr.Any
    rw [← exists_or]
    simp only [and_or_left, Arr.map]
  simp only [this]

theorem uvScoreO_slices {obs fct : Arr XF} {m : ℤ} {k : ℕ} (path : Path) (f : XF → XF)
    (h : AxisIs m fct.ndim k) (hs : obs.shape = fct.shape.eraseIdx k) :
    SliceBySlice (uvScoreO kg ka kgw kaw path obs fct f m none) obs.shape fun i =>
      item (uvScoreO kg ka kgw kaw path (Arr.scalar (obs.get i)) (Arr.ofList (fct.sliceAt k i)) f
        (-1) none) := by
  simp only [uvO_none]
  unfold uvScoreO
  rw [arrayCheck_axis h hs]
  simp only [bind, Except.bind]
  rw [uvWeights_array f hs]
  by_cases hn : ∃ i, Arr.Valid obs.shape i ∧ (f (obs.get i) < 0 ∨ ∃ x ∈ fct.sliceAt k i, f x < 0)
  · rw [if_pos hn]
    obtain ⟨i, hi, hneg⟩ := hn
    exact ⟨i, hi, by dsimp only; rw [if_pos hneg]⟩
  · rw [if_neg hn]
    have hn' : ∀ i, Arr.Valid obs.shape i →
        ¬ (f (obs.get i) < 0 ∨ ∃ x ∈ fct.sliceAt k i, f x < 0) :=
      fun i hi hneg => hn ⟨i, hi, hneg⟩
    cases path <;>
    · refine ⟨rfl, fun i hi => ?_⟩
      dsimp only
      rw [if_neg (hn' i hi)]
      simp only [perSliceO, Arr.row_map, Arr.row_moveLast]
      rfl

theorem uvScoreO_slices_w {obs fct W : Arr XF} {m : ℤ} {k : ℕ} (path : Path) (f : XF → XF)
    (h : AxisIs m fct.ndim k) (hs : obs.shape = fct.shape.eraseIdx k) (hW : W.shape = fct.shape) :
    SliceBySlice (uvScoreO kg ka kgw kaw path obs fct f m (some W)) obs.shape fun i =>
      item (uvScoreO kg ka kgw kaw path (Arr.scalar (obs.get i)) (Arr.ofList (fct.sliceAt k i)) f
        (-1) (some (Arr.ofList (W.sliceAt k i)))) := by
  have e : ∀ i, item (uvScoreO kg ka kgw kaw path (Arr.scalar (obs.get i))
      (Arr.ofList (fct.sliceAt k i)) f (-1) (some (Arr.ofList (W.sliceAt k i)))) = _ := fun i =>
    uvO_some path _ (by rw [sliceAt_len, sliceAt_len, hW]) f
  simp only [e]
  unfold uvScoreO
  rw [arrayCheck_axis h hs]
  simp only [bind, Except.bind]
  rw [uvWeights_array f hs]
  by_cases hn : ∃ i, Arr.Valid obs.shape i ∧ (f (obs.get i) < 0 ∨ ∃ x ∈ fct.sliceAt k i, f x < 0)
  · rw [if_pos hn]
    obtain ⟨i, hi, hneg⟩ := hn
    exact ⟨i, hi, by dsimp only; rw [if_pos (Or.inl hneg)]⟩
  · rw [if_neg hn]
    dsimp only
    rw [weightCheck_axis h hW]
    by_cases hk : (W.moveLast k).Any (fun x => x < 0)
    · rw [if_pos hk]
      obtain ⟨i, hi, hneg⟩ := (uvW_any hs hW _).1 hk
      exact ⟨i, hi, by dsimp only; rw [if_pos (Or.inr hneg)]⟩
    · rw [if_neg hk]
      have hn' : ∀ i, Arr.Valid obs.shape i →
          ¬ ((f (obs.get i) < 0 ∨ ∃ x ∈ fct.sliceAt k i, f x < 0) ∨ ∃ x ∈ W.sliceAt k i, x < 0) := by
        rintro i hi (hneg | hneg)
        · exact hn ⟨i, hi, hneg⟩
        · exact hk ((uvW_any hs hW _).2 ⟨i, hi, hneg⟩)
      cases path <;>
      · refine ⟨rfl, fun i hi => ?_⟩
        dsimp only
        rw [if_neg (hn' i hi)]
        simp only [perSliceOW, Arr.row_map, Arr.row_moveLast, uvRow_norm]
        rfl

end uv
end Api
end Verif
