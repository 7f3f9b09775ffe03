import Verif.Lemmas.Sorting
import Verif.Spec.Slices

/-! Rows of arrays and the row-wise reading of the univariate API. -/

noncomputable section

open scoped Classical

namespace Verif

open XF Py

namespace Arr

variable {α β : Type}

theorem valid_append_iff {s : List ℕ} {n : ℕ} {i' : List ℕ} :
    Valid (s ++ [n]) i' ↔ ∃ i j, i' = i ++ [j] ∧ Valid s i ∧ j < n := by
  constructor
  · intro h
    induction s generalizing i' with
    | nil =>
      cases h with
      | cons h1 h2 =>
        cases h2
        exact ⟨[], _, rfl, List.Forall₂.nil, h1⟩
    | cons m s ih =>
      cases h with
      | cons h1 h2 =>
        obtain ⟨i, j, rfl, h3, h4⟩ := ih h2
        exact ⟨_ :: i, j, rfl, List.Forall₂.cons h1 h3, h4⟩
  · rintro ⟨i, j, rfl, h1, h2⟩
    exact List.rel_append h1 (List.Forall₂.cons h2 List.Forall₂.nil)

theorem Valid.length {s i : List ℕ} (h : Valid s i) : i.length = s.length := h.length_eq

theorem row_length {a : Arr α} {s : List ℕ} {n : ℕ} (hs : a.shape = s ++ [n]) (i : List ℕ) :
    (a.row i).length = n := by
  simp [row, hs]

theorem any_iff {a : Arr α} {s : List ℕ} {n : ℕ} (hs : a.shape = s ++ [n]) (p : α → Prop) :
    a.Any p ↔ ∃ i, Valid s i ∧ ∃ x ∈ a.row i, p x := by
  unfold Any
  rw [hs]
  constructor
  · rintro ⟨i', h, hp⟩
    obtain ⟨i, j, rfl, h1, h2⟩ := valid_append_iff.1 h
    refine ⟨i, h1, _, ?_, hp⟩
    simp only [row, hs, List.mem_map, List.mem_range]
    exact ⟨j, by simpa using h2, rfl⟩
  · rintro ⟨i, h1, x, hx, hp⟩
    simp only [row, hs, List.mem_map, List.mem_range] at hx
    obtain ⟨j, hj, rfl⟩ := hx
    exact ⟨i ++ [j], valid_append_iff.2 ⟨i, j, rfl, h1, by simpa using hj⟩, hp⟩

theorem row_map (a : Arr α) (f : α → β) (i : List ℕ) : (a.map f).row i = (a.row i).map f := by
  simp [row, map]

theorem map_range_eq {l : List XF} {n : ℕ} (h : l.length = n) :
    (List.range n).map (fun j => l.getD j nan) = l := by
  subst h
  apply List.ext_getElem
  · simp
  · intro j h1 h2
    simp [h2]

theorem row_mapRows {a : Arr XF} {s : List ℕ} {n : ℕ} (hs : a.shape = s ++ [n])
    (f : List XF → List XF) (i : List ℕ) (hf : (f (a.row i)).length = n) :
    (a.mapRows f).row i = f (a.row i) := by
  refine Eq.trans ?_ (map_range_eq hf)
  have h : (a.mapRows f).shape.getLastD 0 = n := by simp [mapRows, hs]
  rw [row, h]
  simp [mapRows]

theorem row_mapRows2 {a b : Arr XF} {s : List ℕ} {n : ℕ} (hs : a.shape = s ++ [n])
    (f : List XF → List XF → List XF) (i : List ℕ) (hf : (f (a.row i) (b.row i)).length = n) :
    (mapRows2 f a b).row i = f (a.row i) (b.row i) := by
  refine Eq.trans ?_ (map_range_eq hf)
  have h : (mapRows2 f a b).shape.getLastD 0 = n := by simp [mapRows2, hs]
  rw [row, h]
  simp [mapRows2]

theorem moveLast_shape (a : Arr α) (k : ℕ) :
    (a.moveLast k).shape = a.shape.eraseIdx k ++ [a.shape.getD k 0] := rfl

theorem row_moveLast (a : Arr α) (k : ℕ) (i : List ℕ) : (a.moveLast k).row i = a.sliceAt k i := by
  simp [row, moveLast, sliceAt]

theorem sliceAt_last {a : Arr α} {s : List ℕ} {n : ℕ} (hs : a.shape = s ++ [n]) {i : List ℕ}
    (hi : i.length = s.length) : a.sliceAt s.length i = a.row i := by
  simp only [sliceAt, row, hs]
  simp [← hi, List.insertIdx_length_self]

theorem moveLast_last_shape {a : Arr α} {s : List ℕ} {n : ℕ} (hs : a.shape = s ++ [n]) :
    (a.moveLast s.length).shape = s ++ [n] := by
  rw [moveLast_shape, hs]
  simp [List.eraseIdx_append_of_length_le]

theorem bshapeR_self (s : List ℕ) : bshapeR s s = some s := by
  induction s with
  | nil => rfl
  | cons a s ih => simp [bshapeR, ih]

theorem bshape_self (s : List ℕ) : bshape s s = some s := by
  simp [bshape, bshapeR_self]

theorem bget_self {a : Arr α} {i : List ℕ} (h : Valid a.shape i) : a.bget i = a.get i := by
  unfold bget ndim
  rw [h.length, Nat.sub_self, List.drop_zero]
  congr 1
  unfold Valid at h
  generalize a.shape = s at h
  induction h with
  | nil => rfl
  | cons h1 _ ih =>
    simp only [List.zipWith_cons_cons, ih]
    congr 1
    split_ifs with h
    · omega
    · rfl

end Arr

namespace Api

/-! ### the row-level computation -/

/-- `nan_policy` on one slice -/
def sliceNan (nanPolicy : String) (est : Option String) (y : XF) (xs : List XF)
    (ws : Option (List XF)) : Except Err (List XF × Option (List XF)) :=
  if nanPolicy = "propagate" then .ok (xs, ws)
  else if nanPolicy = "raise" then
    if (∃ x ∈ xs, x.isnan) ∨ (∃ w, ws = some w ∧ ∃ v ∈ w, v.isnan) ∨ y.isnan then .error .valueError
    else .ok (xs, ws)
  else if nanPolicy = "omit" then
    if est = some "int" ∨ est = some "akr" ∨ est = some "akr_circperm" then .error .notImplemented
    else .ok (xs.map (fun x => if x.isnan then 0 else x),
      some (match ws with
        | none => xs.map fun x => if x.isnan then 0 else 1
        | some w => List.zipWith (fun x v => if x.isnan ∨ v.isnan then 0 else v) xs w))
  else .error .valueError

/-- normalisation of a weight vector -/
def normW (r : List XF) : List XF := r.map fun v => v / r.sum

/-- everything after the NaN policy, on one slice -/
def sliceCore (path : Path) (est : String) (sorted : Bool) (y : XF) (xs : List XF)
    (ws : Option (List XF)) : Except Err XF :=
  let sortIt := !sorted && sortingEstimator est
  let xs' := if sortIt then gather xs (argsort xs) else xs
  match ws with
  | none => (kernel path est).map fun k => k y xs'
  | some w =>
    if ∃ v ∈ w, v < 0 then .error .valueError
    else
      let w' := if sortIt then gather (normW w) (argsort xs) else normW w
      if ∃ v ∈ w', v < 0 then .error .valueError
      else (kernelW path est).map fun k => k y xs' (normW w')

/-- `crps_ensemble` on one slice -/
def sliceScore (path : Path) (est : String) (sorted : Bool) (nanPolicy : String) (y : XF)
    (xs : List XF) (ws : Option (List XF)) : Except Err XF := do
  let (xs, ws) ← sliceNan nanPolicy (some est) y xs ws
  sliceCore path est sorted y xs ws

/-! ### the array pipeline, stage by stage -/

theorem weightCheck_last {w fct : Arr XF} {s : List ℕ} {n : ℕ} (hw : w.shape = s ++ [n])
    (hf : fct.shape = s ++ [n]) :
    univariateWeightCheck w fct (-1) =
      if ∃ i, Arr.Valid s i ∧ ∃ v ∈ w.row i, v < 0 then .error .valueError
      else .ok ((w.moveLast s.length).mapRows fun r => r.map fun v => v / r.sum) := by
  have hnd : fct.ndim = s.length + 1 := by simp [Arr.ndim, hf]
  have hnw : w.ndim = s.length + 1 := by simp [Arr.ndim, hw]
  have hm : w.moveaxisLast (s.length : ℤ) = .ok (w.moveLast s.length) := by
    unfold Arr.moveaxisLast
    have : (0 : ℤ) ≤ s.length := by positivity
    simp only [if_pos this, hnw]
    rw [if_pos (by constructor <;> push_cast <;> omega)]
    simp
  unfold univariateWeightCheck
  have e : (if (0 : ℤ) ≤ -1 then (-1 : ℤ) else (fct.ndim : ℤ) + -1) = s.length := by
    rw [if_neg (by omega), hnd]; push_cast; ring
  simp only [e, hm]
  have hsh := Arr.moveLast_last_shape hw
  have hany : (w.moveLast s.length).Any (fun v => v < 0) ↔
      ∃ i, Arr.Valid s i ∧ ∃ v ∈ w.row i, v < 0 := by
    rw [Arr.any_iff hsh]
    constructor
    · rintro ⟨i, hi, x, hx, h⟩
      rw [Arr.row_moveLast, Arr.sliceAt_last hw hi.length] at hx
      exact ⟨i, hi, x, hx, h⟩
    · rintro ⟨i, hi, x, hx, h⟩
      refine ⟨i, hi, x, ?_, h⟩
      rw [Arr.row_moveLast, Arr.sliceAt_last hw hi.length]
      exact hx
  show (if (w.moveLast s.length).shape ≠ fct.shape then _ else _) = _
  rw [if_neg (by rw [hsh, hf]; simp)]
  by_cases h : ∃ i, Arr.Valid s i ∧ ∃ v ∈ w.row i, v < 0
  · rw [if_pos (hany.2 h), if_pos h]
  · rw [if_neg (fun h' => h (hany.1 h')), if_neg h]

/-- the normalised weights array -/
theorem row_norm {w : Arr XF} {s : List ℕ} {n : ℕ} (hw : w.shape = s ++ [n]) {i : List ℕ}
    (hi : Arr.Valid s i) :
    ((w.moveLast s.length).mapRows fun r => r.map fun v => v / r.sum).row i = normW (w.row i) := by
  rw [Arr.row_mapRows (Arr.moveLast_last_shape hw), Arr.row_moveLast,
    Arr.sliceAt_last hw hi.length]
  · rfl
  · rw [List.length_map, Arr.row_length (Arr.moveLast_last_shape hw)]

/-- sorting and weighting stages of `crps_ensemble` -/
def coreArr (path : Path) (obs fct : Arr XF) (ensW : Option (Arr XF)) (est : String)
    (sorted : Bool) : Except Err (Arr XF) := do
  let (fct, ensW) ← univariateSortEns fct ensW (-1) est sorted
  match ensW with
  | none => (kernel path est).map fun k => perSlice k obs fct
  | some w =>
    let w ← univariateWeightCheck w fct (-1)
    (kernelW path est).map fun k => perSliceW k obs fct w

theorem sorted_row {fct : Arr XF} {s : List ℕ} {n : ℕ} (hf : fct.shape = s ++ [n]) (i : List ℕ) :
    (fct.mapRows fun r => gather r (argsort r)).row i = gather (fct.row i) (argsort (fct.row i)) := by
  apply Arr.row_mapRows hf
  rw [gather_length, argsort_length, Arr.row_length hf]

theorem coreArr_none {obs fct : Arr XF} {s : List ℕ} {n : ℕ} (ho : obs.shape = s)
    (hf : fct.shape = s ++ [n]) (path : Path) (est : String) (sorted : Bool) {out : Arr XF}
    (h : coreArr path obs fct none est sorted = .ok out) :
    out.shape = s ∧ ∀ i, Arr.Valid s i →
      sliceCore path est sorted (obs.get i) (fct.row i) none = .ok (out.get i) := by
  unfold coreArr univariateSortEns at h
  simp only [bind, Except.bind] at h
  unfold sliceCore
  cases hk : kernel path est with
  | error e => rw [hk] at h; simp [Except.map] at h
  | ok k =>
    rw [hk] at h
    simp only [Except.map, Except.ok.injEq] at h
    subst h
    refine ⟨ho, fun i _ => ?_⟩
    simp only [Except.map, perSlice]
    congr 2
    split_ifs
    · rw [sorted_row hf]
    · rfl

theorem coreArr_some {obs fct w : Arr XF} {s : List ℕ} {n : ℕ} (ho : obs.shape = s)
    (hf : fct.shape = s ++ [n]) (hw : w.shape = s ++ [n]) (path : Path) (est : String)
    (sorted : Bool) {out : Arr XF} (h : coreArr path obs fct (some w) est sorted = .ok out) :
    out.shape = s ∧ ∀ i, Arr.Valid s i →
      sliceCore path est sorted (obs.get i) (fct.row i) (some (w.row i)) = .ok (out.get i) := by
  unfold coreArr univariateSortEns at h
  simp only [bind, Except.bind] at h
  set sortIt := !sorted && sortingEstimator est with hsort
  set fct' := if sortIt = true then fct.mapRows (fun r => gather r (argsort r)) else fct with hfct'
  have hf' : fct'.shape = s ++ [n] := by
    rw [hfct']; split_ifs
    · exact hf
    · exact hf
  rw [weightCheck_last hw hf'] at h
  by_cases hneg : ∃ i, Arr.Valid s i ∧ ∃ v ∈ w.row i, v < 0
  · rw [if_pos hneg] at h; simp at h
  rw [if_neg hneg] at h
  simp only at h
  set w1 := ((w.moveLast s.length).mapRows fun r => r.map fun v => v / r.sum) with hw1
  set w2 := if sortIt = true then Arr.mapRows2 (fun rw rf => gather rw (argsort rf)) w1 fct else w1
    with hw2
  have hw1s : w1.shape = s ++ [n] := Arr.moveLast_last_shape hw
  have hw2s : w2.shape = s ++ [n] := by
    rw [hw2]; split_ifs
    · exact hw1s
    · exact hw1s
  have hw2r : ∀ i, Arr.Valid s i → w2.row i =
      if sortIt = true then gather (normW (w.row i)) (argsort (fct.row i)) else normW (w.row i) := by
    intro i hi
    rw [hw2]
    split_ifs
    · rw [Arr.row_mapRows2 hw1s, row_norm hw hi]
      rw [gather_length, argsort_length, Arr.row_length hf]
    · exact row_norm hw hi
  rw [weightCheck_last hw2s hf'] at h
  by_cases hneg2 : ∃ i, Arr.Valid s i ∧ ∃ v ∈ w2.row i, v < 0
  · rw [if_pos hneg2] at h; simp at h
  rw [if_neg hneg2] at h
  simp only at h
  cases hk : kernelW path est with
  | error e => rw [hk] at h; simp [Except.map] at h
  | ok k =>
    rw [hk] at h
    simp only [Except.map, Except.ok.injEq] at h
    subst h
    refine ⟨ho, fun i hi => ?_⟩
    unfold sliceCore
    simp only
    rw [if_neg (fun h' => hneg ⟨i, hi, h'⟩)]
    rw [← hsort, ← hw2r i hi, if_neg (fun h' => hneg2 ⟨i, hi, h'⟩), hk]
    simp only [Except.map, perSliceW]
    rw [row_norm hw2s hi]
    congr 2
    rw [hfct']
    split_ifs
    · rw [sorted_row hf]
    · rfl

end Api
end Verif
