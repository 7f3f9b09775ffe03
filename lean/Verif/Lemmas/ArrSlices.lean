import Verif.Lemmas.ArrRows

/-! `crps_ensemble` on arrays, read slice by slice. -/

noncomputable section

open scoped Classical

namespace Verif

open XF Py

open Spec (AxisIs WShape)

namespace Api

theorem coreArr_none_error {obs fct : Arr XF} {s : List ℕ} {n : ℕ}
    (_hf : fct.shape = s ++ [n]) (path : Path) (est : String) (sorted : Bool) {e : Err}
    (h : coreArr path obs fct none est sorted = .error e) (i : List ℕ) :
      sliceCore path est sorted (obs.get i) (fct.row i) none = .error e := by
  unfold coreArr univariateSortEns at h
  simp only [bind, Except.bind] at h
  unfold sliceCore
  cases hk : kernel path est with
  | error e' => rw [hk] at h; simp [Except.map] at h ⊢; exact h
  | ok k => rw [hk] at h; simp [Except.map] at h

theorem coreArr_some_error {obs fct w : Arr XF} {s : List ℕ} {n : ℕ}
    (hf : fct.shape = s ++ [n]) (hw : w.shape = s ++ [n]) (path : Path) (est : String)
    (sorted : Bool) {e : Err} (h : coreArr path obs fct (some w) est sorted = .error e)
    (hne : ∃ i, Arr.Valid s i) :
    ∃ i, Arr.Valid s i ∧
      sliceCore path est sorted (obs.get i) (fct.row i) (some (w.row i)) = .error e := by
  unfold coreArr univariateSortEns at h
  simp only [bind, Except.bind] at h
  set sortIt := !sorted && sortingEstimator est with hsort
  set fct' := if sortIt = true then fct.mapRows (fun r => gather r (argsort r)) else fct with hfct'
  have hf' : fct'.shape = s ++ [n] := by
    rw [hfct']; split_ifs
    · exact hf
    · exact hf
  rw [weightCheck_last hw hf'] at h
  by_cases hneg : ∃ i, Arr.Valid s i ∧ ∃ v ∈ w.row i, v < 0
  · rw [if_pos hneg] at h
    simp only [Except.error.injEq] at h
    obtain ⟨i, hi, hv⟩ := hneg
    refine ⟨i, hi, ?_⟩
    unfold sliceCore
    simp only
    rw [if_pos hv, h]
  rw [if_neg hneg] at h
  simp only at h
  set w1 := ((w.moveLast s.length).mapRows fun r => r.map fun v => v / r.sum) with hw1
  set w2 := if sortIt = true then Arr.mapRows2 (fun rw rf => gather rw (argsort rf)) w1 fct else w1
    with hw2
  have hw1s : w1.shape = s ++ [n] := Arr.moveLast_last_shape hw
  have hw2s : w2.shape = s ++ [n] := by
    rw [hw2]; split_ifs
    · exact hw1s
    · exact hw1s
  have hw2r : ∀ i, Arr.Valid s i → w2.row i =
      if sortIt = true then gather (normW (w.row i)) (argsort (fct.row i)) else normW (w.row i) := by
    intro i hi
    rw [hw2]
    split_ifs
    · rw [Arr.row_mapRows2 hw1s, row_norm hw hi]
      rw [gather_length, argsort_length, Arr.row_length hf]
    · exact row_norm hw hi
  rw [weightCheck_last hw2s hf'] at h
  by_cases hneg2 : ∃ i, Arr.Valid s i ∧ ∃ v ∈ w2.row i, v < 0
  · rw [if_pos hneg2] at h
    simp only [Except.error.injEq] at h
    obtain ⟨i, hi, hv⟩ := hneg2
    refine ⟨i, hi, ?_⟩
    unfold sliceCore
    simp only
    rw [if_neg (fun h' => hneg ⟨i, hi, h'⟩)]
    rw [← hsort, ← hw2r i hi, if_pos hv, h]
  rw [if_neg hneg2] at h
  simp only at h
  obtain ⟨i, hi⟩ := hne
  refine ⟨i, hi, ?_⟩
  unfold sliceCore
  simp only
  rw [if_neg (fun h' => hneg ⟨i, hi, h'⟩)]
  rw [← hsort, ← hw2r i hi, if_neg (fun h' => hneg2 ⟨i, hi, h'⟩)]
  cases hk : kernelW path est with
  | error e' => rw [hk] at h; simp [Except.map] at h ⊢; exact h
  | ok k => rw [hk] at h; simp [Except.map] at h

/-! ### the NaN policy -/

/-- `apply_nan_policy_ens_uv` after the weight axis has been moved -/
def nanStage (obs fct : Arr XF) (nanPolicy : String) (ensW : Option (Arr XF))
    (estimator : Option String) : Except Err (Arr XF × Option (Arr XF)) := do
  if nanPolicy = "propagate" then .ok (fct, ensW)
  else
    let mask ← nanMask fct ensW
    if nanPolicy = "raise" then
      if mask.Any (fun p => p) ∨ obs.Any (fun x => x.isnan) then .error .valueError
      else .ok (fct, ensW)
    else if nanPolicy = "omit" then
      if estimator = some "int" ∨ estimator = some "akr" ∨ estimator = some "akr_circperm" then
        .error .notImplemented
      else
        let fct' := fct.map fun x => if x.isnan then 0 else x
        match ensW with
        | none => .ok (fct', some (mask.map fun p => if p then 0 else 1))
        | some w => (whereZero mask w).map fun w' => (fct', some w')
    else .error .valueError

theorem nanMask_some {fct w : Arr XF} {s : List ℕ} (hf : fct.shape = s) (hw : w.shape = s) :
    ∃ m : Arr Prop, nanMask fct (some w) = .ok m ∧ m.shape = s ∧
      ∀ i, Arr.Valid s i → (m.get i ↔ ((fct.get i).isnan ∨ (w.get i).isnan)) := by
  simp only [nanMask, Arr.map2, hf, hw, Arr.bshape_self]
  refine ⟨_, rfl, rfl, fun i hi => ?_⟩
  dsimp only
  rw [Arr.bget_self (by rw [hf]; exact hi), Arr.bget_self (by rw [hw]; exact hi)]

theorem whereZero_same {m : Arr Prop} {w : Arr XF} {s : List ℕ} (hm : m.shape = s)
    (hw : w.shape = s) :
    ∃ w' : Arr XF, whereZero m w = .ok w' ∧ w'.shape = s ∧
      ∀ i, Arr.Valid s i → w'.get i = if m.get i then 0 else w.get i := by
  simp only [whereZero, hm, hw, Arr.bshape_self]
  refine ⟨_, rfl, rfl, fun i hi => ?_⟩
  dsimp only
  rw [Arr.bget_self (by rw [hm]; exact hi), Arr.bget_self (by rw [hw]; exact hi)]

theorem row_eq_zipWith {a b c : Arr XF} {s : List ℕ} {n : ℕ} (ha : a.shape = s ++ [n])
    (hb : b.shape = s ++ [n]) (hc : c.shape = s ++ [n]) (f : XF → XF → XF)
    (h : ∀ i, Arr.Valid (s ++ [n]) i → c.get i = f (a.get i) (b.get i)) {i : List ℕ}
    (hi : Arr.Valid s i) : c.row i = List.zipWith f (a.row i) (b.row i) := by
  apply List.ext_getElem
  · simp [Arr.row_length ha, Arr.row_length hb, Arr.row_length hc]
  · intro j h1 h2
    rw [Arr.row_length hc] at h1
    simp only [List.getElem_zipWith]
    simp only [Arr.row, List.getElem_map, List.getElem_range]
    exact h _ (Arr.valid_append_iff.2 ⟨i, j, rfl, hi, h1⟩)

theorem nanStage_ok {obs fct : Arr XF} {W : Option (Arr XF)} {s : List ℕ} {n : ℕ}
    (ho : obs.shape = s) (hf : fct.shape = s ++ [n]) (hw : WShape W (s ++ [n])) (np : String)
    (est : Option String) {f' : Arr XF} {W' : Option (Arr XF)}
    (h : nanStage obs fct np W est = .ok (f', W')) :
    f'.shape = s ++ [n] ∧ WShape W' (s ++ [n]) ∧
      ∀ i, Arr.Valid s i → sliceNan np est (obs.get i) (fct.row i) (W.map fun w => w.row i) =
        .ok (f'.row i, W'.map fun w => w.row i) := by
  unfold nanStage at h
  unfold sliceNan
  by_cases h1 : np = "propagate"
  · rw [if_pos h1] at h
    simp only [Except.ok.injEq, Prod.mk.injEq] at h
    obtain ⟨rfl, rfl⟩ := h
    exact ⟨hf, hw, fun i hi => by rw [if_pos h1]⟩
  rw [if_neg h1] at h
  by_cases h2 : np = "raise"
  · have h1' := h1
    cases W with
    | none =>
      simp only [nanMask, bind, Except.bind] at h
      rw [if_pos h2] at h
      split_ifs at h with h3
      simp only [Except.ok.injEq, Prod.mk.injEq] at h
      obtain ⟨rfl, rfl⟩ := h
      push Not at h3
      refine ⟨hf, hw, fun i hi => ?_⟩
      rw [if_neg h1, if_pos h2, if_neg]
      · simp only [Option.map_none, reduceCtorEq, false_and, exists_false, false_or, not_or]
        constructor
        · rintro ⟨x, hx, hn⟩
          apply h3.1
          rw [Arr.any_iff (s := s) (n := n) (by simp [Arr.map, hf])]
          refine ⟨i, hi, x.isnan, ?_, hn⟩
          rw [Arr.row_map]
          exact List.mem_map_of_mem hx
        · intro hn
          exact h3.2 ⟨i, by rw [ho]; exact hi, hn⟩
    | some w =>
      obtain ⟨m, hm, hms, hmg⟩ := nanMask_some hf (hw w rfl)
      rw [hm] at h
      simp only [bind, Except.bind] at h
      rw [if_pos h2] at h
      split_ifs at h with h3
      simp only [Except.ok.injEq, Prod.mk.injEq] at h
      obtain ⟨rfl, rfl⟩ := h
      push Not at h3
      refine ⟨hf, hw, fun i hi => ?_⟩
      rw [if_neg h1, if_pos h2, if_neg]
      · simp only [Option.map_some, Option.some.injEq, exists_eq_left', not_or]
        refine ⟨?_, ?_, ?_⟩
        · rintro ⟨x, hx, hn⟩
          apply h3.1
          simp only [Arr.row, List.mem_map, List.mem_range, hf] at hx
          obtain ⟨j, hj, rfl⟩ := hx
          have hv : Arr.Valid (s ++ [n]) (i ++ [j]) :=
            Arr.valid_append_iff.2 ⟨i, j, rfl, hi, by simpa using hj⟩
          exact ⟨_, by rw [hms]; exact hv, (hmg _ hv).2 (Or.inl hn)⟩
        · rintro ⟨x, hx, hn⟩
          apply h3.1
          simp only [Arr.row, List.mem_map, List.mem_range, hw w rfl] at hx
          obtain ⟨j, hj, rfl⟩ := hx
          have hv : Arr.Valid (s ++ [n]) (i ++ [j]) :=
            Arr.valid_append_iff.2 ⟨i, j, rfl, hi, by simpa using hj⟩
          exact ⟨_, by rw [hms]; exact hv, (hmg _ hv).2 (Or.inr hn)⟩
        · intro hn
          exact h3.2 ⟨i, by rw [ho]; exact hi, hn⟩
  by_cases h3 : np = "omit"
  · cases W with
    | none =>
      simp only [nanMask, bind, Except.bind] at h
      rw [if_neg h2, if_pos h3] at h
      split_ifs at h with h4
      simp only [Except.ok.injEq, Prod.mk.injEq] at h
      obtain ⟨rfl, rfl⟩ := h
      refine ⟨hf, ?_, fun i hi => ?_⟩
      · rintro w hw'
        simp only [Option.some.injEq] at hw'
        subst hw'
        exact hf
      · rw [if_neg h1, if_neg h2, if_pos h3, if_neg h4]
        simp only [Arr.row_map, Option.map_none, Option.map_some, List.map_map]
        rfl
    | some w =>
      obtain ⟨m, hm, hms, hmg⟩ := nanMask_some hf (hw w rfl)
      rw [hm] at h
      simp only [bind, Except.bind] at h
      rw [if_neg h2, if_pos h3] at h
      split_ifs at h with h4
      obtain ⟨w', hw', hws, hwg⟩ := whereZero_same hms (hw w rfl)
      rw [hw'] at h
      simp only [Except.map, Except.ok.injEq, Prod.mk.injEq] at h
      obtain ⟨rfl, rfl⟩ := h
      refine ⟨hf, ?_, fun i hi => ?_⟩
      · rintro w hw'
        simp only [Option.some.injEq] at hw'
        subst hw'
        exact hws
      · rw [if_neg h1, if_neg h2, if_pos h3, if_neg h4]
        simp only [Arr.row_map, Option.map_some]
        rw [row_eq_zipWith hf (hw w rfl) hws (fun x v => if x.isnan ∨ v.isnan then 0 else v) ?_ hi]
        intro i' hi'
        rw [hwg i' hi']
        simp only [hmg i' hi']
  · exfalso
    cases W with
    | none =>
      simp only [nanMask, bind, Except.bind] at h
      rw [if_neg h2, if_neg h3] at h
      simp at h
    | some w =>
      obtain ⟨m, hm, hms, hmg⟩ := nanMask_some hf (hw w rfl)
      rw [hm] at h
      simp only [bind, Except.bind] at h
      rw [if_neg h2, if_neg h3] at h
      simp at h

theorem nanStage_error {obs fct : Arr XF} {W : Option (Arr XF)} {s : List ℕ} {n : ℕ}
    (ho : obs.shape = s) (hf : fct.shape = s ++ [n]) (hw : WShape W (s ++ [n])) (np : String)
    (est : Option String) {e : Err} (h : nanStage obs fct np W est = .error e)
    (hne : np ≠ "raise" → ∃ i, Arr.Valid s i) :
    ∃ i, Arr.Valid s i ∧ sliceNan np est (obs.get i) (fct.row i) (W.map fun w => w.row i) =
        .error e := by
  unfold nanStage at h
  unfold sliceNan
  by_cases h1 : np = "propagate"
  · rw [if_pos h1] at h
    simp at h
  rw [if_neg h1] at h
  simp only [if_neg h1]
  by_cases h2 : np = "raise"
  · simp only [if_pos h2]
    cases W with
    | none =>
      simp only [nanMask, bind, Except.bind] at h
      rw [if_pos h2] at h
      split_ifs at h with h3
      simp only [Except.error.injEq] at h
      subst h
      rcases h3 with h3 | h3
      · rw [Arr.any_iff (s := s) (n := n) (by simp [Arr.map, hf])] at h3
        obtain ⟨i, hi, p, hp, hp'⟩ := h3
        rw [Arr.row_map, List.mem_map] at hp
        obtain ⟨x, hx, rfl⟩ := hp
        exact ⟨i, hi, by rw [if_pos (Or.inl ⟨x, hx, hp'⟩)]⟩
      · obtain ⟨i, hi, hn⟩ := h3
        rw [ho] at hi
        exact ⟨i, hi, by rw [if_pos (Or.inr (Or.inr hn))]⟩
    | some w =>
      obtain ⟨m, hm, hms, hmg⟩ := nanMask_some hf (hw w rfl)
      rw [hm] at h
      simp only [bind, Except.bind] at h
      rw [if_pos h2] at h
      split_ifs at h with h3
      simp only [Except.error.injEq] at h
      subst h
      rcases h3 with ⟨i', hi', h3⟩ | h3
      · rw [hms] at hi'
        rw [hmg _ hi'] at h3
        obtain ⟨i, j, rfl, hi, hj⟩ := Arr.valid_append_iff.1 hi'
        refine ⟨i, hi, ?_⟩
        rw [if_pos]
        rcases h3 with h3 | h3
        · refine Or.inl ⟨_, ?_, h3⟩
          simp only [Arr.row, List.mem_map, List.mem_range, hf]
          exact ⟨j, by simpa using hj, rfl⟩
        · refine Or.inr (Or.inl ⟨_, rfl, _, ?_, h3⟩)
          simp only [Arr.row, List.mem_map, List.mem_range, hw w rfl]
          exact ⟨j, by simpa using hj, rfl⟩
      · obtain ⟨i, hi, hn⟩ := h3
        rw [ho] at hi
        exact ⟨i, hi, by rw [if_pos (Or.inr (Or.inr hn))]⟩
  simp only [if_neg h2]
  obtain ⟨i, hi⟩ := hne h2
  refine ⟨i, hi, ?_⟩
  by_cases h3 : np = "omit"
  · rw [if_pos h3]
    cases W with
    | none =>
      simp only [nanMask, bind, Except.bind] at h
      rw [if_neg h2, if_pos h3] at h
      split_ifs at h ⊢ with h4
      · injection h with h; rw [h]
    | some w =>
      obtain ⟨m, hm, hms, hmg⟩ := nanMask_some hf (hw w rfl)
      rw [hm] at h
      simp only [bind, Except.bind] at h
      rw [if_neg h2, if_pos h3] at h
      split_ifs at h ⊢ with h4
      · injection h with h; rw [h]
      · obtain ⟨w', hw', hws, hwg⟩ := whereZero_same hms (hw w rfl)
        rw [hw'] at h
        simp [Except.map] at h
  · rw [if_neg h3]
    cases W with
    | none =>
      simp only [nanMask, bind, Except.bind] at h
      rw [if_neg h2, if_neg h3] at h
      injection h with h; rw [h]
    | some w =>
      obtain ⟨m, hm, hms, hmg⟩ := nanMask_some hf (hw w rfl)
      rw [hm] at h
      simp only [bind, Except.bind] at h
      rw [if_neg h2, if_neg h3] at h
      injection h with h; rw [h]

/-! ### the axis argument -/

theorem moveaxisLast_axis {α : Type} {a : Arr α} {m : ℤ} {k : ℕ} (h : AxisIs m a.ndim k) :
    a.moveaxisLast m = .ok (a.moveLast k) := by
  obtain ⟨h1, h2⟩ := h
  unfold Arr.moveaxisLast
  have : (if 0 ≤ m then m else (a.ndim : ℤ) + m) = k := by
    rcases h2 with h2 | h2
    · rw [if_pos (by omega)]; exact h2
    · rw [if_neg (by omega)]; omega
  simp only [this]
  rw [if_pos (by omega)]
  simp

theorem arrayCheck_axis {obs fct : Arr XF} {m : ℤ} {k : ℕ} (h : AxisIs m fct.ndim k)
    (hs : obs.shape = fct.shape.eraseIdx k) :
    univariateArrayCheck obs fct m = .ok (fct.moveLast k) := by
  have hk := h.1
  have hm : (if 0 ≤ m then m else (fct.ndim : ℤ) + m) = k := by
    rcases h.2 with h2 | h2
    · rw [if_pos (by omega)]; exact h2
    · rw [if_neg (by omega)]; omega
  have hk' : k < fct.shape.length := hk
  unfold univariateArrayCheck
  simp only [hm]
  have : shapeCheck obs fct (k : ℤ) = .ok () := by
    unfold shapeCheck Arr.pyGet Arr.pyTo Arr.pyFrom
    have h0 : (0 : ℤ) ≤ k := by omega
    simp only [h0, if_true, Int.toNat_natCast]
    rw [List.getElem?_eq_getElem hk']
    simp only
    rw [if_neg]
    push Not
    rw [hs, List.eraseIdx_eq_take_drop_succ]
    rw [List.take_append_of_le_length (by simp; omega), List.take_take, min_self]
    rw [List.drop_append, List.length_take, min_eq_left hk'.le, Nat.sub_self, List.drop_zero]
    rw [List.drop_eq_nil_of_le (by simp), List.nil_append]
    rw [List.append_assoc, List.singleton_append, ← List.drop_eq_getElem_cons hk']
    exact List.take_append_drop k _
  rw [this]
  simp only [bind, Except.bind]
  rw [if_pos (by omega)]
  apply moveaxisLast_axis
  exact ⟨hk, Or.inl rfl⟩

theorem crpsEnsemble_eq {obs fct : Arr XF} {m : ℤ} {k : ℕ} {W : Option (Arr XF)}
    (h : AxisIs m fct.ndim k) (hs : obs.shape = fct.shape.eraseIdx k)
    (hw : WShape W fct.shape) (path : Path) (est : String) (sorted : Bool) (np : String) :
    crpsEnsemble path obs fct m W est sorted np =
      (nanStage obs (fct.moveLast k) np (W.map fun w => w.moveLast k) (some est) >>= fun p =>
        coreArr path obs p.1 p.2 est sorted) := by
  unfold crpsEnsemble
  rw [arrayCheck_axis h hs]
  simp only [bind, Except.bind]
  have : applyNanPolicy obs (fct.moveLast k) np W (some est) m =
      nanStage obs (fct.moveLast k) np (W.map fun w => w.moveLast k) (some est) := by
    unfold applyNanPolicy nanStage
    cases W with
    | none => rfl
    | some w =>
      simp only
      rw [moveaxisLast_axis (k := k) (by unfold Arr.ndim; rw [hw w rfl]; exact h)]
      rfl
  rw [this]
  rfl

theorem crpsEnsemble_ok {obs fct : Arr XF} {m : ℤ} {k : ℕ} {W : Option (Arr XF)}
    (h : AxisIs m fct.ndim k) (hs : obs.shape = fct.shape.eraseIdx k)
    (hw : WShape W fct.shape) {path : Path} {est : String} {sorted : Bool} {np : String}
    {out : Arr XF} (ho : crpsEnsemble path obs fct m W est sorted np = .ok out) :
    out.shape = obs.shape ∧ ∀ i, Arr.Valid obs.shape i →
      sliceScore path est sorted np (obs.get i) (fct.sliceAt k i) (W.map fun w => w.sliceAt k i) =
        .ok (out.get i) := by
  rw [crpsEnsemble_eq h hs hw] at ho
  have hf : (fct.moveLast k).shape = obs.shape ++ [fct.shape.getD k 0] := by
    rw [Arr.moveLast_shape, hs]
  have hw' : WShape (W.map fun w => w.moveLast k) (obs.shape ++ [fct.shape.getD k 0]) := by
    intro w hw'
    rw [Option.map_eq_some_iff] at hw'
    obtain ⟨w0, hw0, rfl⟩ := hw'
    rw [Arr.moveLast_shape, hw w0 hw0, hs]
  cases hn : nanStage obs (fct.moveLast k) np (W.map fun w => w.moveLast k) (some est) with
  | error e => rw [hn] at ho; simp [bind, Except.bind] at ho
  | ok p =>
    obtain ⟨f', W'⟩ := p
    rw [hn] at ho
    simp only [bind, Except.bind] at ho
    obtain ⟨hf', hW', hrow⟩ := nanStage_ok rfl hf hw' np (some est) hn
    have hrow' : ∀ i, Arr.Valid obs.shape i →
        sliceNan np (some est) (obs.get i) (fct.sliceAt k i) (W.map fun w => w.sliceAt k i) =
        .ok (f'.row i, W'.map fun w => w.row i) := by
      intro i hi
      rw [← hrow i hi, Arr.row_moveLast, Option.map_map]
      congr 2
      funext w
      exact (Arr.row_moveLast w k i).symm
    cases W' with
    | none =>
      obtain ⟨h1, h2⟩ := coreArr_none rfl hf' path est sorted ho
      refine ⟨h1, fun i hi => ?_⟩
      unfold sliceScore
      rw [hrow' i hi]
      exact h2 i hi
    | some w =>
      obtain ⟨h1, h2⟩ := coreArr_some rfl hf' (hW' w rfl) path est sorted ho
      refine ⟨h1, fun i hi => ?_⟩
      unfold sliceScore
      rw [hrow' i hi]
      exact h2 i hi

theorem crpsEnsemble_error {obs fct : Arr XF} {m : ℤ} {k : ℕ} {W : Option (Arr XF)}
    (h : AxisIs m fct.ndim k) (hs : obs.shape = fct.shape.eraseIdx k)
    (hw : WShape W fct.shape) {path : Path} {est : String} {sorted : Bool} {np : String}
    {e : Err} (ho : crpsEnsemble path obs fct m W est sorted np = .error e)
    (hne : ∃ i, Arr.Valid obs.shape i) :
    ∃ i, Arr.Valid obs.shape i ∧
      sliceScore path est sorted np (obs.get i) (fct.sliceAt k i) (W.map fun w => w.sliceAt k i) =
        .error e := by
  rw [crpsEnsemble_eq h hs hw] at ho
  have hf : (fct.moveLast k).shape = obs.shape ++ [fct.shape.getD k 0] := by
    rw [Arr.moveLast_shape, hs]
  have hw' : WShape (W.map fun w => w.moveLast k) (obs.shape ++ [fct.shape.getD k 0]) := by
    intro w hw'
    rw [Option.map_eq_some_iff] at hw'
    obtain ⟨w0, hw0, rfl⟩ := hw'
    rw [Arr.moveLast_shape, hw w0 hw0, hs]
  have hsl : ∀ i, ((W.map fun w => w.moveLast k).map fun w => w.row i) =
      W.map fun w => w.sliceAt k i := by
    intro i
    rw [Option.map_map]
    congr 1
    funext w
    exact Arr.row_moveLast w k i
  cases hn : nanStage obs (fct.moveLast k) np (W.map fun w => w.moveLast k) (some est) with
  | error e' =>
    rw [hn] at ho
    simp only [bind, Except.bind, Except.error.injEq] at ho
    subst ho
    obtain ⟨i, hi, h1⟩ := nanStage_error rfl hf hw' np (some est) hn fun _ => hne
    rw [hsl, Arr.row_moveLast] at h1
    refine ⟨i, hi, ?_⟩
    unfold sliceScore
    rw [h1]
    rfl
  | ok p =>
    obtain ⟨f', W'⟩ := p
    rw [hn] at ho
    simp only [bind, Except.bind] at ho
    obtain ⟨hf', hW', hrow⟩ := nanStage_ok rfl hf hw' np (some est) hn
    have hrow' : ∀ i, Arr.Valid obs.shape i →
        sliceNan np (some est) (obs.get i) (fct.sliceAt k i) (W.map fun w => w.sliceAt k i) =
        .ok (f'.row i, W'.map fun w => w.row i) := by
      intro i hi
      rw [← hrow i hi, Arr.row_moveLast, hsl]
    cases W' with
    | none =>
      obtain ⟨i, hi⟩ := hne
      refine ⟨i, hi, ?_⟩
      unfold sliceScore
      rw [hrow' i hi]
      exact coreArr_none_error hf' path est sorted ho i
    | some w =>
      obtain ⟨i, hi, h1⟩ := coreArr_some_error hf' (hW' w rfl) path est sorted ho hne
      refine ⟨i, hi, ?_⟩
      unfold sliceScore
      rw [hrow' i hi]
      exact h1

/-! ### one-dimensional data -/

theorem sliceAt_ofList (l : List XF) : (Arr.ofList l).sliceAt 0 [] = l := by
  unfold Arr.sliceAt Arr.ofList
  simp only [List.getD_cons_zero, List.insertIdx_zero, List.headD_cons]
  exact Arr.map_range_eq rfl

/-- `crps_ensemble` on one-dimensional data is the row-level computation. -/
theorem crps1_eq (path : Path) (est : String) (sorted : Bool) (np : String) (y : XF)
    (xs : List XF) (ws : Option (List XF)) (hlen : ∀ w, ws = some w → w.length = xs.length) :
    crps1 path est sorted np y xs ws = sliceScore path est sorted np y xs ws := by
  have h : AxisIs (-1) (Arr.ofList xs).ndim 0 := by
    constructor <;> simp [Arr.ndim, Arr.ofList]
  have hs : (Arr.scalar y).shape = (Arr.ofList xs).shape.eraseIdx 0 := rfl
  have hw : WShape (ws.map Arr.ofList) (Arr.ofList xs).shape := by
    intro w hw
    rw [Option.map_eq_some_iff] at hw
    obtain ⟨l, hl, rfl⟩ := hw
    simp [Arr.ofList, hlen l hl]
  have hv : Arr.Valid (Arr.scalar y).shape [] := List.Forall₂.nil
  have hws : ((ws.map Arr.ofList).map fun w => w.sliceAt 0 []) = ws := by
    cases ws with
    | none => rfl
    | some w => simp [sliceAt_ofList]
  unfold crps1
  cases hc : crpsEnsemble path (Arr.scalar y) (Arr.ofList xs) (-1) (ws.map Arr.ofList) est sorted np
    with
  | ok out =>
    have := (crpsEnsemble_ok h hs hw hc).2 [] hv
    rw [hws, sliceAt_ofList] at this
    exact this.symm
  | error e =>
    obtain ⟨i, hi, h1⟩ := crpsEnsemble_error h hs hw hc ⟨[], hv⟩
    cases hi
    rw [hws, sliceAt_ofList] at h1
    exact h1.symm

end Api
end Verif
