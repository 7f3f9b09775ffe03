import Verif.Lemmas.CrpsNan
import Verif.Props.Crps2
import Verif.Props.CrpsArr

/-!
# Properties C11 and C12: missing values

A missing value is `none`; `o.elim nan fin` is the float that represents it.
-/

noncomputable section

open scoped Classical

namespace Verif

open XF Py Api

/-! ### C12 -/

/-- Specification: a slice contains a NaN. -/
def Spec.HasNan (y : XF) (xs : List XF) (ws : Option (List XF)) : Prop :=
  y = nan ∨ nan ∈ xs ∨ ∃ w, ws = some w ∧ nan ∈ w

theorem sliceNan_raise_nan {est : Option String} {y : XF} {xs : List XF} {ws : Option (List XF)}
    (h : Spec.HasNan y xs ws) : sliceNan "raise" est y xs ws = .error .valueError := by
  unfold sliceNan
  rw [if_neg (by decide), if_pos rfl, if_pos]
  rcases h with h | h | ⟨w, h1, h2⟩
  · right; right; rw [h]; simp
  · left; exact ⟨nan, h, by simp⟩
  · right; left; exact ⟨w, h1, nan, h2, by simp⟩

theorem nanStage_raise_error {obs fct : Arr XF} {W : Option (Arr XF)} {est : Option String}
    {e : Err} (hW : Spec.WShape W fct.shape)
    (h : nanStage obs fct "raise" W est = .error e) : e = .valueError := by
  unfold nanStage at h
  rw [if_neg (by decide)] at h
  have hm : ∃ m, nanMask fct W = .ok m := by
    cases W with
    | none => exact ⟨_, rfl⟩
    | some w =>
      obtain ⟨m, hm, _⟩ := nanMask_some rfl (hW w rfl)
      exact ⟨m, hm⟩
  obtain ⟨m, hm⟩ := hm
  rw [hm] at h
  simp only [bind, Except.bind] at h
  rw [if_pos trivial] at h
  split_ifs at h with h1
  injection h with h
  exact h.symm

theorem nanStage_raise_ok {obs fct : Arr XF} {W : Option (Arr XF)} {est : Option String}
    {r : Arr XF × Option (Arr XF)} (hW : Spec.WShape W fct.shape)
    (h : nanStage obs fct "raise" W est = .ok r) : r = (fct, W) := by
  unfold nanStage at h
  rw [if_neg (by decide)] at h
  have hm : ∃ m, nanMask fct W = .ok m := by
    cases W with
    | none => exact ⟨_, rfl⟩
    | some w =>
      obtain ⟨m, hm, _⟩ := nanMask_some rfl (hW w rfl)
      exact ⟨m, hm⟩
  obtain ⟨m, hm⟩ := hm
  rw [hm] at h
  simp only [bind, Except.bind] at h
  rw [if_pos trivial] at h
  split_ifs at h with h1
  injection h with h
  exact h.symm

section arr
variable {obs fct : Arr XF} {m : ℤ} {k : ℕ} {W : Option (Arr XF)}

theorem moved_shape (hs : obs.shape = fct.shape.eraseIdx k) :
    (fct.moveLast k).shape = obs.shape ++ [fct.shape.getD k 0] := by
  rw [Arr.moveLast_shape, hs]

theorem moved_wshape (hs : obs.shape = fct.shape.eraseIdx k) (hw : Spec.WShape W fct.shape) :
    Spec.WShape (W.map fun w => w.moveLast k) (obs.shape ++ [fct.shape.getD k 0]) := by
  intro w hw'
  rw [Option.map_eq_some_iff] at hw'
  obtain ⟨w0, hw0, rfl⟩ := hw'
  rw [Arr.moveLast_shape, hw w0 hw0, hs]

theorem moved_rows (i : List ℕ) : ((W.map fun w => w.moveLast k).map fun w => w.row i) =
    W.map fun w => w.sliceAt k i := by
  rw [Option.map_map]
  congr 1
  funext w
  exact Arr.row_moveLast w k i

/-- C12: with `nan_policy="raise"` a NaN in any slice raises `ValueError`. -/
theorem C12_raise_nan (h : Spec.AxisIs m fct.ndim k) (hs : obs.shape = fct.shape.eraseIdx k)
    (hw : Spec.WShape W fct.shape) (path : Path) (est : String) (sorted : Bool)
    (hn : ∃ i, Arr.Valid obs.shape i ∧
      Spec.HasNan (obs.get i) (fct.sliceAt k i) (W.map fun w => w.sliceAt k i)) :
    crpsEnsemble path obs fct m W est sorted "raise" = .error .valueError := by
  obtain ⟨i, hi, hn⟩ := hn
  rw [crpsEnsemble_eq h hs hw]
  have hw' := moved_wshape hs hw
  cases hN : nanStage obs (fct.moveLast k) "raise" (W.map fun w => w.moveLast k) (some est) with
  | error e =>
    rw [nanStage_raise_error (by rw [moved_shape hs]; exact hw') hN]
    rfl
  | ok p =>
    obtain ⟨f', W'⟩ := p
    obtain ⟨_, _, hrow⟩ := nanStage_ok rfl (moved_shape hs) hw' "raise" (some est) hN
    have := hrow i hi
    rw [Arr.row_moveLast, moved_rows, sliceNan_raise_nan hn] at this
    simp at this

example : Spec.AxisIs (-1) (Arr.ofList [1, nan, 3] : Arr XF).ndim 0 ∧
    (Arr.scalar 5 : Arr XF).shape = (Arr.ofList [1, nan, 3] : Arr XF).shape.eraseIdx 0 ∧
    Arr.Valid (Arr.scalar 5 : Arr XF).shape [] ∧
    Spec.HasNan ((Arr.scalar 5 : Arr XF).get []) ((Arr.ofList [1, nan, 3] : Arr XF).sliceAt 0 [])
      none := by
  refine ⟨⟨by simp [Arr.ofList, Arr.ndim], Or.inr (by simp [Arr.ofList, Arr.ndim])⟩,
    by simp [Arr.ofList, Arr.scalar], by simp [Arr.Valid, Arr.scalar], ?_⟩
  rw [sliceAt_ofList]
  simp [Spec.HasNan, XF.isnan]

/-- C12: with `nan_policy="raise"` and no NaN anywhere the call is the `propagate` call. -/
theorem C12_raise_no_nan (h : Spec.AxisIs m fct.ndim k) (hs : obs.shape = fct.shape.eraseIdx k)
    (hw : Spec.WShape W fct.shape) (path : Path) (est : String) (sorted : Bool)
    (hn : ∀ i, Arr.Valid obs.shape i →
      ¬ Spec.HasNan (obs.get i) (fct.sliceAt k i) (W.map fun w => w.sliceAt k i)) :
    crpsEnsemble path obs fct m W est sorted "raise" =
      crpsEnsemble path obs fct m W est sorted "propagate" := by
  rw [crpsEnsemble_eq h hs hw, crpsEnsemble_eq h hs hw]
  have hw' := moved_wshape hs hw
  have hp : nanStage obs (fct.moveLast k) "propagate" (W.map fun w => w.moveLast k) (some est) =
      .ok (fct.moveLast k, W.map fun w => w.moveLast k) := by
    unfold nanStage
    rw [if_pos rfl]
  rw [hp]
  cases hN : nanStage obs (fct.moveLast k) "raise" (W.map fun w => w.moveLast k) (some est) with
  | error e =>
    exfalso
    obtain ⟨i, hi, h1⟩ := nanStage_error rfl (moved_shape hs) hw' "raise" (some est) hN
      (fun h => absurd rfl h)
    rw [moved_rows, Arr.row_moveLast] at h1
    apply hn i hi
    unfold sliceNan at h1
    rw [if_neg (by decide), if_pos rfl] at h1
    split_ifs at h1 with h2
    rcases h2 with ⟨x, hx, hx'⟩ | ⟨w, h2, v, hv, hv'⟩ | h2
    · right; left; rw [isnan_iff.1 hx'] at hx; exact hx
    · right; right; rw [isnan_iff.1 hv'] at hv; exact ⟨w, h2, hv⟩
    · left; exact isnan_iff.1 h2
  | ok p =>
    rw [nanStage_raise_ok (by rw [moved_shape hs]; exact hw') hN]

example : Spec.AxisIs (-1) (Arr.ofList [fin 1, fin 2] : Arr XF).ndim 0 ∧
    (Arr.scalar (fin 5) : Arr XF).shape = (Arr.ofList [fin 1, fin 2] : Arr XF).shape.eraseIdx 0 ∧
    ¬ Spec.HasNan ((Arr.scalar (fin 5) : Arr XF).get [])
      ((Arr.ofList [fin 1, fin 2] : Arr XF).sliceAt 0 []) none := by
  refine ⟨⟨by simp [Arr.ofList, Arr.ndim], Or.inr (by simp [Arr.ofList, Arr.ndim])⟩,
    by simp [Arr.ofList, Arr.scalar], ?_⟩
  rw [sliceAt_ofList]
  simp [Spec.HasNan, XF.isnan, Arr.scalar]

/-- C12: a policy other than the three documented ones raises `ValueError`. -/
theorem C12_unknown_policy (h : Spec.AxisIs m fct.ndim k) (hs : obs.shape = fct.shape.eraseIdx k)
    (hw : Spec.WShape W fct.shape) (path : Path) (est : String) (sorted : Bool) (np : String)
    (hp : np ∉ ["propagate", "raise", "omit"]) :
    crpsEnsemble path obs fct m W est sorted np = .error .valueError := by
  rw [crpsEnsemble_eq h hs hw]
  simp only [List.mem_cons, List.not_mem_nil, or_false, not_or] at hp
  have hm : ∃ mk, nanMask (fct.moveLast k) (W.map fun w => w.moveLast k) = .ok mk := by
    cases W with
    | none => exact ⟨_, rfl⟩
    | some w =>
      obtain ⟨mk, hmk, _⟩ := nanMask_some (moved_shape hs) (moved_wshape hs hw _ rfl)
      exact ⟨mk, hmk⟩
  obtain ⟨mk, hm⟩ := hm
  unfold nanStage
  rw [if_neg hp.1]
  simp only [hm, bind, Except.bind]
  rw [if_neg hp.2.1, if_neg hp.2.2]

end arr

/-- the hypotheses of the array theorems hold for a 2x3 forecast array with a NaN -/
example : ∃ (obs fct : Arr XF), Spec.AxisIs (-1) fct.ndim 1 ∧ obs.shape = fct.shape.eraseIdx 1 ∧
    ∃ i, Arr.Valid obs.shape i ∧ Spec.HasNan (obs.get i) (fct.sliceAt 1 i) none :=
  ⟨⟨[2], fun _ => fin 1⟩, ⟨[2, 3], fun _ => nan⟩, ⟨by decide, by right; decide⟩, rfl, [0],
    by simp [Arr.Valid], .inr (.inl (by simp [Arr.sliceAt]))⟩

example : "ignore" ∉ ["propagate", "raise", "omit"] := by decide

/-- C12, `propagate` without weights: a NaN observation or member gives NaN. -/
theorem C12_propagate (path : Path) (est : String) (he : est ∈ Spec.estimators) (sorted : Bool)
    (y : XF) (xs : List XF) (hne : xs ≠ []) (h : Spec.HasNan y xs none) :
    crps1 path est sorted "propagate" y xs none = .ok nan := by
  rw [crps1_none]
  obtain ⟨k, hk⟩ := kernel_ok path he
  have h' : NanIn y xs := by
    rcases h with h | h | ⟨w, h, _⟩
    · exact .inl h
    · exact .inr h
    · simp at h
  rw [hk]
  simp only [Except.map, Except.ok.injEq]
  split_ifs
  · apply kernel_nan hk
    · intro h0
      have := (sort_perm xs).length_eq
      rw [h0] at this
      exact hne (List.length_eq_zero_iff.1 this.symm)
    · rcases h' with h' | h'
      · exact .inl h'
      · exact .inr ((sort_perm xs).mem_iff.2 h')
  · exact kernel_nan hk hne h'

example : "qd" ∈ Spec.estimators ∧ Spec.HasNan (fin 1) [fin 2, nan] none := by
  simp [Spec.estimators, Spec.HasNan]

theorem normW_nan {w : List XF} (h : nan ∈ w) : ∀ v ∈ normW w, v = nan := by
  intro v hv
  unfold normW at hv
  rw [sum_eq_nan_of_mem h, List.mem_map] at hv
  obtain ⟨a, _, rfl⟩ := hv
  exact div_nan a

theorem normW_all_nan {w : List XF} (h : ∀ v ∈ w, v = nan) : ∀ v ∈ normW w, v = nan := by
  intro v hv
  unfold normW at hv
  rw [List.mem_map] at hv
  obtain ⟨a, ha, rfl⟩ := hv
  rw [h a ha, nan_div]

theorem gather_all_nan {w : List XF} (h : ∀ v ∈ w, v = nan) (ind : List ℕ) :
    ∀ v ∈ gather w ind, v = nan := by
  intro v hv
  unfold gather at hv
  rw [List.mem_map] at hv
  obtain ⟨i, _, rfl⟩ := hv
  by_cases hi : i < w.length
  · exact h _ (idx_mem hi)
  · unfold idx; simp [hi]

theorem sliceCore_nan {path : Path} {est : String} (he : est ∈ Spec.estimators) (sorted : Bool)
    {y : XF} {xs w : List XF} (hne : xs ≠ []) (hlen : w.length = xs.length)
    (h : NanInW y xs (normW w))
    (h2 : path = .numba → est = "int" → NanIn y xs ∨ 2 ≤ xs.length) {r : XF}
    (hr : sliceCore path est sorted y xs (some w) = .ok r) : r = nan := by
  obtain ⟨k, hk⟩ := kernelW_ok path he
  unfold sliceCore at hr
  dsimp only at hr
  rw [hk] at hr
  split_ifs at hr with h3 h4 h5
  · simp only [Except.map, Except.ok.injEq] at hr
    rw [← hr]
    have hp := gather_argsort_perm xs
    have hN : NanIn y xs → NanIn y (gather xs (argsort xs)) := by
      rintro (h | h)
      · exact .inl h
      · exact .inr (hp.mem_iff.2 h)
    apply kernelW_nan hk
    · intro h0; rw [h0] at hp; exact hne (List.nil_perm.1 hp)
    · simp [normW, gather_length, argsort_length]
    · rcases h with h | h
      · exact .inl (hN h)
      · exact .inr (normW_all_nan (gather_all_nan h _))
    · intro h6 h7
      rcases h2 h6 h7 with h8 | h8
      · exact .inl (hN h8)
      · right; rw [hp.length_eq]; exact h8
  · simp only [Except.map, Except.ok.injEq] at hr
    rw [← hr]
    apply kernelW_nan hk hne _ _ h2
    · simp [normW, hlen]
    · rcases h with h | h
      · exact .inl h
      · exact .inr (normW_all_nan h)

theorem not_neg_all_nan {w : List XF} (h : ∀ v ∈ w, v = nan) : ¬ ∃ v ∈ w, v < 0 := by
  rintro ⟨v, hv, h1⟩
  rw [h v hv] at h1
  simp at h1

/-- when all normalised weights are NaN the kernel is called with NaN weights -/
theorem sliceCore_all_nan {path : Path} {est : String} (he : est ∈ Spec.estimators) (sorted : Bool)
    {y : XF} {xs w : List XF} (h0 : ¬ ∃ v ∈ w, v < 0) (h : ∀ v ∈ normW w, v = nan)
    (hlen : w.length = xs.length) :
    ∃ k, kernelW path est = .ok k ∧ sliceCore path est sorted y xs (some w) =
      .ok (k y (if !sorted && sortingEstimator est then gather xs (argsort xs) else xs)
        (List.replicate xs.length nan)) := by
  obtain ⟨k, hk⟩ := kernelW_ok path he
  refine ⟨k, hk, ?_⟩
  unfold sliceCore
  dsimp only
  rw [if_neg h0, if_neg, hk]
  · simp only [Except.map, Except.ok.injEq]
    congr 1
    rw [List.eq_replicate_iff]
    constructor
    · split_ifs <;> simp [normW, gather_length, argsort_length, hlen]
    · apply normW_all_nan
      split_ifs
      · exact gather_all_nan h _
      · exact h
  · apply not_neg_all_nan
    split_ifs
    · exact gather_all_nan h _
    · exact h

theorem sliceCore_nan_ok {path : Path} {est : String} (he : est ∈ Spec.estimators) (sorted : Bool)
    {y : XF} {xs w : List XF} (hne : xs ≠ []) (hlen : w.length = xs.length)
    (h0 : ¬ ∃ v ∈ w, v < 0) (h : ∀ v ∈ normW w, v = nan) (h2 : ¬ (path = .numba ∧ est = "int")) :
    sliceCore path est sorted y xs (some w) = .ok nan := by
  obtain ⟨k, hk, e⟩ := sliceCore_all_nan (path := path) he sorted (y := y) h0 h hlen
  have := sliceCore_nan he sorted hne hlen (.inr h) (fun h3 h4 => absurd ⟨h3, h4⟩ h2) e
  rw [e, this]

/-- C12, `propagate` with weights: a NaN observation, member or weight gives NaN.
Missing: the numba `int` estimator with exactly one member whose weight is NaN. -/
theorem C12_propagate_weighted_partial (path : Path) (est : String) (he : est ∈ Spec.estimators)
    (sorted : Bool) (y : XF) (xs ws : List XF) (hlen : ws.length = xs.length) (hne : xs ≠ [])
    (h : Spec.HasNan y xs (some ws))
    (hex : path = .numba → est = "int" → Spec.HasNan y xs none ∨ 2 ≤ xs.length) (r : XF)
    (hr : crps1 path est sorted "propagate" y xs (some ws) = .ok r) : r = nan := by
  rw [crps1_eq _ _ _ _ _ _ _ (by simpa using hlen)] at hr
  unfold sliceScore sliceNan at hr
  rw [if_pos rfl] at hr
  have hN : Spec.HasNan y xs none → NanIn y xs := by
    rintro (h | h | ⟨w, h, _⟩)
    · exact .inl h
    · exact .inr h
    · simp at h
  refine sliceCore_nan he sorted hne hlen ?_ (fun h1 h2 => (hex h1 h2).imp_left hN) hr
  rcases h with h | h | ⟨w, h1, h⟩
  · exact .inl (.inl h)
  · exact .inl (.inr h)
  · injection h1 with h1
    subst h1
    exact .inr (normW_nan h)

example : Spec.HasNan (fin 1) [fin 2, fin 3] (some [fin 1, nan]) := by simp [Spec.HasNan]

/-- C12 is false for the numba `int` estimator with one member: the NaN weight is ignored and the
absolute error is returned. -/
theorem C12_int_numba_ignores_nan_weight :
    crps1 .numba "int" false "propagate" (fin 1) [fin 3] (some [nan]) = .ok (fin 2) ∧
    crps1 .array "int" false "propagate" (fin 1) [fin 3] (some [nan]) = .ok nan := by
  have hW : ∀ v ∈ normW [nan], v = nan := normW_nan (by simp)
  have hv : ¬ ∃ v ∈ [nan], v < 0 := by simp
  constructor
  · rw [crps1_eq _ _ _ _ _ _ _ (by simp)]
    unfold sliceScore sliceNan
    rw [if_pos rfl]
    simp only [bind, Except.bind]
    obtain ⟨k, hk, e⟩ := sliceCore_all_nan (path := .numba) (est := "int")
      (by simp [Spec.estimators]) false (y := fin 1) (xs := [fin 3]) hv hW rfl
    rw [e]
    have hp : (gather [fin 3] (argsort [fin 3])) = [fin 3] :=
      List.perm_singleton.1 (gather_argsort_perm _)
    simp only [Bool.not_false, sortingEstimator, if_true, hp, Bool.true_and, decide_eq_true_eq,
      reduceCtorEq]
    simp only [kernelW, estimatorGufuncsW] at hk
    simp at hk
    subst hk
    simp [GufuncW.int, forEnumM, List.zipIdx, Gufunc.IntSt.obsCdfX, zero_fin, one_fin, idx]
    norm_num
  · rw [crps1_eq _ _ _ _ _ _ _ (by simp)]
    unfold sliceScore sliceNan
    rw [if_pos rfl]
    simp only [bind, Except.bind]
    exact sliceCore_nan_ok (by simp [Spec.estimators]) false (by simp) rfl hv hW (by simp)

/-! ### C11 -/

theorem drop_zero (path : Path) (est : String) (he : est ∈ ["nrg", "fair", "pwm", "qd", "int"])
    (y : ℝ) (B A : List (ℝ × ℝ)) (hw : ∀ p ∈ A ++ B, 0 ≤ p.2)
    (ht : 0 < ((A ++ B).map Prod.snd).sum) :
    crps1 path est false "propagate" (fin y) (Xs (A ++ B)) (some (Ws (A ++ B))) =
      crps1 path est false "propagate" (fin y) (Xs (A ++ B.filter fun p => p.2 ≠ 0))
        (some (Ws (A ++ B.filter fun p => p.2 ≠ 0))) := by
  induction B generalizing A with
  | nil => rfl
  | cons b B ih =>
    by_cases hb : b.2 = 0
    · have : b = (b.1, 0) := by rw [← hb]
      rw [List.filter_cons_of_neg (by simpa using hb)]
      rw [← ih A (fun p hp => hw p (by
        rcases List.mem_append.1 hp with hp | hp <;> simp [hp])) (by
        simpa [hb] using ht)]
      rw [this]
      exact C62_zero_weight_member path est he y b.1 A B (fun p hp => hw p (by
        rcases List.mem_append.1 hp with hp | hp <;> simp [hp])) (by simpa [hb] using ht)
    · rw [List.filter_cons_of_pos (by simpa using hb)]
      have := ih (A ++ [b]) (by simpa using hw) (by simpa using ht)
      simpa using this

theorem sorted_flag_unused (path : Path) {est : String} (he : est = "nrg" ∨ est = "fair")
    (sorted : Bool) (np : String) (y : XF) (xs : List XF) (ws : Option (List XF))
    (hlen : ∀ w, ws = some w → w.length = xs.length) :
    crps1 path est sorted np y xs ws = crps1 path est false np y xs ws := by
  rw [crps1_eq _ _ _ _ _ _ _ hlen, crps1_eq _ _ _ _ _ _ _ hlen]
  have : sortingEstimator est = false := by rcases he with rfl | rfl <;> simp [sortingEstimator]
  unfold sliceScore sliceCore
  simp only [this, Bool.and_false]

/-- the float that represents an optional number -/
def Spec.missing (o : Option ℝ) : XF := o.elim nan fin

/-- the members of the weighted ensemble for which value and weight are present -/
def Spec.present (ps : List (Option ℝ × Option ℝ)) : List (ℝ × ℝ) :=
  ps.filterMap fun p => match p with
    | (some x, some w) => some (x, w)
    | _ => none

/-- NaN members replaced by zero with weight zero -/
def omitW (ps : List (Option ℝ × Option ℝ)) : List (ℝ × ℝ) :=
  ps.map fun p => match p with
    | (some x, some w) => (x, w)
    | (some x, none) => (x, 0)
    | (none, _) => (0, 0)

theorem omitW_filter (ps : List (Option ℝ × Option ℝ)) :
    (omitW ps).filter (fun p => p.2 ≠ 0) = (Spec.present ps).filter fun p => p.2 ≠ 0 := by
  induction ps with
  | nil => rfl
  | cons p ps ih =>
    unfold omitW Spec.present at ih ⊢
    simp only [ne_eq, decide_not] at ih ⊢
    rcases p with ⟨_ | x, _ | w⟩ <;> simp [List.filter_cons, ih]

theorem omitW_sum (ps : List (Option ℝ × Option ℝ)) :
    ((omitW ps).map Prod.snd).sum = ((Spec.present ps).map Prod.snd).sum := by
  induction ps with
  | nil => rfl
  | cons p ps ih =>
    unfold omitW Spec.present at ih ⊢
    rw [List.map_map] at ih ⊢
    rcases p with ⟨_ | x, _ | w⟩ <;> simp [ih]

theorem omitW_nonneg {ps : List (Option ℝ × Option ℝ)} (h : ∀ p ∈ Spec.present ps, 0 ≤ p.2) :
    ∀ p ∈ omitW ps, 0 ≤ p.2 := by
  intro p hp
  unfold omitW at hp
  rw [List.mem_map] at hp
  obtain ⟨⟨a, b⟩, hq, rfl⟩ := hp
  rcases a with _ | x <;> rcases b with _ | w <;> dsimp only <;> try exact le_rfl
  exact h (x, w) (List.mem_filterMap.2 ⟨_, hq, rfl⟩)

theorem omit_eq_propagate (path : Path) {est : String} (he : est ∈ ["nrg", "fair", "qd", "pwm"])
    (sorted : Bool) (y : XF) (ps : List (Option ℝ × Option ℝ)) :
    crps1 path est sorted "omit" y (ps.map fun p => Spec.missing p.1)
        (some (ps.map fun p => Spec.missing p.2)) =
      crps1 path est sorted "propagate" y (Xs (omitW ps)) (some (Ws (omitW ps))) := by
  rw [crps1_eq _ _ _ _ _ _ _ (by simp), crps1_eq _ _ _ _ _ _ _ (by simp)]
  unfold sliceScore
  have h1 : sliceNan "omit" (some est) y (ps.map fun p => Spec.missing p.1)
        (some (ps.map fun p => Spec.missing p.2)) = .ok (Xs (omitW ps), some (Ws (omitW ps))) := by
    unfold sliceNan
    rw [if_neg (by decide), if_neg (by decide), if_pos rfl, if_neg]
    · congr 2
      · unfold Xs omitW
        rw [List.map_map, List.map_map]
        apply List.map_congr_left
        rintro ⟨_ | x, _ | w⟩ _ <;> simp [Spec.missing, zero_fin]
      · unfold Ws omitW
        simp only [Option.some.injEq]
        rw [List.map_map, List.zipWith_map, List.zipWith_self]
        apply List.map_congr_left
        rintro ⟨_ | x, _ | w⟩ _ <;> simp [Spec.missing, zero_fin]
    · simp only [List.mem_cons, List.not_mem_nil, or_false] at he
      rcases he with rfl | rfl | rfl | rfl <;> decide
  have h2 : sliceNan "propagate" (some est) y (Xs (omitW ps)) (some (Ws (omitW ps))) =
      .ok (Xs (omitW ps), some (Ws (omitW ps))) := by
    unfold sliceNan
    rw [if_pos rfl]
  rw [h1, h2]

theorem qdSum_filter (y c : ℝ) (l : List (ℝ × ℝ)) :
    qdSum y c (l.filter fun p => p.2 ≠ 0) = qdSum y c l := by
  induction l generalizing c with
  | nil => rfl
  | cons p l ih =>
    by_cases h : p.2 = 0
    · rw [List.filter_cons_of_neg (by simp [h])]
      simp only [qdSum, h, ih]
      simp
    · rw [List.filter_cons_of_pos (by simp [h])]
      simp only [qdSum, ih]

theorem pwmSum_filter (c : ℝ) (l : List (ℝ × ℝ)) :
    pwmSum c (l.filter fun p => p.2 ≠ 0) = pwmSum c l := by
  induction l generalizing c with
  | nil => rfl
  | cons p l ih =>
    by_cases h : p.2 = 0
    · rw [List.filter_cons_of_neg (by simp [h])]
      simp only [pwmSum, h, ih]
      simp
    · rw [List.filter_cons_of_pos (by simp [h])]
      simp only [pwmSum, ih]

theorem sum_filter_wt (f : ℝ × ℝ → ℝ) (hf : ∀ p, p.2 = 0 → f p = 0) (l : List (ℝ × ℝ)) :
    ((l.filter fun p => p.2 ≠ 0).map f).sum = (l.map f).sum := by
  induction l with
  | nil => rfl
  | cons p l ih =>
    by_cases h : p.2 = 0
    · rw [List.filter_cons_of_neg (by simp [h]), List.map_cons, List.sum_cons, hf p h, zero_add, ih]
    · rw [List.filter_cons_of_pos (by simp [h]), List.map_cons, List.sum_cons, List.map_cons,
        List.sum_cons, ih]

theorem norml_filter {l : List (ℝ × ℝ)} (ht : wtot l ≠ 0) :
    norml (l.filter fun p => p.2 ≠ 0) = (norml l).filter fun p => p.2 ≠ 0 := by
  have h : wtot (l.filter fun p => p.2 ≠ 0) = wtot l := sum_filter_wt Prod.snd (fun _ h => h) l
  unfold norml
  rw [h, List.filter_map]
  congr 1
  apply List.filter_congr
  intro p _
  simp [ht]

/-- with `sorted_ensemble=True` the members are scored in the order given, and a member without
weight changes nothing in the `pwm` kernels and in the array-API `qd` kernel -/
theorem drop_zero_sorted (path : Path) (est : String)
    (he : est = "pwm" ∨ est = "qd" ∧ path = .array) (y : ℝ) (l : List (ℝ × ℝ))
    (hw : ∀ p ∈ l, 0 ≤ p.2) (ht : 0 < wtot l) :
    crps1 path est true "propagate" (fin y) (Xs (l.filter fun p => p.2 ≠ 0))
        (some (Ws (l.filter fun p => p.2 ≠ 0))) =
      crps1 path est true "propagate" (fin y) (Xs l) (some (Ws l)) := by
  have h0 : wtot (l.filter fun p => p.2 ≠ 0) = wtot l := sum_filter_wt Prod.snd (fun _ h => h) l
  obtain ⟨l1, -, -, h1, e1⟩ := crps1_some path est true (fin y) hw ht.ne'
  obtain ⟨l2, -, -, h2, e2⟩ := crps1_some path est true (fin y)
    (l := l.filter fun p => p.2 ≠ 0) (fun p hp => hw p (List.mem_of_mem_filter hp))
    (by rw [h0]; exact ht.ne')
  rw [e1, e2, h1 (by simp), h2 (by simp), norml_filter ht.ne']
  have ha := sum_filter_wt (fun p => |p.1 - y| * p.2) (by intro p h; simp [h]) (norml l)
  have hm := sum_filter_wt (fun p => p.1 * p.2) (by intro p h; simp [h]) (norml l)
  have hq := sum_filter_wt (fun p => p.2 ^ 2) (by intro p h; simp [h]) (norml l)
  rcases he with rfl | ⟨rfl, rfl⟩
  · cases path
    · have hk : kernelW .numba "pwm" = .ok GufuncW.pwm := by simp [kernelW, estimatorGufuncsW]
      rw [hk]
      simp only [Except.map]
      rw [GufuncW.pwm_fin, GufuncW.pwm_fin]
      simp only [wabs, wmean, wsq, ha, hm, hq, pwmSum_filter]
    · have hk : kernelW .array "pwm" = .ok ApproxW.pwm := by simp [kernelW, ensembleKernelW]
      rw [hk]
      simp only [Except.map]
      rw [ApproxW.pwm_fin, ApproxW.pwm_fin]
      simp only [wabs, wmean, wsq, ha, hm, hq, pwmSum_filter]
  · have hk : kernelW .array "qd" = .ok ApproxW.qd := by simp [kernelW, ensembleKernelW]
    rw [hk]
    simp only [Except.map]
    rw [ApproxW.qd_fin, ApproxW.qd_fin, qdSum_filter]

/-- C11, weighted: `omit` scores the ensemble of the members whose value and weight are present.
Missing: the numba `qd` kernel with `sorted_ensemble=True`, where it is false
(`C11_sorted_leading_nan`). -/
theorem C11_omit_weighted_partial (path : Path) (est : String) (he : est ∈ ["nrg", "fair", "qd", "pwm"])
    (sorted : Bool) (hs : sorted = true → est = "qd" → path = .array) (y : ℝ)
    (ps : List (Option ℝ × Option ℝ)) (hw : ∀ p ∈ Spec.present ps, 0 ≤ p.2)
    (ht : 0 < ((Spec.present ps).map Prod.snd).sum) :
    crps1 path est sorted "omit" (fin y) (ps.map fun p => Spec.missing p.1)
        (some (ps.map fun p => Spec.missing p.2)) =
      crps1 path est sorted "propagate" (fin y) ((Spec.present ps).map fun p => fin p.1)
        (some ((Spec.present ps).map fun p => fin p.2)) := by
  have he' : est ∈ ["nrg", "fair", "pwm", "qd", "int"] := by
    simp only [List.mem_cons, List.not_mem_nil, or_false] at he ⊢
    tauto
  have key : crps1 path est false "omit" (fin y) (ps.map fun p => Spec.missing p.1)
        (some (ps.map fun p => Spec.missing p.2)) =
      crps1 path est false "propagate" (fin y) ((Spec.present ps).map fun p => fin p.1)
        (some ((Spec.present ps).map fun p => fin p.2)) := by
    rw [omit_eq_propagate path he]
    have h1 := drop_zero path est he' y (omitW ps) [] (by simpa using omitW_nonneg hw)
      (by rw [List.nil_append, omitW_sum]; exact ht)
    have h2 := drop_zero path est he' y (Spec.present ps) [] (by simpa using hw) (by simpa using ht)
    rw [List.nil_append, List.nil_append, omitW_filter] at h1
    rw [List.nil_append, List.nil_append] at h2
    exact h1.trans h2.symm
  cases sorted with
  | false => exact key
  | true =>
    by_cases hk : est = "nrg" ∨ est = "fair"
    · rw [sorted_flag_unused path hk true, sorted_flag_unused path hk true]
      · exact key
      · simp
      · simp
    · have hk' : est = "pwm" ∨ est = "qd" ∧ path = .array := by
        simp only [List.mem_cons, List.not_mem_nil, or_false] at he
        have := hs rfl
        tauto
      rw [omit_eq_propagate path he]
      have h1 := drop_zero_sorted path est hk' y (omitW ps) (omitW_nonneg hw)
        (by unfold wtot; rw [omitW_sum]; exact ht)
      have h2 := drop_zero_sorted path est hk' y (Spec.present ps) hw ht
      rw [omitW_filter] at h1
      exact h1.symm.trans h2

example : (∀ p ∈ Spec.present [(some 1, some 2), (none, some 1), (some 3, none)], 0 ≤ p.2) ∧
    0 < ((Spec.present [(some 1, some 2), (none, some 1), (some 3, none)]).map Prod.snd).sum := by
  simp [Spec.present]

theorem omit_unweighted_eq (path : Path) {est : String} (he : est ∈ ["nrg", "fair", "qd", "pwm"])
    (sorted : Bool) (y : XF) (xs : List (Option ℝ)) :
    crps1 path est sorted "omit" y (xs.map Spec.missing) none =
      crps1 path est sorted "omit" y ((xs.map fun o => (o, some (1 : ℝ))).map fun p => Spec.missing p.1)
        (some ((xs.map fun o => (o, some (1 : ℝ))).map fun p => Spec.missing p.2)) := by
  rw [crps1_eq _ _ _ _ _ _ _ (by simp), crps1_eq _ _ _ _ _ _ _ (by simp)]
  unfold sliceScore
  congr 1
  unfold sliceNan
  rw [if_neg (by decide), if_neg (by decide), if_pos rfl, if_neg, if_neg (by decide),
    if_neg (by decide), if_pos rfl, if_neg]
  · congr 2
    · simp only [List.map_map]; rfl
    · simp only [List.map_map, Option.some.injEq]
      rw [List.zipWith_map, List.zipWith_self]
      apply List.map_congr_left
      rintro (_ | x) _ <;> simp [Spec.missing, one_fin]
  all_goals
    simp only [List.mem_cons, List.not_mem_nil, or_false] at he
    rcases he with rfl | rfl | rfl | rfl <;> decide

theorem present_const (xs : List (Option ℝ)) :
    Spec.present (xs.map fun o => (o, some (1 : ℝ))) = xs.reduceOption.map fun x => (x, 1) := by
  induction xs with
  | nil => rfl
  | cons o xs ih =>
    unfold Spec.present at ih ⊢
    rcases o with _ | x <;> simp [ih, List.reduceOption]

/-- C11, without weights: `omit` scores the ensemble of the members that are present. With
`sorted_ensemble=True` the `qd` and `pwm` estimators need the present members in ascending order.
Missing: the numba `qd` kernel with `sorted_ensemble=True`, where it is false even then
(`C11_sorted_leading_nan`). -/
theorem C11_omit_partial (path : Path) (est : String) (he : est ∈ ["nrg", "fair", "qd", "pwm"])
    (sorted : Bool) (y : ℝ) (xs : List (Option ℝ))
    (hs : sorted = true → est = "nrg" ∨ est = "fair" ∨
      ((est = "pwm" ∨ path = .array) ∧ xs.reduceOption.Pairwise (· ≤ ·)))
    (hne : xs.reduceOption ≠ []) :
    crps1 path est sorted "omit" (fin y) (xs.map Spec.missing) none =
      crps1 path est sorted "propagate" (fin y) (xs.reduceOption.map fin) none := by
  have key : ∀ s : Bool, (s = true → est = "qd" → path = .array) →
      (s = true → xs.reduceOption.Pairwise (· ≤ ·)) →
      crps1 path est s "omit" (fin y) (xs.map Spec.missing) none =
      crps1 path est s "propagate" (fin y) (xs.reduceOption.map fin) none := by
    intro s h1 h2
    rw [omit_unweighted_eq path he]
    have hlen : 0 < xs.reduceOption.length := List.length_pos_iff.2 hne
    rw [C11_omit_weighted_partial path est he s h1 y _
      (by rw [present_const]; intro p hp; rw [List.mem_map] at hp; obtain ⟨x, _, rfl⟩ := hp; norm_num)
      (by rw [present_const]; simpa [Function.comp_def] using hlen), present_const]
    have he' : est ∈ Spec.estimators := by
      simp only [Spec.estimators, List.mem_cons, List.not_mem_nil, or_false] at he ⊢
      tauto
    have := C09_constant_weights_partial path est he' s y 1 one_pos xs.reduceOption hne
      h2 (by
        intro h
        rw [h] at he
        simp at he)
    rw [← this]
    simp [Function.comp_def]
  cases sorted with
  | false => exact key false (by simp) (by simp)
  | true =>
    by_cases hk : est = "nrg" ∨ est = "fair"
    · rw [sorted_flag_unused path hk true, sorted_flag_unused path hk true]
      · exact key false (by simp) (by simp)
      · simp
      · simp
    · have h := hs rfl
      refine key true (fun _ hq => ?_) fun _ => by tauto
      subst hq
      simp at h
      exact h.1

example : ([none, some (-1), none, some 3] : List (Option ℝ)).reduceOption.Pairwise (· ≤ ·) := by
  simp [List.reduceOption]
  norm_num

example : ([some 1, none, some 3] : List (Option ℝ)).reduceOption ≠ [] := by
  simp [List.reduceOption]

theorem normW_zero {w : List XF} (h : ∀ v ∈ w, v = 0) : ∀ v ∈ normW w, v = nan := by
  have hs : w.sum = 0 := by
    clear * - h
    induction w with
    | nil => rfl
    | cons a w ih =>
      rw [List.sum_cons, h a (by simp), zero_add]
      exact ih fun v hv => h v (by simp [hv])
  intro v hv
  unfold normW at hv
  rw [List.mem_map] at hv
  obtain ⟨a, ha, rfl⟩ := hv
  rw [hs, h a ha, zero_fin, fin_zero_div_zero]

/-- C11: when no member is left, or the members left have no weight, the result is NaN. -/
theorem C11_none_left_weighted (path : Path) (est : String)
    (he : est ∈ ["nrg", "fair", "qd", "pwm"]) (sorted : Bool) (y : XF)
    (ps : List (Option ℝ × Option ℝ)) (hne : ps ≠ []) (h0 : ∀ p ∈ Spec.present ps, p.2 = 0) :
    crps1 path est sorted "omit" y (ps.map fun p => Spec.missing p.1)
        (some (ps.map fun p => Spec.missing p.2)) = .ok nan := by
  have he' : est ∈ Spec.estimators := by
    simp only [Spec.estimators, List.mem_cons, List.not_mem_nil, or_false] at he ⊢
    tauto
  have hz : ∀ v ∈ Ws (omitW ps), v = 0 := by
    intro v hv
    unfold Ws omitW at hv
    rw [List.map_map, List.mem_map] at hv
    obtain ⟨⟨a, b⟩, hq, rfl⟩ := hv
    rcases a with _ | x <;> rcases b with _ | w <;> try rfl
    have := h0 (x, w) (List.mem_filterMap.2 ⟨_, hq, rfl⟩)
    dsimp only at this
    simp [this, zero_fin]
  rw [omit_eq_propagate path he, crps1_eq _ _ _ _ _ _ _ (by simp)]
  unfold sliceScore sliceNan
  rw [if_pos rfl]
  simp only [bind, Except.bind]
  apply sliceCore_nan_ok he' sorted
  · simpa [Xs, omitW] using hne
  · simp
  · rintro ⟨v, hv, h1⟩
    rw [hz v hv, zero_fin] at h1
    simp at h1
  · exact normW_zero hz
  · rintro ⟨_, rfl⟩
    simp at he

example : ∀ p ∈ Spec.present [(some 1, none), (none, some 1)], p.2 = 0 := by simp [Spec.present]

/-- C11, without weights: an ensemble of NaNs scores NaN. -/
theorem C11_none_left (path : Path) (est : String) (he : est ∈ ["nrg", "fair", "qd", "pwm"])
    (sorted : Bool) (y : XF) (n : ℕ) (hn : n ≠ 0) :
    crps1 path est sorted "omit" y (List.replicate n nan) none = .ok nan := by
  have h1 := omit_unweighted_eq path he sorted y (List.replicate n none)
  rw [List.map_replicate] at h1
  refine h1.trans (C11_none_left_weighted path est he sorted y _ ?_ ?_)
  · simpa using hn
  · rw [present_const]
    simp [List.reduceOption]

example : "pwm" ∈ ["nrg", "fair", "qd", "pwm"] ∧ 3 ≠ 0 := by simp

/-- C11 does not extend to `sorted_ensemble=True` when a NaN comes before a number: the NaN is
replaced by zero, which breaks the order the numba `qd` kernel relies on. -/
theorem C11_sorted_leading_nan :
    crps1 .numba "qd" true "omit" (fin (-3)) [nan, fin (-5)] none = .ok (fin (-2)) ∧
    crps1 .numba "qd" true "propagate" (fin (-3)) [fin (-5)] none = .ok (fin 2) := by
  constructor
  · rw [crps1_eq _ _ _ _ _ _ _ (by simp)]
    unfold sliceScore sliceNan
    rw [if_neg (by decide), if_neg (by decide), if_pos rfl, if_neg (by decide)]
    simp only [bind, Except.bind]
    have e1 : List.map (fun x : XF => if x.isnan then (0 : XF) else x) [nan, fin (-5)]
        = [fin 0, fin (-5)] := by simp [zero_fin]
    have e2 : List.map (fun x : XF => if x.isnan then (0 : XF) else 1) [nan, fin (-5)]
        = [fin 0, fin 1] := by simp [zero_fin, one_fin]
    have e3 : normW [fin 0, fin 1] = [fin 0, fin 1] := by
      simp [normW, fin_div]
    rw [e1, e2]
    unfold sliceCore
    simp only [Bool.not_true, Bool.false_and, Bool.false_eq_true, if_false, e3]
    rw [if_neg, if_neg]
    · simp [kernelW, estimatorGufuncsW, Except.map, GufuncW.qd, forEnumM, List.zipIdx, idx, cumsum,
        zip2, zero_fin, one_fin, two_fin, fin_div, List.range_succ]
      norm_num
    all_goals simp [zero_fin]
  · refine (crps1_qd .numba (sorted := true) (-3) (xs := [-5]) (by simp) (by intro; simp)).trans ?_
    simp [energy, wabs, wpair, uw, pairsAll]
    norm_num

end Verif
