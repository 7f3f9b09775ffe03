import Verif.Model.Dtype
import Verif.Lemmas.ClosedScale
import Verif.Props.Energy

/-!
# C41 and C42: the caller's arrays, and integer observations
-/

noncomputable section

open scoped Classical

namespace Verif

open XF Py Api Mv Dtype Spec

/-! ## C41 -/

/-- C41, the part that holds: a call leaves the caller's array as it was if the location is zero.
Missing: other locations, where the claim is false (`C41_exponentialM_writes`). -/
theorem C41_exponentialM_partial (obs : Buf) (mass location scale : Num) (h : location.val = 0) :
    (Dtype.exponentialM obs mass location scale).1 = obs := by
  unfold Dtype.exponentialM
  rw [h, if_pos]
  rw [XF.zero_def, fin_feq]

/-- C41, the same for `logs_exponential2`, which subtracts the location in any case. -/
theorem C41_exponential2_partial (ty : Dtype.Ty) (xs : List ℝ) (location scale : Num)
    (h : location.val = 0) : (Dtype.exponential2 ⟨ty, xs.map fin⟩ location scale).1 = ⟨ty, xs.map fin⟩ := by
  unfold Dtype.exponential2 subInPlace
  split_ifs
  · rfl
  · simp only [h, List.map_map, Buf.mk.injEq, true_and]
    exact List.map_congr_left fun x _ => by simp [XF.zero_def]

/-- C41 is false: with a location other than zero `crps_exponentialM` replaces the caller's observations
by their differences to the location. -/
theorem C41_exponentialM_writes (xs : List ℝ) (mass scale : Num) (μ : ℝ) (h : μ ≠ 0) :
    (Dtype.exponentialM ⟨.float, xs.map fin⟩ mass ⟨.float, fin μ⟩ scale).1
      = ⟨.float, xs.map fun x => fin (x - μ)⟩ := by
  unfold Dtype.exponentialM subInPlace
  have : ¬ XF.feq (fin μ) 0 := by rw [XF.zero_def, fin_feq]; exact h
  simp only [this, if_false]
  simp

/-- C41 is false for `logs_exponential2` likewise. -/
theorem C41_exponential2_writes (xs : List ℝ) (scale : Num) (μ : ℝ) :
    (Dtype.exponential2 ⟨.float, xs.map fin⟩ ⟨.float, fin μ⟩ scale).1
      = ⟨.float, xs.map fun x => fin (x - μ)⟩ := by
  unfold Dtype.exponential2 subInPlace
  simp

/-- C41 is false: the first and the second call with the same array (observation 1, location 1, scale 1)
return different scores, 1/2 and 3/2. -/
theorem C41_second_call_differs :
    let mass : Num := ⟨.float, fin 0⟩
    let location : Num := ⟨.float, fin 1⟩
    let scale : Num := ⟨.float, fin 1⟩
    let first := Dtype.exponentialM ⟨.float, [fin 1]⟩ mass location scale
    let second := Dtype.exponentialM first.1 mass location scale
    first.2 = .ok [fin (1 / 2)] ∧ second.2 = .ok [fin (3 / 2)] := by
  have hl : ¬ XF.feq (fin 1) 0 := by rw [XF.zero_def, fin_feq]; norm_num
  have ev : ∀ x : ℝ, x ≤ 0 → Closed.exponentialM (fin x) (fin 0) 0 (fin 1) = fin (|x| + 1 / 2) := by
    intro x hx
    unfold Closed.exponentialM
    simp only [XF.zero_def, XF.one_def, XF.ofNat_def, fin_feq, if_true, not_true_eq_false, if_false,
      expCdf_fin]
    rw [max_eq_right (sub_nonpos.2 (Real.one_le_exp (by linarith)))]
    simp only [fin_mul, fin_sub, fin_abs]
    congr 1; ring
  simp only [Dtype.exponentialM, subInPlace, hl, if_false]
  simp only [reduceCtorEq, false_and, if_false, List.map_cons, List.map_nil, fin_sub, ev (1 - 1) (by norm_num),
    ev (1 - 1 - 1) (by norm_num)]
  norm_num

example : (Dtype.exponentialM ⟨.float, [fin 3]⟩ ⟨.float, 0⟩ ⟨.float, 0⟩ ⟨.float, fin 2⟩).1
    = ⟨.float, [fin 3]⟩ := C41_exponentialM_partial _ _ _ _ rfl

example : (Dtype.exponential2 ⟨.float, [3, 4].map fin⟩ ⟨.float, 0⟩ ⟨.float, fin 2⟩).1
    = ⟨.float, [3, 4].map fin⟩ := C41_exponential2_partial _ _ _ _ rfl

example : (Dtype.exponentialM ⟨.float, [3].map fin⟩ ⟨.float, 0⟩ ⟨.float, fin 5⟩ ⟨.float, fin 2⟩).1
    ≠ ⟨.float, [3].map fin⟩ := by
  rw [C41_exponentialM_writes _ _ _ _ (by norm_num)]
  simp

/-! ## C42 -/

/-- C42, the part that holds: on the numpy path, and on the numba path with the estimators `qd`, `nrg` and
`fair` without weights or NaN removal, the element type of the observations has no influence.
Missing: the other estimators, weights and NaN removal on the numba path, where the claim is false
(`C42_truncates`). -/
theorem C42_crps_partial (path : Path) (obs fct : Arr XF) (mAxis : ℤ) (ensW : Option (Arr XF))
    (est : String) (sorted : Bool) (nanPolicy : String)
    (h : path = .array ∨ (est = "qd" ∨ est = "nrg" ∨ est = "fair") ∧ ensW = none ∧ nanPolicy ≠ "omit") :
    Dtype.crpsEnsemble .int path obs fct mAxis ensW est sorted nanPolicy
      = Dtype.crpsEnsemble .float path obs fct mAxis ensW est sorted nanPolicy := by
  rcases h with rfl | ⟨he, rfl, hn⟩
  · rfl
  · unfold Dtype.crpsEnsemble
    have : crpsKind est ((none : Option (Arr XF)).isSome || decide (nanPolicy = "omit")) = .direct := by
      simp [crpsKind, hn, he]
    rw [this]
    cases path <;> rfl

/-- With float observations the typed model is the plain one. -/
theorem C42_float (path : Path) (obs fct : Arr XF) (mAxis : ℤ) (ensW : Option (Arr XF))
    (est : String) (sorted : Bool) (nanPolicy : String) :
    Dtype.crpsEnsemble .float path obs fct mAxis ensW est sorted nanPolicy
      = Api.crpsEnsemble path obs fct mAxis ensW est sorted nanPolicy := by
  unfold Dtype.crpsEnsemble
  cases hr : Api.crpsEnsemble path obs fct mAxis ensW est sorted nanPolicy with
  | error e => rfl
  | ok r => cases path <;> rfl

/-- C42 is false: in the remaining cases on the numba path every score is truncated towards zero when the
observations are integers. -/
theorem C42_truncates (obs fct : Arr XF) (mAxis : ℤ) (ensW : Option (Arr XF)) (est : String)
    (sorted : Bool) (nanPolicy : String)
    (h : (est ≠ "qd" ∧ est ≠ "nrg" ∧ est ≠ "fair") ∨ ensW ≠ none ∨ nanPolicy = "omit") :
    Dtype.crpsEnsemble .int .numba obs fct mAxis ensW est sorted nanPolicy
      = (Api.crpsEnsemble .numba obs fct mAxis ensW est sorted nanPolicy).map fun r => r.map truncInt := by
  unfold Dtype.crpsEnsemble
  have : crpsKind est (ensW.isSome || decide (nanPolicy = "omit")) = .wrapped := by
    unfold crpsKind
    rw [if_neg]
    rintro ⟨h1, h2⟩
    rcases h with h | h | h
    · rcases h2 with h2 | h2 | h2
      · exact h.1 h2
      · exact h.2.1 h2
      · exact h.2.2 h2
    · apply h1; cases ensW with
      | none => exact absurd rfl h
      | some w => rfl
    · apply h1; simp [h]
  rw [this]
  cases Api.crpsEnsemble .numba obs fct mAxis ensW est sorted nanPolicy <;> rfl

/-- C42: what truncation means here: a finite score is replaced by the integer next to it on the side of zero; NaN and
infinite scores by the smallest 64-bit integer. -/
theorem C42_towards_zero :
    (∀ x : ℝ, ∃ m : ℤ, truncInt (fin x) = fin m ∧ |(m:ℝ)| ≤ |x| ∧ |x - m| < 1) ∧
      truncInt nan = fin (-2 ^ 63) ∧ truncInt pinf = fin (-2 ^ 63) ∧ truncInt ninf = fin (-2 ^ 63) := by
  refine ⟨fun x => ?_, rfl, rfl, rfl⟩
  by_cases h : 0 ≤ x
  · have h1 := Int.floor_le x
    have h2 := Int.lt_floor_add_one x
    have h3 : (0:ℝ) ≤ ⌊x⌋ := by exact_mod_cast Int.floor_nonneg.2 h
    refine ⟨⌊x⌋, by simp [truncInt, h], ?_, ?_⟩
    · rw [abs_of_nonneg h3, abs_of_nonneg h]; exact h1
    · rw [abs_lt]; constructor <;> linarith
  · have h' : x < 0 := not_le.1 h
    have h1 := Int.le_ceil x
    have h2 := Int.ceil_lt_add_one x
    have h3 : ((⌈x⌉ : ℤ) : ℝ) ≤ 0 := by exact_mod_cast Int.ceil_le.2 (by simpa using h'.le)
    refine ⟨⌈x⌉, by simp [truncInt, h], ?_, ?_⟩
    · rw [abs_of_nonpos h3, abs_of_neg h']; linarith
    · rw [abs_lt]; constructor <;> linarith

/-- a negative number, for instance a score with estimator `fair`, loses its fraction -/
example : truncInt (fin (-1 / 2)) = fin 0 ∧ truncInt (fin (5 / 2)) = fin 2 := by
  constructor
  · have : ⌈(-1 / 2 : ℝ)⌉ = 0 := by rw [Int.ceil_eq_iff]; norm_num
    simp only [truncInt]
    rw [if_neg (by norm_num), this]; simp
  · have : ⌊(5 / 2 : ℝ)⌋ = 2 := by rw [Int.floor_eq_iff]; norm_num
    simp only [truncInt]
    rw [if_pos (by norm_num), this]; simp

/-- C42 is false, concretely: observation 0 and members 1/2, 1/2 have score 1/2 with estimator `pwm`, but
the integer observation 0 scores 0 on the numba path. -/
theorem C42_witness :
    (Dtype.crpsEnsemble .float .numba (Arr.scalar (fin 0)) (Arr.ofList [fin (1 / 2), fin (1 / 2)]) (-1) none
      "pwm" false "propagate").map (fun a => a.get []) = .ok (fin (1 / 2)) ∧
    (Dtype.crpsEnsemble .int .numba (Arr.scalar (fin 0)) (Arr.ofList [fin (1 / 2), fin (1 / 2)]) (-1) none
      "pwm" false "propagate").map (fun a => a.get []) = .ok (fin 0) := by
  have h := crps1_pwm .numba (sorted := false) 0 (xs := [1 / 2, 1 / 2]) (by simp) (by simp [SortOK])
  have hv : Spec.fairCrps 0 [1 / 2, 1 / 2] = 1 / 2 := by
    norm_num [Spec.fairCrps, Spec.meanAbs, Spec.sumAbsDiff, abs_of_pos]
  rw [hv] at h
  unfold crps1 at h
  simp only [List.map_cons, List.map_nil, Option.map_none] at h
  constructor
  · rw [C42_float]; exact h
  · rw [C42_truncates _ _ _ _ _ _ _ (Or.inl (by decide))]
    revert h
    cases Api.crpsEnsemble .numba (Arr.scalar (fin 0)) (Arr.ofList [fin (1 / 2), fin (1 / 2)]) (-1) none
      "pwm" false "propagate" with
    | error e => intro h; cases h
    | ok r =>
      intro h
      simp only [Except.map, Except.ok.injEq] at h ⊢
      simp only [Arr.map, h, truncInt]
      norm_num

/-- C42 is false for the energy score: with the default estimator `nrg` integer observations raise on the
numba path whenever float observations give a score. -/
theorem C42_energy_raises (obs fct : Arr XF) (mAxis vAxis : ℤ) (r : Arr XF)
    (h : Dtype.esEnsemble .float .numba obs fct mAxis vAxis none "nrg" = .ok r) :
    Dtype.esEnsemble .int .numba obs fct mAxis vAxis none "nrg" = .error .castError := by
  unfold Dtype.esEnsemble at h ⊢
  cases hr : Api.esEnsemble .numba obs fct mAxis vAxis none "nrg" with
  | error e => rw [hr] at h; cases h
  | ok r' => simp [bind, Except.bind, esKind, store]

/-- The energy score of float observations does succeed, for every non-empty ensemble. -/
example (y : Eu 2) : ∃ s : ℝ, es1 .numba "nrg" 2 (vec y) ([y, y].map vec) none = .ok (fin s) :=
  ⟨_, C33_value .numba y (by simp)⟩

/-- `fair` without weights raises in the same way. -/
theorem C42_energy_fair_raises (obs fct : Arr XF) (mAxis vAxis : ℤ) (r : Arr XF)
    (h : Dtype.esEnsemble .float .numba obs fct mAxis vAxis none "fair" = .ok r) :
    Dtype.esEnsemble .int .numba obs fct mAxis vAxis none "fair" = .error .castError := by
  unfold Dtype.esEnsemble at h ⊢
  cases hr : Api.esEnsemble .numba obs fct mAxis vAxis none "fair" with
  | error e => rw [hr] at h; cases h
  | ok r' => simp [bind, Except.bind, esKind, store]

/-- float observations do succeed with `fair` -/
example (y : Eu 2) : ∃ s : ℝ, es1 .numba "fair" 2 (vec y) ([y, y].map vec) none = .ok (fin s) :=
  ⟨_, es1_fair .numba y (by simp)⟩

/-- C42 is false for the energy score in the remaining cases: with weights, or with an estimator other
than `nrg` and `fair`, integer observations truncate every score on the numba path. -/
theorem C42_energy_truncates (obs fct : Arr XF) (mAxis vAxis : ℤ) (ensW : Option (Arr XF)) (est : String)
    (h : (est ≠ "nrg" ∧ est ≠ "fair") ∨ ensW ≠ none) :
    Dtype.esEnsemble .int .numba obs fct mAxis vAxis ensW est
      = (Api.esEnsemble .numba obs fct mAxis vAxis ensW est).map fun r => r.map truncInt := by
  unfold Dtype.esEnsemble
  have : esKind est ensW.isSome = .wrapped := by
    unfold esKind
    rw [if_neg]
    rintro ⟨h1, h2⟩
    rcases h with h | h
    · exact h2.elim h.1 h.2
    · cases ensW with
      | none => exact h rfl
      | some w => exact h1 rfl
  rw [this]
  cases Api.esEnsemble .numba obs fct mAxis vAxis ensW est <;> rfl

/-- On the array path the element type of the observations has no influence on the energy score, and with
float observations the typed model is the plain one on both paths. -/
theorem C42_energy_partial (path : Path) (obs fct : Arr XF) (mAxis vAxis : ℤ) (ensW : Option (Arr XF))
    (est : String) :
    Dtype.esEnsemble .int .array obs fct mAxis vAxis ensW est
      = Dtype.esEnsemble .float .array obs fct mAxis vAxis ensW est ∧
    Dtype.esEnsemble .float path obs fct mAxis vAxis ensW est
      = Api.esEnsemble path obs fct mAxis vAxis ensW est := by
  refine ⟨rfl, ?_⟩
  unfold Dtype.esEnsemble
  cases Api.esEnsemble path obs fct mAxis vAxis ensW est with
  | error e => rfl
  | ok r => cases path <;> rfl

/-- Weights make the difference: `nrg` with weights truncates instead of raising. -/
example (obs fct w : Arr XF) : Dtype.esEnsemble .int .numba obs fct (-2) (-1) (some w) "nrg"
    = (Api.esEnsemble .numba obs fct (-2) (-1) (some w) "nrg").map fun r => r.map truncInt :=
  C42_energy_truncates _ _ _ _ _ _ (Or.inr (by simp))

/-- C42 is false for `crps_exponentialM`: integer observation arrays raise for all parameters. -/
theorem C42_exponentialM_raises (xs : List XF) (mass location scale : Num) :
    (Dtype.exponentialM ⟨.int, xs⟩ mass location scale).2 = .error .castError := by
  unfold Dtype.exponentialM subInPlace
  split_ifs <;> simp_all

/-- C42 is false for `logs_exponential2`: integer observation arrays raise with any float location, the
default included. -/
theorem C42_exponential2_raises (xs : List XF) (μ : XF) (scale : Num) :
    (Dtype.exponential2 ⟨.int, xs⟩ ⟨.float, μ⟩ scale).2 = .error .castError := by
  simp [Dtype.exponential2, subInPlace]

example : (Dtype.crpsEnsemble .int .numba (Arr.scalar (fin 0)) (Arr.ofList [fin (1 / 2)]) (-1) none
      "qd" false "propagate") = Dtype.crpsEnsemble .float .numba (Arr.scalar (fin 0))
      (Arr.ofList [fin (1 / 2)]) (-1) none "qd" false "propagate" :=
  C42_crps_partial _ _ _ _ _ _ _ _ (Or.inr ⟨Or.inl rfl, rfl, by decide⟩)

end Verif
