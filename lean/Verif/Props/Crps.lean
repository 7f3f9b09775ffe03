import Verif.Lemmas.CrpsApi2

/-!
# Properties C01 - C10: values of `crps_ensemble`

`crps1 path est sorted policy y xs ws` is the call `crps_ensemble(y, xs, ens_w=ws, estimator=est,
sorted_ensemble=sorted, nan_policy=policy)` on one-dimensional data; `path` tells whether the numba
or the array implementation runs.  Arrays of any rank are reduced to this case by C14.
-/

noncomputable section

open scoped Classical

namespace Verif

open XF Py Api

/-! ### C01 -/

/-- C01: the `nrg` estimator is the integral of the squared difference of distribution functions. -/
theorem C01_nrg_is_integral (path : Path) (sorted : Bool) (y : ℝ) (xs : List ℝ) (h : xs ≠ []) :
    crps1 path "nrg" sorted "propagate" (fin y) (xs.map fin) none
      = .ok (fin (Spec.crps (Spec.ecdf xs) y)) := by
  rw [crps1_nrg path sorted y h, crps_ecdf_eq_energy y h]

example : ([1, 3, 3] : List ℝ) ≠ [] := by simp

theorem wcdf_norml {l : List (ℝ × ℝ)} (ht : wtot l ≠ 0) : Spec.wcdf (norml l) = Spec.wcdf l := by
  funext z
  unfold Spec.wcdf
  have e1 : ((norml l).map Prod.snd).sum = 1 := wtot_norml ht
  rw [e1, div_one]
  unfold norml
  rw [List.filter_map, List.map_map]
  have : (Prod.snd ∘ fun p : ℝ × ℝ => (p.1, p.2 / wtot l)) = fun p : ℝ × ℝ => p.2 * (wtot l)⁻¹ := by
    funext p; simp [div_eq_mul_inv]
  rw [this, List.sum_map_mul_right, div_eq_mul_inv]
  rfl

/-- C01, weighted ensembles: the distribution function puts the normalised weight on each member. -/
theorem C01_nrg_weighted_is_integral (path : Path) (sorted : Bool) (y : ℝ) (l : List (ℝ × ℝ))
    (hw : ∀ p ∈ l, 0 ≤ p.2) (ht : 0 < (l.map Prod.snd).sum) :
    crps1 path "nrg" sorted "propagate" (fin y) (l.map fun p => fin p.1)
        (some (l.map fun p => fin p.2))
      = .ok (fin (Spec.crps (Spec.wcdf l) y)) := by
  have ht' : wtot l ≠ 0 := ht.ne'
  rw [← wcdf_norml ht', crps_wcdf_eq_energy y _ (wtot_norml ht')]
  exact crps1W_nrg path sorted y hw ht'

example : (∀ p ∈ ([(1, 2), (3, 0)] : List (ℝ × ℝ)), 0 ≤ p.2) ∧
    0 < (([(1, 2), (3, 0)] : List (ℝ × ℝ)).map Prod.snd).sum := by
  constructor
  · intro p hp; simp at hp; rcases hp with rfl | rfl <;> norm_num
  · norm_num

/-! ### C02 -/

/-- C02: `qd` and `int` return the `nrg` value. -/
theorem C02_qd_int_eq_nrg (path : Path) (sorted : Bool) (y : ℝ) (xs : List ℝ) (h : xs ≠ [])
    (hs : sorted = true → xs.Pairwise (· ≤ ·)) :
    crps1 path "qd" sorted "propagate" (fin y) (xs.map fin) none
        = crps1 path "nrg" sorted "propagate" (fin y) (xs.map fin) none ∧
      crps1 path "int" sorted "propagate" (fin y) (xs.map fin) none
        = crps1 path "nrg" sorted "propagate" (fin y) (xs.map fin) none := by
  rw [crps1_nrg path sorted y h, crps1_qd path y h hs, crps1_int path y h hs]
  exact ⟨rfl, rfl⟩

example : ([1, 2, 2] : List ℝ) ≠ [] ∧ (true = true → ([1, 2, 2] : List ℝ).Pairwise (· ≤ ·)) := by
  simp

/-- C02, in terms of the specification, so that the common value is the intended one. -/
theorem C02_qd_int_are_integral (path : Path) (sorted : Bool) (y : ℝ) (xs : List ℝ) (h : xs ≠ [])
    (hs : sorted = true → xs.Pairwise (· ≤ ·)) {est : String} (he : est = "qd" ∨ est = "int") :
    crps1 path est sorted "propagate" (fin y) (xs.map fin) none
      = .ok (fin (Spec.crps (Spec.ecdf xs) y)) := by
  rw [crps_ecdf_eq_energy y h]
  rcases he with rfl | rfl
  · exact crps1_qd path y h hs
  · exact crps1_int path y h hs

example : ([1, 2, 2] : List ℝ) ≠ [] ∧ (true = true → ([1, 2, 2] : List ℝ).Pairwise (· ≤ ·)) ∧
    ("int" = "qd" ∨ "int" = "int") := by
  simp

/-- C02 with ensemble weights. -/
theorem C02_weighted (path : Path) (sorted : Bool) (y : ℝ) (l : List (ℝ × ℝ))
    (hw : ∀ p ∈ l, 0 ≤ p.2) (ht : 0 < (l.map Prod.snd).sum)
    (hs : sorted = true → l.Pairwise fun p q => p.1 ≤ q.1) {est : String}
    (he : est = "qd" ∨ est = "int") :
    crps1 path est sorted "propagate" (fin y) (l.map fun p => fin p.1)
        (some (l.map fun p => fin p.2))
      = .ok (fin (Spec.crps (Spec.wcdf l) y)) := by
  have ht' : wtot l ≠ 0 := ht.ne'
  rw [← wcdf_norml ht', crps_wcdf_eq_energy y _ (wtot_norml ht')]
  rcases he with rfl | rfl
  · exact crps1W_qd path y hw ht' hs
  · exact crps1W_int path y hw ht' hs

/-- an unsorted ensemble with a tie with the observation meets the hypotheses -/
example : ([3, 1, 2] : List ℝ) ≠ [] ∧ (false = true → ([3, 1, 2] : List ℝ).Pairwise (· ≤ ·)) := by
  simp

/-! ### C03 -/

/-- C03: `pwm` and `fair` both return the fair score for two or more members. -/
theorem C03_pwm_eq_fair (path : Path) (sorted : Bool) (y : ℝ) (xs : List ℝ) (h : 2 ≤ xs.length)
    (hs : sorted = true → xs.Pairwise (· ≤ ·)) :
    crps1 path "pwm" sorted "propagate" (fin y) (xs.map fin) none
        = .ok (fin (Spec.fairCrps y xs)) ∧
      crps1 path "fair" sorted "propagate" (fin y) (xs.map fin) none
        = .ok (fin (Spec.fairCrps y xs)) :=
  ⟨crps1_pwm path y h hs, crps1_fair path sorted y h⟩

example : 2 ≤ ([1, 2, 2] : List ℝ).length ∧
    (true = true → ([1, 2, 2] : List ℝ).Pairwise (· ≤ ·)) := by
  simp

/-- C03: one member gives NaN with both estimators. -/
theorem C03_single_member_nan (path : Path) (sorted : Bool) (y x : ℝ) :
    crps1 path "pwm" sorted "propagate" (fin y) [fin x] none = .ok nan ∧
      crps1 path "fair" sorted "propagate" (fin y) [fin x] none = .ok nan :=
  ⟨crps1_pwm_one path sorted y x, crps1_fair_one path sorted y x⟩

example : 2 ≤ ([5, 1] : List ℝ).length ∧ (false = true → ([5, 1] : List ℝ).Pairwise (· ≤ ·)) := by
  simp

/-! ### C04 -/

theorem cases_length {xs : List ℝ} (h : xs ≠ []) : (∃ x, xs = [x]) ∨ 2 ≤ xs.length := by
  match xs with
  | [] => exact absurd rfl h
  | [x] => exact Or.inl ⟨x, rfl⟩
  | _ :: _ :: _ => right; simp

/-- C04: both implementations agree for every estimator. -/
theorem C04_backends_agree (est : String) (he : est ∈ Spec.estimators) (sorted : Bool) (y : ℝ)
    (xs : List ℝ) (h : xs ≠ []) (hs : sorted = true → xs.Pairwise (· ≤ ·)) :
    crps1 .numba est sorted "propagate" (fin y) (xs.map fin) none
      = crps1 .array est sorted "propagate" (fin y) (xs.map fin) none := by
  have hne : xs.map fin ≠ [] := by simpa using h
  simp only [Spec.estimators, List.mem_cons, List.not_mem_nil, or_false] at he
  rcases he with rfl | rfl | rfl | rfl | rfl | rfl | rfl
  · rw [crps1_nrg _ _ _ h, crps1_nrg _ _ _ h]
  · rcases cases_length h with ⟨x, rfl⟩ | h2
    · simp only [List.map_cons, List.map_nil]
      rw [crps1_fair_one, crps1_fair_one]
    · rw [crps1_fair _ _ _ h2, crps1_fair _ _ _ h2]
  · rcases cases_length h with ⟨x, rfl⟩ | h2
    · simp only [List.map_cons, List.map_nil]
      rw [crps1_pwm_one, crps1_pwm_one]
    · rw [crps1_pwm _ _ h2 hs, crps1_pwm _ _ h2 hs]
  · rw [crps1_qd _ _ h hs, crps1_qd _ _ h hs]
  · rw [crps1_int _ _ h hs, crps1_int _ _ h hs]
  · rw [crps1_akr _ _ _ _ hne, crps1_akr _ _ _ _ hne]
  · rw [crps1_akrCircperm _ _ _ _ hne, crps1_akrCircperm _ _ _ _ hne]

example : "akr" ∈ Spec.estimators ∧ ([4, 1, 1, 0] : List ℝ) ≠ [] ∧
    (false = true → ([4, 1, 1, 0] : List ℝ).Pairwise (· ≤ ·)) := by
  simp [Spec.estimators]

/-- C04: the common result is a number (never an error), and finite from two members on. -/
theorem C04_result_is_finite (path : Path) (est : String) (he : est ∈ Spec.estimators)
    (sorted : Bool) (y : ℝ) (xs : List ℝ) (h : 2 ≤ xs.length)
    (hs : sorted = true → xs.Pairwise (· ≤ ·)) :
    ∃ v : ℝ, crps1 path est sorted "propagate" (fin y) (xs.map fin) none = .ok (fin v) := by
  have hx : xs ≠ [] := by rintro rfl; simp at h
  have hne : xs.map fin ≠ [] := by simpa using hx
  simp only [Spec.estimators, List.mem_cons, List.not_mem_nil, or_false] at he
  rcases he with rfl | rfl | rfl | rfl | rfl | rfl | rfl
  · exact ⟨_, crps1_nrg _ _ _ hx⟩
  · exact ⟨_, crps1_fair _ _ _ h⟩
  · exact ⟨_, crps1_pwm _ _ h hs⟩
  · exact ⟨_, crps1_qd _ _ hx hs⟩
  · exact ⟨_, crps1_int _ _ hx hs⟩
  · rw [crps1_akr _ _ _ _ hne, Gufunc.akr_fin y xs hx]; exact ⟨_, rfl⟩
  · rw [crps1_akrCircperm _ _ _ _ hne, Gufunc.akrCircperm_fin y xs hx]; exact ⟨_, rfl⟩

example : "akr_circperm" ∈ Spec.estimators ∧ ([4, 1, 1, 0] : List ℝ) ≠ [] ∧
    2 ≤ ([4, 1, 1, 0] : List ℝ).length := by
  simp [Spec.estimators]

/-! ### C05 -/

theorem crps1W_akr (path : Path) (sorted : Bool) (y : ℝ) {l : List (ℝ × ℝ)}
    (hw : ∀ p ∈ l, 0 ≤ p.2) (ht : wtot l ≠ 0) :
    crps1 path "akr" sorted "propagate" (fin y) (Xs l) (some (Ws l))
      = .ok (fin (wabs y (norml l) - 1 / 2 * circW (prevI l.length) (norml l))) := by
  obtain ⟨l', h1, h2, h3, h4⟩ := crps1_some path "akr" sorted (fin y) hw ht
  rw [h3 (by simp [sortingEstimator])] at h4
  rw [h4]
  have hl : (norml l).length = l.length := by simp [norml]
  have e := GufuncW.akr_fin y (norml l)
  rw [hl] at e
  cases path
  · simp [kernelW, estimatorGufuncsW, Except.map, e]
  · simp [kernelW, ensembleKernelW, Except.map, ← akrW_path_eq (fin y) (Xs (norml l))
      (Ws (norml l)) (by simp), e]

theorem crps1W_akrCircperm (path : Path) (sorted : Bool) (y : ℝ) {l : List (ℝ × ℝ)}
    (hw : ∀ p ∈ l, 0 ≤ p.2) (ht : wtot l ≠ 0) (hp : path = .array → l.length % 2 = 1) :
    crps1 path "akr_circperm" sorted "propagate" (fin y) (Xs l) (some (Ws l))
      = .ok (fin (wabs y (norml l) - 1 / 2 * circW (Gufunc.sigma l.length) (norml l))) := by
  obtain ⟨l', h1, h2, h3, h4⟩ := crps1_some path "akr_circperm" sorted (fin y) hw ht
  rw [h3 (by simp [sortingEstimator])] at h4
  rw [h4]
  have hl : (norml l).length = l.length := by simp [norml]
  have e := GufuncW.akrCircperm_fin y (norml l)
  rw [hl] at e
  cases path
  · simp [kernelW, estimatorGufuncsW, Except.map, e]
  · simp [kernelW, ensembleKernelW, Except.map, ← akrCircpermW_path_eq (fin y) (Xs (norml l))
      (Ws (norml l)) (by simp) (by rw [Xs_length, hl]; exact hp rfl), e]

/-- C05 for every estimator except `akr_circperm` with an even number of members.

Full statement: the same without the hypothesis `hodd`; it is false, see
`C05_akr_circperm_disagrees`. -/
theorem C05_backends_agree_weighted_partial (est : String) (he : est ∈ Spec.estimators)
    (sorted : Bool) (y : ℝ) (l : List (ℝ × ℝ)) (hw : ∀ p ∈ l, 0 ≤ p.2)
    (ht : 0 < (l.map Prod.snd).sum) (hs : sorted = true → l.Pairwise fun p q => p.1 ≤ q.1)
    (hodd : est = "akr_circperm" → l.length % 2 = 1) :
    crps1 .numba est sorted "propagate" (fin y) (l.map fun p => fin p.1)
        (some (l.map fun p => fin p.2))
      = crps1 .array est sorted "propagate" (fin y) (l.map fun p => fin p.1)
        (some (l.map fun p => fin p.2)) := by
  have ht' : wtot l ≠ 0 := ht.ne'
  show crps1 .numba est sorted "propagate" (fin y) (Xs l) (some (Ws l))
    = crps1 .array est sorted "propagate" (fin y) (Xs l) (some (Ws l))
  simp only [Spec.estimators, List.mem_cons, List.not_mem_nil, or_false] at he
  rcases he with rfl | rfl | rfl | rfl | rfl | rfl | rfl
  · rw [crps1W_nrg _ _ _ hw ht', crps1W_nrg _ _ _ hw ht']
  · by_cases hq : wsq (norml l) = 1
    · rw [crps1W_fair_nan _ _ _ hw ht' hq, crps1W_fair_nan _ _ _ hw ht' hq]
    · rw [crps1W_fair _ _ _ hw ht' hq, crps1W_fair _ _ _ hw ht' hq]
  · by_cases hq : wsq (norml l) = 1
    · rw [crps1W_pwm_nan _ _ hw ht' hq, crps1W_pwm_nan _ _ hw ht' hq]
    · rw [crps1W_pwm _ _ hw ht' hs hq, crps1W_pwm _ _ hw ht' hs hq]
  · rw [crps1W_qd _ _ hw ht' hs, crps1W_qd _ _ hw ht' hs]
  · rw [crps1W_int _ _ hw ht' hs, crps1W_int _ _ hw ht' hs]
  · rw [crps1W_akr _ _ _ hw ht', crps1W_akr _ _ _ hw ht']
  · rw [crps1W_akrCircperm _ _ _ hw ht' (fun _ => hodd rfl),
      crps1W_akrCircperm _ _ _ hw ht' (fun _ => hodd rfl)]

example : (∀ p ∈ ([(1, 2), (3, 0), (0, 1)] : List (ℝ × ℝ)), 0 ≤ p.2) ∧
    0 < (([(1, 2), (3, 0), (0, 1)] : List (ℝ × ℝ)).map Prod.snd).sum ∧
    ("akr_circperm" = "akr_circperm" → ([(1, 2), (3, 0), (0, 1)] : List (ℝ × ℝ)).length % 2 = 1) := by
  refine ⟨?_, by norm_num, by simp⟩
  intro p hp; simp at hp; rcases hp with rfl | rfl | rfl <;> norm_num

/-- C05 fails for `akr_circperm`: with two equally weighted members 0 and 2 and observation 0 the
numba path returns 0 and the array path returns 1. -/
theorem C05_akr_circperm_disagrees :
    crps1 .numba "akr_circperm" false "propagate" (fin 0) [fin 0, fin 2] (some [fin 1, fin 1])
        = .ok (fin 0) ∧
      crps1 .array "akr_circperm" false "propagate" (fin 0) [fin 0, fin 2] (some [fin 1, fin 1])
        = .ok (fin 1) := by
  have hw : ∀ p ∈ ([(0, 1), (2, 1)] : List (ℝ × ℝ)), 0 ≤ p.2 := by
    intro p hp; simp at hp; rcases hp with rfl | rfl <;> norm_num
  have ht : wtot ([(0, 1), (2, 1)] : List (ℝ × ℝ)) ≠ 0 := by norm_num [wtot]
  constructor
  · have := crps1W_akrCircperm .numba false 0 hw ht (by simp)
    simp only [Xs, Ws, List.map_cons, List.map_nil] at this
    rw [this]
    congr 2
    simp only [norml, wtot, wabs, circW, Gufunc.sigma, List.map_cons, List.map_nil,
      List.length_cons, List.length_nil, List.range_succ, List.range_zero, List.nil_append,
      List.cons_append, List.sum_cons, List.sum_nil]
    norm_num
  · obtain ⟨l', h1, h2, h3, h4⟩ := crps1_some .array "akr_circperm" false (fin 0) hw ht
    rw [h3 (by simp [sortingEstimator])] at h4
    simp only [Xs, Ws, List.map_cons, List.map_nil, norml, wtot, kernelW, ensembleKernelW] at h4
    norm_num at h4
    rw [h4]
    have h2 : (1 + 1 : ℝ) ≠ 0 := by norm_num
    simp [Except.map, ApproxW.akrCircperm, ApproxW.e1, zip2, idx, List.range_succ, half]

end Verif
