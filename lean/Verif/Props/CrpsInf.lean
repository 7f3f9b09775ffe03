import Verif.Lemmas.CrpsInf

/-!
# C117: ensemble CRPS with infinite data

The exact ensemble CRPS grows beyond all bounds as the observation, or a member, goes to plus or minus infinity
(`C117_limit_obs`, `C117_limit_member`), so its value at infinite data is plus infinity.  The code never returns a
finite number for infinite data (`C117_nonfinite`).  The other theorems say where it returns plus infinity and where NaN.
-/

noncomputable section

open scoped Classical

open Filter

namespace Verif

open XF Py Api Spec

/-! ### the exact score -/

/-- C117: the exact score tends to infinity with the observation, in both directions. -/
theorem C117_limit_obs {xs : List ℝ} (h : xs ≠ []) :
    Tendsto (crps (ecdf xs)) atTop atTop ∧ Tendsto (crps (ecdf xs)) atBot atTop := by
  have hM : (0:ℝ) < xs.length := by exact_mod_cast List.length_pos_iff.2 h
  have key : ∀ y, |y| + (-((xs.map fun x => |x|).sum / xs.length) - wpair (uw xs) / 2) ≤ crps (ecdf xs) y := by
    intro y
    rw [crps_ecdf_eq_energy y h]
    unfold energy
    rw [wabs_uw]
    unfold sabs
    have h1 : (xs.map fun x => (|y| - |x|)).sum ≤ (xs.map fun x => |x - y|).sum := by
      refine List.sum_le_sum fun x _ => ?_
      have := abs_sub_abs_le_abs_sub y x
      rwa [abs_sub_comm] at this
    have h2 : (xs.map fun x => (|y| - |x|)).sum = xs.length * |y| - (xs.map fun x => |x|).sum := by
      clear h1 hM h
      induction xs with
      | nil => simp
      | cons a l ih => simp only [List.map_cons, List.sum_cons, List.length_cons, ih]; push_cast; ring
    rw [h2] at h1
    have h3 : |y| - (xs.map fun x => |x|).sum / xs.length ≤ (xs.map fun x => |x - y|).sum / xs.length := by
      rw [le_div_iff₀ hM, sub_mul, div_mul_cancel₀ _ hM.ne']
      linarith
    linarith
  exact ⟨tendsto_atTop_mono key (tendsto_atTop_add_const_right _ _ tendsto_abs_atTop_atTop),
    tendsto_atTop_mono key (tendsto_atTop_add_const_right _ _ tendsto_abs_atBot_atTop)⟩

example : ([0, 2, 5] : List ℝ) ≠ [] := by simp

/-- C117: the exact score tends to infinity with one member, in both directions, whatever the others are. -/
theorem C117_limit_member (y : ℝ) (xs : List ℝ) :
    Tendsto (fun t => crps (ecdf (t :: xs)) y) atTop atTop ∧ Tendsto (fun t => crps (ecdf (t :: xs)) y) atBot atTop := by
  set n : ℝ := (xs.length : ℝ) with hn
  have hn0 : 0 ≤ n := Nat.cast_nonneg _
  set A := (xs.map fun x => |x|).sum with hA
  set B := sabs y xs with hB
  set P := spair xs with hP
  have key : ∀ t, |t| * (1 / (n + 1) ^ 2) + ((B - |y|) / (n + 1) - (2 * A + P) / (n + 1) ^ 2 / 2)
      ≤ crps (ecdf (t :: xs)) y := by
    intro t
    rw [crps_ecdf_eq_energy y (by simp)]
    unfold energy
    rw [wabs_uw, wpair_uw]
    have e1 : sabs y (t :: xs) = |t - y| + B := by simp [sabs, hB]
    have e2 : spair (t :: xs) = 2 * (xs.map fun x => |t - x|).sum + P := by
      rw [spair_eq, hP, spair_eq]
      unfold Spec.sumAbsDiff
      simp only [List.map_cons, List.sum_cons, sub_self, abs_zero, zero_add]
      have : (xs.map fun a => |a - t| + (xs.map fun b => |a - b|).sum).sum
          = (xs.map fun a => |a - t|).sum + (xs.map fun a => (xs.map fun b => |a - b|).sum).sum := List.sum_map_add
      rw [this]
      simp only [abs_sub_comm _ t]
      ring
    have h1 : (xs.map fun x => |t - x|).sum ≤ n * |t| + A := by
      have : (xs.map fun x => |t - x|).sum ≤ (xs.map fun x => (|t| + |x|)).sum :=
        List.sum_le_sum fun x _ => abs_sub t x
      have e : (xs.map fun x => (|t| + |x|)).sum = n * |t| + A := by
        rw [List.sum_map_add]
        simp [hn, hA]
      rwa [e] at this
    have h2 : |t| - |y| ≤ |t - y| := abs_sub_abs_le_abs_sub t y
    have hl : ((t :: xs).length : ℝ) = n + 1 := by simp [hn]
    rw [e1, e2, hl]
    have hp : 0 < n + 1 := by linarith
    have h3 : (|t| - |y| + B) / (n + 1) ≤ (|t - y| + B) / (n + 1) := by gcongr
    have h4 : (2 * (xs.map fun x => |t - x|).sum + P) / (n + 1) ^ 2 / 2
        ≤ (2 * (n * |t| + A) + P) / (n + 1) ^ 2 / 2 := by gcongr
    have h5 : |t| * (1 / (n + 1) ^ 2) + ((B - |y|) / (n + 1) - (2 * A + P) / (n + 1) ^ 2 / 2)
        = (|t| - |y| + B) / (n + 1) - (2 * (n * |t| + A) + P) / (n + 1) ^ 2 / 2 := by
      field_simp
      ring
    rw [h5]
    linarith
  have hc : 0 < 1 / (n + 1) ^ 2 := by positivity
  exact ⟨tendsto_atTop_mono key (tendsto_atTop_add_const_right _ _ (tendsto_abs_atTop_atTop.atTop_mul_const hc)),
    tendsto_atTop_mono key (tendsto_atTop_add_const_right _ _ (tendsto_abs_atBot_atTop.atTop_mul_const hc))⟩

example : ecdf [1000, 0, 2] 5 ≠ 1 := by norm_num [ecdf, List.countP_cons]

/-! ### never a finite number -/

/-- C117: for every backend path, estimator, sorting flag, `nan_policy` and weights, a call with an infinite observation
or an infinite member never returns a finite number. -/
theorem C117_nonfinite (path : Path) (est : String) (sorted : Bool) (policy : String) (y : XF) (xs : List XF)
    (ws : Option (List XF)) (hw : ∀ w, ws = some w → w.length = xs.length) (hne : xs ≠ [])
    (h : (y = pinf ∨ y = ninf) ∨ ∃ x ∈ xs, x = pinf ∨ x = ninf) {v : XF}
    (hv : crps1 path est sorted policy y xs ws = .ok v) : ∀ r : ℝ, v ≠ fin r := by
  rw [crps1_eq _ _ _ _ _ _ _ hw] at hv
  unfold sliceScore at hv
  -- the core of the call
  have core : ∀ (xs : List XF) (ws : Option (List XF)), xs ≠ [] → (∀ w, ws = some w → w.length = xs.length) →
      NfIn y xs → sliceCore path est sorted y xs ws = .ok v → XF.Nonfin v := by
    intro xs ws hne hw h hv
    have hx' : ∀ b : Bool, (if b then gather xs (argsort xs) else xs) ≠ [] ∧
        (if b then gather xs (argsort xs) else xs).length = xs.length ∧
        NfIn y (if b then gather xs (argsort xs) else xs) := by
      intro b
      cases b
      · exact ⟨hne, rfl, h⟩
      · rw [if_pos rfl, gather_argsort_eq]
        have hp := sort_perm xs
        refine ⟨fun e => hne ?_, hp.length_eq, ?_⟩
        · rw [e] at hp; exact hp.symm.eq_nil
        · rcases h with h | ⟨x, hx, h⟩
          · exact .inl h
          · exact .inr ⟨x, hp.mem_iff.2 hx, h⟩
    unfold sliceCore at hv
    dsimp only at hv
    obtain ⟨g1, g2, g3⟩ := hx' (!sorted && sortingEstimator est)
    cases ws with
    | none =>
      dsimp only at hv
      cases hk : kernel path est with
      | error e => rw [hk] at hv; exact nomatch hv
      | ok k =>
        rw [hk] at hv
        have : k y _ = v := Except.ok.inj hv
        rw [← this]
        exact kernel_nf hk g1 g3
    | some w =>
      dsimp only at hv
      have hwl := hw w rfl
      by_cases h1 : ∃ v ∈ w, v < 0
      · rw [if_pos h1] at hv; exact nomatch hv
      rw [if_neg h1] at hv
      generalize hw' : (if (!sorted && sortingEstimator est) = true then gather (normW w) (argsort xs) else normW w)
        = w' at hv
      have hl : w'.length = xs.length := by
        rw [← hw']
        split_ifs
        · simp [gather, (argsort_perm xs).length_eq]
        · simp [Api.normW, hwl]
      by_cases h2 : ∃ v ∈ w', v < 0
      · rw [if_pos h2] at hv; exact nomatch hv
      rw [if_neg h2] at hv
      cases hk : kernelW path est with
      | error e => rw [hk] at hv; exact nomatch hv
      | ok k =>
        rw [hk] at hv
        rw [← Except.ok.inj hv]
        refine kernelW_nf hk g1 ?_ g3
        rw [g2, Api.normW, List.length_map, hl]
  have hnf : NfIn y xs := by
    rcases h with h | ⟨x, hx, h⟩
    · exact .inl (infin_nf h)
    · exact .inr ⟨x, hx, infin_nf h⟩
  cases hs : sliceNan policy (some est) y xs ws with
  | error e => rw [hs] at hv; exact nomatch hv
  | ok p =>
    obtain ⟨xs', ws'⟩ := p
    rw [hs] at hv
    have hv' : sliceCore path est sorted y xs' ws' = .ok v := hv
    unfold sliceNan at hs
    split_ifs at hs with c1 c2 c3 c4 c5
    · cases hs; exact core _ _ hne hw hnf hv'
    · cases hs; exact core _ _ hne hw hnf hv'
    · cases hs
      refine core _ _ (by simpa using hne) ?_ ?_ hv'
      · rintro w hw'
        cases hw'
        cases ws with
        | none => simp
        | some w => simp [hw w rfl]
      · rcases h with h | ⟨x, hx, h⟩
        · exact .inl (infin_nf h)
        · refine .inr ⟨x, List.mem_map.2 ⟨x, hx, ?_⟩, infin_nf h⟩
          rcases h with rfl | rfl
          · exact if_neg fun h => h
          · exact if_neg fun h => h

example : (∀ w, some [fin 1, fin 2] = some w → w.length = [fin 0, pinf].length) ∧ ([fin 0, pinf] : List XF) ≠ [] ∧
    ∃ x ∈ ([fin 0, pinf] : List XF), x = pinf ∨ x = ninf :=
  ⟨by rintro w h; cases h; rfl, by simp, pinf, by simp, .inl rfl⟩

/-! ### infinite observation, finite members -/

theorem isfin_map (xs : List ℝ) : ∀ x ∈ xs.map fin, XF.Isfin x := by
  intro x hx
  obtain ⟨a, -, rfl⟩ := List.mem_map.1 hx
  exact isfin_fin a

theorem isfin_sorted {xs : List XF} (h : ∀ x ∈ xs, XF.Isfin x) (b : Bool) :
    ∀ x ∈ (if b then Py.sort xs else xs), XF.Isfin x := by
  cases b
  · exact h
  · exact fun x hx => h x ((sort_perm xs).mem_iff.1 hx)

theorem length_sorted (xs : List XF) (b : Bool) : (if b then Py.sort xs else xs).length = xs.length := by
  cases b
  · rfl
  · exact (sort_perm xs).length_eq

/-- C117: with an infinite observation and at least two finite members, the estimators `nrg`, `fair`, `pwm`, `akr` and
`akr_circperm` return plus infinity on both backend paths.  The claim for all estimators is false: see
`C117_obs_qd_false` and `C117_obs_int_false`. -/
theorem C117_obs_partial (path : Path) {est : String}
    (he : est = "nrg" ∨ est = "fair" ∨ est = "pwm" ∨ est = "akr" ∨ est = "akr_circperm") (sorted : Bool) {y : XF}
    (hy : y = pinf ∨ y = ninf) {xs : List ℝ} (h2 : 2 ≤ xs.length) :
    crps1 path est sorted "propagate" y (xs.map fin) none = .ok pinf := by
  have hx := isfin_map xs
  have hl : 2 ≤ (xs.map fin).length := by simpa using h2
  have hne : xs.map fin ≠ [] := by intro e; rw [e] at hl; simp at hl
  rcases he with rfl | rfl | rfl | rfl | rfl
  · rw [crps1_none]
    have hs : sortingEstimator "nrg" = false := by simp [sortingEstimator]
    rw [hs, Bool.and_false]
    cases path
    · simpa [kernel, estimatorGufuncs, Except.map] using Gufunc.nrg_obs_inf hne hy hx
    · simpa [kernel, ensembleKernel, Except.map] using Approx.nrg_obs_inf hne hy hx
  · rw [crps1_none]
    have hs : sortingEstimator "fair" = false := by simp [sortingEstimator]
    rw [hs, Bool.and_false]
    cases path
    · simpa [kernel, estimatorGufuncs, Except.map] using Gufunc.fair_obs_inf hne hy hx hl
    · simpa [kernel, ensembleKernel, Except.map] using Approx.fair_obs_inf hne hy hx hl
  · rw [crps1_none]
    have hx' := isfin_sorted hx (!sorted && sortingEstimator "pwm")
    have hl' := length_sorted (xs.map fin) (!sorted && sortingEstimator "pwm")
    generalize (if (!sorted && sortingEstimator "pwm") = true then Py.sort (xs.map fin) else xs.map fin) = zs at *
    have hne' : zs ≠ [] := by intro e; rw [e] at hl'; simp at hl'; omega
    cases path
    · simpa [kernel, estimatorGufuncs, Except.map] using Gufunc.pwm_obs_inf hne' hy hx' (by omega)
    · simpa [kernel, ensembleKernel, Except.map] using Approx.pwm_obs_inf hne' hy hx' (by omega)
  · rw [crps1_akr _ _ _ _ hne, Gufunc.akr_obs_inf hne hy hx]
  · rw [crps1_akrCircperm _ _ _ _ hne, Gufunc.akrCircperm_obs_inf hne hy hx]

example : crps1 .numba "fair" false "propagate" ninf ([1, 4, 2].map fin) none = .ok pinf :=
  C117_obs_partial _ (by simp) _ (.inr rfl) (by simp)

/-- C117: the `qd` estimator (the default) returns plus infinity on the numba path. -/
theorem C117_obs_qd_numba_partial {y : XF} (hy : y = pinf ∨ y = ninf) {xs : List ℝ} (h : xs ≠ []) :
    crps1 .numba "qd" false "propagate" y (xs.map fin) none = .ok pinf := by
  rw [crps1_none]
  have hs : sortingEstimator "qd" = true := by simp [sortingEstimator]
  rw [hs]
  have hx := isfin_sorted (isfin_map xs) true
  have hl := length_sorted (xs.map fin) true
  simp only [if_true, Bool.not_false, Bool.and_true] at hx hl ⊢
  have hne : Py.sort (xs.map fin) ≠ [] := by
    intro e
    rw [e] at hl
    simp at hl
    exact h (List.length_eq_zero_iff.1 hl.symm)
  have hd : ∀ x ∈ Py.sort (xs.map fin), XF.Nonfin (x - y) ∧ x ≠ nan ∧ x - y ≠ nan := by
    intro x hx'
    obtain ⟨a, rfl⟩ := hx x hx'
    rcases hy with rfl | rfl
    · exact ⟨nf_ninf, nofun, nofun⟩
    · exact ⟨nf_pinf, nofun, nofun⟩
  have := Gufunc.qd_inf (y := y) hne (sort_sorted _) (by rcases hy with rfl | rfl <;> exact nofun)
    (fun x hx' => (hd x hx').2) (by
      obtain ⟨x, hx'⟩ := List.exists_mem_of_ne_nil _ hne
      exact ⟨x, hx', (hd x hx').1⟩)
  simpa [kernel, estimatorGufuncs, Except.map] using this

example : crps1 .numba "qd" false "propagate" pinf ([1, 4, 2].map fin) none = .ok pinf :=
  C117_obs_qd_numba_partial (.inl rfl) (by simp)

/-- C117 is false of the `qd` estimator on the array path: it returns NaN for every infinite observation, where the
exact score is plus infinity and the numba path returns plus infinity. -/
theorem C117_obs_qd_false (sorted : Bool) {y : XF} (hy : y = pinf ∨ y = ninf) {xs : List XF} (h : xs ≠ []) :
    crps1 .array "qd" sorted "propagate" y xs none = .ok nan := by
  rw [crps1_none]
  have hl := length_sorted xs (!sorted && sortingEstimator "qd")
  generalize (if (!sorted && sortingEstimator "qd") = true then Py.sort xs else xs) = zs at *
  have hne' : zs ≠ [] := by intro e; rw [e] at hl; simp at hl; exact h (List.length_eq_zero_iff.1 hl.symm)
  simpa [kernel, ensembleKernel, Except.map] using Approx.qd_nf_nan hne' (.inl (infin_nf hy))

example : crps1 .array "qd" false "propagate" pinf ([1, 4, 2].map fin) none = .ok nan :=
  C117_obs_qd_false _ (.inl rfl) (by simp)

/-- C117: the `int` estimator returns plus infinity on the array path for both infinities, and on the numba path for an
observation at plus infinity. -/
theorem C117_obs_int_partial (sorted : Bool) {xs : List ℝ} (h : xs ≠ []) :
    crps1 .array "int" sorted "propagate" pinf (xs.map fin) none = .ok pinf ∧
    crps1 .array "int" sorted "propagate" ninf (xs.map fin) none = .ok pinf ∧
    crps1 .numba "int" sorted "propagate" pinf (xs.map fin) none = .ok pinf := by
  have hx := isfin_sorted (isfin_map xs) (!sorted && sortingEstimator "int")
  have hl := length_sorted (xs.map fin) (!sorted && sortingEstimator "int")
  rw [crps1_none, crps1_none, crps1_none]
  generalize (if (!sorted && sortingEstimator "int") = true then Py.sort (xs.map fin) else xs.map fin) = zs at *
  have hne : zs ≠ [] := by intro e; rw [e] at hl; simp at hl; exact h (List.length_eq_zero_iff.1 hl.symm)
  refine ⟨?_, ?_, ?_⟩
  · simpa [kernel, ensembleKernel, Except.map] using Approx.int_obs_inf hne (.inl rfl) hx
  · simpa [kernel, ensembleKernel, Except.map] using Approx.int_obs_inf hne (.inr rfl) hx
  · simpa [kernel, estimatorGufuncs, Except.map] using Gufunc.int_obs_pinf hne hx

example : crps1 .array "int" true "propagate" ninf ([1, 4].map fin) none = .ok pinf :=
  (C117_obs_int_partial _ (by simp)).2.1

/-- C117 is false of the `int` estimator on the numba path: an observation at minus infinity gives NaN, for every
ensemble of finite members (the array path gives plus infinity). -/
theorem C117_obs_int_false (sorted : Bool) {xs : List ℝ} (h : xs ≠ []) :
    crps1 .numba "int" sorted "propagate" ninf (xs.map fin) none = .ok nan := by
  have hx := isfin_sorted (isfin_map xs) (!sorted && sortingEstimator "int")
  have hl := length_sorted (xs.map fin) (!sorted && sortingEstimator "int")
  rw [crps1_none]
  generalize (if (!sorted && sortingEstimator "int") = true then Py.sort (xs.map fin) else xs.map fin) = zs at *
  have hne : zs ≠ [] := by intro e; rw [e] at hl; simp at hl; exact h (List.length_eq_zero_iff.1 hl.symm)
  simpa [kernel, estimatorGufuncs, Except.map] using Gufunc.int_obs_ninf hne hx

example : crps1 .numba "int" false "propagate" ninf ([1, 4].map fin) none = .ok nan :=
  C117_obs_int_false _ (by simp)

/-! ### an infinite member, finite observation -/

/-- C117 is false of an infinite member for `nrg`, `fair`, `pwm`, `akr` and `akr_circperm`: on both backend paths the
two terms are both infinite and the result is NaN. -/
theorem C117_member_false (path : Path) {est : String}
    (he : est = "nrg" ∨ est = "fair" ∨ est = "pwm" ∨ est = "akr" ∨ est = "akr_circperm") (sorted : Bool) (y : ℝ)
    {xs : List XF} (hn : ∀ x ∈ xs, x ≠ nan) (hi : ∃ x ∈ xs, x = pinf ∨ x = ninf) (h2 : 2 ≤ xs.length) :
    crps1 path est sorted "propagate" (fin y) xs none = .ok nan := by
  have hne : xs ≠ [] := by intro e; rw [e] at h2; simp at h2
  rcases he with rfl | rfl | rfl | rfl | rfl
  · rw [crps1_none]
    have hs : sortingEstimator "nrg" = false := by simp [sortingEstimator]
    rw [hs, Bool.and_false]
    cases path
    · simpa [kernel, estimatorGufuncs, Except.map] using Gufunc.nrg_member_inf (b := y) hn hi h2
    · simpa [kernel, ensembleKernel, Except.map] using Approx.nrg_member_inf hi (fin y)
  · rw [crps1_none]
    have hs : sortingEstimator "fair" = false := by simp [sortingEstimator]
    rw [hs, Bool.and_false]
    cases path
    · simpa [kernel, estimatorGufuncs, Except.map] using Gufunc.fair_member_inf (b := y) hn hi h2
    · simpa [kernel, ensembleKernel, Except.map] using Approx.fair_member_inf hi (fin y)
  · rw [crps1_none]
    have hm : ∀ x, x ∈ (if (!sorted && sortingEstimator "pwm") = true then Py.sort xs else xs) ↔ x ∈ xs := by
      intro x
      split_ifs
      · exact (sort_perm xs).mem_iff
      · exact Iff.rfl
    generalize (if (!sorted && sortingEstimator "pwm") = true then Py.sort xs else xs) = zs at *
    have hn' : ∀ x ∈ zs, x ≠ nan := fun x hx => hn x ((hm x).1 hx)
    have hi' : ∃ x ∈ zs, XF.Infin x := by
      obtain ⟨x, hx, h⟩ := hi
      exact ⟨x, (hm x).2 hx, h⟩
    cases path
    · simpa [kernel, estimatorGufuncs, Except.map] using Gufunc.pwm_member_inf (b := y) hn' hi'
    · simpa [kernel, ensembleKernel, Except.map] using Approx.pwm_member_inf (b := y) hn' hi'
  · rw [crps1_akr _ _ _ _ hne, Gufunc.akr_member_inf hn hi]
  · rw [crps1_akrCircperm _ _ _ _ hne, Gufunc.akrCircperm_member_inf hn hi]

example : crps1 .array "nrg" false "propagate" (fin 3) [fin 1, pinf] none = .ok nan :=
  C117_member_false _ (by simp) _ _ (by simp) ⟨pinf, by simp, .inl rfl⟩ (by simp)

/-- C117: with an infinite member and a finite observation the `qd` estimator (the default) returns plus infinity on the
numba path and NaN on the array path, so with default arguments the backends disagree. -/
theorem C117_member_qd_partial (y : ℝ) {xs : List XF} (hn : ∀ x ∈ xs, x ≠ nan) (hi : ∃ x ∈ xs, x = pinf ∨ x = ninf) :
    crps1 .numba "qd" false "propagate" (fin y) xs none = .ok pinf ∧
    crps1 .array "qd" false "propagate" (fin y) xs none = .ok nan := by
  rw [crps1_none, crps1_none]
  have hs : sortingEstimator "qd" = true := by simp [sortingEstimator]
  rw [hs]
  simp only [Bool.not_false, Bool.and_true, if_true]
  have hm : ∀ x, x ∈ Py.sort xs ↔ x ∈ xs := fun x => (sort_perm xs).mem_iff
  obtain ⟨x, hx, h⟩ := hi
  have hne : Py.sort xs ≠ [] := List.ne_nil_of_mem ((hm x).2 hx)
  constructor
  · have := Gufunc.qd_inf (y := fin y) hne (sort_sorted _) nofun (fun x hx => by
      have := hn x ((hm x).1 hx)
      refine ⟨this, ?_⟩
      cases x with
      | nan => exact absurd rfl this
      | pinf => exact nofun
      | ninf => exact nofun
      | fin a => exact nofun) ⟨x, (hm x).2 hx, nf_sub_left (infin_nf h) _⟩
    simpa [kernel, estimatorGufuncs, Except.map] using this
  · have := Approx.qd_nf_nan (y := fin y) hne (.inr ⟨x, (hm x).2 hx, infin_nf h⟩)
    simpa [kernel, ensembleKernel, Except.map] using this

example : crps1 .numba "qd" false "propagate" (fin 3) [fin 1, ninf, pinf] none = .ok pinf ∧
    crps1 .array "qd" false "propagate" (fin 3) [fin 1, ninf, pinf] none = .ok nan :=
  C117_member_qd_partial _ (by simp) ⟨pinf, by simp, .inl rfl⟩

/-- C117 is false of the `int` estimator on the numba path: a member at minus infinity gives NaN, whatever the other
members and the observation are. -/
theorem C117_member_int_false (y : XF) {xs : List XF} (hi : ninf ∈ xs) :
    crps1 .numba "int" false "propagate" y xs none = .ok nan := by
  rw [crps1_none]
  have hs : sortingEstimator "int" = true := by simp [sortingEstimator]
  rw [hs]
  simp only [Bool.not_false, Bool.and_true, if_true]
  have hm : ninf ∈ Py.sort xs := (sort_perm xs).mem_iff.2 hi
  have hss := sort_sorted xs
  have : Gufunc.int y (Py.sort xs) = nan := by
    cases hl : Py.sort xs with
    | nil => rw [hl] at hm; simp at hm
    | cons a l =>
      rw [hl] at hm hss
      have ha : a = ninf := by
        rcases List.mem_cons.1 hm with e | e
        · exact e.symm
        · have := (List.pairwise_cons.1 hss).1 _ e
          cases a with
          | ninf => rfl
          | nan => exact this.elim
          | pinf => exact this.elim
          | fin r => exact this.elim
      rw [ha]
      exact Gufunc.int_member_ninf l
  simpa [kernel, estimatorGufuncs, Except.map] using this

example : ninf ∈ ([fin 1, ninf] : List XF) := by simp

end Verif
