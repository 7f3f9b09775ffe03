import Verif.Lemmas.KernelApi
import Verif.Lemmas.PosDef
import Verif.Props.Energy2
import Verif.Props.Weighted

/-!
# Property C37: Gaussian kernel scores

`gksuv1`, `gksmv1`, … are the public functions called on one observation and one ensemble.
-/

noncomputable section

open scoped Classical

namespace Verif

open XF Py Api Spec Mv

variable {D : ℕ}

/-- the estimators documented for `gksuv_ensemble` and `gksmv_ensemble` -/
def Spec.gksEstimators : List String := ["nrg", "fair", "akr", "akr_circperm"]

/-! ### weighted calls -/

theorem gksuv1_weighted (path : Path) (est : String) (y : ℝ) (l : List (ℝ × ℝ))
    (hw : ∀ p ∈ l, 0 ≤ p.2) (h : (l.map Prod.snd).sum ≠ 0) :
    gksuv1 path est (fin y) (l.map fun p => fin p.1) (some (l.map fun p => fin p.2))
      = (gksuvKernelW path est).map fun k =>
        k (fin y) ((nrmW l).map fun p => fin p.1) ((nrmW l).map fun p => fin p.2) := by
  rw [gksuv1_some path est _ (by simp), if_neg (no_neg l _ hw), nrmW_snd l h, nrmW_fst fin]

theorem gksmv1_weighted (path : Path) (est : String) (y : Eu D) (l : List (Eu D × ℝ))
    (hw : ∀ p ∈ l, 0 ≤ p.2) (h : (l.map Prod.snd).sum ≠ 0) :
    gksmv1 path est D (vec y) (l.map fun p => vec p.1) (some (l.map fun p => fin p.2))
      = (gksmvKernelW path est).map fun k =>
        k (vec y) ((nrmW l).map fun p => vec p.1) ((nrmW l).map fun p => fin p.2) := by
  rw [gksmv1_some path est (vec_length y) (vecs_length' Prod.fst l) (by simp),
    if_neg (no_neg l _ hw), nrmW_snd l h, nrmW_fst vec]

theorem guard_fin (k : XF → List XF → XF) (y : ℝ) (f : List XF) :
    nanGuard k (fin y) f = k (fin y) f := by simp [nanGuard, XF.isnan]

theorem guardW_fin (k : XF → List XF → List XF → XF) (y : ℝ) (f w : List XF) :
    nanGuardW k (fin y) f w = k (fin y) f w := by simp [nanGuardW, XF.isnan]

theorem notnan (y : ℝ) : (fin y).isnan = False := by simp [XF.isnan]

/-! ### the estimator tables -/

theorem gksuv_numba_nrg : gksuvKernel .numba "nrg"
    = .ok (nanGuard (KsGufunc.nrg Kern.uv nan)) := by
  simp [gksuvKernel]

theorem gksuv_array_nrg : gksuvKernel .array "nrg"
    = .ok (KsApprox.nrg Kern.uv) := by
  simp [gksuvKernel]

theorem gksuvW_numba_nrg : gksuvKernelW .numba "nrg"
    = .ok (nanGuardW (KsGufuncW.nrg Kern.uv nan)) := by
  simp [gksuvKernelW]

theorem gksuvW_array_nrg : gksuvKernelW .array "nrg"
    = .ok (KsApproxW.nrg Kern.uv) := by
  simp [gksuvKernelW]

theorem gksuv_numba_fair : gksuvKernel .numba "fair"
    = .ok (nanGuard (KsGufunc.fair Kern.uv nan)) := by
  simp [gksuvKernel]

theorem gksuv_array_fair : gksuvKernel .array "fair"
    = .ok (KsApprox.fair Kern.uv) := by
  simp [gksuvKernel]

theorem gksuvW_numba_fair : gksuvKernelW .numba "fair"
    = .ok (nanGuardW (KsGufuncW.fair Kern.uv nan)) := by
  simp [gksuvKernelW]

theorem gksuvW_array_fair : gksuvKernelW .array "fair"
    = .ok (KsApproxW.fair Kern.uv) := by
  simp [gksuvKernelW]

theorem gksuv_numba_akr : gksuvKernel .numba "akr"
    = .ok (nanGuard (KsGufunc.akr Kern.uv nan)) := by
  simp [gksuvKernel]

theorem gksuv_array_akr : gksuvKernel .array "akr"
    = .ok (KsApprox.akr Kern.uv nan) := by
  simp [gksuvKernel]

theorem gksuvW_numba_akr : gksuvKernelW .numba "akr"
    = .ok (nanGuardW (KsGufuncW.akr Kern.uv nan)) := by
  simp [gksuvKernelW]

theorem gksuvW_array_akr : gksuvKernelW .array "akr"
    = .ok (KsApproxW.akr Kern.uv nan) := by
  simp [gksuvKernelW]

theorem gksuv_numba_akrCircperm : gksuvKernel .numba "akr_circperm"
    = .ok (nanGuard (KsGufunc.akrCircperm Kern.uv nan)) := by
  simp [gksuvKernel]

theorem gksuv_array_akrCircperm : gksuvKernel .array "akr_circperm"
    = .ok (KsApprox.akrCircperm Kern.uv nan) := by
  simp [gksuvKernel]

theorem gksuvW_numba_akrCircperm : gksuvKernelW .numba "akr_circperm"
    = .ok (nanGuardW (KsGufuncW.akrCircperm Kern.uv nan)) := by
  simp [gksuvKernelW]

theorem gksmv_numba_nrg : gksmvKernel .numba "nrg"
    = .ok (KsGufunc.nrg Kern.mv []) := by
  simp [gksmvKernel]

theorem gksmv_array_nrg : gksmvKernel .array "nrg"
    = .ok (KsApprox.nrg Kern.mv) := by
  simp [gksmvKernel]

theorem gksmvW_numba_nrg : gksmvKernelW .numba "nrg"
    = .ok (KsGufuncW.nrg Kern.mv []) := by
  simp [gksmvKernelW]

theorem gksmvW_array_nrg : gksmvKernelW .array "nrg"
    = .ok (KsApproxW.nrg Kern.mv) := by
  simp [gksmvKernelW]

theorem gksmv_numba_fair : gksmvKernel .numba "fair"
    = .ok (KsGufunc.fair Kern.mv []) := by
  simp [gksmvKernel]

theorem gksmv_array_fair : gksmvKernel .array "fair"
    = .ok (KsApprox.fair Kern.mv) := by
  simp [gksmvKernel]

theorem gksmvW_numba_fair : gksmvKernelW .numba "fair"
    = .ok (KsGufuncW.fair Kern.mv []) := by
  simp [gksmvKernelW]

theorem gksmvW_array_fair : gksmvKernelW .array "fair"
    = .ok (KsApproxW.fair Kern.mv) := by
  simp [gksmvKernelW]

theorem gksmv_numba_akr : gksmvKernel .numba "akr"
    = .ok (KsGufunc.akr Kern.mv []) := by
  simp [gksmvKernel]

theorem gksmv_array_akr : gksmvKernel .array "akr"
    = .ok (KsApprox.akr Kern.mv []) := by
  simp [gksmvKernel]

theorem gksmvW_numba_akr : gksmvKernelW .numba "akr"
    = .ok (KsGufuncW.akr Kern.mv []) := by
  simp [gksmvKernelW]

theorem gksmvW_array_akr : gksmvKernelW .array "akr"
    = .ok (KsApproxW.akr Kern.mv []) := by
  simp [gksmvKernelW]

theorem gksmv_numba_akrCircperm : gksmvKernel .numba "akr_circperm"
    = .ok (KsGufunc.akrCircperm Kern.mv []) := by
  simp [gksmvKernel]

theorem gksmv_array_akrCircperm : gksmvKernel .array "akr_circperm"
    = .ok (KsApprox.akrCircperm Kern.mv []) := by
  simp [gksmvKernel]

theorem gksmvW_numba_akrCircperm : gksmvKernelW .numba "akr_circperm"
    = .ok (KsGufuncW.akrCircperm Kern.mv []) := by
  simp [gksmvKernelW]

theorem gksmvW_array_akrCircperm : gksmvKernelW .array "akr_circperm"
    = .ok (KsApproxW.akrCircperm Kern.mv []) := by
  simp [gksmvKernelW]

/-! ### value of the `nrg` and `fair` estimators -/

/-- C37: the `nrg` estimator of `gksuv_ensemble` is the kernel score of the empirical distribution,
on both paths. -/
theorem C37_gksuv_value (path : Path) (y : ℝ) {xs : List ℝ} (h : xs ≠ []) :
    gksuv1 path "nrg" (fin y) (xs.map fin) none = .ok (fin (ks gauss1 y (eqW xs))) := by
  rw [gksuv1_none]
  cases path
  · simp [gksuvKernel, Except.map, nanGuard, notnan, KsGufunc.nrg_fin uv_emb nan y h]
  · simp [gksuvKernel, Except.map, KsApprox.nrg_fin uv_emb y h]

example : ([1, 2, 2] : List ℝ) ≠ [] := by simp

theorem C37_gksmv_value (path : Path) (y : Eu D) {xs : List (Eu D)} (h : xs ≠ []) :
    gksmv1 path "nrg" D (vec y) (xs.map vec) none = .ok (fin (ks gaussD y (eqW xs))) := by
  rw [gksmv1_none _ _ (vec_length y) (vecs_length xs)]
  cases path
  · simp [gksmvKernel, Except.map, KsGufunc.nrg_fin mv_emb [] y h]
  · simp [gksmvKernel, Except.map, KsApprox.nrg_fin mv_emb y h]

example : ([!₂[1, 2], 0] : List (Eu 2)) ≠ [] := by simp

theorem C37_gksuv_fair (path : Path) (y : ℝ) {xs : List ℝ} (h : 2 ≤ xs.length) :
    gksuv1 path "fair" (fin y) (xs.map fin) none = .ok (fin (ksFair gauss1 y xs)) := by
  rw [gksuv1_none]
  cases path
  · simp [gksuvKernel, Except.map, nanGuard, notnan, KsGufunc.fair_fin uv_emb nan y h]
  · simp [gksuvKernel, Except.map, KsApprox.fair_fin uv_emb y h]

example : 2 ≤ ([1, 2, 2] : List ℝ).length := by simp

theorem C37_gksmv_fair (path : Path) (y : Eu D) {xs : List (Eu D)} (h : 2 ≤ xs.length) :
    gksmv1 path "fair" D (vec y) (xs.map vec) none = .ok (fin (ksFair gaussD y xs)) := by
  rw [gksmv1_none _ _ (vec_length y) (vecs_length xs)]
  cases path
  · simp [gksmvKernel, Except.map, KsGufunc.fair_fin mv_emb [] y h]
  · simp [gksmvKernel, Except.map, KsApprox.fair_fin mv_emb y h]

example : 2 ≤ ([!₂[1, 2], 0] : List (Eu 2)).length := by simp

/-- C37: with ensemble weights (normalised to sum one) `nrg` is the kernel score of the weighted
empirical distribution, on both paths. -/
theorem C37_gksuv_weighted_value (path : Path) (y : ℝ) (l : List (ℝ × ℝ))
    (hw : ∀ p ∈ l, 0 ≤ p.2) (h : (l.map Prod.snd).sum ≠ 0) :
    gksuv1 path "nrg" (fin y) (l.map fun p => fin p.1) (some (l.map fun p => fin p.2))
      = .ok (fin (ks gauss1 y (nrmW l))) := by
  rw [gksuv1_weighted path _ y l hw h]
  cases path
  · simp [gksuvKernelW, Except.map, nanGuardW, notnan, KsGufuncW.nrg_fin uv_emb nan y (nrmW l)]
  · simp [gksuvKernelW, Except.map, KsApproxW.nrg_fin uv_emb y (nrmW l)]

example : (∀ p ∈ ([(1, 2), (4, 0)] : List (ℝ × ℝ)), 0 ≤ p.2) ∧
    (([(1, 2), (4, 0)] : List (ℝ × ℝ)).map Prod.snd).sum ≠ 0 := by simp

theorem C37_gksmv_weighted_value (path : Path) (y : Eu D) (l : List (Eu D × ℝ))
    (hw : ∀ p ∈ l, 0 ≤ p.2) (h : (l.map Prod.snd).sum ≠ 0) :
    gksmv1 path "nrg" D (vec y) (l.map fun p => vec p.1) (some (l.map fun p => fin p.2))
      = .ok (fin (ks gaussD y (nrmW l))) := by
  rw [gksmv1_weighted path _ y l hw h]
  cases path
  · simp [gksmvKernelW, Except.map, KsGufuncW.nrg_fin mv_emb [] y (nrmW l)]
  · simp [gksmvKernelW, Except.map, KsApproxW.nrg_fin mv_emb y (nrmW l)]

example : (∀ p ∈ ([(!₂[1, 2], 2), (0, 0)] : List (Eu 2 × ℝ)), 0 ≤ p.2) ∧
    (([(!₂[1, 2], 2), (0, 0)] : List (Eu 2 × ℝ)).map Prod.snd).sum ≠ 0 := by simp

/-! ### agreement of the paths -/

/-- C37: without ensemble weights both paths of `gksuv_ensemble` agree for every documented
estimator. -/
theorem C37_gksuv_paths (est : String) (he : est ∈ Spec.gksEstimators) (y : ℝ) {xs : List ℝ}
    (h : xs ≠ []) (hf : est = "fair" → 2 ≤ xs.length) :
    gksuv1 .numba est (fin y) (xs.map fin) none = gksuv1 .array est (fin y) (xs.map fin) none := by
  simp only [Spec.gksEstimators, List.mem_cons, List.not_mem_nil, or_false] at he
  rcases he with rfl | rfl | rfl | rfl
  · rw [C37_gksuv_value _ y h, C37_gksuv_value _ y h]
  · rw [C37_gksuv_fair _ y (hf rfl), C37_gksuv_fair _ y (hf rfl)]
  · rw [gksuv1_none, gksuv1_none]
    simp [gksuvKernel, Except.map, nanGuard, notnan, KsGufunc.akr_eq uv_symm]
  · rw [gksuv1_none, gksuv1_none]
    simp [gksuvKernel, Except.map, nanGuard, notnan, KsGufunc.akrCircperm_eq uv_symm]

example : "fair" ∈ Spec.gksEstimators ∧ ([1, 2, 2] : List ℝ) ≠ [] ∧
    ("fair" = "fair" → 2 ≤ ([1, 2, 2] : List ℝ).length) := by simp [Spec.gksEstimators]

/-- C37: without ensemble weights both paths of `gksmv_ensemble` agree for every documented
estimator. -/
theorem C37_gksmv_paths (est : String) (he : est ∈ Spec.gksEstimators) (y : Eu D)
    {xs : List (Eu D)} (h : xs ≠ []) (hf : est = "fair" → 2 ≤ xs.length) :
    gksmv1 .numba est D (vec y) (xs.map vec) none
      = gksmv1 .array est D (vec y) (xs.map vec) none := by
  simp only [Spec.gksEstimators, List.mem_cons, List.not_mem_nil, or_false] at he
  rcases he with rfl | rfl | rfl | rfl
  · rw [C37_gksmv_value _ y h, C37_gksmv_value _ y h]
  · rw [C37_gksmv_fair _ y (hf rfl), C37_gksmv_fair _ y (hf rfl)]
  · rw [gksmv1_none _ _ (vec_length y) (vecs_length xs), gksmv1_none _ _ (vec_length y) (vecs_length xs)]
    simp [gksmvKernel, Except.map, KsGufunc.akr_eq mv_symm]
  · rw [gksmv1_none _ _ (vec_length y) (vecs_length xs), gksmv1_none _ _ (vec_length y) (vecs_length xs)]
    simp [gksmvKernel, Except.map, KsGufunc.akrCircperm_eq mv_symm]

example : "akr" ∈ Spec.gksEstimators ∧ ([!₂[1, 2], 0] : List (Eu 2)) ≠ [] := by
  simp [Spec.gksEstimators]

/-- C37 (partial): with ensemble weights both paths of `gksuv_ensemble` agree for `nrg` and `akr`.
For the two other documented estimators they do not: `C37_gksuv_circperm_differs`,
`C37_gksuv_fair_differs`. -/
theorem C37_gksuv_paths_weighted_partial (est : String) (he : est ∈ ["nrg", "akr"]) (y : ℝ)
    (l : List (ℝ × ℝ)) (hw : ∀ p ∈ l, 0 ≤ p.2) (h : (l.map Prod.snd).sum ≠ 0) :
    gksuv1 .numba est (fin y) (l.map fun p => fin p.1) (some (l.map fun p => fin p.2))
      = gksuv1 .array est (fin y) (l.map fun p => fin p.1) (some (l.map fun p => fin p.2)) := by
  simp only [List.mem_cons, List.not_mem_nil, or_false] at he
  rcases he with rfl | rfl
  · rw [C37_gksuv_weighted_value _ y l hw h, C37_gksuv_weighted_value _ y l hw h]
  · rw [gksuv1_weighted _ _ y l hw h, gksuv1_weighted _ _ y l hw h]
    simp [gksuvKernelW, Except.map, nanGuardW, notnan, KsGufuncW.akr_eq uv_symm]

example : "akr" ∈ ["nrg", "akr"] ∧ (∀ p ∈ ([(1, 2), (4, 0)] : List (ℝ × ℝ)), 0 ≤ p.2) ∧
    (([(1, 2), (4, 0)] : List (ℝ × ℝ)).map Prod.snd).sum ≠ 0 := by simp

/-- C37 (partial): with ensemble weights both paths of `gksmv_ensemble` agree for every documented
estimator but `fair`, for which they differ: `C37_gksmv_fair_differs`. -/
theorem C37_gksmv_paths_weighted_partial (est : String) (he : est ∈ ["nrg", "akr", "akr_circperm"])
    (y : Eu D) (l : List (Eu D × ℝ)) (hw : ∀ p ∈ l, 0 ≤ p.2) (h : (l.map Prod.snd).sum ≠ 0) :
    gksmv1 .numba est D (vec y) (l.map fun p => vec p.1) (some (l.map fun p => fin p.2))
      = gksmv1 .array est D (vec y) (l.map fun p => vec p.1) (some (l.map fun p => fin p.2)) := by
  simp only [List.mem_cons, List.not_mem_nil, or_false] at he
  rcases he with rfl | rfl | rfl
  · rw [C37_gksmv_weighted_value _ y l hw h, C37_gksmv_weighted_value _ y l hw h]
  · rw [gksmv1_weighted _ _ y l hw h, gksmv1_weighted _ _ y l hw h]
    simp [gksmvKernelW, Except.map, KsGufuncW.akr_eq mv_symm]
  · rw [gksmv1_weighted _ _ y l hw h, gksmv1_weighted _ _ y l hw h]
    simp [gksmvKernelW, Except.map, KsGufuncW.akrCircperm_eq mv_symm]

example : "akr_circperm" ∈ ["nrg", "akr", "akr_circperm"] ∧
    (∀ p ∈ ([(!₂[1, 2], 2), (0, 0)] : List (Eu 2 × ℝ)), 0 ≤ p.2) ∧
    (([(!₂[1, 2], 2), (0, 0)] : List (Eu 2 × ℝ)).map Prod.snd).sum ≠ 0 := by simp

/-- C37, negation: with ensemble weights the documented estimator `akr_circperm` is computed by the
numba path and rejected by the array path, for every ensemble. -/
theorem C37_gksuv_circperm_differs (y : ℝ) (l : List (ℝ × ℝ)) (hw : ∀ p ∈ l, 0 ≤ p.2)
    (h : (l.map Prod.snd).sum ≠ 0) :
    (∃ v, gksuv1 .numba "akr_circperm" (fin y) (l.map fun p => fin p.1)
        (some (l.map fun p => fin p.2)) = .ok v) ∧
      gksuv1 .array "akr_circperm" (fin y) (l.map fun p => fin p.1)
        (some (l.map fun p => fin p.2)) = .error .valueError := by
  rw [gksuv1_weighted _ _ y l hw h, gksuv1_weighted _ _ y l hw h]
  simp [gksuvKernelW, Except.map]

/-- C37: the undocumented name `akr_circperm_w` gives on the array path what `akr_circperm` gives on
the numba path. -/
theorem C37_gksuv_circperm_w (y : ℝ) (l : List (ℝ × ℝ)) (hw : ∀ p ∈ l, 0 ≤ p.2)
    (h : (l.map Prod.snd).sum ≠ 0) :
    gksuv1 .array "akr_circperm_w" (fin y) (l.map fun p => fin p.1) (some (l.map fun p => fin p.2))
      = gksuv1 .numba "akr_circperm" (fin y) (l.map fun p => fin p.1)
        (some (l.map fun p => fin p.2)) := by
  rw [gksuv1_weighted _ _ y l hw h, gksuv1_weighted _ _ y l hw h]
  simp [gksuvKernelW, Except.map, nanGuardW, notnan, KsGufuncW.akrCircperm_eq uv_symm]

example : (∀ p ∈ ([(1, 2), (4, 0)] : List (ℝ × ℝ)), 0 ≤ p.2) ∧
    (([(1, 2), (4, 0)] : List (ℝ × ℝ)).map Prod.snd).sum ≠ 0 := by simp

theorem gauss1_self (a : ℝ) : gauss1 a a = 1 := by simp [gauss1]
theorem gaussD_self (a : Eu D) : gaussD a a = 1 := by simp [gaussD]

/-- C37: value of the weighted `fair` estimator on the numba path. -/
theorem C37_gksuv_fair_weighted (y : ℝ) (l : List (ℝ × ℝ)) (hw : ∀ p ∈ l, 0 ≤ p.2)
    (h : (l.map Prod.snd).sum ≠ 0) (h1 : ((nrmW l).map fun p => p.2 * p.2).sum ≠ 1) :
    gksuv1 .numba "fair" (fin y) (l.map fun p => fin p.1) (some (l.map fun p => fin p.2))
      = .ok (fin (ksFairW gauss1 y (nrmW l))) := by
  rw [gksuv1_weighted _ _ y l hw h]
  simp [gksuvKernelW, Except.map, nanGuardW, notnan, KsGufuncW.fair_fin uv_emb nan y (nrmW l) h1]

example : (∀ p ∈ ([(1, 1), (4, 1)] : List (ℝ × ℝ)), 0 ≤ p.2) ∧
    (([(1, 1), (4, 1)] : List (ℝ × ℝ)).map Prod.snd).sum ≠ 0 ∧
    ((nrmW ([(1, 1), (4, 1)] : List (ℝ × ℝ))).map fun p => p.2 * p.2).sum ≠ 1 := by
  refine ⟨by simp, by norm_num, by norm_num [nrmW]⟩

/-- C37, negation: for every ensemble whose weights are not concentrated on one member the weighted
`fair` estimator of the array path exceeds that of the numba path, by
`Σw² / (2 (1 - Σw²))`: it does not remove the pairs of a member with itself. -/
theorem C37_gksuv_fair_differs (y : ℝ) (l : List (ℝ × ℝ)) (hw : ∀ p ∈ l, 0 ≤ p.2)
    (h : (l.map Prod.snd).sum ≠ 0) (h1 : ((nrmW l).map fun p => p.2 * p.2).sum ≠ 1) :
    gksuv1 .array "fair" (fin y) (l.map fun p => fin p.1) (some (l.map fun p => fin p.2))
        = .ok (fin (ksFairW gauss1 y (nrmW l) + ((nrmW l).map fun p => p.2 * p.2).sum
            / (2 * (1 - ((nrmW l).map fun p => p.2 * p.2).sum)))) ∧
      gksuv1 .array "fair" (fin y) (l.map fun p => fin p.1) (some (l.map fun p => fin p.2))
        ≠ gksuv1 .numba "fair" (fin y) (l.map fun p => fin p.1) (some (l.map fun p => fin p.2)) := by
  have e : kdiag gauss1 (nrmW l) = ((nrmW l).map fun p => p.2 * p.2).sum := by
    unfold kdiag; simp only [gauss1_self, mul_one]
  have e1 : gksuv1 .array "fair" (fin y) (l.map fun p => fin p.1) (some (l.map fun p => fin p.2))
        = .ok (fin (ksFairW gauss1 y (nrmW l) + ((nrmW l).map fun p => p.2 * p.2).sum
            / (2 * (1 - ((nrmW l).map fun p => p.2 * p.2).sum)))) := by
    rw [gksuv1_weighted _ _ y l hw h]
    simp [gksuvKernelW, Except.map, KsApproxW.fair_fin uv_emb y (nrmW l) h1, e]
  refine ⟨e1, ?_⟩
  rw [e1, C37_gksuv_fair_weighted y l hw h h1]
  simp only [ne_eq, Except.ok.injEq, fin_inj]
  have hpos : ((nrmW l).map fun p => p.2 * p.2).sum ≠ 0 := by
    intro h0
    have hz : ∀ p ∈ nrmW l, p.2 * p.2 = 0 := by
      intro p hp
      have hs := List.single_le_sum (l := (nrmW l).map fun p => p.2 * p.2)
        (by intro a ha; obtain ⟨q, _, rfl⟩ := List.mem_map.1 ha; exact mul_self_nonneg _)
        (p.2 * p.2) (List.mem_map_of_mem (f := fun p : ℝ × ℝ => p.2 * p.2) hp)
      rw [h0] at hs
      exact le_antisymm hs (mul_self_nonneg _)
    have ht := ktot_nrmW (l := l) h
    have : ktot (nrmW l) = 0 := by
      unfold ktot
      apply List.sum_eq_zero
      intro a ha
      obtain ⟨q, hq, rfl⟩ := List.mem_map.1 ha
      exact mul_self_eq_zero.1 (hz q hq)
    rw [this] at ht
    exact zero_ne_one ht
  have h2 : 1 - ((nrmW l).map fun p => p.2 * p.2).sum ≠ 0 := fun e => h1 (by linarith)
  intro hc
  have := div_ne_zero hpos (mul_ne_zero two_ne_zero h2)
  exact this (by linarith)

example : (∀ p ∈ ([(1, 1), (4, 1)] : List (ℝ × ℝ)), 0 ≤ p.2) ∧
    (([(1, 1), (4, 1)] : List (ℝ × ℝ)).map Prod.snd).sum ≠ 0 ∧
    ((nrmW ([(1, 1), (4, 1)] : List (ℝ × ℝ))).map fun p => p.2 * p.2).sum ≠ 1 := by
  refine ⟨by simp, by norm_num, by norm_num [nrmW]⟩

theorem C37_gksmv_fair_weighted (y : Eu D) (l : List (Eu D × ℝ)) (hw : ∀ p ∈ l, 0 ≤ p.2)
    (h : (l.map Prod.snd).sum ≠ 0) (h1 : ((nrmW l).map fun p => p.2 * p.2).sum ≠ 1) :
    gksmv1 .numba "fair" D (vec y) (l.map fun p => vec p.1) (some (l.map fun p => fin p.2))
      = .ok (fin (ksFairW gaussD y (nrmW l))) := by
  rw [gksmv1_weighted _ _ y l hw h]
  simp [gksmvKernelW, Except.map, KsGufuncW.fair_fin mv_emb [] y (nrmW l) h1]

example : (∀ p ∈ ([(!₂[1, 2], 1), (0, 1)] : List (Eu 2 × ℝ)), 0 ≤ p.2) ∧
    (([(!₂[1, 2], 1), (0, 1)] : List (Eu 2 × ℝ)).map Prod.snd).sum ≠ 0 ∧
    ((nrmW ([(!₂[1, 2], 1), (0, 1)] : List (Eu 2 × ℝ))).map fun p => p.2 * p.2).sum ≠ 1 := by
  refine ⟨by simp, by norm_num, by norm_num [nrmW]⟩

/-- C37, negation: the multivariate array path has the same defect. -/
theorem C37_gksmv_fair_differs (y : Eu D) (l : List (Eu D × ℝ)) (hw : ∀ p ∈ l, 0 ≤ p.2)
    (h : (l.map Prod.snd).sum ≠ 0) (h1 : ((nrmW l).map fun p => p.2 * p.2).sum ≠ 1) :
    gksmv1 .array "fair" D (vec y) (l.map fun p => vec p.1) (some (l.map fun p => fin p.2))
        = .ok (fin (ksFairW gaussD y (nrmW l) + ((nrmW l).map fun p => p.2 * p.2).sum
            / (2 * (1 - ((nrmW l).map fun p => p.2 * p.2).sum)))) ∧
      gksmv1 .array "fair" D (vec y) (l.map fun p => vec p.1) (some (l.map fun p => fin p.2))
        ≠ gksmv1 .numba "fair" D (vec y) (l.map fun p => vec p.1)
          (some (l.map fun p => fin p.2)) := by
  have e : kdiag gaussD (nrmW l) = ((nrmW l).map fun p => p.2 * p.2).sum := by
    unfold kdiag; simp only [gaussD_self, mul_one]
  have e1 : gksmv1 .array "fair" D (vec y) (l.map fun p => vec p.1) (some (l.map fun p => fin p.2))
        = .ok (fin (ksFairW gaussD y (nrmW l) + ((nrmW l).map fun p => p.2 * p.2).sum
            / (2 * (1 - ((nrmW l).map fun p => p.2 * p.2).sum)))) := by
    rw [gksmv1_weighted _ _ y l hw h]
    simp [gksmvKernelW, Except.map, KsApproxW.fair_fin mv_emb y (nrmW l) h1, e]
  refine ⟨e1, ?_⟩
  rw [e1, C37_gksmv_fair_weighted y l hw h h1]
  simp only [ne_eq, Except.ok.injEq, fin_inj]
  have hpos : ((nrmW l).map fun p => p.2 * p.2).sum ≠ 0 := by
    intro h0
    have hz : ∀ p ∈ nrmW l, p.2 * p.2 = 0 := by
      intro p hp
      have hs := List.single_le_sum (l := (nrmW l).map fun p => p.2 * p.2)
        (by intro a ha; obtain ⟨q, _, rfl⟩ := List.mem_map.1 ha; exact mul_self_nonneg _)
        (p.2 * p.2) (List.mem_map_of_mem (f := fun p : Eu D × ℝ => p.2 * p.2) hp)
      rw [h0] at hs
      exact le_antisymm hs (mul_self_nonneg _)
    have ht := ktot_nrmW (l := l) h
    have : ktot (nrmW l) = 0 := by
      unfold ktot
      apply List.sum_eq_zero
      intro a ha
      obtain ⟨q, hq, rfl⟩ := List.mem_map.1 ha
      exact mul_self_eq_zero.1 (hz q hq)
    rw [this] at ht
    exact zero_ne_one ht
  have h2 : 1 - ((nrmW l).map fun p => p.2 * p.2).sum ≠ 0 := fun e => h1 (by linarith)
  intro hc
  have := div_ne_zero hpos (mul_ne_zero two_ne_zero h2)
  exact this (by linarith)

/-! ### constant weights -/

section const
variable {β : Type}

theorem eqW_sq {xs : List β} (h : xs ≠ []) :
    ((eqW xs).map fun p => p.2 * p.2).sum = 1 / (xs.length : ℝ) := by
  have hM : (xs.length : ℝ) ≠ 0 := by simpa using h
  unfold eqW
  rw [List.map_map]
  have := sum_map_const' xs (1 / (xs.length : ℝ) * (1 / (xs.length : ℝ)))
  simp only [Function.comp_def]
  rw [this]
  field_simp

theorem eqW_sq_ne {xs : List β} (h : 2 ≤ xs.length) :
    ((eqW xs).map fun p => p.2 * p.2).sum ≠ 1 := by
  have h2 : (2 : ℝ) ≤ xs.length := by exact_mod_cast h
  rw [eqW_sq (by rintro rfl; simp at h)]
  intro e
  rw [div_eq_iff (by linarith)] at e
  linarith

theorem ksFairW_eqW (K : β → β → ℝ) (y : β) {xs : List β} (h : 2 ≤ xs.length) :
    ksFairW K y (eqW xs) = ksFair K y xs := by
  have hx : xs ≠ [] := by rintro rfl; simp at h
  have h2 : (2 : ℝ) ≤ xs.length := by exact_mod_cast h
  have hM : (xs.length : ℝ) ≠ 0 := by linarith
  have hM1 : (xs.length : ℝ) - 1 ≠ 0 := by linarith
  rw [ksFairW_eq, eqW_sq hx, kabs_eqW, kpair_eqW, kdiag_eqW]
  unfold ksFair pairsAll
  have : (1 : ℝ) - 1 / xs.length = (xs.length - 1) / xs.length := by field_simp
  rw [this]
  field_simp

theorem const_maps {α : Type} (emb : β → α) (xs : List β) (c : ℝ) :
    ((xs.map fun x => (x, c)).map fun p => emb p.1) = xs.map emb ∧
    ((xs.map fun x => (x, c)).map fun p => fin p.2) = (xs.map fun _ => fin c) ∧
    ((eqW xs).map fun p => emb p.1) = xs.map emb ∧
    ((eqW xs).map fun p => fin p.2) = (xs.map emb).map fun _ => fin (1 / ((xs.map emb).length : ℝ)) := by
  refine ⟨?_, ?_, ?_, ?_⟩ <;> simp [eqW, Function.comp_def]

theorem const_pos {xs : List β} (h : xs ≠ []) {c : ℝ} (hc : 0 < c) :
    (∀ p ∈ xs.map fun x => (x, c), 0 ≤ p.2) ∧ ((xs.map fun x => (x, c)).map Prod.snd).sum ≠ 0 := by
  have hM0 : (0 : ℝ) < xs.length := by exact_mod_cast List.length_pos_iff.2 h
  constructor
  · intro p hp
    obtain ⟨x, _, rfl⟩ := List.mem_map.1 hp
    exact hc.le
  · rw [List.map_map]
    have := sum_map_const' xs c
    simp only [Function.comp_def]
    rw [this]
    positivity

end const

/-- C37 (partial): giving every member the same positive weight is the same as giving no weights.
The array path is excepted for `fair` (`C37_gksuv_constant_fair`) and for `akr_circperm`, which it
rejects (`C37_gksuv_circperm_differs`). -/
theorem C37_gksuv_constant_weights_partial (path : Path) (est : String)
    (he : est ∈ Spec.gksEstimators) (hp : path = .array → est = "nrg" ∨ est = "akr")
    (y : ℝ) {xs : List ℝ} (h : xs ≠ []) (hf : est = "fair" → 2 ≤ xs.length) {c : ℝ} (hc : 0 < c) :
    gksuv1 path est (fin y) (xs.map fin) (some (xs.map fun _ => fin c))
      = gksuv1 path est (fin y) (xs.map fin) none := by
  have h' : xs.map fin ≠ [] := by simpa using h
  obtain ⟨m1, m2, m3, m4⟩ := const_maps fin xs c
  obtain ⟨hw, hs⟩ := const_pos h hc
  have h1 := gksuv1_weighted path est y (xs.map fun x => (x, c)) hw hs
  rw [nrmW_const xs hc.ne', m1, m2] at h1
  rw [h1]
  simp only [Spec.gksEstimators, List.mem_cons, List.not_mem_nil, or_false] at he
  rcases he with rfl | rfl | rfl | rfl
  · rw [C37_gksuv_value path y h]
    cases path
    · simp [gksuvKernelW, Except.map, nanGuardW, notnan, KsGufuncW.nrg_fin uv_emb nan y (eqW xs)]
    · simp [gksuvKernelW, Except.map, KsApproxW.nrg_fin uv_emb y (eqW xs)]
  · cases path
    · rw [C37_gksuv_fair .numba y (hf rfl), ← ksFairW_eqW gauss1 y (hf rfl)]
      simp [gksuvKernelW, Except.map, nanGuardW, notnan,
        KsGufuncW.fair_fin uv_emb nan y (eqW xs) (eqW_sq_ne (hf rfl))]
    · simp at hp
  · rw [gksuv1_none, m3, m4]
    have := KsGufuncW.akr_const Kern.uv nan (fin y) h'
    cases path
    · simp only [gksuvW_numba_akr, gksuv_numba_akr, Except.map, guardW_fin, guard_fin, this]
    · have e := KsGufuncW.akr_eq uv_symm nan (fin y) (xs.map fin)
        ((xs.map fin).map fun _ => fin (1 / ((xs.map fin).length : ℝ))) (by simp)
      rw [this, KsGufunc.akr_eq uv_symm] at e
      simp only [gksuvW_array_akr, gksuv_array_akr, Except.map, ← e]
  · cases path
    · rw [gksuv1_none, m3, m4]
      have := KsGufuncW.akrCircperm_const Kern.uv nan (fin y) h'
      simp only [gksuvW_numba_akrCircperm, gksuv_numba_akrCircperm, Except.map, guardW_fin, guard_fin, this]
    · simp at hp

example : "fair" ∈ Spec.gksEstimators ∧ (Path.numba = .array → "fair" = "nrg" ∨ "fair" = "akr") ∧
    ([1, 2, 2] : List ℝ) ≠ [] ∧ 2 ≤ ([1, 2, 2] : List ℝ).length ∧ (0 : ℝ) < 3 := by
  simp [Spec.gksEstimators]

/-- C37, negation: on the array path constant weights change the `fair` estimator of every ensemble
with at least two members; the result grows by `1 / (2 (M - 1))`. -/
theorem C37_gksuv_constant_fair (y : ℝ) {xs : List ℝ} (h : 2 ≤ xs.length) {c : ℝ} (hc : 0 < c) :
    gksuv1 .array "fair" (fin y) (xs.map fin) none = .ok (fin (ksFair gauss1 y xs)) ∧
    gksuv1 .array "fair" (fin y) (xs.map fin) (some (xs.map fun _ => fin c))
      = .ok (fin (ksFair gauss1 y xs + 1 / (2 * ((xs.length : ℝ) - 1)))) := by
  have hx : xs ≠ [] := by rintro rfl; simp at h
  have h2 : (2 : ℝ) ≤ xs.length := by exact_mod_cast h
  have hM : (xs.length : ℝ) ≠ 0 := by linarith
  have hM1 : (xs.length : ℝ) - 1 ≠ 0 := by linarith
  obtain ⟨m1, m2, m3, m4⟩ := const_maps fin xs c
  obtain ⟨hw, hs⟩ := const_pos hx hc
  refine ⟨C37_gksuv_fair .array y h, ?_⟩
  have h1 := (C37_gksuv_fair_differs y (xs.map fun x => (x, c)) hw hs
    (by rw [nrmW_const xs hc.ne']; exact eqW_sq_ne h)).1
  rw [nrmW_const xs hc.ne', m1, m2, eqW_sq hx, ksFairW_eqW gauss1 y h] at h1
  rw [h1]
  congr 3
  have : (1 : ℝ) - 1 / xs.length = (xs.length - 1) / xs.length := by field_simp
  rw [this]
  field_simp

example : 2 ≤ ([1, 2, 2] : List ℝ).length ∧ (0 : ℝ) < 3 := by simp

/-- C37 (partial): the same for `gksmv_ensemble`; only `fair` on the array path is excepted. -/
theorem C37_gksmv_constant_weights_partial (path : Path) (est : String)
    (he : est ∈ Spec.gksEstimators) (hp : path = .array → est ≠ "fair")
    (y : Eu D) {xs : List (Eu D)} (h : xs ≠ []) (hf : est = "fair" → 2 ≤ xs.length) {c : ℝ}
    (hc : 0 < c) :
    gksmv1 path est D (vec y) (xs.map vec) (some (xs.map fun _ => fin c))
      = gksmv1 path est D (vec y) (xs.map vec) none := by
  have h' : xs.map vec ≠ [] := by simpa using h
  obtain ⟨m1, m2, m3, m4⟩ := const_maps vec xs c
  obtain ⟨hw, hs⟩ := const_pos h hc
  have h1 := gksmv1_weighted path est y (xs.map fun x => (x, c)) hw hs
  rw [nrmW_const xs hc.ne', m1, m2] at h1
  rw [h1]
  simp only [Spec.gksEstimators, List.mem_cons, List.not_mem_nil, or_false] at he
  rcases he with rfl | rfl | rfl | rfl
  · rw [C37_gksmv_value path y h]
    cases path
    · simp [gksmvKernelW, Except.map, KsGufuncW.nrg_fin mv_emb [] y (eqW xs)]
    · simp [gksmvKernelW, Except.map, KsApproxW.nrg_fin mv_emb y (eqW xs)]
  · cases path
    · rw [C37_gksmv_fair .numba y (hf rfl), ← ksFairW_eqW gaussD y (hf rfl)]
      simp [gksmvKernelW, Except.map,
        KsGufuncW.fair_fin mv_emb [] y (eqW xs) (eqW_sq_ne (hf rfl))]
    · simp at hp
  · rw [gksmv1_none _ _ (vec_length y) (vecs_length xs), m3, m4]
    have := KsGufuncW.akr_const Kern.mv [] (vec y) h'
    cases path
    · simp only [gksmvW_numba_akr, gksmv_numba_akr, Except.map, this]
    · have e := KsGufuncW.akr_eq mv_symm [] (vec y) (xs.map vec)
        ((xs.map vec).map fun _ => fin (1 / ((xs.map vec).length : ℝ))) (by simp)
      rw [this, KsGufunc.akr_eq mv_symm] at e
      simp only [gksmvW_array_akr, gksmv_array_akr, Except.map, ← e]
  · rw [gksmv1_none _ _ (vec_length y) (vecs_length xs), m3, m4]
    have := KsGufuncW.akrCircperm_const Kern.mv [] (vec y) h'
    cases path
    · simp only [gksmvW_numba_akrCircperm, gksmv_numba_akrCircperm, Except.map, this]
    · have e := KsGufuncW.akrCircperm_eq mv_symm [] (vec y) (xs.map vec)
        ((xs.map vec).map fun _ => fin (1 / ((xs.map vec).length : ℝ))) (by simp)
      rw [this, KsGufunc.akrCircperm_eq mv_symm] at e
      simp only [gksmvW_array_akrCircperm, gksmv_array_akrCircperm, Except.map, ← e]

example : "akr_circperm" ∈ Spec.gksEstimators ∧ (Path.array = .array → "akr_circperm" ≠ "fair") ∧
    ([!₂[1, 2], 0] : List (Eu 2)) ≠ [] ∧ (0 : ℝ) < 3 := by
  simp [Spec.gksEstimators]

/-! ### sign -/

theorem gaussD_nonneg (y : Eu D) (l : List (Eu D × ℝ)) : 0 ≤ ks gaussD y l := by
  have h := gauss_psd (s := 1 / 2) (by norm_num) ((y, -1) :: l)
  rw [pairsAll_cons] at h
  have e : ∀ a b : Eu D, Real.exp (-(1 / 2 * dist a b ^ 2)) = gaussD a b := by
    intro a b; unfold gaussD; congr 1; ring
  simp only [e] at h
  have e1 : (l.map fun q : Eu D × ℝ => (-1 : ℝ) * q.2 * gaussD y q.1).sum = -kabs gaussD y l := by
    unfold kabs
    rw [neg_eq_neg_one_mul (List.sum _), ← sum_map_mul_left']
    apply sum_map_congr; intro p _
    rw [mv_emb.symm y p.1]; ring
  have e2 : (l.map fun b : Eu D × ℝ => b.2 * (-1) * gaussD b.1 y).sum = -kabs gaussD y l := by
    unfold kabs
    rw [neg_eq_neg_one_mul (List.sum _), ← sum_map_mul_left']
    apply sum_map_congr; intro p _; ring
  rw [e1, e2] at h
  rw [ks_eq]
  unfold kpair
  linarith

/-- the line as a one-dimensional Euclidean space -/
def toEu (a : ℝ) : Eu 1 := !₂[a]

theorem dist_toEu (a b : ℝ) : dist (toEu a) (toEu b) = |a - b| := by
  rw [EuclideanSpace.dist_eq]
  simp [toEu, Real.dist_eq, Real.sqrt_sq_eq_abs]

theorem gaussD_toEu (a b : ℝ) : gaussD (toEu a) (toEu b) = gauss1 a b := by
  unfold gaussD gauss1
  rw [dist_toEu, sq_abs]

theorem ks_map {β γ : Type} (K : γ → γ → ℝ) (f : β → γ) (y : β) (l : List (β × ℝ)) :
    ks K (f y) (l.map fun p => (f p.1, p.2)) = ks (fun a b => K (f a) (f b)) y l := by
  unfold ks
  simp only [List.map_map, Function.comp_def]

theorem gauss1_nonneg (y : ℝ) (l : List (ℝ × ℝ)) : 0 ≤ ks gauss1 y l := by
  have := gaussD_nonneg (toEu y) (l.map fun p => (toEu p.1, p.2))
  rw [ks_map gaussD toEu] at this
  simpa only [gaussD_toEu] using this

/-- C37: the `nrg` estimator of `gksuv_ensemble` is non-negative. -/
theorem C37_gksuv_nonneg (path : Path) (y : ℝ) {xs : List ℝ} (h : xs ≠ []) :
    ∃ v : ℝ, gksuv1 path "nrg" (fin y) (xs.map fin) none = .ok (fin v) ∧ 0 ≤ v :=
  ⟨_, C37_gksuv_value path y h, gauss1_nonneg _ _⟩

theorem C37_gksuv_nonneg_weighted (path : Path) (y : ℝ) (l : List (ℝ × ℝ))
    (hw : ∀ p ∈ l, 0 ≤ p.2) (h : (l.map Prod.snd).sum ≠ 0) :
    ∃ v : ℝ, gksuv1 path "nrg" (fin y) (l.map fun p => fin p.1) (some (l.map fun p => fin p.2))
      = .ok (fin v) ∧ 0 ≤ v :=
  ⟨_, C37_gksuv_weighted_value path y l hw h, gauss1_nonneg _ _⟩

/-- C37: the `nrg` estimator of `gksmv_ensemble` is non-negative. -/
theorem C37_gksmv_nonneg (path : Path) (y : Eu D) {xs : List (Eu D)} (h : xs ≠ []) :
    ∃ v : ℝ, gksmv1 path "nrg" D (vec y) (xs.map vec) none = .ok (fin v) ∧ 0 ≤ v :=
  ⟨_, C37_gksmv_value path y h, gaussD_nonneg _ _⟩

theorem C37_gksmv_nonneg_weighted (path : Path) (y : Eu D) (l : List (Eu D × ℝ))
    (hw : ∀ p ∈ l, 0 ≤ p.2) (h : (l.map Prod.snd).sum ≠ 0) :
    ∃ v : ℝ, gksmv1 path "nrg" D (vec y) (l.map fun p => vec p.1) (some (l.map fun p => fin p.2))
      = .ok (fin v) ∧ 0 ≤ v :=
  ⟨_, C37_gksmv_weighted_value path y l hw h, gaussD_nonneg _ _⟩

/-- `C37_gksuv_nonneg`, `C37_gksuv_nonneg_weighted`, `C37_gksmv_nonneg`,
`C37_gksmv_nonneg_weighted` -/
example : ([1, 2, 2] : List ℝ) ≠ [] ∧ (∀ p ∈ ([(1, 2), (4, 0)] : List (ℝ × ℝ)), 0 ≤ p.2) ∧
    (([(1, 2), (4, 0)] : List (ℝ × ℝ)).map Prod.snd).sum ≠ 0 ∧ ([!₂[1, 2], 0] : List (Eu 2)) ≠ [] ∧
    (∀ p ∈ ([(!₂[1, 2], 2), (0, 0)] : List (Eu 2 × ℝ)), 0 ≤ p.2) ∧
    (([(!₂[1, 2], 2), (0, 0)] : List (Eu 2 × ℝ)).map Prod.snd).sum ≠ 0 := by simp

theorem ks_const {β : Type} (K : β → β → ℝ) (y : β) {l : List (β × ℝ)} (h : ktot l = 1)
    (hy : ∀ p ∈ l, p.1 = y) : ks K y l = 0 := by
  have e1 : kabs K y l = K y y := by
    unfold kabs
    have : (l.map fun p => p.2 * K p.1 y).sum = (l.map fun p => p.2 * K y y).sum := by
      apply sum_map_congr; intro p hp; rw [hy p hp]
    rw [this, sum_map_mul_right' l (K y y) Prod.snd]
    unfold ktot at h
    rw [h, one_mul]
  have e2 : kpair K l = K y y := by
    unfold kpair pairsAll
    have : (l.map fun p => (l.map fun q => p.2 * q.2 * K p.1 q.1).sum).sum
        = (l.map fun p => p.2 * K y y).sum := by
      apply sum_map_congr; intro p hp
      have : (l.map fun q => p.2 * q.2 * K p.1 q.1).sum = (l.map fun q => p.2 * K y y * q.2).sum := by
        apply sum_map_congr; intro q hq; rw [hy p hp, hy q hq]; ring
      rw [this, sum_map_mul_left' l (p.2 * K y y) Prod.snd]
      unfold ktot at h
      rw [h, mul_one]
    rw [this, sum_map_mul_right' l (K y y) Prod.snd]
    unfold ktot at h
    rw [h, one_mul]
  rw [ks_eq, e1, e2]; ring

/-- C37: the `nrg` estimators vanish when every member equals the observation. -/
theorem C37_gksuv_zero (path : Path) (y : ℝ) {M : ℕ} (h : 0 < M) :
    gksuv1 path "nrg" (fin y) (List.replicate M (fin y)) none = .ok (fin 0) := by
  have hne : List.replicate M y ≠ [] := by simp; omega
  have := C37_gksuv_value path y hne
  rw [List.map_replicate] at this
  rw [this, ks_const gauss1 y (ktot_eqW hne)]
  intro p hp
  unfold eqW at hp
  obtain ⟨x, hx, rfl⟩ := List.mem_map.1 hp
  exact List.eq_of_mem_replicate hx

theorem C37_gksmv_zero (path : Path) (y : Eu D) {M : ℕ} (h : 0 < M) :
    gksmv1 path "nrg" D (vec y) (List.replicate M (vec y)) none = .ok (fin 0) := by
  have hne : List.replicate M y ≠ [] := by simp; omega
  have := C37_gksmv_value path y hne
  rw [List.map_replicate] at this
  rw [this, ks_const gaussD y (ktot_eqW hne)]
  intro p hp
  unfold eqW at hp
  obtain ⟨x, hx, rfl⟩ := List.mem_map.1 hp
  exact List.eq_of_mem_replicate hx

example : 0 < 3 := by norm_num

/-- C37: the fair estimator also vanishes when all (at least two) members equal the observation. -/
theorem C37_gksuv_fair_zero (path : Path) (y : ℝ) {M : ℕ} (h : 2 ≤ M) :
    gksuv1 path "fair" (fin y) (List.replicate M (fin y)) none = .ok (fin 0) := by
  have h2 : (2 : ℝ) ≤ M := by exact_mod_cast h
  have hM : (M : ℝ) ≠ 0 := by linarith
  have hM1 : (M : ℝ) - 1 ≠ 0 := by linarith
  have := C37_gksuv_fair path y (xs := List.replicate M y) (by simpa using h)
  rw [List.map_replicate] at this
  rw [this]
  congr 2
  unfold ksFair
  simp only [List.map_replicate, List.sum_replicate, List.length_replicate, gauss1_self, nsmul_eq_mul]
  field_simp
  ring

/-- `C37_gksuv_zero`, `C37_gksuv_fair_zero` -/
example : 0 < 3 ∧ 2 ≤ 3 := by norm_num

/-! ### one variable -/

theorem vec_toEu (a : ℝ) : vec (toEu a) = [fin a] := by
  simp [vec, toEu, List.ofFn_succ]

theorem kern_one (a b : ℝ) : Kern.mv [fin a] [fin b] = Kern.uv (fin a) (fin b) := by
  rw [← vec_toEu, ← vec_toEu, mv_emb.val, uv_emb.val, gaussD_toEu]

theorem ks_eqW_map {β γ : Type} (f : β → γ) (xs : List β) :
    eqW (xs.map f) = (eqW xs).map fun p => (f p.1, p.2) := by
  unfold eqW; simp [Function.comp_def]

theorem nrmW_map {β γ : Type} (f : β → γ) (l : List (β × ℝ)) :
    nrmW (l.map fun p => (f p.1, p.2)) = (nrmW l).map fun p => (f p.1, p.2) := by
  unfold nrmW; simp [Function.comp_def]

theorem ksFair_map {β γ : Type} (K : γ → γ → ℝ) (f : β → γ) (y : β) (xs : List β) :
    ksFair K (f y) (xs.map f) = ksFair (fun a b => K (f a) (f b)) y xs := by
  unfold ksFair
  simp only [List.map_map, Function.comp_def, List.length_map]

theorem ksFairW_map {β γ : Type} (K : γ → γ → ℝ) (f : β → γ) (y : β) (l : List (β × ℝ)) :
    ksFairW K (f y) (l.map fun p => (f p.1, p.2)) = ksFairW (fun a b => K (f a) (f b)) y l := by
  unfold ksFairW
  simp only [List.map_map, Function.comp_def]

theorem map_one (xs : List ℝ) : (xs.map fun x => [fin x]) = (xs.map toEu).map vec := by
  rw [List.map_map]
  apply List.map_congr_left; intro x _
  exact (vec_toEu x).symm

/-- C37: `gksmv_ensemble` with one variable equals `gksuv_ensemble`, for every documented estimator on
both paths. -/
theorem C37_one_variable (path : Path) (est : String) (he : est ∈ Spec.gksEstimators) (y : ℝ)
    {xs : List ℝ} (h : xs ≠ []) (hf : est = "fair" → 2 ≤ xs.length) :
    gksmv1 path est 1 [fin y] (xs.map fun x => [fin x]) none
      = gksuv1 path est (fin y) (xs.map fin) none := by
  have h' : xs.map toEu ≠ [] := by simpa using h
  have e1 : (fun a b => gaussD (toEu a) (toEu b)) = gauss1 := by
    funext a b; exact gaussD_toEu a b
  have ek : (fun a b : ℝ => Kern.mv [fin a] [fin b]) = fun a b => Kern.uv (fin a) (fin b) := by
    funext a b; exact kern_one a b
  simp only [Spec.gksEstimators, List.mem_cons, List.not_mem_nil, or_false] at he
  rcases he with rfl | rfl | rfl | rfl
  · rw [C37_gksuv_value path y h, map_one, ← vec_toEu, C37_gksmv_value path (toEu y) h', ks_eqW_map,
      ks_map, e1]
  · rw [C37_gksuv_fair path y (hf rfl), map_one, ← vec_toEu,
      C37_gksmv_fair path (toEu y) (by simpa using hf rfl), ksFair_map, e1]
  · have k1 := KsGufunc.akr_map Kern.mv (fun x : ℝ => [fin x]) [] 0 y xs
    have k2 := KsGufunc.akr_map Kern.uv fin nan 0 y xs
    rw [ek, ← k2] at k1
    rw [gksuv1_none, gksmv1_none (D := 1) path _ rfl (by simp)]
    cases path
    · simp [gksuvKernel, gksmvKernel, Except.map, nanGuard, notnan, k1]
    · rw [KsGufunc.akr_eq mv_symm, KsGufunc.akr_eq uv_symm] at k1
      simp [gksuvKernel, gksmvKernel, Except.map, k1]
  · have k1 := KsGufunc.akrCircperm_map Kern.mv (fun x : ℝ => [fin x]) [] 0 y xs
    have k2 := KsGufunc.akrCircperm_map Kern.uv fin nan 0 y xs
    rw [ek, ← k2] at k1
    rw [gksuv1_none, gksmv1_none (D := 1) path _ rfl (by simp)]
    cases path
    · simp [gksuvKernel, gksmvKernel, Except.map, nanGuard, notnan, k1]
    · rw [KsGufunc.akrCircperm_eq mv_symm, KsGufunc.akrCircperm_eq uv_symm] at k1
      simp [gksuvKernel, gksmvKernel, Except.map, k1]

example : "fair" ∈ Spec.gksEstimators ∧ ([1, 2, 2] : List ℝ) ≠ [] ∧
    ("fair" = "fair" → 2 ≤ ([1, 2, 2] : List ℝ).length) := by simp [Spec.gksEstimators]

/-- C37 (partial): the same with ensemble weights; on the array path `akr_circperm` is excepted
because `gksuv_ensemble` rejects it there (`C37_gksuv_circperm_differs`). -/
theorem C37_one_variable_weighted_partial (path : Path) (est : String)
    (he : est ∈ Spec.gksEstimators) (hp : path = .array → est ≠ "akr_circperm") (y : ℝ)
    (l : List (ℝ × ℝ)) (hw : ∀ p ∈ l, 0 ≤ p.2) (h : (l.map Prod.snd).sum ≠ 0)
    (hf : est = "fair" → ((nrmW l).map fun p => p.2 * p.2).sum ≠ 1) :
    gksmv1 path est 1 [fin y] (l.map fun p => [fin p.1]) (some (l.map fun p => fin p.2))
      = gksuv1 path est (fin y) (l.map fun p => fin p.1) (some (l.map fun p => fin p.2)) := by
  have e1 : (fun a b => gaussD (toEu a) (toEu b)) = gauss1 := by
    funext a b; exact gaussD_toEu a b
  have ek : (fun a b : ℝ => Kern.mv [fin a] [fin b]) = fun a b => Kern.uv (fin a) (fin b) := by
    funext a b; exact kern_one a b
  have w1 := gksuv1_weighted path est y l hw h
  have w2 := gksmv1_weighted path est (toEu y) (l.map fun p => (toEu p.1, p.2))
    (by intro p hp; obtain ⟨q, hq, rfl⟩ := List.mem_map.1 hp; exact hw q hq)
    (by rw [List.map_map]; exact h)
  rw [nrmW_map] at w2
  have m1 : ((l.map fun p : ℝ × ℝ => (toEu p.1, p.2)).map fun p => vec p.1)
      = l.map fun p => [fin p.1] := by
    rw [List.map_map]; apply List.map_congr_left; intro p _; exact vec_toEu p.1
  have m2 : ((l.map fun p : ℝ × ℝ => (toEu p.1, p.2)).map fun p => fin p.2)
      = l.map fun p => fin p.2 := by
    rw [List.map_map]; rfl
  rw [m1, m2, vec_toEu] at w2
  rw [w1, w2]
  have m3 : (((nrmW l).map fun p : ℝ × ℝ => (toEu p.1, p.2)).map fun p => vec p.1)
      = (((nrmW l).map Prod.fst).map fun x => [fin x]) := by
    rw [List.map_map, List.map_map]; apply List.map_congr_left; intro p _; exact vec_toEu p.1
  have m4 : (((nrmW l).map fun p : ℝ × ℝ => (toEu p.1, p.2)).map fun p => fin p.2)
      = (nrmW l).map fun p => fin p.2 := by
    rw [List.map_map]; rfl
  have m5 : ((nrmW l).map fun p => fin p.1) = ((nrmW l).map Prod.fst).map fin := by
    rw [List.map_map]; rfl
  simp only [Spec.gksEstimators, List.mem_cons, List.not_mem_nil, or_false] at he
  rcases he with rfl | rfl | rfl | rfl
  · have v1 := KsGufuncW.nrg_fin mv_emb [] (toEu y) ((nrmW l).map fun p : ℝ × ℝ => (toEu p.1, p.2))
    have v2 := KsApproxW.nrg_fin mv_emb (toEu y) ((nrmW l).map fun p : ℝ × ℝ => (toEu p.1, p.2))
    rw [ks_map, e1, vec_toEu] at v1 v2
    cases path
    · simp only [gksuvW_numba_nrg, gksmvW_numba_nrg, Except.map, guardW_fin, v1,
        KsGufuncW.nrg_fin uv_emb nan y (nrmW l)]
    · simp only [gksuvW_array_nrg, gksmvW_array_nrg, Except.map, v2,
        KsApproxW.nrg_fin uv_emb y (nrmW l)]
  · have hq : (((nrmW l).map fun p : ℝ × ℝ => (toEu p.1, p.2)).map fun p => p.2 * p.2).sum ≠ 1 := by
      rw [List.map_map]; exact hf rfl
    have v1 := KsGufuncW.fair_fin mv_emb [] (toEu y)
      ((nrmW l).map fun p : ℝ × ℝ => (toEu p.1, p.2)) hq
    have v2 := KsApproxW.fair_fin mv_emb (toEu y)
      ((nrmW l).map fun p : ℝ × ℝ => (toEu p.1, p.2)) hq
    have ed : kdiag gaussD ((nrmW l).map fun p : ℝ × ℝ => (toEu p.1, p.2))
        = kdiag gauss1 (nrmW l) := by
      unfold kdiag; rw [List.map_map]; simp only [Function.comp_def, gaussD_toEu]
    have es : (((nrmW l).map fun p : ℝ × ℝ => (toEu p.1, p.2)).map fun p => p.2 * p.2).sum
        = ((nrmW l).map fun p => p.2 * p.2).sum := by
      rw [List.map_map]; rfl
    rw [ksFairW_map, e1, vec_toEu] at v1 v2
    rw [ed, es] at v2
    cases path
    · simp only [gksuvW_numba_fair, gksmvW_numba_fair, Except.map, guardW_fin, v1,
        KsGufuncW.fair_fin uv_emb nan y (nrmW l) (hf rfl)]
    · simp only [gksuvW_array_fair, gksmvW_array_fair, Except.map, v2,
        KsApproxW.fair_fin uv_emb y (nrmW l) (hf rfl)]
  · have k1 := KsGufuncW.akr_map Kern.mv (fun x : ℝ => [fin x]) [] 0 y ((nrmW l).map Prod.fst)
      ((nrmW l).map fun p => fin p.2)
    have k2 := KsGufuncW.akr_map Kern.uv fin nan 0 y ((nrmW l).map Prod.fst)
      ((nrmW l).map fun p => fin p.2)
    rw [ek, ← k2] at k1
    rw [m3, m4, m5]
    cases path
    · simp only [gksuvW_numba_akr, gksmvW_numba_akr, Except.map, guardW_fin, k1]
    · rw [KsGufuncW.akr_eq mv_symm _ _ _ _ (by simp), KsGufuncW.akr_eq uv_symm _ _ _ _ (by simp)]
        at k1
      simp only [gksuvW_array_akr, gksmvW_array_akr, Except.map, k1]
  · have k1 := KsGufuncW.akrCircperm_map Kern.mv (fun x : ℝ => [fin x]) [] 0 y
      ((nrmW l).map Prod.fst) ((nrmW l).map fun p => fin p.2)
    have k2 := KsGufuncW.akrCircperm_map Kern.uv fin nan 0 y ((nrmW l).map Prod.fst)
      ((nrmW l).map fun p => fin p.2)
    rw [ek, ← k2] at k1
    rw [m3, m4, m5]
    cases path
    · simp only [gksuvW_numba_akrCircperm, gksmvW_numba_akrCircperm, Except.map, guardW_fin, k1]
    · simp at hp

example : "fair" ∈ Spec.gksEstimators ∧ (∀ p ∈ ([(1, 1), (4, 1)] : List (ℝ × ℝ)), 0 ≤ p.2) ∧
    (([(1, 1), (4, 1)] : List (ℝ × ℝ)).map Prod.snd).sum ≠ 0 ∧
    ((nrmW ([(1, 1), (4, 1)] : List (ℝ × ℝ))).map fun p => p.2 * p.2).sum ≠ 1 := by
  refine ⟨by simp [Spec.gksEstimators], by simp, by norm_num, by norm_num [nrmW]⟩

/-! ### outcome-weighted and vertically re-scaled scores -/

theorem uvf_ok {wF : XF → XF} {w : ℝ → ℝ} (h : WeightFn wF w) (y : ℝ) (xs : List ℝ) :
    ¬ (wF (fin y) < 0 ∨ ∃ x ∈ xs.map fin, wF x < 0) := by
  rintro (h1 | ⟨x, hx, h1⟩)
  · rw [h.eq, zero_def] at h1
    exact absurd ((fin_lt _ _).1 h1) (not_lt.2 (h.nonneg y))
  · obtain ⟨v, _, rfl⟩ := List.mem_map.1 hx
    rw [h.eq, zero_def] at h1
    exact absurd ((fin_lt _ _).1 h1) (not_lt.2 (h.nonneg v))

theorem uvf_map {wF : XF → XF} {w : ℝ → ℝ} (h : WeightFn wF w) (xs : List ℝ) :
    (xs.map fin).map wF = xs.map fun x => fin (w x) := by
  rw [List.map_map]
  apply List.map_congr_left; intro x _; exact h.eq x

theorem pair_maps {α β : Type} (emb : β → α) (f : β → ℝ) (xs : List β) :
    ((xs.map fun x => (x, f x)).map fun p => emb p.1) = xs.map emb ∧
    ((xs.map fun x => (x, f x)).map fun p => fin p.2) = (xs.map fun x => fin (f x)) ∧
    ((xs.map fun x => (x, f x)).map fun p =>
      (p.1, ((xs.map fun x => (x, f x)).length : ℝ)⁻¹ * p.2))
      = xs.map fun x => (x, f x / xs.length) := by
  refine ⟨by simp [Function.comp_def], by simp [Function.comp_def], ?_⟩
  rw [List.map_map]
  apply List.map_congr_left; intro x _
  simp only [Function.comp_apply, List.length_map, Prod.mk.injEq, true_and]
  ring

/-- C37: both paths of `owgksuv_ensemble` compute the outcome-weighted kernel score. -/
theorem C37_owgksuv_value (path : Path) {wF : XF → XF} {w : ℝ → ℝ} (hw : WeightFn wF w) (y : ℝ)
    {xs : List ℝ} (h : (xs.map w).sum ≠ 0) :
    owgksuv1 path wF (fin y) (xs.map fin) none
      = .ok (fin (owks gauss1 (w y) y (xs.map fun x => (x, w x)))) := by
  obtain ⟨m1, m2, -⟩ := pair_maps fin w xs
  have ht : ktot (xs.map fun x => (x, w x)) ≠ 0 := by
    unfold ktot; rw [List.map_map]; exact h
  have k1 := KsGufunc.ow_fin uv_emb nan y (w y) ht
  have k2 := KsApprox.owUv_fin uv_emb y (w y) ht
  rw [m1, m2] at k1 k2
  unfold owgksuv1
  rw [Option.map_none, owgksuvEnsemble_eq, uvO_none, if_neg (uvf_ok hw y xs), uvf_map hw, hw.eq]
  cases path
  · simp [notnan, k1]
  · simp [k2]

example : WeightFn (fun _ => fin 2) (fun _ => 2) ∧
    (([1, 2, 2] : List ℝ).map fun _ => (2 : ℝ)).sum ≠ 0 :=
  ⟨⟨fun _ => rfl, fun _ => by norm_num⟩, by norm_num⟩

theorem C37_vrgksuv_value (path : Path) {wF : XF → XF} {w : ℝ → ℝ} (hw : WeightFn wF w) (y : ℝ)
    {xs : List ℝ} (h : xs ≠ []) :
    vrgksuv1 path wF (fin y) (xs.map fin) none
      = .ok (fin (vrks gauss1 (w y) y (xs.map fun x => (x, w x / xs.length)))) := by
  obtain ⟨m1, m2, m3⟩ := pair_maps fin w xs
  have hl : (xs.map fun x => (x, w x)) ≠ [] := by simpa using h
  have k1 := KsGufunc.vr_fin uv_emb nan y (w y) hl
  have k2 := KsApprox.vrUv_fin uv_emb y (w y) hl
  rw [m1, m2, m3] at k1 k2
  unfold vrgksuv1
  rw [Option.map_none, vrgksuvEnsemble_eq, uvO_none, if_neg (uvf_ok hw y xs), uvf_map hw, hw.eq]
  cases path
  · simp [notnan, k1]
  · simp [k2]

/-- a weight function: everything counts twice -/
example : WeightFn (fun _ => fin 2) (fun _ => 2) ∧ (([1, 2, 2] : List ℝ).map fun _ => (2 : ℝ)).sum ≠ 0
    ∧ ([1, 2, 2] : List ℝ) ≠ [] :=
  ⟨⟨fun _ => rfl, fun _ => by norm_num⟩, by norm_num, by simp⟩

theorem uvw_neg {wF : XF → XF} {w : ℝ → ℝ} (hw : WeightFn wF w) (y : ℝ) (l : List (ℝ × ℝ))
    (hl : ∀ p ∈ l, 0 ≤ p.2) :
    ¬ ((wF (fin y) < 0 ∨ ∃ x ∈ l.map (fun p => fin p.1), wF x < 0) ∨
      ∃ x ∈ l.map (fun p => fin p.2), x < 0) := by
  have e : l.map (fun p => fin p.1) = (l.map Prod.fst).map fin := by rw [List.map_map]; rfl
  rw [e]
  exact not_or.2 ⟨uvf_ok hw y _, no_neg l _ hl⟩

/-- C37: the same with ensemble weights; outcome weights are multiplied by the normalised ensemble
weights. -/
theorem C37_owgksuv_weighted (path : Path) {wF : XF → XF} {w : ℝ → ℝ} (hw : WeightFn wF w) (y : ℝ)
    (l : List (ℝ × ℝ)) (hl : ∀ p ∈ l, 0 ≤ p.2) (h : (l.map Prod.snd).sum ≠ 0)
    (h' : ((nrmW l).map fun p => w p.1 * p.2).sum ≠ 0) :
    owgksuv1 path wF (fin y) (l.map fun p => fin p.1) (some (l.map fun p => fin p.2))
      = .ok (fin (owks gauss1 (w y) y ((nrmW l).map fun p => (p.1, w p.1 * p.2)))) := by
  obtain ⟨m1, m2, m3, m4⟩ := kowList_maps fin w l
  have ht : ktot (kcomb (kowList w l)) ≠ 0 := by
    rw [m4]; unfold ktot; rw [List.map_map]; exact h'
  have k1 := KsGufuncW.ow_fin uv_emb nan y (w y) ht
  have k2 := KsApproxW.owUv_fin uv_emb y (w y) ht
  rw [m1, m2, m3, m4] at k1 k2
  have e : (l.map fun p => fin p.1).map wF = l.map fun p => fin (w p.1) := by
    rw [List.map_map]; apply List.map_congr_left; intro p _; exact hw.eq p.1
  unfold owgksuv1
  rw [Option.map_some, owgksuvEnsemble_eq, uvO_some path _ (by simp), if_neg (uvw_neg hw y l hl), e,
    hw.eq, nrmW_snd l h]
  cases path
  · simp only [notnan, if_false, k1]
  · simp only [k2]

example : WeightFn (fun _ => fin 2) (fun _ => 2) ∧
    (∀ p ∈ ([(1, 1), (4, 1)] : List (ℝ × ℝ)), 0 ≤ p.2) ∧
    (([(1, 1), (4, 1)] : List (ℝ × ℝ)).map Prod.snd).sum ≠ 0 ∧
    ((nrmW ([(1, 1), (4, 1)] : List (ℝ × ℝ))).map fun p => (fun _ => (2 : ℝ)) p.1 * p.2).sum ≠ 0 :=
  ⟨⟨fun _ => rfl, fun _ => by norm_num⟩, by simp, by norm_num, by norm_num [nrmW]⟩

theorem C37_vrgksuv_weighted (path : Path) {wF : XF → XF} {w : ℝ → ℝ} (hw : WeightFn wF w) (y : ℝ)
    (l : List (ℝ × ℝ)) (hl : ∀ p ∈ l, 0 ≤ p.2) (h : (l.map Prod.snd).sum ≠ 0) :
    vrgksuv1 path wF (fin y) (l.map fun p => fin p.1) (some (l.map fun p => fin p.2))
      = .ok (fin (vrks gauss1 (w y) y ((nrmW l).map fun p => (p.1, w p.1 * p.2)))) := by
  obtain ⟨m1, m2, m3, m4⟩ := kowList_maps fin w l
  have k1 := KsGufuncW.vr_fin uv_emb nan y (w y) (kowList w l)
  have k2 := KsApproxW.vrUv_fin uv_emb y (w y) (kowList w l)
  rw [m1, m2, m3, m4] at k1 k2
  have e : (l.map fun p => fin p.1).map wF = l.map fun p => fin (w p.1) := by
    rw [List.map_map]; apply List.map_congr_left; intro p _; exact hw.eq p.1
  unfold vrgksuv1
  rw [Option.map_some, vrgksuvEnsemble_eq, uvO_some path _ (by simp), if_neg (uvw_neg hw y l hl), e,
    hw.eq, nrmW_snd l h]
  cases path
  · simp only [notnan, if_false, k1]
  · simp only [k2]

example : WeightFn (fun _ => fin 2) (fun _ => 2) ∧
    (∀ p ∈ ([(1, 1), (4, 1)] : List (ℝ × ℝ)), 0 ≤ p.2) ∧
    (([(1, 1), (4, 1)] : List (ℝ × ℝ)).map Prod.snd).sum ≠ 0 ∧
    ((nrmW ([(1, 1), (4, 1)] : List (ℝ × ℝ))).map fun p => (fun _ => (2 : ℝ)) p.1 * p.2).sum ≠ 0 :=
  ⟨⟨fun _ => rfl, fun _ => by norm_num⟩, by simp, by norm_num, by norm_num [nrmW]⟩

theorem C37_owgksmv_value (path : Path) {wFunc : List XF → XF} {f : Eu D → ℝ}
    (hf : Spec.WeightFun wFunc f) (y : Eu D) {xs : List (Eu D)} (h : (xs.map f).sum ≠ 0) :
    owgksmv1 path D wFunc (vec y) (xs.map vec) none
      = .ok (fin (owks gaussD (f y) y (xs.map fun x => (x, f x)))) := by
  obtain ⟨m1, m2, -⟩ := pair_maps vec f xs
  have ht : ktot (xs.map fun x => (x, f x)) ≠ 0 := by
    unfold ktot; rw [List.map_map]; exact h
  have k1 := KsGufunc.ow_fin mv_emb [] y (f y) ht
  have k2 := KsApprox.owMv_fin mv_emb y (f y) ht
  rw [m1, m2] at k1 k2
  unfold owgksmv1
  rw [Option.map_none, owgksmvEnsemble_eq, mvO_none path wFunc (vec_length y) (vecs_length xs),
    if_neg (wf_ok hf y xs), wf_map hf, hf.val]
  cases path <;> simp [k1, k2]

example : Spec.WeightFun (D := 2) (fun _ => fin 2) (fun _ => 2) ∧
    (([!₂[1, 2], 0] : List (Eu 2)).map fun _ => (2 : ℝ)).sum ≠ 0 :=
  ⟨⟨fun _ => rfl, fun _ => by norm_num⟩, by norm_num⟩

theorem C37_vrgksmv_value (path : Path) {wFunc : List XF → XF} {f : Eu D → ℝ}
    (hf : Spec.WeightFun wFunc f) (y : Eu D) {xs : List (Eu D)} (h : xs ≠ []) :
    vrgksmv1 path D wFunc (vec y) (xs.map vec) none
      = .ok (fin (vrks gaussD (f y) y (xs.map fun x => (x, f x / xs.length)))) := by
  obtain ⟨m1, m2, m3⟩ := pair_maps vec f xs
  have hl : (xs.map fun x => (x, f x)) ≠ [] := by simpa using h
  have k1 := KsGufunc.vr_fin mv_emb [] y (f y) hl
  have k2 := KsApprox.vrMv_fin mv_emb y (f y) hl
  rw [m1, m2, m3] at k1 k2
  unfold vrgksmv1
  rw [Option.map_none, vrgksmvEnsemble_none, mvO_none path wFunc (vec_length y) (vecs_length xs),
    if_neg (wf_ok hf y xs), wf_map hf, hf.val]
  cases path <;> simp [k1, k2]

example : Spec.WeightFun (D := 2) (fun _ => fin 2) (fun _ => 2) ∧
    (([!₂[1, 2], 0] : List (Eu 2)).map fun _ => (2 : ℝ)).sum ≠ 0 :=
  ⟨⟨fun _ => rfl, fun _ => by norm_num⟩, by norm_num⟩

theorem mvw_neg {wFunc : List XF → XF} {f : Eu D → ℝ} (hf : Spec.WeightFun wFunc f) (y : Eu D)
    (l : List (Eu D × ℝ)) (hl : ∀ p ∈ l, 0 ≤ p.2) :
    ¬ ((wFunc (vec y) < 0 ∨ ∃ x ∈ l.map (fun p => vec p.1), wFunc x < 0) ∨
      ∃ x ∈ l.map (fun p => fin p.2), x < 0) := by
  have e : l.map (fun p => vec p.1) = (l.map Prod.fst).map vec := by rw [List.map_map]; rfl
  rw [e]
  exact not_or.2 ⟨wf_ok hf y _, no_neg l _ hl⟩

theorem C37_owgksmv_weighted (path : Path) {wFunc : List XF → XF} {f : Eu D → ℝ}
    (hf : Spec.WeightFun wFunc f) (y : Eu D) (l : List (Eu D × ℝ)) (hl : ∀ p ∈ l, 0 ≤ p.2)
    (h : (l.map Prod.snd).sum ≠ 0) (h' : ((nrmW l).map fun p => f p.1 * p.2).sum ≠ 0) :
    owgksmv1 path D wFunc (vec y) (l.map fun p => vec p.1) (some (l.map fun p => fin p.2))
      = .ok (fin (owks gaussD (f y) y ((nrmW l).map fun p => (p.1, f p.1 * p.2)))) := by
  obtain ⟨m1, m2, m3, m4⟩ := kowList_maps vec f l
  have ht : ktot (kcomb (kowList f l)) ≠ 0 := by
    rw [m4]; unfold ktot; rw [List.map_map]; exact h'
  have k1 := KsGufuncW.ow_fin mv_emb [] y (f y) ht
  have k2 := KsApproxW.owMv_fin mv_emb y (f y) ht
  rw [m1, m2, m3, m4] at k1 k2
  have e : (l.map fun p => vec p.1).map wFunc = l.map fun p => fin (f p.1) := by
    rw [List.map_map]; apply List.map_congr_left; intro p _; exact hf.val p.1
  unfold owgksmv1
  rw [Option.map_some, owgksmvEnsemble_eq,
    mvO_some path wFunc (vec_length y) (vecs_length' Prod.fst l) (by simp),
    if_neg (mvw_neg hf y l hl), e, hf.val, nrmW_snd l h]
  cases path
  · simp only [k1]
  · simp only [k2]

example : Spec.WeightFun (D := 2) (fun _ => fin 2) (fun _ => 2) ∧
    (∀ p ∈ ([(!₂[1, 2], 1), (0, 1)] : List (Eu 2 × ℝ)), 0 ≤ p.2) ∧
    (([(!₂[1, 2], 1), (0, 1)] : List (Eu 2 × ℝ)).map Prod.snd).sum ≠ 0 ∧
    ((nrmW ([(!₂[1, 2], 1), (0, 1)] : List (Eu 2 × ℝ))).map
      fun p => (fun _ => (2 : ℝ)) p.1 * p.2).sum ≠ 0 :=
  ⟨⟨fun _ => rfl, fun _ => by norm_num⟩, by simp, by norm_num, by norm_num [nrmW]⟩

/-- C37 (partial): `vrgksmv_ensemble` with ensemble weights on the array path.  On the numba path the
call always fails: `C37_vrgksmv_weighted_fails`. -/
theorem C37_vrgksmv_weighted_partial {wFunc : List XF → XF} {f : Eu D → ℝ}
    (hf : Spec.WeightFun wFunc f) (y : Eu D) (l : List (Eu D × ℝ)) (hl : ∀ p ∈ l, 0 ≤ p.2)
    (h : (l.map Prod.snd).sum ≠ 0) :
    vrgksmv1 .array D wFunc (vec y) (l.map fun p => vec p.1) (some (l.map fun p => fin p.2))
      = .ok (fin (vrks gaussD (f y) y ((nrmW l).map fun p => (p.1, f p.1 * p.2)))) := by
  obtain ⟨m1, m2, m3, m4⟩ := kowList_maps vec f l
  have k2 := KsApproxW.vrMv_fin mv_emb y (f y) (kowList f l)
  rw [m1, m2, m3, m4] at k2
  have e : (l.map fun p => vec p.1).map wFunc = l.map fun p => fin (f p.1) := by
    rw [List.map_map]; apply List.map_congr_left; intro p _; exact hf.val p.1
  unfold vrgksmv1
  rw [Option.map_some, vrgksmvEnsemble_array,
    mvO_some .array wFunc (vec_length y) (vecs_length' Prod.fst l) (by simp),
    if_neg (mvw_neg hf y l hl), e, hf.val, nrmW_snd l h]
  simp only [k2]

example : Spec.WeightFun (D := 2) (fun _ => fin 2) (fun _ => 2) ∧
    (∀ p ∈ ([(!₂[1, 2], 1), (0, 1)] : List (Eu 2 × ℝ)), 0 ≤ p.2) ∧
    (([(!₂[1, 2], 1), (0, 1)] : List (Eu 2 × ℝ)).map Prod.snd).sum ≠ 0 :=
  ⟨⟨fun _ => rfl, fun _ => by norm_num⟩, by simp, by norm_num⟩

/-- C37, negation: on the numba path `vrgksmv_ensemble` with ensemble weights fails for every input
arrays, weight function and axes, because `_vrks_ensemble_mv_w_gufunc` is not a gufunc. -/
theorem C37_vrgksmv_weighted_fails (obs fct : Arr XF) (wFunc : List XF → XF) (mAxis vAxis : ℤ)
    (W : Arr XF) : ∃ e, vrgksmvEnsemble .numba obs fct wFunc mAxis vAxis (some W) = .error e := by
  unfold vrgksmvEnsemble
  cases multivariateArrayCheck obs fct mAxis vAxis with
  | error e => exact ⟨e, rfl⟩
  | ok p =>
    simp only [bind, Except.bind]
    cases mvWeights p.1 p.2 wFunc with
    | error e => exact ⟨e, rfl⟩
    | ok q =>
      dsimp only
      cases multivariateWeightCheck W p.2 mAxis with
      | error e => exact ⟨e, rfl⟩
      | ok w =>
        unfold vrksMvW
        dsimp only
        split_ifs
        · exact ⟨_, rfl⟩
        · exact ⟨_, rfl⟩

/-! ### slices -/

/-- C37: on arrays of any shape `gksuv_ensemble` scores every slice along the ensemble axis
separately. -/
theorem C37_gksuv_slicewise (path : Path) (est : String) {obs fct : Arr XF} {m : ℤ} {k : ℕ}
    (h : AxisIs m fct.ndim k) (hs : obs.shape = fct.shape.eraseIdx k) {out : Arr XF}
    (ho : gksuvEnsemble path obs fct m none est = .ok out) :
    out.shape = obs.shape ∧ ∀ i, Arr.Valid obs.shape i →
      gksuv1 path est (obs.get i) (fct.sliceAt k i) none = .ok (out.get i) := by
  rw [gksuvEnsemble_eq, uvScore_none h hs] at ho
  cases hK : gksuvKernel path est with
  | error e => rw [hK] at ho; simp [Except.map] at ho
  | ok κ =>
    rw [hK] at ho
    simp only [Except.map, Except.ok.injEq] at ho
    subst ho
    refine ⟨rfl, fun i _ => ?_⟩
    rw [gksuv1_none, hK]
    simp only [Except.map, perSlice, Arr.row_moveLast]

example : AxisIs 0 (Arr.ofRows 3 [[1, 2, 3], [4, 5, 6]] : Arr XF).ndim 0 ∧
    (Arr.ofList [7, 8, 9] : Arr XF).shape
      = (Arr.ofRows 3 [[1, 2, 3], [4, 5, 6]] : Arr XF).shape.eraseIdx 0 := by
  refine ⟨by constructor <;> simp [Arr.ndim, Arr.ofRows], by simp [Arr.ofRows, Arr.ofList]⟩

/-- C37: on arrays of any shape `gksmv_ensemble` scores every (member, variable) matrix
separately. -/
theorem C37_gksmv_slicewise (path : Path) (est : String) {obs fct : Arr XF} {mAxis vAxis : ℤ}
    {m v : ℕ} (h : MvAxes mAxis vAxis fct.ndim m v) (hs : obs.shape = fct.shape.eraseIdx m)
    {out : Arr XF} (ho : gksmvEnsemble path obs fct mAxis vAxis none est = .ok out) :
    out.shape = obs.shape.eraseIdx (axisWithout m v) ∧ ∀ i,
      gksmv1 path est (fct.shape.getD v 0) (obs.sliceAt (axisWithout m v) i) (fct.matAt m v i) none
        = .ok (out.get i) := by
  rw [gksmvEnsemble_eq] at ho
  have hne : m ≠ v := h.ne
  rw [mvScore_none h hs] at ho
  cases hK : gksmvKernel path est with
  | error e => rw [hK] at ho; simp [Except.map] at ho
  | ok κ =>
    rw [hK] at ho
    simp only [Except.map, Except.ok.injEq] at ho
    subst ho
    refine ⟨by simp [perMat, Arr.moveLast], fun i => ?_⟩
    rw [gksmv1_none, hK]
    · simp only [Except.map, perMat_get]
    · rw [sliceAt_len, hs, eraseIdx_getD_without hne]
    · exact matAt_row_len fct m v i

example : MvAxes 1 0 (⟨[3, 5, 4], fun _ => 0⟩ : Arr XF).ndim 1 0 ∧
    (⟨[3, 4], fun _ => 0⟩ : Arr XF).shape = (⟨[3, 5, 4], fun _ => 0⟩ : Arr XF).shape.eraseIdx 1 := by
  refine ⟨⟨⟨by simp [Arr.ndim], by simp⟩, ⟨by simp [Arr.ndim], by simp⟩, by simp⟩, by simp⟩

end Verif
