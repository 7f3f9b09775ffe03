import Verif.Lemmas.KsNan
import Verif.Props.CrpsNan

/-!
# Property C105: the kernel, energy and variogram scores never hide a missing value
-/

noncomputable section

open scoped Classical

namespace Verif

open XF Py Mv Api

/-- Specification: an observation vector, a member or the weights contain a NaN. -/
def Spec.HasNanMv (y : List XF) (xs : List (List XF)) (ws : Option (List XF)) : Prop :=
  nan ∈ y ∨ (∃ x ∈ xs, nan ∈ x) ∨ ∃ w, ws = some w ∧ nan ∈ w

/-! ### from NaN in the data to NaN in the first term -/

theorem wnorm_nan {w : List XF} (h : nan ∈ w) (i : ℕ) : idx (w.map fun x => x / w.sum) i = nan := by
  rw [sum_eq_nan_of_mem h]
  unfold idx
  rcases lt_or_ge i w.length with hi | hi
  · simp [hi]
  · simp [hi]

theorem kern_uv_nan_l (b : XF) : Kern.uv nan b = nan := by simp [Kern.uv]
theorem kern_uv_nan_r (a : XF) : Kern.uv a nan = nan := by simp [Kern.uv]

theorem kNan_uv {y : XF} {xs : List XF} (hne : xs ≠ []) (h : NanIn y xs) :
    ∃ i, KNan Kern.uv nan y xs i := by
  rcases h with h | h
  · exact ⟨0, List.length_pos_iff.2 hne, by rw [h, kern_uv_nan_r], by rw [h, kern_uv_nan_l]⟩
  · obtain ⟨i, hi, e⟩ := exists_idx_nan h
    unfold idx at e
    exact ⟨i, hi, by rw [e, kern_uv_nan_l], by rw [e, kern_uv_nan_r]⟩

theorem hasNan_none {y : XF} {xs : List XF} (h : Spec.HasNan y xs none) : NanIn y xs := by
  rcases h with h | h | ⟨w, h, _⟩
  · exact .inl h
  · exact .inr h
  · simp at h

theorem kNanW_uv {y : XF} {xs ws : List XF} (hne : xs ≠ []) (hw : ws.length = xs.length)
    (h : Spec.HasNan y xs (some ws)) :
    ∃ i, KNanW Kern.uv nan y xs (ws.map fun x => x / ws.sum) i := by
  have key : NanIn y xs → ∃ i, KNanW Kern.uv nan y xs (ws.map fun x => x / ws.sum) i := by
    intro h
    obtain ⟨i, hi⟩ := kNan_uv hne h
    exact ⟨i, hi.lt, by rw [List.length_map, hw]; exact hi.lt, .inl ⟨hi.l, hi.r⟩⟩
  rcases h with h | h | ⟨w, h, h2⟩
  · exact key (.inl h)
  · exact key (.inr h)
  · cases h
    have := List.length_pos_iff.2 hne
    exact ⟨0, this, by rw [List.length_map, hw]; exact this, .inr (wnorm_nan h2 0)⟩

theorem vnorm_vsub_nan {a b : List XF} (hl : a.length = b.length) (h : nan ∈ a ∨ nan ∈ b) :
    vnorm (vsub a b) = nan := by
  have : nan ∈ vsub a b := by
    unfold vsub zip2
    rcases h with h | h
    · obtain ⟨i, hi, e⟩ := List.mem_iff_getElem.1 h
      rw [List.mem_iff_getElem]
      exact ⟨i, by simp [hi, ← hl], by simp [e]⟩
    · obtain ⟨i, hi, e⟩ := List.mem_iff_getElem.1 h
      rw [List.mem_iff_getElem]
      exact ⟨i, by simp [hi, hl], by simp [e]⟩
  unfold vnorm
  rw [sum_map_nan this (by simp)]
  simp

theorem kern_mv_nan {a b : List XF} (hl : a.length = b.length) (h : nan ∈ a ∨ nan ∈ b) :
    Kern.mv a b = nan := by
  unfold Kern.mv
  rw [vnorm_vsub_nan hl h]
  simp

section mv
variable {D : ℕ} {y : List XF} {xs : List (List XF)} {k : List XF → List XF → XF}
  (hk : ∀ a b : List XF, a.length = b.length → nan ∈ a ∨ nan ∈ b → k a b = nan)
  (hne : xs ≠ []) (hy : y.length = D) (hx : ∀ x ∈ xs, x.length = D)
include hk hne hy hx

theorem kNan_mv (h : nan ∈ y ∨ ∃ x ∈ xs, nan ∈ x) : ∃ i, KNan k [] y xs i := by
  have hl : ∀ i < xs.length, (xs.getD i []).length = y.length := fun i hi => by
    rw [hx _ (getD_mem hi []), hy]
  rcases h with h | ⟨x, h1, h2⟩
  · have h0 := List.length_pos_iff.2 hne
    exact ⟨0, h0, hk _ _ (hl 0 h0) (.inr h), hk _ _ (hl 0 h0).symm (.inl h)⟩
  · obtain ⟨i, hi, e⟩ := List.mem_iff_getElem.1 h1
    have e' : xs.getD i [] = x := by simp [hi, e]
    have := hl i hi
    rw [e'] at this
    exact ⟨i, hi, by rw [e']; exact hk _ _ this (.inl h2), by rw [e']; exact hk _ _ this.symm (.inr h2)⟩

theorem kNanW_mv {ws : List XF} (hw : ws.length = xs.length) (h : Spec.HasNanMv y xs (some ws)) :
    ∃ i, KNanW k [] y xs (ws.map fun x => x / ws.sum) i := by
  have key : (nan ∈ y ∨ ∃ x ∈ xs, nan ∈ x) → ∃ i, KNanW k [] y xs (ws.map fun x => x / ws.sum) i := by
    intro h
    obtain ⟨i, hi⟩ := kNan_mv hk hne hy hx h
    exact ⟨i, hi.lt, by rw [List.length_map, hw]; exact hi.lt, .inl ⟨hi.l, hi.r⟩⟩
  rcases h with h | h | ⟨w, h, h2⟩
  · exact key (.inl h)
  · exact key (.inr h)
  · cases h
    have := List.length_pos_iff.2 hne
    exact ⟨0, this, by rw [List.length_map, hw]; exact this, .inr (wnorm_nan h2 0)⟩
end mv

theorem hasNanMv_none {y : List XF} {xs : List (List XF)} (h : Spec.HasNanMv y xs none) :
    nan ∈ y ∨ ∃ x ∈ xs, nan ∈ x := by
  rcases h with h | h | ⟨w, h, _⟩
  · exact .inl h
  · exact .inr h
  · simp at h

theorem rho_nan {p : ℝ} (hp : p ≠ 0) {x : List XF} {c : ℕ} (h : idx x c = nan) :
    rho p x c c = nan := by
  unfold rho
  rw [h]
  simp [XF.rpow, hp]

section vs
variable {D : ℕ} {p : ℝ} (hp : p ≠ 0) {y : List XF} {xs : List (List XF)}
  (hne : xs ≠ []) (hy : y.length = D) (hx : ∀ x ∈ xs, x.length = D)
include hp hne hy hx

theorem vNan (h : nan ∈ y ∨ ∃ x ∈ xs, nan ∈ x) : ∃ c m, VNan p y xs c m := by
  rcases h with h | ⟨x, h1, h2⟩
  · obtain ⟨c, hc, e⟩ := exists_idx_nan h
    exact ⟨c, 0, hc, List.length_pos_iff.2 hne, .inr (rho_nan hp e)⟩
  · obtain ⟨i, hi, e⟩ := List.mem_iff_getElem.1 h1
    have e' : vat xs i = x := by simp [vat, hi, e]
    obtain ⟨c, hc, e2⟩ := exists_idx_nan h2
    exact ⟨c, i, by rw [hy, ← hx x h1]; exact hc, hi, .inl (by rw [e']; exact rho_nan hp e2)⟩

theorem vNanW (hD : 0 < D) {ws : List XF} (hw : ws.length = xs.length)
    (h : Spec.HasNanMv y xs (some ws)) :
    ∃ c m, VNanW p y xs (ws.map fun x => x / ws.sum) c m := by
  have key : (nan ∈ y ∨ ∃ x ∈ xs, nan ∈ x) →
      ∃ c m, VNanW p y xs (ws.map fun x => x / ws.sum) c m := by
    intro h
    obtain ⟨c, m, hi⟩ := vNan hp hne hy hx h
    exact ⟨c, m, hi.ltc, hi.ltm, by rw [List.length_map, hw]; exact hi.ltm, .inl hi.nn⟩
  rcases h with h | h | ⟨w, h, h2⟩
  · exact key (.inl h)
  · exact key (.inr h)
  · cases h
    have := List.length_pos_iff.2 hne
    exact ⟨0, 0, by rw [hy]; exact hD, this, by rw [List.length_map, hw]; exact this,
      .inr (wnorm_nan h2 0)⟩
end vs

theorem ite_ok {c : Prop} [Decidable c] {e : Err} {a r : XF}
    (h : (if c then Except.error e else Except.ok a) = Except.ok r) : a = r := by
  split_ifs at h
  exact Except.ok.inj h

/-! ### Gaussian kernel score -/

/-- C105: whatever the path, the estimator and the ensemble weights, a call of `gksuv_ensemble` on data
with a NaN observation, member or weight that returns a number returns NaN. -/
theorem C105_gksuv (path : Path) (est : String) (y : XF) (xs : List XF) (ws : Option (List XF))
    (hne : xs ≠ []) (hw : ∀ w, ws = some w → w.length = xs.length) (h : Spec.HasNan y xs ws) (r : XF)
    (hr : gksuv1 path est y xs ws = .ok r) : r = nan := by
  cases ws with
  | none =>
    rw [gksuv1_none] at hr
    obtain ⟨i, hi⟩ := kNan_uv hne (hasNan_none h)
    unfold gksuvKernel at hr
    cases path <;> dsimp only at hr <;> split_ifs at hr <;>
      simp only [Except.map, Except.ok.injEq, reduceCtorEq] at hr <;> rw [← hr] <;>
      try unfold nanGuard
    · rw [KsGufunc.akr_nan hi]; simp
    · rw [KsGufunc.akrCircperm_nan hi]; simp
    · rw [KsGufunc.fair_nan hi]; simp
    · rw [KsGufunc.nrg_nan hi]; simp
    · exact KsApprox.nrg_nan hi
    · exact KsApprox.fair_nan hi
    · exact KsApprox.akr_nan hi _
    · exact KsApprox.akrCircperm_nan hi _
  | some w =>
    rw [gksuv1_some path est y (hw w rfl)] at hr
    obtain ⟨i, hi⟩ := kNanW_uv hne (hw w rfl) h
    split_ifs at hr
    unfold gksuvKernelW at hr
    cases path <;> dsimp only at hr <;> split_ifs at hr <;>
      simp only [Except.map, Except.ok.injEq, reduceCtorEq] at hr <;> rw [← hr] <;>
      try unfold nanGuardW
    · rw [KsGufuncW.fair_nan hi]; simp
    · rw [KsGufuncW.nrg_nan hi]; simp
    · rw [KsGufuncW.akr_nan hi]; simp
    · rw [KsGufuncW.akrCircperm_nan hi]; simp
    · exact KsApproxW.nrg_nan hi
    · exact KsApproxW.fair_nan hi
    · exact KsApproxW.akr_nan hi _
    · exact KsApproxW.akrCircperm_nan hi _

/-- a call with a missing member that does return -/
example : Spec.HasNan (fin 1) [fin 2, nan] none ∧
    gksuv1 .numba "nrg" (fin 1) [fin 2, nan] none = .ok nan := by
  refine ⟨by simp [Spec.HasNan], ?_⟩
  have e : gksuv1 .numba "nrg" (fin 1) [fin 2, nan] none
      = .ok (nanGuard (KsGufunc.nrg Kern.uv nan) (fin 1) [fin 2, nan]) := by
    rw [gksuv1_none]; rfl
  rw [e, C105_gksuv .numba "nrg" (fin 1) [fin 2, nan] none (by simp) (by simp)
    (by simp [Spec.HasNan]) _ e]

/-- C105: the same for `gksmv_ensemble`, with a NaN in any component of any vector. -/
theorem C105_gksmv {D : ℕ} (path : Path) (est : String) (y : List XF) (xs : List (List XF))
    (ws : Option (List XF)) (hne : xs ≠ []) (hy : y.length = D) (hx : ∀ x ∈ xs, x.length = D)
    (hw : ∀ w, ws = some w → w.length = xs.length) (h : Spec.HasNanMv y xs ws) (r : XF)
    (hr : gksmv1 path est D y xs ws = .ok r) : r = nan := by
  cases ws with
  | none =>
    rw [gksmv1_none path est hy hx] at hr
    obtain ⟨i, hi⟩ := kNan_mv (fun _ _ => kern_mv_nan) hne hy hx (hasNanMv_none h)
    unfold gksmvKernel at hr
    cases path <;> dsimp only at hr <;> split_ifs at hr <;>
      simp only [Except.map, Except.ok.injEq, reduceCtorEq] at hr <;> rw [← hr]
    · exact KsGufunc.akr_nan hi
    · exact KsGufunc.akrCircperm_nan hi
    · exact KsGufunc.fair_nan hi
    · exact KsGufunc.nrg_nan hi
    · exact KsApprox.nrg_nan hi
    · exact KsApprox.fair_nan hi
    · exact KsApprox.akr_nan hi _
    · exact KsApprox.akrCircperm_nan hi _
  | some w =>
    rw [gksmv1_some path est hy hx (hw w rfl)] at hr
    obtain ⟨i, hi⟩ := kNanW_mv (fun _ _ => kern_mv_nan) hne hy hx (hw w rfl) h
    split_ifs at hr
    unfold gksmvKernelW at hr
    cases path <;> dsimp only at hr <;> split_ifs at hr <;>
      simp only [Except.map, Except.ok.injEq, reduceCtorEq] at hr <;> rw [← hr]
    · exact KsGufuncW.fair_nan hi
    · exact KsGufuncW.nrg_nan hi
    · exact KsGufuncW.akr_nan hi
    · exact KsGufuncW.akrCircperm_nan hi
    · exact KsApproxW.nrg_nan hi
    · exact KsApproxW.fair_nan hi
    · exact KsApproxW.akr_nan hi _
    · exact KsApproxW.akrCircperm_nan hi _

/-- a call with a missing component that does return -/
example : Spec.HasNanMv [fin 1, fin 2] [[fin 0, nan], [fin 1, fin 1]] none ∧
    ∃ r, gksmv1 .array "akr" 2 [fin 1, fin 2] [[fin 0, nan], [fin 1, fin 1]] none = .ok r :=
  ⟨by simp [Spec.HasNanMv], by rw [gksmv1_none (D := 2) _ _ rfl (by simp)]; exact ⟨_, rfl⟩⟩

/-- C105: `owgksuv_ensemble`, for every weight function. -/
theorem C105_owgksuv (path : Path) (wF : XF → XF) (y : XF) (xs : List XF) (ws : Option (List XF))
    (hne : xs ≠ []) (hw : ∀ w, ws = some w → w.length = xs.length) (h : Spec.HasNan y xs ws) (r : XF)
    (hr : owgksuv1 path wF y xs ws = .ok r) : r = nan := by
  unfold owgksuv1 at hr
  rw [owgksuvEnsemble_eq] at hr
  cases ws with
  | none =>
    obtain ⟨i, hi⟩ := kNan_uv hne (hasNan_none h)
    rw [Option.map_none, uvO_none] at hr
    have hr' := ite_ok hr
    rw [← hr']
    cases path
    · dsimp only; rw [KsGufunc.ow_nan hi]; simp
    · exact KsApprox.owUv_nan hi (by simp) _
  | some w =>
    obtain ⟨i, hi⟩ := kNanW_uv hne (hw w rfl) h
    rw [Option.map_some, uvO_some path y (hw w rfl)] at hr
    have hr' := ite_ok hr
    rw [← hr']
    cases path
    · dsimp only; rw [KsGufuncW.ow_nan hi]; simp
    · exact KsApproxW.owUv_nan hi (by simp) _

/-- a weight function that turns a missing member into weight one does not hide it -/
example : Spec.HasNan (fin 1) [fin 2, nan] none ∧
    ∃ r, owgksuv1 .array (fun _ => 1) (fin 1) [fin 2, nan] none = .ok r := by
  refine ⟨by simp [Spec.HasNan], ?_⟩
  unfold owgksuv1
  rw [owgksuvEnsemble_eq, Option.map_none, uvO_none, if_neg (by simp [one_def, zero_def])]
  exact ⟨_, rfl⟩

/-- C105: `vrgksuv_ensemble`, for every weight function. -/
theorem C105_vrgksuv (path : Path) (wF : XF → XF) (y : XF) (xs : List XF) (ws : Option (List XF))
    (hne : xs ≠ []) (hw : ∀ w, ws = some w → w.length = xs.length) (h : Spec.HasNan y xs ws) (r : XF)
    (hr : vrgksuv1 path wF y xs ws = .ok r) : r = nan := by
  unfold vrgksuv1 at hr
  rw [vrgksuvEnsemble_eq] at hr
  cases ws with
  | none =>
    obtain ⟨i, hi⟩ := kNan_uv hne (hasNan_none h)
    rw [Option.map_none, uvO_none] at hr
    have hr' := ite_ok hr
    rw [← hr']
    cases path
    · dsimp only; rw [KsGufunc.vr_nan hi]; simp
    · exact KsApprox.vrUv_nan hi (by simp) _
  | some w =>
    obtain ⟨i, hi⟩ := kNanW_uv hne (hw w rfl) h
    rw [Option.map_some, uvO_some path y (hw w rfl)] at hr
    have hr' := ite_ok hr
    rw [← hr']
    cases path
    · dsimp only; rw [KsGufuncW.vr_nan hi]; simp
    · exact KsApproxW.vrUv_nan hi (by simp) _

/-- a weight function that gives a missing observation weight zero does not hide it -/
example : Spec.HasNan nan [fin 2, fin 3] none ∧
    ∃ r, vrgksuv1 .numba (fun _ => 0) nan [fin 2, fin 3] none = .ok r := by
  refine ⟨by simp [Spec.HasNan], ?_⟩
  unfold vrgksuv1
  rw [vrgksuvEnsemble_eq, Option.map_none, uvO_none, if_neg (by simp [zero_def])]
  exact ⟨_, rfl⟩

/-- C105: `owgksmv_ensemble`, for every weight function. -/
theorem C105_owgksmv {D : ℕ} (path : Path) (f : List XF → XF) (y : List XF) (xs : List (List XF))
    (ws : Option (List XF)) (hne : xs ≠ []) (hy : y.length = D) (hx : ∀ x ∈ xs, x.length = D)
    (hw : ∀ w, ws = some w → w.length = xs.length) (h : Spec.HasNanMv y xs ws) (r : XF)
    (hr : owgksmv1 path D f y xs ws = .ok r) : r = nan := by
  unfold owgksmv1 at hr
  rw [owgksmvEnsemble_eq] at hr
  cases ws with
  | none =>
    obtain ⟨i, hi⟩ := kNan_mv (fun _ _ => kern_mv_nan) hne hy hx (hasNanMv_none h)
    rw [Option.map_none, mvO_none path f hy hx] at hr
    have hr' := ite_ok hr
    rw [← hr']
    cases path
    · exact KsGufunc.ow_nan hi _ _
    · exact KsApprox.owMv_nan hi (by simp) _
  | some w =>
    obtain ⟨i, hi⟩ := kNanW_mv (fun _ _ => kern_mv_nan) hne hy hx (hw w rfl) h
    rw [Option.map_some, mvO_some path f hy hx (hw w rfl)] at hr
    have hr' := ite_ok hr
    rw [← hr']
    cases path
    · exact KsGufuncW.ow_nan hi _ _
    · exact KsApproxW.owMv_nan hi (by simp) _

example : Spec.HasNanMv [fin 1, nan] [[fin 0, fin 2]] none ∧
    ∃ r, owgksmv1 .array 2 (fun _ => 1) [fin 1, nan] [[fin 0, fin 2]] none = .ok r := by
  refine ⟨by simp [Spec.HasNanMv], ?_⟩
  unfold owgksmv1
  rw [owgksmvEnsemble_eq, Option.map_none, mvO_none (D := 2) _ _ rfl (by simp),
    if_neg (by simp [one_def, zero_def])]
  exact ⟨_, rfl⟩

/-- C105: `vrgksmv_ensemble`, for every weight function (with ensemble weights the numba path raises,
finding of C37). -/
theorem C105_vrgksmv {D : ℕ} (path : Path) (f : List XF → XF) (y : List XF) (xs : List (List XF))
    (ws : Option (List XF)) (hne : xs ≠ []) (hy : y.length = D) (hx : ∀ x ∈ xs, x.length = D)
    (hw : ∀ w, ws = some w → w.length = xs.length) (h : Spec.HasNanMv y xs ws)
    (hp : path = .array ∨ ws = none) (r : XF)
    (hr : vrgksmv1 path D f y xs ws = .ok r) : r = nan := by
  unfold vrgksmv1 at hr
  cases ws with
  | none =>
    obtain ⟨i, hi⟩ := kNan_mv (fun _ _ => kern_mv_nan) hne hy hx (hasNanMv_none h)
    rw [Option.map_none, vrgksmvEnsemble_none, mvO_none path f hy hx] at hr
    have hr' := ite_ok hr
    rw [← hr']
    cases path
    · exact KsGufunc.vr_nan hi _ _
    · exact KsApprox.vrMv_nan hi (by simp) _
  | some w =>
    obtain ⟨i, hi⟩ := kNanW_mv (fun _ _ => kern_mv_nan) hne hy hx (hw w rfl) h
    rcases hp with rfl | hp
    · rw [Option.map_some, vrgksmvEnsemble_array, mvO_some .array f hy hx (hw w rfl)] at hr
      have hr' := ite_ok hr
      rw [← hr']
      exact KsApproxW.vrMv_nan hi (by simp) _
    · simp at hp

example : Spec.HasNanMv [fin 1, nan] [[fin 0, fin 2]] none ∧
    ∃ r, vrgksmv1 .numba 2 (fun _ => 1) [fin 1, nan] [[fin 0, fin 2]] none = .ok r := by
  refine ⟨by simp [Spec.HasNanMv], ?_⟩
  unfold vrgksmv1
  rw [Option.map_none, vrgksmvEnsemble_none, mvO_none (D := 2) _ _ rfl (by simp),
    if_neg (by simp [one_def, zero_def])]
  exact ⟨_, rfl⟩

/-! ### energy score -/

/-- C105: `es_ensemble`, every path, estimator and choice of weights. -/
theorem C105_es {D : ℕ} (path : Path) (est : String) (y : List XF) (xs : List (List XF))
    (ws : Option (List XF)) (hne : xs ≠ []) (hy : y.length = D) (hx : ∀ x ∈ xs, x.length = D)
    (hw : ∀ w, ws = some w → w.length = xs.length) (h : Spec.HasNanMv y xs ws) (r : XF)
    (hr : es1 path est D y xs ws = .ok r) : r = nan := by
  cases ws with
  | none =>
    rw [es1_none path est hy hx] at hr
    obtain ⟨i, hi⟩ := kNan_mv (k := ekern) (fun _ _ => vnorm_vsub_nan) hne hy hx (hasNanMv_none h)
    unfold esKernel at hr
    cases path <;> dsimp only at hr <;> split_ifs at hr <;>
      simp only [Except.map, Except.ok.injEq, reduceCtorEq] at hr <;> rw [← hr]
    · exact EsGufunc.akrCircperm_nan hi
    · exact EsGufunc.akr_nan hi
    · exact EsGufunc.fair_nan hi
    · exact EsGufunc.nrg_nan hi
    · exact EsApprox.nrg_nan hi
    · exact EsApprox.fair_nan hi
    · exact EsApprox.akr_nan hi
    · exact EsApprox.akrCircperm_nan hi
  | some w =>
    rw [es1_some path est hy hx (hw w rfl)] at hr
    obtain ⟨i, hi⟩ := kNanW_mv (k := ekern) (fun _ _ => vnorm_vsub_nan) hne hy hx (hw w rfl) h
    split_ifs at hr
    unfold esKernelW at hr
    cases path <;> dsimp only at hr <;> split_ifs at hr <;>
      simp only [Except.map, Except.ok.injEq, reduceCtorEq] at hr <;> rw [← hr]
    · exact EsGufuncW.akrCircperm_nan hi
    · exact EsGufuncW.akr_nan hi
    · exact EsGufuncW.fair_nan hi
    · exact EsGufuncW.nrg_nan hi
    · exact EsApproxW.nrg_nan hi
    · exact EsApproxW.fair_nan hi
    · exact EsApproxW.akr_nan hi
    · exact EsApproxW.akrCircperm_nan hi

/-- a missing weight is not replaced by anything either -/
example : Spec.HasNanMv [fin 1, fin 2] [[fin 0, fin 3], [fin 1, fin 1]] (some [fin 1, nan]) ∧
    ∃ r, es1 .numba "fair" 2 [fin 1, fin 2] [[fin 0, fin 3], [fin 1, fin 1]] (some [fin 1, nan])
      = .ok r :=
  ⟨by simp [Spec.HasNanMv], by
    rw [es1_some (D := 2) _ _ rfl (by simp) rfl, if_neg (by simp [zero_def])]; exact ⟨_, rfl⟩⟩

/-- C105: `owes_ensemble`, for every weight function. -/
theorem C105_owes {D : ℕ} (path : Path) (f : List XF → XF) (y : List XF) (xs : List (List XF))
    (ws : Option (List XF)) (hne : xs ≠ []) (hy : y.length = D) (hx : ∀ x ∈ xs, x.length = D)
    (hw : ∀ w, ws = some w → w.length = xs.length) (h : Spec.HasNanMv y xs ws) (r : XF)
    (hr : owes1 path D f y xs ws = .ok r) : r = nan := by
  unfold owes1 at hr
  rw [owesEnsemble_eq] at hr
  cases ws with
  | none =>
    obtain ⟨i, hi⟩ := kNan_mv (k := ekern) (fun _ _ => vnorm_vsub_nan) hne hy hx (hasNanMv_none h)
    rw [Option.map_none, mvO_none path f hy hx] at hr
    have hr' := ite_ok hr
    rw [← hr']
    cases path
    · exact EsGufunc.ow_nan hi _ _
    · exact EsApprox.ow_nan hi (by simp) _
  | some w =>
    obtain ⟨i, hi⟩ := kNanW_mv (k := ekern) (fun _ _ => vnorm_vsub_nan) hne hy hx (hw w rfl) h
    rw [Option.map_some, mvO_some path f hy hx (hw w rfl)] at hr
    have hr' := ite_ok hr
    rw [← hr']
    cases path
    · exact EsGufuncW.ow_nan hi _ _
    · exact EsApproxW.ow_nan hi (by simp) _

example : Spec.HasNanMv [fin 1, nan] [[fin 0, fin 2]] none ∧
    ∃ r, owes1 .array 2 (fun _ => 1) [fin 1, nan] [[fin 0, fin 2]] none = .ok r := by
  refine ⟨by simp [Spec.HasNanMv], ?_⟩
  unfold owes1
  rw [owesEnsemble_eq, Option.map_none, mvO_none (D := 2) _ _ rfl (by simp),
    if_neg (by simp [one_def, zero_def])]
  exact ⟨_, rfl⟩

/-- C105: `vres_ensemble`, for every weight function. -/
theorem C105_vres {D : ℕ} (path : Path) (f : List XF → XF) (y : List XF) (xs : List (List XF))
    (ws : Option (List XF)) (hne : xs ≠ []) (hy : y.length = D) (hx : ∀ x ∈ xs, x.length = D)
    (hw : ∀ w, ws = some w → w.length = xs.length) (h : Spec.HasNanMv y xs ws) (r : XF)
    (hr : vres1 path D f y xs ws = .ok r) : r = nan := by
  unfold vres1 at hr
  rw [vresEnsemble_eq] at hr
  cases ws with
  | none =>
    obtain ⟨i, hi⟩ := kNan_mv (k := ekern) (fun _ _ => vnorm_vsub_nan) hne hy hx (hasNanMv_none h)
    rw [Option.map_none, mvO_none path f hy hx] at hr
    have hr' := ite_ok hr
    rw [← hr']
    cases path
    · exact EsGufunc.vr_nan hi _ _
    · exact EsApprox.vr_nan hi (by simp) _
  | some w =>
    obtain ⟨i, hi⟩ := kNanW_mv (k := ekern) (fun _ _ => vnorm_vsub_nan) hne hy hx (hw w rfl) h
    rw [Option.map_some, mvO_some path f hy hx (hw w rfl)] at hr
    have hr' := ite_ok hr
    rw [← hr']
    cases path
    · exact EsGufuncW.vr_nan hi _ _
    · exact EsApproxW.vr_nan hi (by simp) _

example : Spec.HasNanMv [fin 1, fin 3] [[fin 0, nan]] (some [fin 1]) ∧
    ∃ r, vres1 .numba 2 (fun _ => 0) [fin 1, fin 3] [[fin 0, nan]] (some [fin 1]) = .ok r := by
  refine ⟨by simp [Spec.HasNanMv], ?_⟩
  unfold vres1
  rw [vresEnsemble_eq, Option.map_some, mvO_some (D := 2) _ _ rfl (by simp) rfl,
    if_neg (by simp [zero_def])]
  exact ⟨_, rfl⟩

/-! ### variogram score -/

/-- C105: `vs_ensemble` with any pair weights and any order `p ≠ 0`.  (For `p = 0` the code evaluates
`nan ** 0 = 1`.) -/
theorem C105_vs {D : ℕ} (hD : 0 < D) (path : Path) (est : String) {p : ℝ} (hp : p ≠ 0)
    (W : Option (List (List XF))) (y : List XF) (xs : List (List XF))
    (ws : Option (List XF)) (hne : xs ≠ []) (hy : y.length = D) (hx : ∀ x ∈ xs, x.length = D)
    (hw : ∀ w, ws = some w → w.length = xs.length) (h : Spec.HasNanMv y xs ws) (r : XF)
    (hr : vs1 path est p W D y xs ws = .ok r) : r = nan := by
  have key : ∀ W, vs1 path est p (some W) D y xs ws = .ok r → r = nan := by
    intro W hr
    cases ws with
    | none =>
      rw [vs1_none path est hy hx] at hr
      obtain ⟨c, m, hi⟩ := vNan hp hne hy hx (hasNanMv_none h)
      unfold vsKernel at hr
      cases path <;> dsimp only at hr <;> split_ifs at hr <;>
        simp only [Except.map, Except.ok.injEq, reduceCtorEq] at hr <;> rw [← hr]
      · exact VsGufunc.fair_nan hi
      · exact VsGufunc.nrg_nan hi
      · exact VsApprox.nrg_nan hi
      · exact VsApprox.fair_nan hi
    | some w =>
      rw [vs1_some path est hy hx (hw w rfl)] at hr
      obtain ⟨c, m, hi⟩ := vNanW hp hne hy hx hD (hw w rfl) h
      split_ifs at hr
      unfold vsKernelW at hr
      cases path <;> dsimp only at hr <;> split_ifs at hr <;>
        simp only [Except.map, Except.ok.injEq, reduceCtorEq] at hr <;> rw [← hr]
      · exact VsGufuncW.fair_nan hi
      · exact VsGufuncW.nrg_nan hi
      · exact VsApproxW.nrg_nan hi
      · exact VsApproxW.fair_nan hi
  cases W with
  | none => rw [vs1_default hy] at hr; exact key _ hr
  | some W => exact key W hr

example : Spec.HasNanMv [fin 1, fin 2] [[fin 0, nan], [fin 1, fin 1]] none ∧
    ∃ r, vs1 .array "fair" (1 / 2) none 2 [fin 1, fin 2] [[fin 0, nan], [fin 1, fin 1]] none = .ok r :=
  ⟨by simp [Spec.HasNanMv], by
    rw [vs1_default (D := 2) rfl, vs1_none (D := 2) _ _ rfl (by simp)]; exact ⟨_, rfl⟩⟩

/-- C105 at the order `p = 0`: a missing component is replaced by the number one. -/
theorem C105_vs_order_zero : vs1 .array "nrg" 0 (some [[1]]) 1 [fin 0] [[nan]] none = .ok 0 := by
  rw [vs1_none (D := 1) _ _ rfl (by simp)]
  simp [vsKernel, Except.map, VsApprox.nrg, dsum, rhoT, XF.rpow, mget, one_def, zero_def, vat, idx]
  rw [show ((1 : ℕ) : XF) = fin 1 from by rw [natCast_def]; simp, fin_div one_ne_zero, fin_sub, fin_pow,
    fin_mul, fin_add, fin_add]
  norm_num

/-- C105: `owvs_ensemble` with any pair weights, any order `p ≠ 0` and any weight function. -/
theorem C105_owvs {D : ℕ} (hD : 0 < D) (path : Path) {p : ℝ} (hp : p ≠ 0) (W : List (List XF))
    (f : List XF → XF) (y : List XF) (xs : List (List XF))
    (ws : Option (List XF)) (hne : xs ≠ []) (hy : y.length = D) (hx : ∀ x ∈ xs, x.length = D)
    (hw : ∀ w, ws = some w → w.length = xs.length) (h : Spec.HasNanMv y xs ws) (r : XF)
    (hr : owvs1 path p (some W) D f y xs ws = .ok r) : r = nan := by
  unfold owvs1 at hr
  rw [owvsEnsemble_eq] at hr
  cases ws with
  | none =>
    obtain ⟨c, m, hi⟩ := vNan hp hne hy hx (hasNanMv_none h)
    rw [Option.map_none, mvO_none path f hy hx] at hr
    have hr' := ite_ok hr
    rw [← hr']
    cases path
    · exact VsGufunc.ow_nan hi _ _
    · exact VsApprox.ow_nan hi (by simp) _
  | some w =>
    obtain ⟨c, m, hi⟩ := vNanW hp hne hy hx hD (hw w rfl) h
    rw [Option.map_some, mvO_some path f hy hx (hw w rfl)] at hr
    have hr' := ite_ok hr
    rw [← hr']
    cases path
    · exact VsGufuncW.ow_nan hi _ _
    · exact VsApproxW.ow_nan hi (by simp) _

example : Spec.HasNanMv [fin 1, nan] [[fin 0, fin 2]] none ∧
    ∃ r, owvs1 .array 1 (some [[1, 1], [1, 1]]) 2 (fun _ => 1) [fin 1, nan] [[fin 0, fin 2]] none
      = .ok r := by
  refine ⟨by simp [Spec.HasNanMv], ?_⟩
  unfold owvs1
  rw [owvsEnsemble_eq, Option.map_none, mvO_none (D := 2) _ _ rfl (by simp),
    if_neg (by simp [one_def, zero_def])]
  exact ⟨_, rfl⟩

/-- C105: `vrvs_ensemble` with any pair weights, any order `p ≠ 0` and any weight function. -/
theorem C105_vrvs {D : ℕ} (hD : 0 < D) (path : Path) {p : ℝ} (hp : p ≠ 0) (W : List (List XF))
    (f : List XF → XF) (y : List XF) (xs : List (List XF))
    (ws : Option (List XF)) (hne : xs ≠ []) (hy : y.length = D) (hx : ∀ x ∈ xs, x.length = D)
    (hw : ∀ w, ws = some w → w.length = xs.length) (h : Spec.HasNanMv y xs ws) (r : XF)
    (hr : vrvs1 path p (some W) D f y xs ws = .ok r) : r = nan := by
  unfold vrvs1 at hr
  rw [vrvsEnsemble_eq] at hr
  cases ws with
  | none =>
    obtain ⟨c, m, hi⟩ := vNan hp hne hy hx (hasNanMv_none h)
    rw [Option.map_none, mvO_none path f hy hx] at hr
    have hr' := ite_ok hr
    rw [← hr']
    cases path
    · exact VsGufunc.vr_nan hi _ _
    · exact VsApprox.vr_nan hi (by simp) _
  | some w =>
    obtain ⟨c, m, hi⟩ := vNanW hp hne hy hx hD (hw w rfl) h
    rw [Option.map_some, mvO_some path f hy hx (hw w rfl)] at hr
    have hr' := ite_ok hr
    rw [← hr']
    cases path
    · exact VsGufuncW.vr_nan hi _ _
    · exact VsApproxW.vr_nan hi (by simp) _

example : Spec.HasNanMv [fin 1, fin 5] [[nan, fin 2]] (some [fin 2]) ∧
    ∃ r, vrvs1 .numba 1 (some [[1, 1], [1, 1]]) 2 (fun _ => 1) [fin 1, fin 5] [[nan, fin 2]]
      (some [fin 2]) = .ok r := by
  refine ⟨by simp [Spec.HasNanMv], ?_⟩
  unfold vrvs1
  rw [vrvsEnsemble_eq, Option.map_some, mvO_some (D := 2) _ _ rfl (by simp) rfl,
    if_neg (by simp [one_def, zero_def])]
  exact ⟨_, rfl⟩

end Verif
