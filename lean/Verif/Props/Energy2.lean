import Verif.Props.Energy

/-!
# Properties C34 and C64: agreement of the energy score paths, axes of multivariate arrays

`vec v` is the array holding the coordinates of the point `v` of Euclidean space.
-/

noncomputable section

open scoped Classical

namespace Verif

open XF Py Api Spec Mv

variable {D : ℕ}

/-! ### C34 -/

/-- the estimators documented for `es_ensemble` -/
def Spec.esEstimators : List String := ["nrg", "fair", "akr", "akr_circperm"]

/-- C34: without ensemble weights the two paths agree for every estimator.  `fair` divides by `M - 1`
and needs two members. -/
theorem C34_paths_unweighted (est : String) (he : est ∈ Spec.esEstimators) (y : Eu D)
    {xs : List (Eu D)} (h : xs ≠ []) (hf : est = "fair" → 2 ≤ xs.length) :
    es1 .numba est D (vec y) (xs.map vec) none = es1 .array est D (vec y) (xs.map vec) none := by
  have h' : xs.map vec ≠ [] := by simpa using h
  simp only [Spec.esEstimators, List.mem_cons, List.not_mem_nil, or_false] at he
  rcases he with rfl | rfl | rfl | rfl
  · exact C33_paths y h
  · rw [es1_fair _ y (hf rfl), es1_fair _ y (hf rfl)]
  · rw [es1_none _ _ (vec_length y) (vecs_length xs), es1_none _ _ (vec_length y) (vecs_length xs)]
    simp [esKernel, Except.map, EsGufunc.akr_eq _ _ h']
  · rw [es1_none _ _ (vec_length y) (vecs_length xs), es1_none _ _ (vec_length y) (vecs_length xs)]
    simp [esKernel, Except.map, EsGufunc.akrCircperm_eq _ _ h']

example : "fair" ∈ Spec.esEstimators ∧ 2 ≤ ([!₂[1, 2], 0] : List (Eu 2)).length := by
  simp [Spec.esEstimators]

/-- C34 (partial): with ensemble weights the two paths agree for every estimator, except possibly
`akr_circperm` with an odd number of members; `C34_circperm_weighted_differs` shows that the
exception is necessary. -/
theorem C34_paths_weighted_partial (est : String) (he : est ∈ Spec.esEstimators) (y : Eu D)
    (l : List (Eu D × ℝ)) (hw : ∀ p ∈ l, 0 ≤ p.2) (h : (l.map Prod.snd).sum ≠ 0)
    (hc : est = "akr_circperm" → l.length % 2 = 0) :
    es1 .numba est D (vec y) (l.map fun p => vec p.1) (some (l.map fun p => fin p.2))
      = es1 .array est D (vec y) (l.map fun p => vec p.1) (some (l.map fun p => fin p.2)) := by
  rw [es1_weighted _ _ y l hw h, es1_weighted _ _ y l hw h]
  simp only [Spec.esEstimators, List.mem_cons, List.not_mem_nil, or_false] at he
  rcases he with rfl | rfl | rfl | rfl
  · simp [esKernelW, Except.map, EsGufuncW.nrg_fin, EsApproxW.nrg_fin]
  · simp only [esKernelW, Except.map]
    simp [EsGufuncW.fair_eq]
  · simp only [esKernelW, Except.map]
    simp [EsGufuncW.akr_eq]
  · have hl : ((Spec.normW l).map fun p => vec p.1).length % 2 = 0 := by
      simpa [Spec.normW] using hc rfl
    have e := EsGufuncW.akrCircperm_eq (vec y) ((Spec.normW l).map fun p => vec p.1)
      ((Spec.normW l).map fun p => fin p.2) (by simp) hl
    simp only [esKernelW, Except.map]
    simp [e]

example : (∀ p ∈ ([(0, 1), (!₂[1, 2], 3)] : List (Eu 2 × ℝ)), 0 ≤ p.2) ∧
    ([(0, 1), (!₂[1, 2], 3)] : List (Eu 2 × ℝ)).length % 2 = 0 := by simp

theorem vnorm_one (r : ℝ) : vnorm [fin r] = fin |r| := by
  unfold vnorm
  simp only [List.map_cons, List.map_nil, List.sum_cons, List.sum_nil, add_zero, fin_mul]
  rw [fin_sqrt (mul_self_nonneg r), Real.sqrt_mul_self_eq_abs]

theorem vsub_one (a b : ℝ) : vsub [fin a] [fin b] = [fin (a - b)] := by
  simp [vsub, zip2]

/-- C34 is false of the code for `akr_circperm` with weights and an odd number of members: the numba
kernel pairs member `i` with member `i + M // 2` (`core/energy/_gufuncs_w.py:74`), the numpy kernel
rolls by `M // 2`, pairing member `i` with member `i - M // 2` (`core/energy/_score_w.py:96`). -/
theorem C34_circperm_weighted_differs :
    ∃ (y : List XF) (xs : List (List XF)) (ws : List XF),
      es1 .numba "akr_circperm" 1 y xs (some ws) = .ok (fin 0) ∧
      es1 .array "akr_circperm" 1 y xs (some ws) = .ok (fin (-(1 / 2))) := by
  refine ⟨[fin 0], [[fin 0], [fin 0], [fin 1]], [fin 1, fin 0, fin 0], ?_, ?_⟩ <;>
  rw [es1_some (D := 1) _ _ (by simp) (by simp) (by simp), if_neg (by simp [zero_def])]
  · simp only [esKernelW, Except.map]
    simp [EsGufuncW.akrCircperm, forRange, List.range'_succ, vat, vsub_one, vnorm_one, idx, zero_def,
      half_fin, fin_div]
  · simp only [esKernelW, Except.map]
    simp [EsApproxW.akrCircperm, EsApproxW.e1, EsApprox.errNorm, EsApprox.rollNorm, vroll,
      List.range_succ, vat, vsub_one, vnorm_one, zip2, zero_def, half_fin, fin_div]

/-! constant weights -/

theorem vat_vec (xs : List (Eu D)) {i : ℕ} (h : i < xs.length) :
    vat (xs.map vec) i = vec (xs.getD i 0) := by
  simp [vat, h]

theorem range_norm (xs : List (Eu D)) (s : ℕ) :
    (List.range xs.length).map (fun i => vnorm (vsub (vat (xs.map vec) i)
        (vat (xs.map vec) ((i + s) % xs.length))))
      = ((List.range xs.length).map fun i =>
        dist (xs.getD i 0) (xs.getD ((i + s) % xs.length) 0)).map fin := by
  rw [List.map_map]
  apply List.map_congr_left
  intro i hi
  have hi' : i < xs.length := List.mem_range.1 hi
  rw [vat_vec xs hi', vat_vec xs (Nat.mod_lt _ (by omega)), vnorm_sub]
  rfl

theorem range_err (y : Eu D) (xs : List (Eu D)) :
    (List.range xs.length).map (fun i => vnorm (vsub (vat (xs.map vec) i) (vec y)))
      = (xs.map fun x => dist x y).map fin := by
  have := errNorm_range (vec y) (xs.map vec)
  rw [List.length_map] at this
  rw [this]
  unfold EsApprox.errNorm
  rw [List.map_map, List.map_map]
  apply List.map_congr_left
  intro x _
  exact vnorm_sub x y

theorem range_const {M : ℕ} (F : ℕ → XF) (L : List ℝ) (c : ℝ) (h : (List.range M).map F = L.map fin) :
    ((List.range M).map fun i => F i * idx (List.replicate M (fin c)) i).sum = fin (c * L.sum) := by
  have : ((List.range M).map fun i => F i * idx (List.replicate M (fin c)) i)
      = (L.map fin).map fun x => x * fin c := by
    rw [← h, List.map_map]
    apply List.map_congr_left
    intro i hi
    simp [idx, List.mem_range.1 hi]
  rw [this, List.map_map]
  have e : ((fun x : XF => x * fin c) ∘ fin) = fun a => fin (c * a) := by
    funext a; simp [mul_comm]
  rw [e, sum_map_fin' L (fun a : ℝ => c * a), sum_map_mul_left']
  simp

/-- member-wise term of the `akr` estimators: mean distance to the member `s` places further on -/
def akrShift (y : Eu D) (xs : List (Eu D)) (s : ℕ) : ℝ :=
  (xs.map fun x => dist x y).sum / xs.length - 1 / 2 *
    (((List.range xs.length).map fun i =>
      dist (xs.getD i 0) (xs.getD ((i + s) % xs.length) 0)).sum / xs.length)

theorem EsGufunc.akrCircperm_fin (y : Eu D) {xs : List (Eu D)} (h : xs ≠ []) :
    EsGufunc.akrCircperm (vec y) (xs.map vec) = fin (akrShift y xs (xs.length / 2)) := by
  have hM : (xs.length : ℝ) ≠ 0 := by simpa using h
  unfold EsGufunc.akrCircperm akrShift
  dsimp only
  rw [forRange_two]
  simp only [List.length_map]
  rw [range_err, range_norm]
  simp only [sum_map_fin, natCast_fin, half_fin, one_fin, fin_mul, fin_div hM, fin_sub]
  congr 1
  ring

theorem EsGufuncW.akrCircperm_const (y : Eu D) {xs : List (Eu D)} (h : xs ≠ []) :
    EsGufuncW.akrCircperm (vec y) (xs.map vec) (List.replicate xs.length (fin (1 / xs.length)))
      = fin (akrShift y xs (xs.length / 2)) := by
  have hM : (xs.length : ℝ) ≠ 0 := by simpa using h
  unfold EsGufuncW.akrCircperm akrShift
  dsimp only
  rw [forRange_two]
  simp only [List.length_map]
  rw [range_const _ _ _ (range_err y xs), range_const _ _ _ (range_norm xs (xs.length / 2))]
  simp only [half_fin, fin_mul, fin_sub]
  congr 1
  ring

theorem EsApprox.roll_fin (y : Eu D) {xs : List (Eu D)} (h : xs ≠ []) (s : ℕ) :
    EsApprox.e1 (vec y) (xs.map vec) - half * ((EsApprox.rollNorm (xs.map vec) s).sum
        / (((xs.map vec).length : ℕ) : XF))
      = fin (akrShift y xs (xs.length - s % xs.length)) := by
  have hM : (xs.length : ℝ) ≠ 0 := by simpa using h
  rw [EsApprox.e1_fin y xs h, rollNorm_range]
  simp only [List.length_map]
  rw [range_norm]
  simp only [sum_map_fin, natCast_fin, half_fin, fin_mul, fin_div hM, fin_sub]
  rfl

theorem EsApproxW.roll_const (y : Eu D) {xs : List (Eu D)} (h : xs ≠ []) (s : ℕ) :
    EsApproxW.e1 (vec y) (xs.map vec) (List.replicate xs.length (fin (1 / xs.length)))
        - half * (zip2 (· * ·) (EsApprox.rollNorm (xs.map vec) s)
          (List.replicate xs.length (fin (1 / xs.length)))).sum
      = fin (akrShift y xs (xs.length - s % xs.length)) := by
  have hM : (xs.length : ℝ) ≠ 0 := by simpa using h
  unfold EsApproxW.e1 akrShift
  rw [← errNormW_range _ _ _ (by simp), rollNormW_range _ _ _ (by simp)]
  simp only [List.length_map]
  rw [range_const _ _ _ (range_err y xs), range_const _ _ _ (range_norm xs _)]
  simp only [half_fin, fin_mul, fin_sub]
  congr 1
  ring

theorem normW_const (xs : List (Eu D)) {c : ℝ} (hc : c ≠ 0) :
    Spec.normW (xs.map fun x => (x, c)) = equalW xs := by
  unfold Spec.normW equalW
  rw [List.map_map]
  apply List.map_congr_left
  intro x hx
  have hM : (xs.length : ℝ) ≠ 0 := by
    have := List.length_pos_of_mem hx
    exact_mod_cast this.ne'
  have e : ((xs.map fun x => (x, c)).map Prod.snd).sum = xs.length * c := by
    rw [List.map_map]
    exact sum_map_const' xs c
  simp only [Function.comp_apply, e]
  congr 1
  field_simp

/-- C34: giving every member the same positive weight is the same as giving no weights, for every
estimator on both paths. -/
theorem C34_constant_weights (path : Path) (est : String) (he : est ∈ Spec.esEstimators) (y : Eu D)
    {xs : List (Eu D)} (h : xs ≠ []) (hf : est = "fair" → 2 ≤ xs.length) {c : ℝ} (hc : 0 < c) :
    es1 path est D (vec y) (xs.map vec) (some (xs.map fun _ => fin c))
      = es1 path est D (vec y) (xs.map vec) none := by
  have hM : (xs.length : ℝ) ≠ 0 := by simpa using h
  have hM0 : (0 : ℝ) < xs.length := by exact_mod_cast List.length_pos_iff.2 h
  have h1 := es1_weighted path est y (xs.map fun x => (x, c)) (by
    intro p hp
    obtain ⟨x, _, rfl⟩ := List.mem_map.1 hp
    exact hc.le) (by
      rw [List.map_map]
      have := sum_map_const' xs c
      simp only [Function.comp_def]
      rw [this]
      positivity)
  rw [normW_const xs hc.ne'] at h1
  simp only [List.map_map, Function.comp_def] at h1
  have e1 : (xs.map fun x => vec x) = xs.map vec := rfl
  rw [e1] at h1
  rw [h1]
  have e2 : (equalW xs).map (fun p => vec p.1) = xs.map vec := by
    unfold equalW; rw [List.map_map]; rfl
  have e3 : (equalW xs).map (fun p => fin p.2) = List.replicate xs.length (fin (1 / xs.length)) := by
    unfold equalW
    rw [List.map_map]
    simp [Function.comp_def]
  simp only [Spec.esEstimators, List.mem_cons, List.not_mem_nil, or_false] at he
  rcases he with rfl | rfl | rfl | rfl
  · rw [es1_nrg path y h]
    cases path <;> simp [esKernelW, Except.map, EsGufuncW.nrg_fin, EsApproxW.nrg_fin]
  · have h2 := hf rfl
    have hM1 : (1 : ℝ) < xs.length := by exact_mod_cast h2
    rw [es1_fair path y h2]
    have hs : ((equalW xs).map fun p => p.2 * p.2).sum = 1 / xs.length := by
      unfold equalW
      rw [List.map_map]
      simp only [Function.comp_def]
      rw [sum_map_const']
      field_simp
    have hne : 1 - ((equalW xs).map fun p => p.2 * p.2).sum ≠ 0 := by
      rw [hs]
      have : 1 - 1 / (xs.length : ℝ) = ((xs.length : ℝ) - 1) / xs.length := by field_simp
      rw [this]
      exact div_ne_zero (by linarith) hM
    have hv := EsApproxW.fair_fin y (equalW xs) hne
    have hg := EsGufuncW.fair_eq y (equalW xs)
    have hval : gabs y (equalW xs) - 1 / 2 * gpair (equalW xs)
        / (1 - ((equalW xs).map fun p => p.2 * p.2).sum) = esFair y xs := by
      rw [hs, gabs_equal, gpair_equal]
      unfold esFair pairsAll
      have : (xs.length : ℝ) - 1 ≠ 0 := by linarith
      have h3 : 1 - 1 / (xs.length : ℝ) = ((xs.length : ℝ) - 1) / xs.length := by field_simp
      rw [h3]
      congr 1
      field_simp
    rw [hval] at hv
    cases path <;> simp [esKernelW, Except.map, hv, hg]
  · rw [e2, e3, es1_none path _ (vec_length y) (vecs_length xs)]
    have k1 := EsApprox.roll_fin y h 1
    have k2 := EsApproxW.roll_const y h 1
    have k3 := EsGufunc.akr_eq (vec y) (xs.map vec) (by simpa using h)
    have k4 := EsGufuncW.akr_eq (vec y) (xs.map vec) (List.replicate xs.length (fin (1 / xs.length)))
      (by simp)
    have k : EsApproxW.akr (vec y) (xs.map vec) (List.replicate xs.length (fin (1 / xs.length)))
        = EsApprox.akr (vec y) (xs.map vec) := k2.trans k1.symm
    cases path
    · have : esKernel .numba "akr" = .ok EsGufunc.akr := by simp [esKernel]
      have t : esKernelW .numba "akr" = .ok EsGufuncW.akr := by simp [esKernelW]
      rw [this, t]
      simp only [Except.map]
      rw [k4, k3, k]
    · have : esKernel .array "akr" = .ok EsApprox.akr := by simp [esKernel]
      have t : esKernelW .array "akr" = .ok EsApproxW.akr := by simp [esKernelW]
      rw [this, t]
      simp only [Except.map]
      rw [k]
  · rw [e2, e3, es1_none path _ (vec_length y) (vecs_length xs)]
    cases path
    · have : esKernel .numba "akr_circperm" = .ok EsGufunc.akrCircperm := by simp [esKernel]
      have t : esKernelW .numba "akr_circperm" = .ok EsGufuncW.akrCircperm := by simp [esKernelW]
      rw [this, t]
      simp only [Except.map]
      rw [EsGufunc.akrCircperm_fin y h, EsGufuncW.akrCircperm_const y h]
    · have : esKernel .array "akr_circperm" = .ok EsApprox.akrCircperm := by simp [esKernel]
      have t : esKernelW .array "akr_circperm" = .ok EsApproxW.akrCircperm := by simp [esKernelW]
      have k1 := EsApprox.roll_fin y h (xs.length / 2)
      have k2 := EsApproxW.roll_const y h (xs.length / 2)
      rw [this, t]
      simp only [Except.map, EsApprox.akrCircperm, EsApproxW.akrCircperm]
      rw [show (xs.map vec).length / 2 = xs.length / 2 by simp, k1, k2]

example : "akr" ∈ Spec.esEstimators ∧ ([!₂[1, 2], 0] : List (Eu 2)) ≠ [] ∧ (0 : ℝ) < 3 := by
  simp [Spec.esEstimators]

/-! outcome-weighted and vertically re-scaled scores -/

/-- The weight function passed by the user, restricted to finite vectors, is `f ≥ 0`. -/
structure Spec.WeightFun (wFunc : List XF → XF) (f : Eu D → ℝ) : Prop where
  val : ∀ v, wFunc (vec v) = fin (f v)
  nonneg : ∀ v, 0 ≤ f v

theorem wf_ok {wFunc : List XF → XF} {f : Eu D → ℝ} (h : Spec.WeightFun wFunc f) (y : Eu D)
    (xs : List (Eu D)) : ¬ (wFunc (vec y) < 0 ∨ ∃ x ∈ xs.map vec, wFunc x < 0) := by
  rintro (h1 | ⟨x, hx, h1⟩)
  · rw [h.val, zero_def] at h1
    exact absurd ((fin_lt _ _).1 h1) (not_lt.2 (h.nonneg y))
  · obtain ⟨v, _, rfl⟩ := List.mem_map.1 hx
    rw [h.val, zero_def] at h1
    exact absurd ((fin_lt _ _).1 h1) (not_lt.2 (h.nonneg v))

theorem wf_map {wFunc : List XF → XF} {f : Eu D → ℝ} (h : Spec.WeightFun wFunc f)
    (xs : List (Eu D)) : (xs.map vec).map wFunc = xs.map fun x => fin (f x) := by
  rw [List.map_map]
  apply List.map_congr_left
  intro x _
  exact h.val x

/-- C34: both paths of `owes_ensemble` (no ensemble weights) return the outcome-weighted energy
score. -/
theorem C34_owes_value (path : Path) {wFunc : List XF → XF} {f : Eu D → ℝ}
    (hf : Spec.WeightFun wFunc f) (y : Eu D) {xs : List (Eu D)} (h : (xs.map f).sum ≠ 0) :
    owes1 path D wFunc (vec y) (xs.map vec) none
      = .ok (fin (owes (f y) y (xs.map fun x => (x, f x)))) := by
  have ht : gtot (xs.map fun x => (x, f x)) ≠ 0 := by rw [gtot_map]; exact h
  have e1 : (xs.map fun x => (x, f x)).map (fun p => vec p.1) = xs.map vec := by
    rw [List.map_map]; rfl
  have e2 : (xs.map fun x => (x, f x)).map (fun p => fin p.2) = xs.map fun x => fin (f x) := by
    rw [List.map_map]; rfl
  have k1 := EsGufunc.ow_fin y (f y) _ ht
  have k2 := EsApprox.ow_fin y (f y) _ ht
  rw [e1, e2] at k1 k2
  unfold owes1
  rw [Option.map_none, owesEnsemble_eq, mvO_none path wFunc (vec_length y) (vecs_length xs),
    if_neg (wf_ok hf y xs), wf_map hf, hf.val]
  cases path <;> simp [k1, k2]

example : Spec.WeightFun (D := 1) (fun v => v.headD 0 * v.headD 0) (fun v => v 0 * v 0) ∧
    (([!₂[1], !₂[2]] : List (Eu 1)).map fun v => v 0 * v 0).sum ≠ 0 :=
  ⟨⟨fun v => by simp [vec, List.ofFn_succ], fun v => mul_self_nonneg _⟩, by norm_num⟩

/-- C34: both paths of `vres_ensemble` (no ensemble weights) return the vertically re-scaled energy
score. -/
theorem C34_vres_value (path : Path) {wFunc : List XF → XF} {f : Eu D → ℝ}
    (hf : Spec.WeightFun wFunc f) (y : Eu D) {xs : List (Eu D)} (h : xs ≠ []) :
    vres1 path D wFunc (vec y) (xs.map vec) none
      = .ok (fin (vres (f y) y (xs.map fun x => (x, f x / xs.length)))) := by
  have hl : (xs.map fun x => (x, f x)) ≠ [] := by simpa using h
  have e1 : (xs.map fun x => (x, f x)).map (fun p => vec p.1) = xs.map vec := by
    rw [List.map_map]; rfl
  have e2 : (xs.map fun x => (x, f x)).map (fun p => fin p.2) = xs.map fun x => fin (f x) := by
    rw [List.map_map]; rfl
  have e3 : (xs.map fun x => (x, f x)).map
      (fun p => (p.1, ((xs.map fun x => (x, f x)).length : ℝ)⁻¹ * p.2))
      = xs.map fun x => (x, f x / xs.length) := by
    rw [List.map_map]
    apply List.map_congr_left
    intro x _
    simp only [Function.comp_apply, List.length_map, Prod.mk.injEq, true_and]
    ring
  have k1 := EsGufunc.vr_fin y (f y) _ hl
  have k2 := EsApprox.vr_fin y (f y) _ hl
  rw [e1, e2, e3] at k1 k2
  unfold vres1
  rw [Option.map_none, vresEnsemble_eq, mvO_none path wFunc (vec_length y) (vecs_length xs),
    if_neg (wf_ok hf y xs), wf_map hf, hf.val]
  cases path <;> simp [k1, k2]

example : Spec.WeightFun (D := 1) (fun v => v.headD 0 * v.headD 0) (fun v => v 0 * v 0) ∧
    ([!₂[1], !₂[2]] : List (Eu 1)) ≠ [] :=
  ⟨⟨fun v => by simp [vec, List.ofFn_succ], fun v => mul_self_nonneg _⟩, by simp⟩

/-- the ensemble with its normalised weights and outcome weights -/
def owList (f : Eu D → ℝ) (l : List (Eu D × ℝ)) : List (Eu D × ℝ × ℝ) :=
  (Spec.normW l).map fun p => (p.1, f p.1, p.2)

theorem owList_maps (f : Eu D → ℝ) (l : List (Eu D × ℝ)) :
    (owList f l).map (fun p => vec p.1) = l.map (fun p => vec p.1) ∧
    (owList f l).map (fun p => fin p.2.1) = (l.map Prod.fst).map (fun x => fin (f x)) ∧
    (owList f l).map (fun p => fin p.2.2) = (Spec.normW l).map (fun p => fin p.2) ∧
    gcomb (owList f l) = (Spec.normW l).map fun p => (p.1, f p.1 * p.2) := by
  unfold owList
  refine ⟨?_, ?_, ?_, ?_⟩
  · rw [List.map_map, ← normW_fst]; rfl
  · rw [List.map_map, List.map_map]; unfold Spec.normW; rw [List.map_map]; rfl
  · rw [List.map_map]; rfl
  · unfold gcomb; rw [List.map_map]; rfl

/-- C34: both paths of `vres_ensemble` with ensemble weights return the vertically re-scaled energy
score of the weighted ensemble. -/
theorem C34_vres_weighted (path : Path) {wFunc : List XF → XF} {f : Eu D → ℝ}
    (hf : Spec.WeightFun wFunc f) (y : Eu D) (l : List (Eu D × ℝ)) (hw : ∀ p ∈ l, 0 ≤ p.2)
    (h : (l.map Prod.snd).sum ≠ 0) :
    vres1 path D wFunc (vec y) (l.map fun p => vec p.1) (some (l.map fun p => fin p.2))
      = .ok (fin (vres (f y) y ((Spec.normW l).map fun p => (p.1, f p.1 * p.2)))) := by
  obtain ⟨m1, m2, m3, m4⟩ := owList_maps f l
  have k1 := EsGufuncW.vr_fin y (f y) (owList f l)
  have k2 := EsApproxW.vr_fin y (f y) (owList f l)
  rw [m1, m2, m3, m4] at k1 k2
  unfold vres1
  have e1 : (l.map fun p => vec p.1) = (l.map Prod.fst).map vec := by rw [List.map_map]; rfl
  rw [Option.map_some, vresEnsemble_eq, mvO_some path wFunc (vec_length y) (vecs_length' _ l)
    (by simp), if_neg (not_or.2 ⟨by rw [e1]; exact wf_ok hf y _, no_neg l _ hw⟩), norm_weights l h]
  rw [e1] at k1 k2 ⊢
  rw [wf_map hf, hf.val]
  cases path <;> simp only [k1, k2]

example : Spec.WeightFun (D := 1) (fun v => v.headD 0 * v.headD 0) (fun v => v 0 * v 0) ∧
    (∀ p ∈ ([(!₂[1], 1), (!₂[2], 3)] : List (Eu 1 × ℝ)), 0 ≤ p.2) ∧
    (([(!₂[1], 1), (!₂[2], 3)] : List (Eu 1 × ℝ)).map Prod.snd).sum ≠ 0 :=
  ⟨⟨fun v => by simp [vec, List.ofFn_succ], fun v => mul_self_nonneg _⟩, by simp, by norm_num⟩

/-- C34: the numpy path of `owes_ensemble` with ensemble weights returns the outcome-weighted energy
score of the weighted ensemble. -/
theorem C34_owes_weighted_array {wFunc : List XF → XF} {f : Eu D → ℝ}
    (hf : Spec.WeightFun wFunc f) (y : Eu D) (l : List (Eu D × ℝ)) (hw : ∀ p ∈ l, 0 ≤ p.2)
    (h : (l.map fun p => f p.1 * p.2).sum ≠ 0) (h1 : (l.map Prod.snd).sum ≠ 0) :
    owes1 .array D wFunc (vec y) (l.map fun p => vec p.1) (some (l.map fun p => fin p.2))
      = .ok (fin (owes (f y) y ((Spec.normW l).map fun p => (p.1, f p.1 * p.2)))) := by
  obtain ⟨m1, m2, m3, m4⟩ := owList_maps f l
  have ht : gtot (gcomb (owList f l)) ≠ 0 := by
    rw [m4, gtot_map]
    unfold Spec.normW
    rw [List.map_map]
    have : ((fun p : Eu D × ℝ => (p.1, f p.1 * p.2).2) ∘
        fun p : Eu D × ℝ => (p.1, p.2 / (l.map Prod.snd).sum))
        = fun p => f p.1 * p.2 / (l.map Prod.snd).sum := by
      funext p; simp only [Function.comp_apply]; ring
    rw [this, sum_map_div']
    exact div_ne_zero h h1
  have k2 := EsApproxW.ow_fin y (f y) (owList f l) ht
  rw [m1, m2, m3, m4] at k2
  unfold owes1
  have e1 : (l.map fun p => vec p.1) = (l.map Prod.fst).map vec := by rw [List.map_map]; rfl
  rw [Option.map_some, owesEnsemble_eq, mvO_some _ wFunc (vec_length y) (vecs_length' _ l)
    (by simp), if_neg (not_or.2 ⟨by rw [e1]; exact wf_ok hf y _, no_neg l _ hw⟩), norm_weights l h1]
  rw [e1] at k2 ⊢
  rw [wf_map hf, hf.val]
  simp only [k2]

example : Spec.WeightFun (D := 1) (fun v => v.headD 0 * v.headD 0) (fun v => v 0 * v 0) ∧
    (∀ p ∈ ([(!₂[1], 1), (!₂[2], 3)] : List (Eu 1 × ℝ)), 0 ≤ p.2) ∧
    (([(!₂[1], 1), (!₂[2], 3)] : List (Eu 1 × ℝ)).map fun p => p.1 0 * p.1 0 * p.2).sum ≠ 0 ∧
    (([(!₂[1], 1), (!₂[2], 3)] : List (Eu 1 × ℝ)).map Prod.snd).sum ≠ 0 :=
  ⟨⟨fun v => by simp [vec, List.ofFn_succ], fun v => mul_self_nonneg _⟩, by simp, by norm_num,
    by norm_num⟩

/-- C34 (partial): the two paths of `owes_ensemble` agree for constant ensemble weights, and then give
the score without weights; `C34_owes_weighted_differs` shows they differ in general. -/
theorem C34_owes_weighted_partial (path : Path) {wFunc : List XF → XF} {f : Eu D → ℝ}
    (hf : Spec.WeightFun wFunc f) (y : Eu D) {xs : List (Eu D)} (h : (xs.map f).sum ≠ 0) {c : ℝ}
    (hc : 0 < c) :
    owes1 path D wFunc (vec y) (xs.map vec) (some (xs.map fun _ => fin c))
      = owes1 path D wFunc (vec y) (xs.map vec) none := by
  have hne : xs ≠ [] := by rintro rfl; simp at h
  have hM : (xs.length : ℝ) ≠ 0 := by simpa using hne
  have hM0 : (0 : ℝ) < xs.length := by exact_mod_cast List.length_pos_iff.2 hne
  set l : List (Eu D × ℝ) := xs.map fun x => (x, c) with hl
  have e0 : (xs.map fun _ => fin c) = l.map fun p => fin p.2 := by
    rw [hl, List.map_map]; rfl
  have e1 : (xs.map vec) = l.map fun p => vec p.1 := by
    rw [hl, List.map_map]; rfl
  have hfst : l.map Prod.fst = xs := by rw [hl, List.map_map]; simp [Function.comp_def]
  have hsum : (l.map Prod.snd).sum ≠ 0 := by
    rw [hl, List.map_map]
    have := sum_map_const' xs c
    simp only [Function.comp_def]
    rw [this]
    positivity
  have hw : ∀ p ∈ l, 0 ≤ p.2 := by
    intro p hp
    obtain ⟨x, _, rfl⟩ := List.mem_map.1 hp
    exact hc.le
  obtain ⟨m1, m2, m3, m4⟩ := owList_maps f l
  have hn : Spec.normW l = equalW xs := normW_const xs hc.ne'
  have g : gcomb (owList f l)
      = (xs.map fun x => (x, f x)).map fun p => (p.1, (xs.length : ℝ)⁻¹ * p.2) := by
    rw [m4, hn]
    unfold equalW
    rw [List.map_map, List.map_map]
    apply List.map_congr_left
    intro x _
    simp only [Function.comp_apply, Prod.mk.injEq, true_and]
    ring
  have hfw : ((owList f l).map fun p => p.2.1) = xs.map f := by
    unfold owList
    rw [hn]
    unfold equalW
    rw [List.map_map, List.map_map]
    rfl
  have hlen : ((owList f l).length : ℝ) = xs.length := by
    have := congrArg List.length hfw
    simp only [List.length_map] at this
    rw [this]
  have ht : gtot (xs.map fun x => (x, f x)) ≠ 0 := by rw [gtot_map]; exact h
  have hgt : gtot (gcomb (owList f l)) ≠ 0 := by
    rw [g, gtot_scale]
    exact mul_ne_zero (inv_ne_zero hM) ht
  have k1 := EsGufuncW.ow_fin y (f y) (owList f l) (by rw [hfw]; exact h)
  have k2 := EsApproxW.ow_fin y (f y) (owList f l) hgt
  rw [m1, m2, m3, hfst] at k1 k2
  rw [hfw, hlen, g, gabs_scale, gpair_scale] at k1
  rw [C34_owes_value path hf y h]
  rw [e0, e1]
  unfold owes1
  rw [Option.map_some, owesEnsemble_eq, mvO_some path wFunc (vec_length y) (vecs_length' _ l)
    (by simp), if_neg (not_or.2 ⟨by rw [← e1]; exact wf_ok hf y _, no_neg l _ hw⟩),
    norm_weights l hsum]
  rw [← e1] at k1 k2 ⊢
  rw [wf_map hf, hf.val]
  have hg2 : gtot (xs.map fun x => (x, f x)) = (xs.map f).sum := by rw [gtot_map]
  cases path
  · simp only [k1]
    congr 2
    unfold owes
    rw [es_normW, hg2]
    field_simp
  · simp only [k2]
    congr 2
    rw [g]
    unfold owes
    rw [es_normW, es_normW, gabs_scale, gpair_scale, gtot_scale]
    field_simp

example : Spec.WeightFun (D := 1) (fun v => v.headD 0 * v.headD 0) (fun v => v 0 * v 0) ∧
    (([!₂[1], !₂[2]] : List (Eu 1)).map fun v => v 0 * v 0).sum ≠ 0 ∧ (0 : ℝ) < 3 :=
  ⟨⟨fun v => by simp [vec, List.ofFn_succ], fun v => mul_self_nonneg _⟩, by norm_num, by norm_num⟩

/-- C34 is false of the code for `owes_ensemble` with ensemble weights: the numba kernel normalises by
the unweighted mean of the outcome weights (`core/energy/_gufuncs_w.py:108`), the numpy kernel by
their weighted mean (`core/energy/_score_w.py:115`).  The weight function is the first coordinate. -/
theorem C34_owes_weighted_differs :
    ∃ (wFunc : List XF → XF) (y : List XF) (xs : List (List XF)) (ws : List XF),
      owes1 .numba 1 wFunc y xs (some ws) = .ok (fin (63 / 32)) ∧
      owes1 .array 1 wFunc y xs (some ws) = .ok (fin (81 / 50)) := by
  refine ⟨fun v => v.headD 0, [fin 1], [[fin 1], [fin 3]], [fin 1, fin 3], ?_, ?_⟩ <;>
  unfold owes1 <;>
  rw [Option.map_some, owesEnsemble_eq, mvO_some (D := 1) _ _ (by simp) (by simp) (by simp),
    if_neg (by simp [zero_def])]
  · simp only
    simp [EsGufuncW.ow, forRange, List.range'_succ, vat, vsub_one, vnorm_one, idx, zero_def,
      half_fin, mean, ofNat_def]
    norm_num
    simp only [fin_div (show (4 : ℝ) ≠ 0 by norm_num), fin_div (show (2 : ℝ) ≠ 0 by norm_num),
      fin_mul, fin_add]
    norm_num
    rw [fin_div (by norm_num), fin_div (by norm_num)]
    simp only [fin_sub, fin_inj]
    norm_num
  · simp only
    simp [EsApproxW.ow, EsApprox.errNorm, vsub_one, vnorm_one, zip2, zero_def, half_fin]
    norm_num
    simp only [fin_div (show (4 : ℝ) ≠ 0 by norm_num), fin_mul, fin_add, fin_pow]
    norm_num
    rw [fin_div (by norm_num), fin_div (by norm_num)]
    simp only [fin_mul, fin_sub, fin_inj]
    norm_num

example : Spec.WeightFun (D := 1) (fun v => v.headD 0 * v.headD 0) (fun v => v 0 * v 0) :=
  ⟨fun v => by simp [vec, List.ofFn_succ], fun v => mul_self_nonneg _⟩

end Verif
