import Verif.Model.DssMv
import Verif.Lemmas.DssMv
import Verif.Lemmas.MvScore
import Verif.Lemmas.LoopsXF
import Verif.Props.Dss

/-!
# C84: the multivariate Dawid-Sebastiani score
-/

noncomputable section

open scoped Classical
open Matrix MeasureTheory

namespace Verif

open XF Py Mv Spec Api

variable {D : ℕ}

/-- A real vector as the list of its entries. -/
def fvec (x : Fin D → ℝ) : List XF := List.ofFn fun i => fin (x i)

@[simp] theorem fvec_length (x : Fin D → ℝ) : (fvec x).length = D := by simp [fvec]

theorem fvec_idx (x : Fin D → ℝ) (i : Fin D) : idx (fvec x) i = fin (x i) := by
  simp [fvec, idx]

theorem col_fvec (xs : List (Fin D → ℝ)) (i : Fin D) :
    DssMv.col (xs.map fvec) i = (xs.map fun x => x i).map fin := by
  simp only [DssMv.col, List.map_map]
  apply List.map_congr_left
  intro x _
  simp only [Function.comp, fvec_idx]

theorem fact_fin (bias : Bool) {n : ℕ} (hn : n ≠ 0) :
    ((n - (if bias then 0 else 1) : ℕ) : XF) = fin (vfact bias n) := by
  rw [natCast_fin]
  unfold vfact
  cases bias
  · simp only [Bool.false_eq_true, if_false]
    rw [Nat.cast_sub (Nat.one_le_iff_ne_zero.2 hn), Nat.cast_one]
  · simp

theorem cov_fin (bias : Bool) {xs : List (Fin D → ℝ)} (hx : xs ≠ []) (hf : vfact bias xs.length ≠ 0) :
    DssMv.cov bias D (xs.map fvec) = (vcov bias xs).map fin := by
  ext1 i j
  have hm : ∀ i : Fin D, mean ((xs.map fun x => x i).map fin) = fin (vmean xs i) := fun i =>
    dss_mean _ (by simpa using hx)
  simp only [DssMv.cov, col_fvec, hm, List.length_map, fact_fin bias (n := xs.length) (by simpa using hx), one_fin,
    fin_div hf, Matrix.map_apply]
  simp only [List.map_map]
  rw [zip2_map]
  simp only [Function.comp, fin_sub, fin_mul, sum_map_fin']
  rw [fin_inj]
  unfold vcov vfact
  ring

theorem map_fin_inj {A B : Matrix (Fin D) (Fin D) ℝ} (h : A.map fin = B.map fin) : A = B := by
  ext i j
  have := congrFun (congrFun h i) j
  simpa using this

theorem det_fin (A : Matrix (Fin D) (Fin D) ℝ) : DssMv.det (A.map fin) = fin A.det := by
  unfold DssMv.det
  have h : ∃ B : Matrix (Fin D) (Fin D) ℝ, A.map fin = B.map fin := ⟨A, rfl⟩
  rw [dif_pos h, ← map_fin_inj h.choose_spec]

theorem inv_fin (A : Matrix (Fin D) (Fin D) ℝ) :
    DssMv.inv (A.map fin) = if A.det = 0 then .error .valueError else .ok (A⁻¹.map fin) := by
  unfold DssMv.inv
  have h : ∃ B : Matrix (Fin D) (Fin D) ℝ, A.map fin = B.map fin := ⟨A, rfl⟩
  rw [dif_pos h, ← map_fin_inj h.choose_spec]

theorem quad_fin (o : Fin D → ℝ) (P : Matrix (Fin D) (Fin D) ℝ) :
    DssMv.quad (fvec o) (P.map fin) = fin (o ⬝ᵥ P *ᵥ o) := by
  unfold DssMv.quad
  simp only [fvec_idx, Matrix.map_apply, fin_mul, sum_map_fin']
  rw [fin_inj, dotProduct_mulVec]
  simp only [dotProduct, vecMul, ← List.ofFn_eq_map, List.sum_ofFn]

theorem vsub_fvec (a b : Fin D → ℝ) : vsub (fvec a) (fvec b) = fvec (a - b) := by
  unfold vsub zip2 fvec
  apply List.ext_getElem <;> simp

theorem mean_fvec {xs : List (Fin D → ℝ)} (hx : xs ≠ []) :
    ((List.range D).map fun j => mean (DssMv.col (xs.map fvec) j)) = fvec (vmean xs) := by
  unfold fvec
  apply List.ext_getElem
  · simp
  · intro i h1 h2
    have hi : i < D := by simpa using h1
    have e := col_fvec xs ⟨i, hi⟩
    simp only at e
    simp only [List.getElem_map, List.getElem_range, List.getElem_ofFn]
    rw [show (List.map fvec xs) = List.map (fun x => List.ofFn fun i => fin (x i)) xs from rfl] at e
    rw [e, dss_mean _ (by simpa using hx)]
    rfl

theorem sumdiv_fvec {xs : List (Fin D → ℝ)} (hx : xs ≠ []) :
    ((List.range D).map fun j => (DssMv.col (xs.map fvec) j).sum / (((xs.map fvec).length : ℕ) : XF))
      = fvec (vmean xs) := by
  rw [← mean_fvec hx]
  apply List.map_congr_left
  intro j _
  simp [mean, DssMv.col]

theorem gufunc_len {obs : List XF} (h : obs.length = D) (bias : Bool) (fct : List (List XF)) :
    DssMv.gufunc bias obs fct = (DssMv.inv (DssMv.cov bias D fct)).bind fun p => .ok
      (DssMv.quad (vsub obs ((List.range D).map fun j => (DssMv.col fct j).sum / ((fct.length : ℕ) : XF))) p
        + XF.log (DssMv.det (DssMv.cov bias D fct))) := by
  subst h; rfl

theorem scoreMat_len {obs : List XF} (h : obs.length = D) (bias : Bool) (fct : List (List XF)) :
    DssMv.scoreMat bias obs fct = if D = 1 then .error .valueError
      else (DssMv.inv (DssMv.cov bias D fct)).bind fun p => .ok
      (DssMv.quad (vsub obs ((List.range D).map fun j => mean (DssMv.col fct j))) p
        + XF.log (DssMv.det (DssMv.cov bias D fct))) := by
  subst h; rfl

/-- The kernel of one path on one observation. -/
def dssKernel (path : Path) (bias : Bool) : List XF → List (List XF) → Except Err XF :=
  match path with
  | .numba => DssMv.gufunc bias
  | .array => DssMv.scoreMat bias

theorem kernel_value {path : Path} {bias : Bool} (hp : path = .numba ∨ D ≠ 1) (y : Fin D → ℝ)
    {xs : List (Fin D → ℝ)} (hx : xs ≠ []) (hf : vfact bias xs.length ≠ 0) :
    dssKernel path bias (fvec y) (xs.map fvec)
      = if (vcov bias xs).det = 0 then .error .valueError
        else .ok (fin (dsMv (vmean xs) (vcov bias xs) y)) := by
  have hdet : (vcov bias xs).det ≠ 0 → 0 < (vcov bias xs).det := fun h =>
    ((vcov_posSemidef bias hx).posDef_iff_det_ne_zero.2 h).det_pos
  have e1 : DssMv.gufunc bias (fvec y) (xs.map fvec)
      = if (vcov bias xs).det = 0 then .error .valueError
        else .ok (fin (dsMv (vmean xs) (vcov bias xs) y)) := by
    rw [gufunc_len (fvec_length y), cov_fin bias hx hf, inv_fin, det_fin]
    split_ifs with h
    · rfl
    · simp only [Except.bind]
      rw [sumdiv_fvec hx, vsub_fvec, quad_fin, fin_log (hdet h), fin_add]
      rfl
  cases path
  · exact e1
  · have hD : D ≠ 1 := hp.resolve_left (by simp)
    rw [← e1]
    show DssMv.scoreMat bias _ _ = _
    rw [scoreMat_len (fvec_length y), gufunc_len (fvec_length y), if_neg hD, mean_fvec hx, sumdiv_fvec hx]

theorem perMatE_one (k : List XF → List (List XF) → Except Err XF) {y : List XF} {xs : List (List XF)}
    (hx : ∀ x ∈ xs, x.length = D) :
    item (perMatE k ((Arr.ofList y).moveLast 0) ((Arr.ofRows D xs).moveLast2 0 1))
      = match k y xs with
        | .error _ => .error .valueError
        | .ok v => .ok v := by
  have h1 : ((Arr.ofList y).moveLast 0).shape.dropLast = [] := by simp [Arr.moveLast, Arr.ofList]
  have h2 : ((Arr.ofList y).moveLast 0).row [] = y := by rw [Arr.row_moveLast, ofList_sliceAt]
  have h3 : ((Arr.ofRows D xs).moveLast2 0 1).mat [] = xs := by
    rw [Arr.moveLast2_mat, ofRows_matAt hx]
  have h4 : (∃ i, Arr.Valid ((Arr.ofList y).moveLast 0).shape.dropLast i ∧
      ∃ e, k (((Arr.ofList y).moveLast 0).row i) (((Arr.ofRows D xs).moveLast2 0 1).mat i) = .error e)
      ↔ ∃ e, k y xs = .error e := by
    rw [h1]
    constructor
    · rintro ⟨i, hi, e, he⟩
      have : i = [] := by cases hi; rfl
      subst this
      rw [h2, h3] at he
      exact ⟨e, he⟩
    · rintro ⟨e, he⟩
      exact ⟨[], List.Forall₂.nil, e, by rw [h2, h3, he]⟩
  unfold perMatE
  cases hk : k y xs with
  | error e => rw [if_pos (h4.2 ⟨e, hk⟩)]; rfl
  | ok v =>
    rw [if_neg fun h => by obtain ⟨e, he⟩ := h4.1 h; rw [hk] at he; cases he]
    simp only [item, Except.map, h2, h3, hk]
    rfl

theorem dssmv1_eq (path : Path) (bias : Bool) {y : List XF} {xs : List (List XF)} (hy : y.length = D)
    (hx : ∀ x ∈ xs, x.length = D) :
    dssmv1 path bias D y xs = match dssKernel path bias y xs with
        | .error _ => .error .valueError
        | .ok v => .ok v := by
  unfold dssmv1 dssmvEnsemble
  rw [mvArrayCheck (ofRows_axes D xs) (ofRows_shape hy)]
  simp only [bind, Except.bind, axisWithout]
  rw [show (if (0 : ℕ) < 1 then 1 - 1 else 1) = 0 from rfl]
  cases path
  · exact perMatE_one _ hx
  · show item (dsScoreMv bias _ _) = _
    unfold dsScoreMv
    rw [if_pos ⟨[], by simp [Arr.moveLast, Arr.ofList, Arr.Valid]⟩]
    exact perMatE_one _ hx

theorem fact_of_det {bias : Bool} {xs : List (Fin D → ℝ)} (hD : 0 < D) (h : (vcov bias xs).det ≠ 0) :
    xs ≠ [] ∧ vfact bias xs.length ≠ 0 := by
  constructor
  · rintro rfl
    exact h (vcov_singular bias hD (by simp))
  · intro hf
    apply h
    rw [vcov_eq, hf, _root_.inv_zero, zero_smul]
    have : Nonempty (Fin D) := ⟨⟨0, hD⟩⟩
    exact det_zero

/-! ### values -/

/-- What is proved of C84: with at least two variables, or on the numba path, `dssmv_ensemble` is the
Dawid-Sebastiani score of the ensemble mean and covariance whenever the latter is invertible.  Missing:
one variable on the array path, where the call raises (`C84_false`). -/
theorem C84_value_partial {path : Path} {bias : Bool} (hD : 0 < D) (hp : path = .numba ∨ D ≠ 1) (y : Fin D → ℝ)
    {xs : List (Fin D → ℝ)} (h : (vcov bias xs).det ≠ 0) :
    dssmv1 path bias D (fvec y) (xs.map fvec) = .ok (fin (dsMv (vmean xs) (vcov bias xs) y)) := by
  obtain ⟨hx, hf⟩ := fact_of_det hD h
  rw [dssmv1_eq path bias (by simp) (by simp), kernel_value hp y hx hf, if_neg h]

/-- The three corners of a triangle have an invertible covariance matrix. -/
theorem triangle_det : (vcov (D := 2) false [![0, 0], ![1, 0], ![0, 1]]).det ≠ 0 := by
  rw [det_fin_two]
  simp [vcov, vmean, avg]
  norm_num

example : 0 < 2 ∧ (Path.array = .numba ∨ 2 ≠ 1) ∧ (vcov (D := 2) false [![0, 0], ![1, 0], ![0, 1]]).det ≠ 0 :=
  ⟨by norm_num, by norm_num, triangle_det⟩

/-- C84 fails: with one variable the array path raises for every ensemble, although the covariance is
invertible and the numba path returns the score. -/
theorem C84_false : dssmv1 .array false 1 (fvec (D := 1) fun _ => 0)
      ([fun _ => 0, fun _ => 2].map (fvec (D := 1))) = .error .valueError ∧
    (vcov (D := 1) false [fun _ => 0, fun _ => 2]).det ≠ 0 ∧
    ∃ s : ℝ, dssmv1 .numba false 1 (fvec (D := 1) fun _ => 0)
      ([fun _ => 0, fun _ => 2].map (fvec (D := 1))) = .ok (fin s) := by
  have hd : (vcov (D := 1) false [fun _ => 0, fun _ => 2]).det ≠ 0 := by
    rw [det_fin_one]
    simp [vcov, vmean, avg]
    norm_num
  refine ⟨?_, hd, _, C84_value_partial one_pos (Or.inl rfl) _ hd⟩
  rw [dssmv1_eq .array false (by simp) (by simp)]
  simp [dssKernel, DssMv.scoreMat]

/-- C84: one variable on the array path, every ensemble. -/
theorem C84_one_variable_raises (bias : Bool) (y : XF) (xs : List XF) :
    dssmv1 .array bias 1 [y] (xs.map fun x => [x]) = .error .valueError := by
  rw [dssmv1_eq .array bias (by simp) (by simp)]
  simp [dssKernel, DssMv.scoreMat]

/-- C84: an ensemble of at least two members whose covariance is singular is refused on both paths, in
particular every ensemble with no more members than variables. -/
theorem C84_singular {path : Path} {bias : Bool} (hp : path = .numba ∨ D ≠ 1) (y : Fin D → ℝ)
    {xs : List (Fin D → ℝ)} (hM : 2 ≤ xs.length) (h : (vcov bias xs).det = 0) :
    dssmv1 path bias D (fvec y) (xs.map fvec) = .error .valueError := by
  have hx : xs ≠ [] := by rintro rfl; simp at hM
  have h2 : (2:ℝ) ≤ xs.length := by exact_mod_cast hM
  have hf : vfact bias xs.length ≠ 0 := by
    unfold vfact; cases bias
    · simp only [Bool.false_eq_true, if_false]; linarith
    · simp only [if_true]; linarith
  rw [dssmv1_eq path bias (by simp) (by simp), kernel_value hp y hx hf, if_pos h]

/-- Three points on a line. -/
example : 2 ≤ [![0, 0], ![1, 1], ![3, 3]].length ∧ (vcov (D := 2) false [![0, 0], ![1, 1], ![3, 3]]).det = 0 := by
  rw [det_fin_two]
  simp [vcov, vmean, avg]

/-- C84: no more members than variables. -/
theorem C84_few_members {path : Path} {bias : Bool} (hD : 2 ≤ D) (y : Fin D → ℝ)
    {xs : List (Fin D → ℝ)} (hM : 2 ≤ xs.length) (h : xs.length ≤ D) :
    dssmv1 path bias D (fvec y) (xs.map fvec) = .error .valueError :=
  C84_singular (Or.inr (by omega)) y hM (vcov_singular bias (by omega) h)

example : 2 ≤ 3 ∧ 2 ≤ [![(0:ℝ), 0, 0], ![1, 0, 5]].length ∧ [![(0:ℝ), 0, 0], ![1, 0, 5]].length ≤ 3 := by simp

/-- C84: for one variable the numba path is the univariate score. -/
theorem C84_univariate (path : Path) (bias : Bool) (y : ℝ) (xs : List ℝ) (hv : 0 < svar bias xs) :
    dssmv1 .numba bias 1 [fin y] (xs.map fun x => [fin x]) = dss1 path bias (fin y) (xs.map fin) := by
  have e1 : ∀ x : ℝ, [fin x] = fvec (D := 1) (fun _ => x) := fun x => by simp [fvec]
  have e2 : (xs.map fun x => [fin x]) = (xs.map fun x => (fun _ : Fin 1 => x)).map fvec := by
    rw [List.map_map]; apply List.map_congr_left; intro x _; exact e1 x
  have hc : vcov bias (xs.map fun x => (fun _ : Fin 1 => x)) = Matrix.of fun _ _ => svar bias xs := by
    ext i j
    have e3 : (List.map ((fun x : Fin 1 → ℝ => x i) ∘ fun x => fun _ => x) xs) = xs := by
      simp [Function.comp_def]
    have e4 : (List.map ((fun x : Fin 1 → ℝ => x j) ∘ fun x => fun _ => x) xs) = xs := by
      simp [Function.comp_def]
    simp only [vcov, vmean, svar, csum, List.map_map, List.length_map, e3, e4, Matrix.of_apply]
    congr 2
    apply List.map_congr_left
    intro x _
    simp only [Function.comp, pow_two]
  have hm : vmean (xs.map fun x => (fun _ : Fin 1 => x)) = fun _ => avg xs := by
    funext i
    simp [vmean, Function.comp_def]
  have hd : (vcov bias (xs.map fun x => (fun _ : Fin 1 => x))).det = svar bias xs := by
    rw [hc, det_fin_one, Matrix.of_apply]
  rw [C38_value path bias y xs hv, e1, e2, C84_value_partial one_pos (Or.inl rfl) _ (by rw [hd]; exact hv.ne')]
  congr 2
  unfold dsMv
  rw [hd, hm, hc]
  have hi : (Matrix.of fun _ _ => svar bias xs : Matrix (Fin 1) (Fin 1) ℝ)⁻¹
      = Matrix.of fun _ _ => (svar bias xs)⁻¹ := by
    apply Matrix.inv_eq_right_inv
    ext i j
    fin_cases i; fin_cases j
    simp [Matrix.mul_apply, hv.ne']
  rw [hi]
  simp [dotProduct, mulVec, ds]
  ring

example : 0 < svar false [1, 2, 6] := by simp [svar, csum, avg]; norm_num

/-- C84: both paths return the same result for two or more variables. -/
theorem C84_paths {bias : Bool} (hD : D ≠ 1) (y : Fin D → ℝ) {xs : List (Fin D → ℝ)} (hM : 2 ≤ xs.length) :
    dssmv1 .numba bias D (fvec y) (xs.map fvec) = dssmv1 .array bias D (fvec y) (xs.map fvec) := by
  have hx : xs ≠ [] := by rintro rfl; simp at hM
  have h2 : (2:ℝ) ≤ xs.length := by exact_mod_cast hM
  have hf : vfact bias xs.length ≠ 0 := by
    unfold vfact; cases bias
    · simp only [Bool.false_eq_true, if_false]; linarith
    · simp only [if_true]; linarith
  rw [dssmv1_eq .numba bias (by simp) (by simp), dssmv1_eq .array bias (by simp) (by simp),
    kernel_value (Or.inl rfl) y hx hf, kernel_value (Or.inr hD) y hx hf]

example : 2 ≠ 1 ∧ 2 ≤ [![(0:ℝ), 0], ![1, 0], ![0, 1]].length := by simp

/-- C84: the order of the members does not matter. -/
theorem C84_perm {path : Path} {bias : Bool} (hp : path = .numba ∨ D ≠ 1) (y : Fin D → ℝ)
    {xs xs' : List (Fin D → ℝ)} (h : xs.Perm xs') (hM : 2 ≤ xs.length) :
    dssmv1 path bias D (fvec y) (xs.map fvec) = dssmv1 path bias D (fvec y) (xs'.map fvec) := by
  have hx : xs ≠ [] := by rintro rfl; simp at hM
  have hx' : xs' ≠ [] := by rintro rfl; exact hx h.eq_nil
  have h2 : (2:ℝ) ≤ xs.length := by exact_mod_cast hM
  have hf : vfact bias xs.length ≠ 0 := by
    unfold vfact; cases bias
    · simp only [Bool.false_eq_true, if_false]; linarith
    · simp only [if_true]; linarith
  rw [dssmv1_eq path bias (by simp) (by simp), dssmv1_eq path bias (by simp) (by simp),
    kernel_value hp y hx hf, kernel_value hp y hx' (by rwa [← h.length_eq]), vcov_perm bias h, vmean_perm h]

example : [![(0:ℝ), 0], ![1, 0], ![0, 1]].Perm [![1, 0], ![0, 0], ![0, 1]] ∧
    2 ≤ [![(0:ℝ), 0], ![1, 0], ![0, 1]].length := ⟨List.Perm.swap _ _ _, by simp⟩

/-- C84: an invertible affine change of the variables adds `2 log |det A|`. -/
theorem C84_affine {path : Path} {bias : Bool} (hD : 0 < D) (hp : path = .numba ∨ D ≠ 1)
    {A : Matrix (Fin D) (Fin D) ℝ} (hA : A.det ≠ 0) (b y : Fin D → ℝ) {xs : List (Fin D → ℝ)}
    (h : (vcov bias xs).det ≠ 0) :
    ∃ s : ℝ, dssmv1 path bias D (fvec y) (xs.map fvec) = .ok (fin s) ∧
      dssmv1 path bias D (fvec (A *ᵥ y + b)) ((xs.map fun x => A *ᵥ x + b).map fvec)
        = .ok (fin (s + 2 * Real.log |A.det|)) := by
  obtain ⟨hx, -⟩ := fact_of_det hD h
  refine ⟨_, C84_value_partial hD hp y h, ?_⟩
  have h' : (vcov bias (xs.map fun x => A *ᵥ x + b)).det ≠ 0 := by
    rw [vcov_affine bias A b hx, det_mul, det_mul, det_transpose]
    exact mul_ne_zero (mul_ne_zero hA h) hA
  rw [C84_value_partial hD hp _ h', vcov_affine bias A b hx, vmean_affine A b hx, dsMv_affine hA b _ _ h]

example : (!![1, 2; 0, 3] : Matrix (Fin 2) (Fin 2) ℝ).det ≠ 0 ∧
    (vcov (D := 2) false [![0, 0], ![1, 0], ![0, 1]]).det ≠ 0 :=
  ⟨by rw [det_fin_two]; simp, triangle_det⟩

/-! ### propriety -/

theorem dsMv_integral {Ω : Type*} [MeasurableSpace Ω] (P : Measure Ω) [IsProbabilityMeasure P]
    (Y : Ω → Fin D → ℝ) (μ0 : Fin D → ℝ) (S0 : Matrix (Fin D) (Fin D) ℝ) (h1 : ∀ i, Integrable (fun ω => Y ω i) P)
    (h2 : ∀ i j, Integrable (fun ω => (Y ω i - μ0 i) * (Y ω j - μ0 j)) P) (hm : ∀ i, ∫ ω, Y ω i ∂P = μ0 i)
    (hv : ∀ i j, ∫ ω, (Y ω i - μ0 i) * (Y ω j - μ0 j) ∂P = S0 i j) (hsym : S0.IsHermitian)
    (μ : Fin D → ℝ) (S : Matrix (Fin D) (Fin D) ℝ) :
    ∫ ω, dsMv μ S (Y ω) ∂P
      = (S⁻¹ * S0).trace + (μ0 - μ) ⬝ᵥ S⁻¹ *ᵥ (μ0 - μ) + Real.log S.det := by
  have e : ∀ ω, dsMv μ S (Y ω) = (∑ i, ∑ j, ((Y ω i - μ0 i) * (Y ω j - μ0 j) * S⁻¹ i j
      + ((Y ω i - μ0 i) * ((μ0 j - μ j) * S⁻¹ i j) + (Y ω j - μ0 j) * ((μ0 i - μ i) * S⁻¹ i j))))
      + ((μ0 - μ) ⬝ᵥ S⁻¹ *ᵥ (μ0 - μ) + Real.log S.det) := by
    intro ω
    unfold dsMv
    rw [← add_assoc]
    congr 1
    simp only [dotProduct, mulVec, Pi.sub_apply, Finset.mul_sum]
    rw [← Finset.sum_add_distrib]
    refine Finset.sum_congr rfl fun i _ => ?_
    rw [← Finset.sum_add_distrib]
    refine Finset.sum_congr rfl fun j _ => ?_
    ring
  have c1 : ∀ i, Integrable (fun ω => Y ω i - μ0 i) P := fun i => (h1 i).sub (integrable_const _)
  have z1 : ∀ i, ∫ ω, (Y ω i - μ0 i) ∂P = 0 := fun i => by
    rw [integral_sub (h1 i) (integrable_const _), hm, integral_const]; simp
  have it : ∀ i j, Integrable (fun ω => (Y ω i - μ0 i) * (Y ω j - μ0 j) * S⁻¹ i j
      + ((Y ω i - μ0 i) * ((μ0 j - μ j) * S⁻¹ i j) + (Y ω j - μ0 j) * ((μ0 i - μ i) * S⁻¹ i j))) P := fun i j =>
    ((h2 i j).mul_const _).add (((c1 i).mul_const _).add ((c1 j).mul_const _))
  simp only [e]
  rw [integral_add (integrable_finsetSum _ fun i _ => integrable_finsetSum _ fun j _ => it i j)
    (integrable_const _), integral_finsetSum _ fun i _ => integrable_finsetSum _ fun j _ => it i j,
    integral_const]
  simp only [probReal_univ, one_smul]
  rw [add_assoc]
  congr 1
  simp only [trace, diag, Matrix.mul_apply]
  refine Finset.sum_congr rfl fun i _ => ?_
  rw [integral_finsetSum _ fun j _ => it i j]
  refine Finset.sum_congr rfl fun j _ => ?_
  have it2 : Integrable (fun ω => (Y ω i - μ0 i) * ((μ0 j - μ j) * S⁻¹ i j)
      + (Y ω j - μ0 j) * ((μ0 i - μ i) * S⁻¹ i j)) P := ((c1 i).mul_const _).add ((c1 j).mul_const _)
  rw [integral_add ((h2 i j).mul_const _) it2,
    integral_add ((c1 i).mul_const _) ((c1 j).mul_const _), integral_mul_const, integral_mul_const,
    integral_mul_const, hv, z1, z1]
  have hs : S0 i j = S0 j i := by
    have := hsym.apply j i
    simpa using this
  rw [hs]; ring

/-- C84: for every outcome vector with finite mean `μ0` and positive definite covariance `S0`, the
expected score of an ensemble is at least `D + log det S0`, the expected score of a forecast with the
true mean and covariance, and only ensembles with these moments attain it. -/
theorem C84_proper {Ω : Type*} [MeasurableSpace Ω] (P : Measure Ω) [IsProbabilityMeasure P]
    (Y : Ω → Fin D → ℝ) (μ0 : Fin D → ℝ) {S0 : Matrix (Fin D) (Fin D) ℝ} (h1 : ∀ i, Integrable (fun ω => Y ω i) P)
    (h2 : ∀ i j, Integrable (fun ω => (Y ω i - μ0 i) * (Y ω j - μ0 j)) P) (hm : ∀ i, ∫ ω, Y ω i ∂P = μ0 i)
    (hv : ∀ i j, ∫ ω, (Y ω i - μ0 i) * (Y ω j - μ0 j) ∂P = S0 i j) (h0 : S0.PosDef)
    {path : Path} {bias : Bool} (hD : 0 < D) (hp : path = .numba ∨ D ≠ 1) {xs : List (Fin D → ℝ)}
    (hx : (vcov bias xs).det ≠ 0) :
    ∃ s : (Fin D → ℝ) → ℝ, (∀ y, dssmv1 path bias D (fvec y) (xs.map fvec) = .ok (fin (s y))) ∧
      (D : ℝ) + Real.log S0.det ≤ ∫ ω, s (Y ω) ∂P ∧
      (∫ ω, s (Y ω) ∂P = D + Real.log S0.det ↔ vmean xs = μ0 ∧ vcov bias xs = S0) := by
  have hS := (vcov_posSemidef bias (fact_of_det hD hx).1).posDef_iff_det_ne_zero.2 hx
  obtain ⟨g1, g2⟩ := dsMv_gap hS h0 (μ0 - vmean xs)
  refine ⟨fun y => dsMv (vmean xs) (vcov bias xs) y, fun y => C84_value_partial hD hp y hx, ?_⟩
  rw [dsMv_integral P Y μ0 S0 h1 h2 hm hv h0.isHermitian]
  refine ⟨g1, g2.trans ?_⟩
  rw [sub_eq_zero, eq_comm (a := μ0)]

/-- The hypotheses are met, for instance, by the uniform distribution on the corners of a square, and an
ensemble with its moments is the list of the corners. -/
example : ∃ (P : Measure (Bool × Bool)) (_ : IsProbabilityMeasure P) (Y : Bool × Bool → Fin 2 → ℝ),
    (∀ i, Integrable (fun ω => Y ω i) P) ∧
    (∀ i j, Integrable (fun ω => (Y ω i - (0 : Fin 2 → ℝ) i) * (Y ω j - (0 : Fin 2 → ℝ) j)) P) ∧
    (∀ i, ∫ ω, Y ω i ∂P = (0 : Fin 2 → ℝ) i) ∧
    (∀ i j, ∫ ω, (Y ω i - (0 : Fin 2 → ℝ) i) * (Y ω j - (0 : Fin 2 → ℝ) j) ∂P = (1 : Matrix (Fin 2) (Fin 2) ℝ) i j) ∧
    (1 : Matrix (Fin 2) (Fin 2) ℝ).PosDef ∧ 0 < 2 ∧ (Path.array = .numba ∨ 2 ≠ 1) ∧
    (vcov (D := 2) true [![1, 1], ![1, -1], ![-1, 1], ![-1, -1]]).det ≠ 0 ∧
    vmean (D := 2) [![1, 1], ![1, -1], ![-1, 1], ![-1, -1]] = 0 ∧
    vcov (D := 2) true [![1, 1], ![1, -1], ![-1, 1], ![-1, -1]] = 1 := by
  let P : Measure (Bool × Bool) := ∑ b : Bool × Bool, (ENNReal.ofReal (1/4)) • Measure.dirac b
  have hV : ∀ f : Bool × Bool → ℝ, ∫ ω, f ω ∂P = (f (true, true) + f (true, false) + f (false, true)
      + f (false, false)) / 4 := by
    intro f
    have hd : ∀ b ∈ (Finset.univ : Finset (Bool × Bool)), Integrable f (ENNReal.ofReal (1/4) • Measure.dirac b) := fun b _ =>
      Integrable.smul_measure Integrable.of_finite ENNReal.ofReal_ne_top
    rw [integral_finsetSum_measure hd]
    simp only [integral_smul_measure, integral_dirac, smul_eq_mul, ENNReal.toReal_ofReal (by norm_num : (0:ℝ) ≤ 1/4),
      Fintype.sum_prod_type, Fintype.sum_bool]
    ring
  have hP : IsProbabilityMeasure P := ⟨by
    simp only [P, Fintype.sum_prod_type, Fintype.sum_bool, Measure.add_apply, Measure.smul_apply, measure_univ,
      smul_eq_mul, mul_one]
    rw [← ENNReal.ofReal_add (by norm_num) (by norm_num), ← ENNReal.ofReal_add (by norm_num) (by norm_num)]
    norm_num⟩
  have hI : ∀ f : Bool × Bool → ℝ, Integrable f P := fun f => Integrable.of_finite
  have hc : vcov (D := 2) true [![1, 1], ![1, -1], ![-1, 1], ![-1, -1]] = 1 := by
    ext i j
    fin_cases i <;> fin_cases j <;> simp [vcov, vmean, avg] <;> norm_num
  refine ⟨P, hP, fun b => ![if b.1 then 1 else -1, if b.2 then 1 else -1], fun i => hI _, fun i j => hI _,
    fun i => ?_, fun i j => ?_, Matrix.PosDef.one, by norm_num, by norm_num, by rw [hc]; simp, ?_, hc⟩
  · rw [hV]; fin_cases i <;> simp
  · rw [hV]; fin_cases i <;> fin_cases j <;> simp <;> norm_num
  · funext i; fin_cases i <;> simp [vmean, avg]

/-! ### arrays -/

/-- C84: on arrays of any shape `dssmv_ensemble` scores every (member, variable) matrix separately. -/
theorem C84_slices (path : Path) (bias : Bool) {obs fct : Arr XF} {mAxis vAxis : ℤ}
    {m v : ℕ} (h : MvAxes mAxis vAxis fct.ndim m v) (hs : obs.shape = fct.shape.eraseIdx m)
    {out : Arr XF} (ho : dssmvEnsemble path obs fct mAxis vAxis bias = .ok out) :
    out.shape = obs.shape.eraseIdx (axisWithout m v) ∧ ∀ i, Arr.Valid out.shape i →
      dssmv1 path bias (fct.shape.getD v 0) (obs.sliceAt (axisWithout m v) i) (fct.matAt m v i)
        = .ok (out.get i) := by
  have hne : m ≠ v := h.ne
  have hsh : (obs.moveLast (axisWithout m v)).shape.dropLast = obs.shape.eraseIdx (axisWithout m v) := by
    simp [Arr.moveLast]
  have key : perMatE (dssKernel path bias) (obs.moveLast (axisWithout m v)) (fct.moveLast2 m v) = .ok out := by
    unfold dssmvEnsemble at ho
    rw [mvArrayCheck h hs] at ho
    simp only [bind, Except.bind] at ho
    cases path
    · exact ho
    · unfold dsScoreMv at ho
      simp only at ho
      split_ifs at ho with hi
      exact ho
  unfold perMatE at key
  split_ifs at key with hi
  simp only [Except.ok.injEq] at key
  subst key
  refine ⟨hsh, fun i hv => ?_⟩
  rw [dssmv1_eq path bias (by rw [sliceAt_len, hs, eraseIdx_getD_without hne]) (matAt_row_len fct m v i)]
  simp only [Arr.row_moveLast, Arr.moveLast2_mat]
  cases hk : dssKernel path bias (obs.sliceAt (axisWithout m v) i) (fct.matAt m v i) with
  | error e =>
    exact absurd ⟨i, hv, e, by rw [Arr.row_moveLast, Arr.moveLast2_mat, hk]⟩ hi
  | ok w => rfl

example : MvAxes (-2) (-1) (Arr.ofRows 2 [[1, 2], [4, 5], [0, 3]] : Arr XF).ndim 0 1 ∧
    (Arr.ofList [7, 8] : Arr XF).shape = (Arr.ofRows 2 [[1, 2], [4, 5], [0, 3]] : Arr XF).shape.eraseIdx 0 :=
  ⟨ofRows_axes 2 _, ofRows_shape (by simp)⟩

/-- C84: a batch without observations has an empty result on the numba path and raises on the array
path. -/
theorem C84_empty_batch (bias : Bool) {obs fct : Arr XF} {mAxis vAxis : ℤ}
    {m v : ℕ} (h : MvAxes mAxis vAxis fct.ndim m v) (hs : obs.shape = fct.shape.eraseIdx m)
    (h0 : ∀ i, ¬ Arr.Valid (obs.shape.eraseIdx (axisWithout m v)) i) :
    dssmvEnsemble .array obs fct mAxis vAxis bias = .error .valueError ∧
      ∃ out, dssmvEnsemble .numba obs fct mAxis vAxis bias = .ok out ∧
        out.shape = obs.shape.eraseIdx (axisWithout m v) := by
  have hsh : (obs.moveLast (axisWithout m v)).shape.dropLast = obs.shape.eraseIdx (axisWithout m v) := by
    simp [Arr.moveLast]
  unfold dssmvEnsemble
  rw [mvArrayCheck h hs]
  simp only [bind, Except.bind, dsScoreMv, perMatE, hsh]
  rw [if_neg (by rintro ⟨i, hi⟩; exact h0 i hi), if_neg (by rintro ⟨i, hi, -⟩; exact h0 i hi)]
  exact ⟨rfl, _, rfl, rfl⟩

example : MvAxes (-2) (-1) (⟨[0, 3, 2], fun _ => 0⟩ : Arr XF).ndim 1 2 ∧
    (⟨[0, 2], fun _ => 0⟩ : Arr XF).shape = (⟨[0, 3, 2], fun _ => 0⟩ : Arr XF).shape.eraseIdx 1 ∧
    ∀ i, ¬ Arr.Valid ((⟨[0, 2], fun _ => 0⟩ : Arr XF).shape.eraseIdx (axisWithout 1 2)) i := by
  refine ⟨⟨by constructor <;> simp [Arr.ndim], by constructor <;> simp [Arr.ndim], by norm_num⟩, rfl, ?_⟩
  intro i hi
  simp only [axisWithout, Arr.Valid] at hi
  norm_num at hi
  cases hi with
  | cons a _ => omega

end Verif
