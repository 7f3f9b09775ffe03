import Verif.Lemmas.VariogramApi
import Verif.Props.Energy2

/-!
# Property C36: variogram score

`vec v` is the array holding the coordinates of the point `v`, `matl W` the array holding the pair
weights `W`.
-/

noncomputable section

open scoped Classical

namespace Verif

open XF Py Api Spec Mv

variable {D : ℕ} {p : ℝ}

/-- the estimators documented for `vs_ensemble` -/
def Spec.vsEstimators : List String := ["nrg", "fair"]

/-- C36: both paths return the weighted squared differences between the observed and the mean
variogram. -/
theorem C36_value (hp : 0 < p) (W : Fin D → Fin D → ℝ) (path : Path) (y : Eu D) {xs : List (Eu D)}
    (h : xs ≠ []) :
    vs1 path "nrg" p (some (matl W)) D (vec y) (xs.map vec) none
      = .ok (fin (∑ i, ∑ j, W i j *
          (|y i - y j| ^ p - (xs.map fun x => |x i - x j| ^ p).sum / xs.length) ^ 2)) := by
  rw [vs1_nrg hp W path y h]
  congr 2
  unfold Spec.vs
  refine Finset.sum_congr rfl fun i _ => Finset.sum_congr rfl fun j _ => ?_
  congr 3
  unfold equalW
  rw [List.map_map, ← sum_map_div']
  apply sum_map_congr; intro x _
  simp only [Function.comp_apply, vdiff]
  ring

/-- C36 with ensemble weights: the mean variogram is weighted. -/
theorem C36_value_weighted (hp : 0 < p) (W : Fin D → Fin D → ℝ) (path : Path) (y : Eu D)
    (l : List (Eu D × ℝ)) (hw : ∀ q ∈ l, 0 ≤ q.2) (h : (l.map Prod.snd).sum ≠ 0) :
    vs1 path "nrg" p (some (matl W)) D (vec y) (l.map fun q => vec q.1) (some (l.map fun q => fin q.2))
      = .ok (fin (∑ i, ∑ j, W i j * (|y i - y j| ^ p
          - (l.map fun q => q.2 * |q.1 i - q.1 j| ^ p).sum / (l.map Prod.snd).sum) ^ 2)) := by
  rw [vs1_nrg_weighted hp W path y l hw h]
  congr 2
  unfold Spec.vs
  refine Finset.sum_congr rfl fun i _ => Finset.sum_congr rfl fun j _ => ?_
  congr 3
  unfold Spec.normW
  rw [List.map_map, ← sum_map_div']
  apply sum_map_congr; intro q _
  simp only [Function.comp_apply, vdiff]
  ring

/-- C36: the fair estimator averages the distances of variograms over pairs of distinct members. -/
theorem C36_fair_value (hp : 0 < p) (W : Fin D → Fin D → ℝ) (path : Path) (y : Eu D)
    {xs : List (Eu D)} (h : 2 ≤ xs.length) :
    vs1 path "fair" p (some (matl W)) D (vec y) (xs.map vec) none = .ok (fin (vsFair p W y xs)) :=
  vs1_fair hp W path y h

/-- C36: no pair weights mean weight one for every pair. -/
theorem C36_default_weights (path : Path) (est : String) (y : List XF) (xs : List (List XF))
    (ws : Option (List XF)) (hy : y.length = D) :
    vs1 path est p none D y xs ws = vs1 path est p (some (matl fun _ _ : Fin D => (1 : ℝ))) D y xs ws :=
  vs1_default hy

/-- C36: without ensemble weights the two paths agree for every estimator. -/
theorem C36_paths (hp : 0 < p) (W : Fin D → Fin D → ℝ) (est : String) (he : est ∈ Spec.vsEstimators)
    (y : Eu D) {xs : List (Eu D)} (h : xs ≠ []) (hf : est = "fair" → 2 ≤ xs.length) :
    vs1 .numba est p (some (matl W)) D (vec y) (xs.map vec) none
      = vs1 .array est p (some (matl W)) D (vec y) (xs.map vec) none := by
  simp only [Spec.vsEstimators, List.mem_cons, List.not_mem_nil, or_false] at he
  rcases he with rfl | rfl
  · rw [vs1_nrg hp W _ y h, vs1_nrg hp W _ y h]
  · rw [vs1_fair hp W _ y (hf rfl), vs1_fair hp W _ y (hf rfl)]

/-- C36: with ensemble weights the two paths agree for every estimator. -/
theorem C36_paths_weighted (hp : 0 < p) (W : Fin D → Fin D → ℝ) (est : String)
    (he : est ∈ Spec.vsEstimators) (y : Eu D) (l : List (Eu D × ℝ)) (hw : ∀ q ∈ l, 0 ≤ q.2)
    (h : (l.map Prod.snd).sum ≠ 0) :
    vs1 .numba est p (some (matl W)) D (vec y) (l.map fun q => vec q.1) (some (l.map fun q => fin q.2))
      = vs1 .array est p (some (matl W)) D (vec y) (l.map fun q => vec q.1)
        (some (l.map fun q => fin q.2)) := by
  rw [vs1_weighted W _ _ y l hw h, vs1_weighted W _ _ y l hw h]
  simp only [Spec.vsEstimators, List.mem_cons, List.not_mem_nil, or_false] at he
  rcases he with rfl | rfl
  · simp [vsKernelW, Except.map, VsGufuncW.nrg_fin hp, VsApproxW.nrg_fin hp]
  · simp only [vsKernelW, Except.map]
    simp [VsGufuncW.fair_eq hp]

/-- `C36_value`, `C36_fair_value`, `C36_paths`, `C36_constant_weights`, `C36_translation`,
`C36_translation_fair`, `C36_perm`, `C36_scale`, `C36_default_weights` -/
example : (0 : ℝ) < 1 / 2 ∧ "fair" ∈ Spec.vsEstimators ∧ 2 ≤ ([!₂[1, 2], 0] : List (Eu 2)).length := by
  norm_num [Spec.vsEstimators]

/-- C36: constant ensemble weights are the same as no ensemble weights. -/
theorem C36_constant_weights (hp : 0 < p) (W : Fin D → Fin D → ℝ) (path : Path) (est : String)
    (he : est ∈ Spec.vsEstimators) (y : Eu D) {xs : List (Eu D)} (h : xs ≠ [])
    (hf : est = "fair" → 2 ≤ xs.length) {c : ℝ} (hc : 0 < c) :
    vs1 path est p (some (matl W)) D (vec y) (xs.map vec) (some (xs.map fun _ => fin c))
      = vs1 path est p (some (matl W)) D (vec y) (xs.map vec) none := by
  have hM : (xs.length : ℝ) ≠ 0 := by simpa using h
  have hM0 : (0 : ℝ) < xs.length := by exact_mod_cast List.length_pos_iff.2 h
  have h1 := vs1_weighted (p := p) W path est y (xs.map fun x => (x, c)) (by
    intro p hp
    obtain ⟨x, _, rfl⟩ := List.mem_map.1 hp
    exact hc.le) (by
      rw [List.map_map]
      have := sum_map_const' xs c
      simp only [Function.comp_def]
      rw [this]
      positivity)
  rw [normW_const xs hc.ne'] at h1
  simp only [List.map_map, Function.comp_def] at h1
  have e1 : (xs.map fun x => vec x) = xs.map vec := rfl
  rw [e1] at h1
  rw [h1]
  simp only [Spec.vsEstimators, List.mem_cons, List.not_mem_nil, or_false] at he
  rcases he with rfl | rfl
  · rw [vs1_nrg hp W path y h]
    cases path <;> simp [vsKernelW, Except.map, VsGufuncW.nrg_fin hp, VsApproxW.nrg_fin hp]
  · have h2 := hf rfl
    have hM1 : (1 : ℝ) < xs.length := by exact_mod_cast h2
    rw [vs1_fair hp W path y h2]
    have hs : ((equalW xs).map fun p => p.2 * p.2).sum = 1 / xs.length := by
      unfold equalW
      rw [List.map_map]
      simp only [Function.comp_def]
      rw [sum_map_const']
      field_simp
    have h3 : 1 - 1 / (xs.length : ℝ) = ((xs.length : ℝ) - 1) / xs.length := by field_simp
    have h4 : (xs.length : ℝ) - 1 ≠ 0 := by linarith
    have hv := VsApproxW.fair_eq hp W y (equalW xs)
    have hg := VsGufuncW.fair_eq hp W y (equalW xs)
    have e5 : vabs p W y (equalW xs) = (xs.map fun x => vdist p W x y).sum / xs.length := by
      rw [equalW_eq, vabs_scale, vabs_map]
      simp only [one_mul]
      ring
    have e6 : vpair p W (equalW xs) = pairsAll (vdist p W) xs / (xs.length : ℝ) ^ 2 := by
      rw [equalW_eq, vpair_scale, vpair_map]
      simp only [one_mul, inv_pow]
      ring
    have hval : VsApproxW.fair (matl W) p (vec y) ((equalW xs).map fun q => vec q.1)
        ((equalW xs).map fun q => fin q.2) = fin (vsFair p W y xs) := by
      rw [hv, hs, half_fin, one_fin, fin_sub, fin_mul, h3, fin_div (div_ne_zero h4 hM), fin_sub,
        fin_inj, e5, e6]
      unfold vsFair pairsAll
      congr 1
      field_simp
    cases path <;> simp [vsKernelW, Except.map, hval, hg]

theorem vs_nonneg {W : Fin D → Fin D → ℝ} (hW : ∀ i j, 0 ≤ W i j) (y : Eu D) (l : List (Eu D × ℝ)) :
    0 ≤ Spec.vs p W y l :=
  Finset.sum_nonneg fun i _ => Finset.sum_nonneg fun j _ => mul_nonneg (hW i j) (sq_nonneg _)

/-- C36: for non-negative pair weights the score is non-negative. -/
theorem C36_nonneg (hp : 0 < p) {W : Fin D → Fin D → ℝ} (hW : ∀ i j, 0 ≤ W i j) (path : Path)
    (y : Eu D) {xs : List (Eu D)} (h : xs ≠ []) :
    ∃ s : ℝ, vs1 path "nrg" p (some (matl W)) D (vec y) (xs.map vec) none = .ok (fin s) ∧ 0 ≤ s :=
  ⟨_, vs1_nrg hp W path y h, vs_nonneg hW y _⟩

/-- C36: non-negativity with ensemble weights. -/
theorem C36_nonneg_weighted (hp : 0 < p) {W : Fin D → Fin D → ℝ} (hW : ∀ i j, 0 ≤ W i j) (path : Path)
    (y : Eu D) (l : List (Eu D × ℝ)) (hw : ∀ q ∈ l, 0 ≤ q.2) (h : (l.map Prod.snd).sum ≠ 0) :
    ∃ s : ℝ, vs1 path "nrg" p (some (matl W)) D (vec y) (l.map fun q => vec q.1)
      (some (l.map fun q => fin q.2)) = .ok (fin s) ∧ 0 ≤ s :=
  ⟨_, vs1_nrg_weighted hp W path y l hw h, vs_nonneg hW y _⟩

/-- `C36_nonneg`, `C36_value_weighted`, `C36_nonneg_weighted` -/
example : (0 : ℝ) < 1 / 2 ∧ (∀ i j : Fin 2, (0 : ℝ) ≤ (fun i j => if i = j then 0 else 3 : Fin 2 → Fin 2 → ℝ) i j) ∧
    (∀ q ∈ ([(!₂[1, 2], 2), (0, 0)] : List (Eu 2 × ℝ)), 0 ≤ q.2) ∧
    (([(!₂[1, 2], 2), (0, 0)] : List (Eu 2 × ℝ)).map Prod.snd).sum ≠ 0 := by
  refine ⟨by norm_num, fun i j => ?_, by simp, by simp⟩
  dsimp only
  split <;> norm_num

/-- the vector with all coordinates `c` -/
def Spec.constVec (D : ℕ) (c : ℝ) : Eu D := WithLp.toLp 2 fun _ => c

theorem vdiff_const (x : Eu D) (c : ℝ) (i j : Fin D) :
    vdiff p (x + Spec.constVec D c) i j = vdiff p x i j := by
  unfold vdiff Spec.constVec
  simp

/-- C36: adding a constant to all variables (of members and observation; the constants may differ
between members) leaves the score unchanged. -/
theorem C36_translation (hp : 0 < p) (W : Fin D → Fin D → ℝ) (path : Path) (c : Eu D → ℝ) (d : ℝ)
    (y : Eu D) {xs : List (Eu D)} (h : xs ≠ []) :
    vs1 path "nrg" p (some (matl W)) D (vec (y + Spec.constVec D d))
        (xs.map fun x => vec (x + Spec.constVec D (c x))) none
      = vs1 path "nrg" p (some (matl W)) D (vec y) (xs.map vec) none := by
  have h1 := vs1_nrg hp W path (y + Spec.constVec D d)
    (xs := xs.map fun x => x + Spec.constVec D (c x)) (by simpa using h)
  rw [List.map_map] at h1
  have e : (vec ∘ fun x : Eu D => x + Spec.constVec D (c x))
      = fun x => vec (x + Spec.constVec D (c x)) := rfl
  rw [e] at h1
  rw [h1, vs1_nrg hp W path y h]
  congr 2
  unfold Spec.vs equalW
  simp only [List.map_map, Function.comp_def, vdiff_const, List.length_map]

/-- C36: translation invariance of the fair estimator. -/
theorem C36_translation_fair (hp : 0 < p) (W : Fin D → Fin D → ℝ) (path : Path) (c : Eu D → ℝ) (d : ℝ)
    (y : Eu D) {xs : List (Eu D)} (h : 2 ≤ xs.length) :
    vs1 path "fair" p (some (matl W)) D (vec (y + Spec.constVec D d))
        (xs.map fun x => vec (x + Spec.constVec D (c x))) none
      = vs1 path "fair" p (some (matl W)) D (vec y) (xs.map vec) none := by
  have h1 := vs1_fair hp W path (y + Spec.constVec D d)
    (xs := xs.map fun x => x + Spec.constVec D (c x)) (by simpa using h)
  rw [List.map_map] at h1
  have e : (vec ∘ fun x : Eu D => x + Spec.constVec D (c x))
      = fun x => vec (x + Spec.constVec D (c x)) := rfl
  rw [e] at h1
  rw [h1, vs1_fair hp W path y h]
  congr 2
  unfold vsFair vdist
  simp only [List.map_map, Function.comp_def, vdiff_const, List.length_map]

/-- C36: the order of the members does not matter, for both estimators. -/
theorem C36_perm (hp : 0 < p) (W : Fin D → Fin D → ℝ) (path : Path) (est : String)
    (he : est ∈ Spec.vsEstimators) (y : Eu D) {xs xs' : List (Eu D)} (h : xs ≠ [])
    (hf : est = "fair" → 2 ≤ xs.length) (hx : xs.Perm xs') :
    vs1 path est p (some (matl W)) D (vec y) (xs.map vec) none
      = vs1 path est p (some (matl W)) D (vec y) (xs'.map vec) none := by
  have h' : xs' ≠ [] := by
    intro e; rw [e] at hx; exact h hx.eq_nil
  simp only [Spec.vsEstimators, List.mem_cons, List.not_mem_nil, or_false] at he
  rcases he with rfl | rfl
  · rw [C36_value hp W path y h, C36_value hp W path y h']
    congr 2
    refine Finset.sum_congr rfl fun i _ => Finset.sum_congr rfl fun j _ => ?_
    rw [(hx.map _).sum_eq, hx.length_eq]
  · rw [vs1_fair hp W path y (hf rfl), vs1_fair hp W path y (hx.length_eq ▸ hf rfl)]
    congr 2
    unfold vsFair
    have := pairsAll_perm (vdist p W) hx
    unfold pairsAll at this
    rw [(hx.map _).sum_eq, hx.length_eq, this]

/-- C36: an ensemble all of whose members equal the observation, in particular a one-member ensemble,
scores zero. -/
theorem C36_perfect (hp : 0 < p) (W : Fin D → Fin D → ℝ) (path : Path) (y : Eu D) {xs : List (Eu D)}
    (h : xs ≠ []) (hx : ∀ x ∈ xs, x = y) :
    vs1 path "nrg" p (some (matl W)) D (vec y) (xs.map vec) none = .ok (fin 0) := by
  have hM : (xs.length : ℝ) ≠ 0 := by simpa using h
  rw [C36_value hp W path y h]
  congr 2
  refine Finset.sum_eq_zero fun i _ => Finset.sum_eq_zero fun j _ => ?_
  have : (xs.map fun x => |x i - x j| ^ p).sum = (xs.map fun _ => |y i - y j| ^ p).sum := by
    apply sum_map_congr; intro x hx'; rw [hx x hx']
  rw [this, sum_map_const', mul_div_cancel_left₀ _ hM]
  ring

example (y : Eu 3) : ([y] : List (Eu 3)) ≠ [] ∧ ∀ x ∈ [y], x = y := by simp

/-- C36: multiplying all variables by `c` multiplies the score by `|c| ^ (2 p)`. -/
theorem C36_scale (hp : 0 < p) (W : Fin D → Fin D → ℝ) (path : Path) (c : ℝ) (y : Eu D)
    {xs : List (Eu D)} (h : xs ≠ []) :
    ∃ s : ℝ, vs1 path "nrg" p (some (matl W)) D (vec y) (xs.map vec) none = .ok (fin s) ∧
      vs1 path "nrg" p (some (matl W)) D (vec (c • y)) (xs.map fun x => vec (c • x)) none
        = .ok (fin ((|c| ^ p) ^ 2 * s)) := by
  refine ⟨_, C36_value hp W path y h, ?_⟩
  have h1 := C36_value hp W path (c • y) (xs := xs.map fun x => c • x) (by simpa using h)
  rw [List.map_map] at h1
  have e : (vec ∘ fun x : Eu D => c • x) = fun x => vec (c • x) := rfl
  rw [e] at h1
  rw [h1]
  congr 2
  rw [Finset.mul_sum]
  refine Finset.sum_congr rfl fun i _ => ?_
  rw [Finset.mul_sum]
  refine Finset.sum_congr rfl fun j _ => ?_
  have e2 : ∀ x : Eu D, |(c • x) i - (c • x) j| ^ p = |c| ^ p * |x i - x j| ^ p := by
    intro x
    rw [← Real.mul_rpow (abs_nonneg _) (abs_nonneg _), ← abs_mul]
    simp [mul_sub]
  simp only [List.map_map, Function.comp_def, e2, List.length_map, sum_map_mul_left']
  ring

/-! propriety -/

theorem vs_mean (W : Fin D → Fin D → ℝ) (G : List (Eu D × ℝ)) (hG : gtot G = 1)
    (F : List (Eu D × ℝ)) :
    (G.map fun q => q.2 * Spec.vs p W q.1 F).sum - (G.map fun q => q.2 * Spec.vs p W q.1 G).sum
      = ∑ i, ∑ j, W i j * ((G.map fun q => q.2 * vdiff p q.1 i j).sum
        - (F.map fun q => q.2 * vdiff p q.1 i j).sum) ^ 2 := by
  have key : ∀ L : List (Eu D × ℝ), (G.map fun q => q.2 * Spec.vs p W q.1 L).sum
      = ∑ i, ∑ j, W i j * ((G.map fun q => q.2 * vdiff p q.1 i j ^ 2).sum
        - 2 * (L.map fun q => q.2 * vdiff p q.1 i j).sum * (G.map fun q => q.2 * vdiff p q.1 i j).sum
        + (L.map fun q => q.2 * vdiff p q.1 i j).sum ^ 2) := by
    intro L
    unfold Spec.vs
    simp only [Finset.mul_sum]
    rw [sum_finset_list]
    refine Finset.sum_congr rfl fun i _ => Finset.sum_congr rfl fun j _ => ?_
    have : ∀ q : Eu D × ℝ, q.2 * (W i j * (vdiff p q.1 i j
        - (L.map fun q => q.2 * vdiff p q.1 i j).sum) ^ 2)
        = W i j * (q.2 * vdiff p q.1 i j ^ 2
          - (2 * (L.map fun q => q.2 * vdiff p q.1 i j).sum) * (q.2 * vdiff p q.1 i j))
          + W i j * (L.map fun q => q.2 * vdiff p q.1 i j).sum ^ 2 * q.2 := by
      intro q; ring
    simp only [this]
    rw [sum_map_add', sum_map_mul_left', sum_map_sub', sum_map_mul_left', sum_map_mul_left']
    have h1 : (G.map fun q : Eu D × ℝ => q.2).sum = 1 := hG
    rw [h1]; ring
  rw [key, key, ← Finset.sum_sub_distrib]
  refine Finset.sum_congr rfl fun i _ => ?_
  rw [← Finset.sum_sub_distrib]
  refine Finset.sum_congr rfl fun j _ => ?_
  ring

/-- C36: the score is proper.  When the observation is drawn from the members of `G`, the average score
of `G` is at most that of any other ensemble `F`. -/
theorem C36_proper (hp : 0 < p) {W : Fin D → Fin D → ℝ} (hW : ∀ i j, 0 ≤ W i j) (path : Path)
    (F G : List (Eu D)) (hG : G ≠ []) :
    ∃ s : List (Eu D) → Eu D → ℝ,
      (∀ xs, xs ≠ [] → ∀ y,
        vs1 path "nrg" p (some (matl W)) D (vec y) (xs.map vec) none = .ok (fin (s xs y))) ∧
      (G.map (s G)).sum / G.length ≤ (G.map (s F)).sum / G.length := by
  refine ⟨fun xs y => Spec.vs p W y (equalW xs), fun xs hx y => vs1_nrg hp W path y hx, ?_⟩
  have h := vs_mean (p := p) W (equalW G) (gtot_equalW hG) (equalW F)
  have e : ∀ L : List (Eu D × ℝ), ((equalW G).map fun q => q.2 * Spec.vs p W q.1 L).sum
      = (G.map fun y => Spec.vs p W y L).sum / G.length := by
    intro L
    unfold equalW
    rw [List.map_map, ← sum_map_div']
    apply sum_map_congr; intro y _
    simp only [Function.comp_apply]
    ring
  rw [e, e] at h
  have hn : 0 ≤ ∑ i, ∑ j, W i j * (((equalW G).map fun q => q.2 * vdiff p q.1 i j).sum
      - ((equalW F).map fun q => q.2 * vdiff p q.1 i j).sum) ^ 2 :=
    Finset.sum_nonneg fun i _ => Finset.sum_nonneg fun j _ => mul_nonneg (hW i j) (sq_nonneg _)
  have : (G.map fun y => Spec.vs p W y (equalW G)).sum / (G.length : ℝ)
      ≤ (G.map fun y => Spec.vs p W y (equalW F)).sum / G.length := by linarith
  exact this

example : (∀ i j : Fin 2, (0 : ℝ) ≤ (fun _ _ => 1 : Fin 2 → Fin 2 → ℝ) i j) ∧
    ([!₂[1, 2], 0] : List (Eu 2)) ≠ [] := by simp

/-! outcome-weighted and vertically re-scaled scores -/

/-- C36: both paths of `owvs_ensemble` return the score of the ensemble re-weighted by the weight
function, times the weight of the observation. -/
theorem C36_owvs_value (hp : 0 < p) (W : Fin D → Fin D → ℝ) (path : Path) {wFunc : List XF → XF}
    {f : Eu D → ℝ} (hf : Spec.WeightFun wFunc f) (y : Eu D) {xs : List (Eu D)}
    (h : (xs.map f).sum ≠ 0) :
    owvs1 path p (some (matl W)) D wFunc (vec y) (xs.map vec) none
      = .ok (fin (owvs p W (f y) y (xs.map fun x => (x, f x)))) := by
  have ht : gtot (xs.map fun x => (x, f x)) ≠ 0 := by rw [gtot_map]; exact h
  have e1 : (xs.map fun x => (x, f x)).map (fun p => vec p.1) = xs.map vec := by
    rw [List.map_map]; rfl
  have e2 : (xs.map fun x => (x, f x)).map (fun p => fin p.2) = xs.map fun x => fin (f x) := by
    rw [List.map_map]; rfl
  have k1 := VsGufunc.ow_fin hp W y (f y) _ ht
  have k2 := VsApprox.ow_fin hp W y (f y) _ ht
  rw [e1, e2] at k1 k2
  unfold owvs1
  rw [Option.map_none, owvsEnsemble_eq, mvO_none path wFunc (vec_length y) (vecs_length xs),
    if_neg (wf_ok hf y xs), wf_map hf, hf.val]
  cases path <;> simp [k1, k2]

/-- C36: both paths of `vrvs_ensemble` return the vertically re-scaled variogram score. -/
theorem C36_vrvs_value (hp : 0 < p) (W : Fin D → Fin D → ℝ) (path : Path) {wFunc : List XF → XF}
    {f : Eu D → ℝ} (hf : Spec.WeightFun wFunc f) (y : Eu D) {xs : List (Eu D)} (h : xs ≠ []) :
    vrvs1 path p (some (matl W)) D wFunc (vec y) (xs.map vec) none
      = .ok (fin (vrvs p W (f y) y (xs.map fun x => (x, f x / xs.length)))) := by
  have hl : (xs.map fun x => (x, f x)) ≠ [] := by simpa using h
  have e1 : (xs.map fun x => (x, f x)).map (fun p => vec p.1) = xs.map vec := by
    rw [List.map_map]; rfl
  have e2 : (xs.map fun x => (x, f x)).map (fun p => fin p.2) = xs.map fun x => fin (f x) := by
    rw [List.map_map]; rfl
  have e3 : (xs.map fun x => (x, f x)).map
      (fun p => (p.1, ((xs.map fun x => (x, f x)).length : ℝ)⁻¹ * p.2))
      = xs.map fun x => (x, f x / xs.length) := by
    rw [List.map_map]
    apply List.map_congr_left
    intro x _
    simp only [Function.comp_apply, List.length_map, Prod.mk.injEq, true_and]
    ring
  have k1 := VsGufunc.vr_fin hp W y (f y) _ hl
  have k2 := VsApprox.vr_fin hp W y (f y) _ hl
  rw [e1, e2, e3] at k1 k2
  unfold vrvs1
  rw [Option.map_none, vrvsEnsemble_eq, mvO_none path wFunc (vec_length y) (vecs_length xs),
    if_neg (wf_ok hf y xs), wf_map hf, hf.val]
  cases path <;> simp [k1, k2]

/-- C36: both paths of `owvs_ensemble` with ensemble weights. -/
theorem C36_owvs_weighted (hp : 0 < p) (W : Fin D → Fin D → ℝ) (path : Path) {wFunc : List XF → XF}
    {f : Eu D → ℝ} (hf : Spec.WeightFun wFunc f) (y : Eu D) (l : List (Eu D × ℝ))
    (hw : ∀ p ∈ l, 0 ≤ p.2) (h : (l.map fun p => f p.1 * p.2).sum ≠ 0)
    (h1 : (l.map Prod.snd).sum ≠ 0) :
    owvs1 path p (some (matl W)) D wFunc (vec y) (l.map fun p => vec p.1)
        (some (l.map fun p => fin p.2))
      = .ok (fin (owvs p W (f y) y ((Spec.normW l).map fun p => (p.1, f p.1 * p.2)))) := by
  obtain ⟨m1, m2, m3, m4⟩ := owList_maps f l
  have ht : gtot (gcomb (owList f l)) ≠ 0 := by
    rw [m4, gtot_map]
    unfold Spec.normW
    rw [List.map_map]
    have : ((fun p : Eu D × ℝ => (p.1, f p.1 * p.2).2) ∘
        fun p : Eu D × ℝ => (p.1, p.2 / (l.map Prod.snd).sum))
        = fun p => f p.1 * p.2 / (l.map Prod.snd).sum := by
      funext p; simp only [Function.comp_apply]; ring
    rw [this, sum_map_div']
    exact div_ne_zero h h1
  have k1 := VsGufuncW.ow_fin hp W y (f y) (owList f l) ht
  have k2 := VsApproxW.ow_fin hp W y (f y) (owList f l) ht
  rw [m1, m2, m3, m4] at k1 k2
  unfold owvs1
  have e1 : (l.map fun p => vec p.1) = (l.map Prod.fst).map vec := by rw [List.map_map]; rfl
  rw [Option.map_some, owvsEnsemble_eq, mvO_some path wFunc (vec_length y) (vecs_length' _ l)
    (by simp), if_neg (not_or.2 ⟨by rw [e1]; exact wf_ok hf y _, no_neg l _ hw⟩), norm_weights l h1]
  rw [e1] at k1 k2 ⊢
  rw [wf_map hf, hf.val]
  cases path <;> simp only [k1, k2]

/-- C36: both paths of `vrvs_ensemble` with ensemble weights. -/
theorem C36_vrvs_weighted (hp : 0 < p) (W : Fin D → Fin D → ℝ) (path : Path) {wFunc : List XF → XF}
    {f : Eu D → ℝ} (hf : Spec.WeightFun wFunc f) (y : Eu D) (l : List (Eu D × ℝ))
    (hw : ∀ p ∈ l, 0 ≤ p.2) (h : (l.map Prod.snd).sum ≠ 0) :
    vrvs1 path p (some (matl W)) D wFunc (vec y) (l.map fun p => vec p.1)
        (some (l.map fun p => fin p.2))
      = .ok (fin (vrvs p W (f y) y ((Spec.normW l).map fun p => (p.1, f p.1 * p.2)))) := by
  obtain ⟨m1, m2, m3, m4⟩ := owList_maps f l
  have k1 := VsGufuncW.vr_fin hp W y (f y) (owList f l)
  have k2 := VsApproxW.vr_fin hp W y (f y) (owList f l)
  rw [m1, m2, m3, m4] at k1 k2
  unfold vrvs1
  have e1 : (l.map fun p => vec p.1) = (l.map Prod.fst).map vec := by rw [List.map_map]; rfl
  rw [Option.map_some, vrvsEnsemble_eq, mvO_some path wFunc (vec_length y) (vecs_length' _ l)
    (by simp), if_neg (not_or.2 ⟨by rw [e1]; exact wf_ok hf y _, no_neg l _ hw⟩), norm_weights l h]
  rw [e1] at k1 k2 ⊢
  rw [wf_map hf, hf.val]
  cases path <;> simp only [k1, k2]

/-- `C36_owvs_value`, `C36_vrvs_value`, `C36_owvs_weighted`, `C36_vrvs_weighted` -/
example : Spec.WeightFun (D := 2) (fun _ => fin 2) (fun _ => 2) ∧
    (([!₂[1, 2], 0] : List (Eu 2)).map fun _ => (2 : ℝ)).sum ≠ 0 ∧
    (∀ q ∈ ([(!₂[1, 2], 2), (0, 0)] : List (Eu 2 × ℝ)), 0 ≤ q.2) ∧
    (([(!₂[1, 2], 2), (0, 0)] : List (Eu 2 × ℝ)).map fun p => 2 * p.2).sum ≠ 0 ∧
    (([(!₂[1, 2], 2), (0, 0)] : List (Eu 2 × ℝ)).map Prod.snd).sum ≠ 0 :=
  ⟨⟨fun _ => rfl, fun _ => by norm_num⟩, by norm_num, by simp, by simp, by simp⟩

end Verif
