import Verif.Lemmas.Pairs
import Verif.Props.Quantile
import Verif.Props.Variogram

/-!
# Symmetries and bounds of the kernel, variogram, quantile and interval scores (C136)
-/

noncomputable section

open scoped Classical

namespace Verif

open XF Py Api Spec Mv

variable {D M : ℕ}

/-- a kernel score with weights `B` for the pairs of members -/
def kform {E : Type} (K : E → E → ℝ) (B : Fin M → Fin M → ℝ) (y : E) (x : Fin M → E) : ℝ :=
  1 / 2 * (∑ i, ∑ j, B i j * K (x i) (x j)) + 1 / 2 * K y y - (∑ i, K (x i) y) * (1 / M)

/-- weights of pairs: nonnegative, adding up to one -/
def PairW (B : Fin M → Fin M → ℝ) : Prop := (∀ i j, 0 ≤ B i j) ∧ ∑ i, ∑ j, B i j = 1

theorem pairW_eq (hM : M ≠ 0) : PairW (fun _ _ : Fin M => 1 / (M:ℝ) ^ 2) := by
  have hM0 : (M:ℝ) ≠ 0 := by exact_mod_cast hM
  refine ⟨fun _ _ => by positivity, ?_⟩
  simp only [Finset.sum_const, Finset.card_univ, Fintype.card_fin, nsmul_eq_mul]
  field_simp

theorem kform_eq {E : Type} (K : E → E → ℝ) (y : E) (x : Fin M → E) :
    ks K y (eqW (List.ofFn x)) = kform K (fun _ _ => 1 / (M:ℝ) ^ 2) y x := by
  rw [ks_ofFn]
  unfold kform
  simp only [← Finset.mul_sum]
  ring

theorem pairW_fair (hM : 2 ≤ M) : PairW (fun i j : Fin M => if i = j then 0 else 1 / ((M:ℝ) * (M - 1))) := by
  have hM0 : (M:ℝ) ≠ 0 := by positivity
  have h2 : (2:ℝ) ≤ M := by exact_mod_cast hM
  have hM1 : (M:ℝ) - 1 ≠ 0 := by linarith
  have hM2 : 0 ≤ (M:ℝ) - 1 := by linarith
  refine ⟨fun i j => by dsimp only; split_ifs <;> positivity, ?_⟩
  have e : ∀ i j : Fin M, (if i = j then (0:ℝ) else 1 / ((M:ℝ) * (M - 1)))
      = 1 / ((M:ℝ) * (M - 1)) - if i = j then 1 / ((M:ℝ) * (M - 1)) else 0 := fun i j => by split_ifs <;> ring
  simp only [e, Finset.sum_sub_distrib, Finset.sum_ite_eq, Finset.mem_univ, if_true, Finset.sum_const, Finset.card_univ,
    Fintype.card_fin, nsmul_eq_mul]
  field_simp

theorem kform_fair {E : Type} (K : E → E → ℝ) (hM : 2 ≤ M) (y : E) (x : Fin M → E) :
    ksFair K y (List.ofFn x) = kform K (fun i j => if i = j then 0 else 1 / ((M:ℝ) * (M - 1))) y x := by
  have hM0 : (M:ℝ) ≠ 0 := by positivity
  have h2 : (2:ℝ) ≤ M := by exact_mod_cast hM
  have hM1 : (M:ℝ) - 1 ≠ 0 := by linarith
  rw [ksFair_ofFn]
  unfold kform
  have e : ∀ i j : Fin M, (if i = j then (0:ℝ) else 1 / ((M:ℝ) * (M - 1))) * K (x i) (x j)
      = 1 / ((M:ℝ) * (M - 1)) * K (x i) (x j) - if i = j then 1 / ((M:ℝ) * (M - 1)) * K (x i) (x j) else 0 := fun i j => by
    split_ifs <;> ring
  simp only [e, Finset.sum_sub_distrib, Finset.sum_ite_eq, Finset.mem_univ, if_true, ← Finset.mul_sum]
  field_simp

theorem pairW_circ (hM : M ≠ 0) (g : Fin M → Fin M) : PairW (fun i j : Fin M => if j = g i then 1 / (M:ℝ) else 0) := by
  have hM0 : (M:ℝ) ≠ 0 := by exact_mod_cast hM
  refine ⟨fun i j => by dsimp only; split_ifs <;> positivity, ?_⟩
  simp [hM0]

theorem kform_circ {E : Type} (K : E → E → ℝ) (hM : M ≠ 0) (g : Fin M → Fin M) (y : E) (x : Fin M → E) :
    ksCirc K g y x = kform K (fun i j => if j = g i then 1 / (M:ℝ) else 0) y x := by
  have hM0 : (M:ℝ) ≠ 0 := by exact_mod_cast hM
  unfold kform ksCirc
  simp only [ite_mul, zero_mul, Finset.sum_ite_eq', Finset.mem_univ, if_true, ← Finset.mul_sum]
  field_simp

/-- every estimator of `gksuv_ensemble` -/
theorem gksuv_form (path : Path) {est : String} (he : est ∈ Spec.gksEstimators) (hM : M ≠ 0) (h2 : est = "fair" → 2 ≤ M) :
    ∃ B : Fin M → Fin M → ℝ, PairW B ∧ ∀ (y : ℝ) (x : Fin M → ℝ),
      gksuv1 path est (fin y) ((List.ofFn x).map fin) none = .ok (fin (kform gauss1 B y x)) := by
  have hx : ∀ x : Fin M → ℝ, List.ofFn x ≠ [] := fun x => by simpa using hM
  simp only [Spec.gksEstimators, List.mem_cons, List.not_mem_nil, or_false] at he
  rcases he with rfl | rfl | rfl | rfl
  · exact ⟨_, pairW_eq hM, fun y x => by rw [← kform_eq, C37_gksuv_value path y (hx x)]⟩
  · exact ⟨_, pairW_fair (h2 rfl), fun y x => by
      rw [← kform_fair _ (h2 rfl), C37_gksuv_fair path y (by simpa using h2 rfl)]⟩
  · refine ⟨_, pairW_circ hM prevF, fun y x => ?_⟩
    rw [← kform_circ _ hM, gksuv1_none]
    cases path
    · simp [-List.map_ofFn, gksuvKernel, Except.map, nanGuard, notnan, KsGufunc.akr_value uv_emb nan hM y x]
    · simp [-List.map_ofFn, gksuvKernel, Except.map, ← KsGufunc.akr_eq uv_symm, KsGufunc.akr_value uv_emb nan hM y x]
  · refine ⟨_, pairW_circ hM sigmaF, fun y x => ?_⟩
    rw [← kform_circ _ hM, gksuv1_none]
    cases path
    · simp [-List.map_ofFn, gksuvKernel, Except.map, nanGuard, notnan, KsGufunc.akrCircperm_value uv_emb nan hM y x]
    · simp [-List.map_ofFn, gksuvKernel, Except.map, ← KsGufunc.akrCircperm_eq uv_symm,
        KsGufunc.akrCircperm_value uv_emb nan hM y x]

/-- every estimator of `gksmv_ensemble`, with the same weights in every dimension -/
theorem gksmv_form (path : Path) {est : String} (he : est ∈ Spec.gksEstimators) (hM : M ≠ 0) (h2 : est = "fair" → 2 ≤ M) :
    ∃ B : Fin M → Fin M → ℝ, PairW B ∧ ∀ (D : ℕ) (y : Eu D) (x : Fin M → Eu D),
      gksmv1 path est D (vec y) ((List.ofFn x).map vec) none = .ok (fin (kform gaussD B y x)) := by
  have hx : ∀ (D : ℕ) (x : Fin M → Eu D), List.ofFn x ≠ [] := fun D x => by simpa using hM
  simp only [Spec.gksEstimators, List.mem_cons, List.not_mem_nil, or_false] at he
  rcases he with rfl | rfl | rfl | rfl
  · exact ⟨_, pairW_eq hM, fun D y x => by rw [← kform_eq, C37_gksmv_value path y (hx D x)]⟩
  · exact ⟨_, pairW_fair (h2 rfl), fun D y x => by
      rw [← kform_fair _ (h2 rfl), C37_gksmv_fair path y (by simpa using h2 rfl)]⟩
  · refine ⟨_, pairW_circ hM prevF, fun D y x => ?_⟩
    rw [← kform_circ _ hM, gksmv1_none _ _ (vec_length y) (vecs_length _)]
    cases path
    · simp [-List.map_ofFn, gksmvKernel, Except.map, KsGufunc.akr_value mv_emb [] hM y x]
    · simp [-List.map_ofFn, gksmvKernel, Except.map, ← KsGufunc.akr_eq mv_symm, KsGufunc.akr_value mv_emb [] hM y x]
  · refine ⟨_, pairW_circ hM sigmaF, fun D y x => ?_⟩
    rw [← kform_circ _ hM, gksmv1_none _ _ (vec_length y) (vecs_length _)]
    cases path
    · simp [-List.map_ofFn, gksmvKernel, Except.map, KsGufunc.akrCircperm_value mv_emb [] hM y x]
    · simp [-List.map_ofFn, gksmvKernel, Except.map, ← KsGufunc.akrCircperm_eq mv_symm,
        KsGufunc.akrCircperm_value mv_emb [] hM y x]

theorem kform_iso {E E' : Type} {K : E → E → ℝ} {K' : E' → E' → ℝ} {T : E → E'} (h : ∀ a b, K' (T a) (T b) = K a b)
    (B : Fin M → Fin M → ℝ) (y : E) (x : Fin M → E) : kform K' B (T y) (fun i => T (x i)) = kform K B y x := by
  simp only [kform, h]

theorem kform_bounds {E : Type} {K : E → E → ℝ} (h0 : ∀ a b, 0 < K a b) (h1 : ∀ a b, K a b ≤ 1) (hd : ∀ a, K a a = 1)
    {B : Fin M → Fin M → ℝ} (hB : PairW B) (hM : M ≠ 0) (y : E) (x : Fin M → E) :
    -(1 / 2) < kform K B y x ∧ kform K B y x < 1 := by
  have hM0 : (0:ℝ) < M := by exact_mod_cast Nat.pos_of_ne_zero hM
  have ne : (Finset.univ : Finset (Fin M)).Nonempty := ⟨⟨0, Nat.pos_of_ne_zero hM⟩, Finset.mem_univ _⟩
  have p2 : ∑ i, ∑ j, B i j * K (x i) (x j) ≤ 1 := by
    rw [← hB.2]
    exact Finset.sum_le_sum fun i _ => Finset.sum_le_sum fun j _ => mul_le_of_le_one_right (hB.1 i j) (h1 _ _)
  have p1 : 0 < ∑ i, ∑ j, B i j * K (x i) (x j) := by
    have n : ∀ i j, 0 ≤ B i j * K (x i) (x j) := fun i j => mul_nonneg (hB.1 i j) (h0 _ _).le
    refine lt_of_le_of_ne (Finset.sum_nonneg fun i _ => Finset.sum_nonneg fun j _ => n i j) fun h => ?_
    have z : ∀ i j, B i j = 0 := fun i j => by
      have := (Finset.sum_eq_zero_iff_of_nonneg fun i _ => Finset.sum_nonneg fun j _ => n i j).1 h.symm i (Finset.mem_univ _)
      have := (Finset.sum_eq_zero_iff_of_nonneg fun j _ => n i j).1 this j (Finset.mem_univ _)
      exact (mul_eq_zero.1 this).resolve_right (h0 _ _).ne'
    have := hB.2
    simp [z] at this
  have q1 : 0 < (∑ i, K (x i) y) * (1 / M) := mul_pos (Finset.sum_pos (fun i _ => h0 _ _) ne) (by positivity)
  have q2 : (∑ i, K (x i) y) * (1 / M) ≤ 1 := by
    rw [mul_one_div, div_le_one hM0]
    calc _ ≤ ∑ _i : Fin M, (1:ℝ) := Finset.sum_le_sum fun i _ => h1 _ _
      _ = M := by simp
  unfold kform
  rw [hd]
  constructor <;> linarith

theorem gauss1_bounds (a b : ℝ) : 0 < gauss1 a b ∧ gauss1 a b ≤ 1 :=
  ⟨Real.exp_pos _, Real.exp_le_one_iff.2 (by nlinarith [sq_nonneg (a - b)])⟩

theorem gaussD_bounds (a b : Eu D) : 0 < gaussD a b ∧ gaussD a b ≤ 1 :=
  ⟨Real.exp_pos _, Real.exp_le_one_iff.2 (by nlinarith [sq_nonneg (dist a b)])⟩

/-- C136: moving or reflecting all data on the line leaves every estimator of the Gaussian kernel score unchanged. -/
theorem C136_gksuv (path : Path) {est : String} (he : est ∈ Spec.gksEstimators) (hM : M ≠ 0) (h2 : est = "fair" → 2 ≤ M)
    (c y : ℝ) (x : Fin M → ℝ) :
    ∃ s : ℝ, gksuv1 path est (fin y) ((List.ofFn x).map fin) none = .ok (fin s) ∧
      gksuv1 path est (fin (y + c)) ((List.ofFn fun i => x i + c).map fin) none = .ok (fin s) ∧
      gksuv1 path est (fin (-y)) ((List.ofFn fun i => -x i).map fin) none = .ok (fin s) ∧ -(1 / 2) < s ∧ s < 1 := by
  obtain ⟨B, hB, h⟩ := gksuv_form path he hM h2
  refine ⟨_, h y x, ?_, ?_, kform_bounds (fun a b => (gauss1_bounds a b).1) (fun a b => (gauss1_bounds a b).2)
    (fun a => by simp [gauss1]) hB hM y x⟩
  · rw [h, kform_iso (K := gauss1) (K' := gauss1) (T := fun a => a + c) fun a b => by simp [gauss1]]
  · rw [h, kform_iso (K := gauss1) (K' := gauss1) (T := fun a => -a) fun a b => by unfold gauss1; ring_nf]

/-- three members -/
example : "akr" ∈ Spec.gksEstimators ∧ 3 ≠ 0 := by simp [Spec.gksEstimators]

/-- C136: isometries (translations, rotations, reflections, exchanging variables, embeddings in a larger space) leave every
estimator of the multivariate Gaussian kernel score unchanged. -/
theorem C136_gksmv {D' : ℕ} (path : Path) {est : String} (he : est ∈ Spec.gksEstimators) (hM : M ≠ 0)
    (h2 : est = "fair" → 2 ≤ M) {T : Eu D → Eu D'} (hT : Isometry T) (y : Eu D) (x : Fin M → Eu D) :
    ∃ s : ℝ, gksmv1 path est D (vec y) ((List.ofFn x).map vec) none = .ok (fin s) ∧
      gksmv1 path est D' (vec (T y)) ((List.ofFn fun i => T (x i)).map vec) none = .ok (fin s) ∧ -(1 / 2) < s ∧ s < 1 := by
  obtain ⟨B, hB, h⟩ := gksmv_form path he hM h2
  refine ⟨_, h D y x, ?_, kform_bounds (fun a b => (gaussD_bounds a b).1) (fun a b => (gaussD_bounds a b).2)
    (fun a => by simp [gaussD]) hB hM y x⟩
  rw [h, kform_iso (K := gaussD) (K' := gaussD) fun a b => by unfold gaussD; rw [hT.dist_eq]]

/-- a translation -/
example : "fair" ∈ Spec.gksEstimators ∧ 2 ≠ 0 ∧ 2 ≤ 2 ∧ Isometry fun v : Eu 2 => v + !₂[1, 2] :=
  ⟨by simp [Spec.gksEstimators], two_ne_zero, le_rfl, isometry_add_right _⟩

/-- Without ensemble weights the estimator `nrg` is at least 0 (C37), but the fair estimator can be negative: two members
on either side of the observation. -/
theorem C136_fair_negative (path : Path) :
    ∃ s : ℝ, gksuv1 path "fair" (fin 0) [fin (-1), fin 1] none = .ok (fin s) ∧ s < 0 := by
  have h := C37_gksuv_fair path 0 (xs := [-1, 1]) (by simp)
  refine ⟨_, h, ?_⟩
  have e : ksFair gauss1 0 [-1, 1] = 1 / 2 * Real.exp (-2) + 1 / 2 - Real.exp (-(1 / 2)) := by
    simp [ksFair, gauss1]
    norm_num
    ring_nf
  rw [e]
  have h1 : Real.exp (-2) = Real.exp (-(1 / 2)) ^ 4 := by rw [← Real.exp_nat_mul]; norm_num
  have h2 : (3 / 4 : ℝ) < Real.exp (-(1 / 4)) := by
    have := Real.add_one_lt_exp (x := -(1 / 4)) (by norm_num)
    linarith
  have h2' : Real.exp (-(1 / 2)) = Real.exp (-(1 / 4)) ^ 2 := by rw [← Real.exp_nat_mul]; norm_num
  have h3 : Real.exp (-(1 / 2)) < 1 := Real.exp_lt_one_iff.2 (by norm_num)
  have h4 : (9 / 16 : ℝ) < Real.exp (-(1 / 2)) := by rw [h2']; nlinarith
  rw [h1]
  generalize Real.exp (-(1 / 2)) = t at h3 h4
  have h5 : (9 / 16 : ℝ) ^ 2 < t ^ 2 := pow_lt_pow_left₀ h4 (by norm_num) two_ne_zero
  have h6 : (9 / 16 : ℝ) ^ 3 < t ^ 3 := pow_lt_pow_left₀ h4 (by norm_num) three_ne_zero
  have h7 : 0 < (1 - t) * (t ^ 3 + t ^ 2 + t - 1) := mul_pos (by linarith) (by norm_num at h5 h6; linarith)
  nlinarith

/-- the two members are those of the theorem -/
example : 2 ≤ ([-1, 1] : List ℝ).length := by simp

/-- exchanging the variables of a point -/
def permV (σ : Equiv.Perm (Fin D)) (v : Eu D) : Eu D := WithLp.toLp 2 fun i => v (σ i)

theorem vs_permV (p : ℝ) (W : Fin D → Fin D → ℝ) (σ : Equiv.Perm (Fin D)) (y : Eu D) (l : List (Eu D × ℝ)) :
    Spec.vs p (fun i j => W (σ i) (σ j)) (permV σ y) (l.map fun q => (permV σ q.1, q.2)) = Spec.vs p W y l := by
  unfold Spec.vs
  simp only [List.map_map, Function.comp_def]
  have e : ∀ (v : Eu D) i j, vdiff p (permV σ v) i j = vdiff p v (σ i) (σ j) := fun v i j => rfl
  simp only [e]
  rw [← Equiv.sum_comp σ fun i => ∑ j, W i j * (vdiff p y i j - (l.map fun q => q.2 * vdiff p q.1 i j).sum) ^ 2]
  exact Finset.sum_congr rfl fun i _ => Equiv.sum_comp σ fun j =>
    W (σ i) j * (vdiff p y (σ i) j - (l.map fun q => q.2 * vdiff p q.1 (σ i) j).sum) ^ 2

theorem vdist_permV (p : ℝ) (W : Fin D → Fin D → ℝ) (σ : Equiv.Perm (Fin D)) (a b : Eu D) :
    vdist p (fun i j => W (σ i) (σ j)) (permV σ a) (permV σ b) = vdist p W a b := by
  unfold vdist
  have e : ∀ (v : Eu D) i j, vdiff p (permV σ v) i j = vdiff p v (σ i) (σ j) := fun v i j => rfl
  simp only [e]
  rw [← Equiv.sum_comp σ fun i => ∑ j, W i j * (vdiff p a i j - vdiff p b i j) ^ 2]
  exact Finset.sum_congr rfl fun i _ => Equiv.sum_comp σ fun j => W (σ i) j * (vdiff p a (σ i) j - vdiff p b (σ i) j) ^ 2

/-- C136: exchanging the variables, and the pair weights with them, leaves the variogram score unchanged. -/
theorem C136_vs {p : ℝ} (hp : 0 < p) (W : Fin D → Fin D → ℝ) (path : Path) {est : String} (he : est ∈ Spec.vsEstimators)
    (σ : Equiv.Perm (Fin D)) (y : Eu D) {xs : List (Eu D)} (h : xs ≠ []) (h2 : est = "fair" → 2 ≤ xs.length) :
    vs1 path est p (some (matl fun i j => W (σ i) (σ j))) D (vec (permV σ y)) ((xs.map (permV σ)).map vec) none
      = vs1 path est p (some (matl W)) D (vec y) (xs.map vec) none := by
  simp only [Spec.vsEstimators, List.mem_cons, List.not_mem_nil, or_false] at he
  rcases he with rfl | rfl
  · rw [vs1_nrg hp _ path _ (by simpa using h), vs1_nrg hp _ path _ h, ← vs_permV p W σ]
    simp [equalW, Function.comp_def]
  · rw [vs1_fair hp _ path _ (by simpa using h2 rfl), vs1_fair hp _ path _ (h2 rfl)]
    simp only [vsFair, List.map_map, Function.comp_def, vdist_permV, List.length_map]

/-- the first two of three variables are exchanged -/
example : (0:ℝ) < 1 / 2 ∧ "fair" ∈ Spec.vsEstimators ∧ Equiv.swap (0 : Fin 3) 1 ≠ 1 ∧ 2 ≤ [(0 : Eu 3), !₂[1, 2, 3]].length := by
  refine ⟨by norm_num, by simp [Spec.vsEstimators], fun h => ?_, by simp⟩
  have := congrArg (fun σ : Equiv.Perm (Fin 3) => σ 0) h
  simp at this

/-- C136 for the variogram score with ensemble weights. -/
theorem C136_vs_weighted {p : ℝ} (hp : 0 < p) (W : Fin D → Fin D → ℝ) (path : Path)
    (σ : Equiv.Perm (Fin D)) (y : Eu D) (l : List (Eu D × ℝ)) (hw : ∀ q ∈ l, 0 ≤ q.2) (h : (l.map Prod.snd).sum ≠ 0) :
    vs1 path "nrg" p (some (matl fun i j => W (σ i) (σ j))) D (vec (permV σ y)) (l.map fun q => vec (permV σ q.1))
        (some (l.map fun q => fin q.2))
      = vs1 path "nrg" p (some (matl W)) D (vec y) (l.map fun q => vec q.1) (some (l.map fun q => fin q.2)) := by
  have k := vs1_nrg_weighted hp (fun i j => W (σ i) (σ j)) path (permV σ y) (l.map fun q => (permV σ q.1, q.2))
    (fun q hq => by obtain ⟨r, hr, rfl⟩ := List.mem_map.1 hq; exact hw r hr) (by simpa [Function.comp_def] using h)
  simp only [List.map_map, Function.comp_def] at k
  rw [k, vs1_nrg_weighted hp W path y l hw h, ← vs_permV p W σ]
  simp [Spec.normW, Function.comp_def]

/-- a member of weight 0 is allowed -/
example : (∀ q ∈ [((0 : Eu 2), (1:ℝ)), (!₂[1, 2], 0)], 0 ≤ q.2) ∧
    ([((0 : Eu 2), (1:ℝ)), (!₂[1, 2], 0)].map Prod.snd).sum ≠ 0 := by
  constructor
  · intro q hq; simp at hq; rcases hq with rfl | rfl <;> simp
  · simp

/-! ### quantile and interval scores -/

theorem pinball_reflect (α q y : ℝ) : pinball (1 - α) (-q) (-y) = pinball α q y := by
  unfold pinball
  rw [max_comm]
  congr 1 <;> ring

theorem pinball_affine {a : ℝ} (ha : 0 ≤ a) (b α q y : ℝ) : pinball α (a * q + b) (a * y + b) = a * pinball α q y := by
  unfold pinball
  rw [mul_max_of_nonneg _ _ ha]
  congr 1 <;> ring

/-- C136: `quantile_score` of the mirrored data at the mirrored level is the same, and an increasing affine map multiplies
it by its slope. -/
theorem C136_quantile {obs fct alpha : Arr ℝ} {s : List ℕ} (hs : Arr.bcast [obs.shape, fct.shape, alpha.shape] = some s)
    (ha : ∀ i, Arr.Valid alpha.shape i → 0 ≤ alpha.get i ∧ alpha.get i ≤ 1) {a : ℝ} (h0 : 0 ≤ a) (b : ℝ) :
    ∃ out out' out'', Quantile.score (obs.map fin) (fct.map fin) (alpha.map fin) = .ok out ∧
      Quantile.score (obs.map fun y => fin (-y)) (fct.map fun q => fin (-q)) (alpha.map fun t => fin (1 - t)) = .ok out' ∧
      Quantile.score (obs.map fun y => fin (a * y + b)) (fct.map fun q => fin (a * q + b)) (alpha.map fin) = .ok out'' ∧
      out.shape = s ∧ out'.shape = s ∧ out''.shape = s ∧
      ∀ i, out'.get i = out.get i ∧ out''.get i = fin a * out.get i := by
  obtain ⟨o1, a1, b1, c1⟩ := C26_quantile_score_value hs ha
  obtain ⟨o2, a2, b2, c2⟩ := C26_quantile_score_value (obs := obs.map fun y => -y) (fct := fct.map fun y => -y)
    (alpha := alpha.map fun t => 1 - t) hs fun i hi => by
      have := ha i hi; constructor <;> simp only [Arr.map] <;> linarith
  obtain ⟨o3, a3, b3, c3⟩ := C26_quantile_score_value (obs := obs.map fun y => a * y + b)
    (fct := fct.map fun y => a * y + b) (alpha := alpha) hs ha
  refine ⟨o1, o2, o3, a1, a2, a3, b1, b2, b3, fun i => ⟨?_, ?_⟩⟩
  · rw [c1, c2]
    exact congrArg fin (pinball_reflect _ _ _)
  · rw [c1, c3, fin_mul]
    exact congrArg fin (pinball_affine h0 b _ _ _)

/-- one observation, two levels, from degrees Celsius to Fahrenheit -/
example : Arr.bcast [([] : List ℕ), [2], [2]] = some [2] ∧ (0:ℝ) ≤ 9 / 5 := by
  refine ⟨by simp [Arr.bcast, Arr.bshape, Arr.bshapeR], by norm_num⟩

/-- C136: the same for one case of `interval_score`; the mirrored interval has its ends exchanged. -/
theorem C136_interval (y l u : ℝ) {α : ℝ} (h : 0 < α) {a : ℝ} (h0 : 0 ≤ a) (b : ℝ) :
    ∃ r : ℝ, Interval.score1 (fin y) (fin l) (fin u) (fin α) = fin r ∧
      Interval.score1 (fin (-y)) (fin (-u)) (fin (-l)) (fin α) = fin r ∧
      Interval.score1 (fin (a * y + b)) (fin (a * l + b)) (fin (a * u + b)) (fin α) = fin (a * r) := by
  refine ⟨_, Interval.score1_fin y l u h.ne', ?_, ?_⟩
  · rw [Interval.score1_fin _ _ _ h.ne', intervalScore_eq h.ne', intervalScore_eq h.ne', ← pinball_reflect (α / 2) l,
      ← pinball_reflect (1 - α / 2) u, sub_sub_cancel, add_comm]
  · rw [Interval.score1_fin _ _ _ h.ne', intervalScore_eq h.ne', intervalScore_eq h.ne', pinball_affine h0,
      pinball_affine h0]
    ring_nf

/-- a 90% interval -/
example : (0:ℝ) < 1 / 10 ∧ (0:ℝ) ≤ 2 := by norm_num

/-- C115: on the numba path `weighted_interval_score` with its default weights is `crps_quantile` of the median and the
ends of the intervals, at the levels these stand for.  (On the array path the median enters wrongly, C28.) -/
theorem C115_weighted_interval (path : Path) {obs median lower upper F : Arr ℝ} {alpha : List ℝ} {s : List ℕ}
    (ho : obs.shape = s) (hl : lower.shape = s ++ [alpha.length]) (hu : upper.shape = s ++ [alpha.length])
    (hF : F.shape = s ++ [2 * alpha.length + 1])
    (hm : ∀ i, Arr.Valid s i → F.get (i ++ [0]) = median.get i)
    (hlo : ∀ i, Arr.Valid s i → ∀ j < alpha.length, F.get (i ++ [1 + j]) = lower.get (i ++ [j]))
    (hup : ∀ i, Arr.Valid s i → ∀ j < alpha.length, F.get (i ++ [1 + alpha.length + j]) = upper.get (i ++ [j]))
    (ha : ∀ a ∈ alpha, 0 < a ∧ a < 2) :
    ∃ out, crpsQuantile path (obs.map fin) (F.map fin)
        ((1 / 2 :: (alpha.map (fun a => a / 2) ++ alpha.map fun a => 1 - a / 2)).map fin) (-1) = .ok out ∧
      out.Same (Interval.wis true (obs.map fin) (median.map fin) (lower.map fin) (upper.map fin) (alpha.map fin) none none) := by
  set q := (1 / 2 : ℝ) :: (alpha.map (fun a => a / 2) ++ alpha.map fun a => 1 - a / 2) with hq
  have hql : q.length = 2 * alpha.length + 1 := by simp [hq]; omega
  obtain ⟨out, h1, h2, h3⟩ := C26_crps_quantile_value (obs := obs) (fct := F) (alpha := q) (m := -1) (k := s.length)
    ⟨by simp [Arr.ndim, hF], Or.inr (by simp [Arr.ndim, hF])⟩ (by rw [ho, hF, List.eraseIdx_append_of_length_le le_rfl]; simp) (by rw [hF, hql]; simp) (by simp [hq]) (by
      intro b hb
      simp only [hq, List.mem_cons, List.mem_append, List.mem_map] at hb
      rcases hb with rfl | ⟨p, hp, rfl⟩ | ⟨p, hp, rfl⟩
      · norm_num
      · have := ha p hp; constructor <;> linarith
      · have := ha p hp; constructor <;> linarith) path
  refine ⟨out, h1, h2, fun i hi => ?_⟩
  rw [h2, ho] at hi
  have hil : i.length = s.length := hi.length_eq
  obtain ⟨L, hL⟩ : ∃ L, L = (List.range alpha.length).map fun j => (lower.get (i ++ [j]), upper.get (i ++ [j]), alpha.getD j 0) :=
    ⟨_, rfl⟩
  have hA : alpha = L.map fun p => p.2.2 := by
    refine List.ext_getElem (by simp [hL]) fun j h1 h2 => ?_
    simp [hL, List.getElem?_eq_getElem h1]
  have er : ∀ b : Arr ℝ, b.shape = s ++ [alpha.length] → (b.map fin).row i
      = ((List.range alpha.length).map fun j => b.get (i ++ [j])).map fin := fun b hb => by
    simp [Arr.row, Arr.map, hb]
  have k := (C28_default_weights (obs.get i) (median.get i) L fun p hp => by
    rw [hL] at hp
    obtain ⟨j, hj, rfl⟩ := List.mem_map.1 hp
    have hj := List.mem_range.1 hj
    have := ha _ (List.getElem_mem hj)
    simp only [List.getD_eq_getElem?_getD, List.getElem?_eq_getElem hj, Option.getD_some]
    exact ⟨this.1, this.2.le⟩).1
  have e0 : (Interval.wis true (obs.map fin) (median.map fin) (lower.map fin) (upper.map fin) (alpha.map fin) none none).get i
      = Interval.wisGufunc (fin (obs.get i)) (fin (median.get i)) (L.map fun p => fin p.1) (L.map fun p => fin p.2.1)
      (L.map fun p => fin p.2.2) half ((L.map fun p => fin p.2.2).map fun a => a / 2) := by
    have e1 : (L.map fun p => fin p.1) = (lower.map fin).row i := by rw [er lower hl]; simp [hL]
    have e2 : (L.map fun p => fin p.2.1) = (upper.map fin).row i := by rw [er upper hu]; simp [hL]
    have e3 : (L.map fun p => fin p.2.2) = alpha.map fin := by
      conv_rhs => rw [hA, List.map_map]
      rfl
    rw [e1, e2, e3]
    rfl
  rw [e0, k, h3]
  congr 1
  have hS : F.sliceAt s.length i = median.get i :: (L.map (fun p => p.1) ++ L.map fun p => p.2.1) := by
    unfold Arr.sliceAt
    have hins : ∀ j, i.insertIdx s.length j = i ++ [j] := fun j => by rw [← hil, List.insertIdx_length_self]
    simp only [hins, hF]
    rw [show (s ++ [2 * alpha.length + 1]).getD s.length 0 = 1 + (alpha.length + alpha.length) by simp; omega,
      List.range_add, List.range_add]
    simp only [List.map_append, List.map_map, Function.comp_def, hL, List.range_one, List.map_cons, List.map_nil,
      List.singleton_append, hm i hi]
    congr 1
    congr 1
    · exact List.map_congr_left fun j hj => hlo i hi j (List.mem_range.1 hj)
    · exact List.map_congr_left fun j hj => by rw [← add_assoc]; exact hup i hi j (List.mem_range.1 hj)
  have hq' : q = 1 / 2 :: (L.map (fun p => p.2.2 / 2) ++ L.map fun p => 1 - p.2.2 / 2) := by
    rw [hq]; conv_lhs => rw [hA, List.map_map, List.map_map]
    rfl
  rw [hS, hq', List.zip_cons_cons, List.zip_append (by simp), List.map_cons, List.map_append, List.sum_cons,
    List.sum_append, List.zip_map', List.zip_map', List.map_map, List.map_map]
  simp only [Function.comp_def, List.length_cons, List.length_append, List.length_map]
  have e5 : (L.map fun p => 2 * Spec.pinball (p.2.2 / 2) p.1 (obs.get i) + 2 * Spec.pinball (1 - p.2.2 / 2) p.2.1 (obs.get i)).sum
      = 2 * ((L.map fun p => Spec.pinball (p.2.2 / 2) p.1 (obs.get i)).sum
        + (L.map fun p => Spec.pinball (1 - p.2.2 / 2) p.2.1 (obs.get i)).sum) := by
    rw [← List.sum_map_add, ← List.sum_map_mul_left]
    simp only [mul_add]
  rw [e5]
  push_cast
  rw [show (L.length : ℝ) + L.length + 1 = 2 * L.length + 1 by ring]
  ring

/-- three cases with two intervals each -/
example : ∃ (median lower upper F : Arr ℝ) (alpha : List ℝ), lower.shape = [3] ++ [alpha.length] ∧
    upper.shape = [3] ++ [alpha.length] ∧ F.shape = [3] ++ [2 * alpha.length + 1] ∧
    (∀ i, Arr.Valid [3] i → F.get (i ++ [0]) = median.get i) ∧
    (∀ i, Arr.Valid [3] i → ∀ j < alpha.length, F.get (i ++ [1 + j]) = lower.get (i ++ [j])) ∧
    (∀ i, Arr.Valid [3] i → ∀ j < alpha.length, F.get (i ++ [1 + alpha.length + j]) = upper.get (i ++ [j])) ∧
    ∀ a ∈ alpha, 0 < a ∧ a < 2 := by
  refine ⟨⟨[3], fun _ => 0⟩, ⟨[3, 2], fun i => -1 - i.getLastD 0⟩, ⟨[3, 2], fun i => 1 + i.getLastD 0⟩,
    ⟨[3, 5], fun i => [0, -1, -2, 1, 2].getD (i.getLastD 0) 0⟩, [1 / 2, 1 / 10], rfl, rfl, rfl,
    fun i _ => by simp, fun i _ j hj => ?_, fun i _ j hj => ?_, ?_⟩
  · simp only [List.length_cons, List.length_nil] at hj
    interval_cases j <;> simp <;> norm_num
  · simp only [List.length_cons, List.length_nil] at hj ⊢
    interval_cases j <;> simp <;> norm_num
  · intro p hp; simp at hp; rcases hp with rfl | rfl <;> norm_num

end Verif
