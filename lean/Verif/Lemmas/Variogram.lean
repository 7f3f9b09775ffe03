import Verif.Model.Variogram
import Verif.Spec.Variogram
import Verif.Lemmas.EnergyApi

/-! Values of the variogram-score kernels on finite data. -/

noncomputable section

open scoped Classical

namespace Verif

open XF Py Mv Spec

variable {D : ℕ}

theorem fin_rpow {a p : ℝ} (ha : 0 ≤ a) (hp : 0 < p) : XF.rpow (fin a) p = fin (a ^ p) := by
  unfold XF.rpow
  rw [if_neg hp.ne']
  simp only
  rw [if_neg (not_lt.2 ha), if_neg (fun h => lt_asymm hp h.2)]

/-- a real matrix as an array -/
def matl (W : Fin D → Fin D → ℝ) : List (List XF) :=
  List.ofFn fun i => List.ofFn fun j => fin (W i j)

theorem idx_vec (v : Eu D) (i : Fin D) : idx (vec v) i = fin (v i) := by
  simp [idx, vec]

theorem mget_matl (W : Fin D → Fin D → ℝ) (i j : Fin D) : mget (matl W) i j = fin (W i j) := by
  simp [mget, vat, matl, idx]

theorem rho_vec {p : ℝ} (hp : 0 < p) (v : Eu D) (i j : Fin D) :
    rho p (vec v) i j = fin (vdiff p v i j) := by
  unfold rho
  rw [idx_vec, idx_vec, fin_sub, fin_abs, fin_rpow (abs_nonneg _) hp]
  rfl

theorem rhoT_vec {p : ℝ} (hp : 0 < p) (v : Eu D) (i j : Fin D) :
    rhoT p (vec v) i j = fin (vdiff p v i j) := by
  unfold rhoT
  rw [idx_vec, idx_vec, fin_sub, fin_abs, fin_rpow (abs_nonneg _) hp, abs_sub_comm]
  rfl

theorem range_map_fin (f : ℕ → XF) (g : Fin D → ℝ) (h : ∀ i : Fin D, f i = fin (g i)) :
    ((List.range D).map f).sum = fin (∑ i, g i) := by
  have : (List.range D).map f = (List.ofFn g).map fin := by
    apply List.ext_getElem
    · simp
    · intro i h1 h2
      have hi : i < D := by simpa using h1
      simp [h ⟨i, hi⟩]
  rw [this, sum_map_fin, List.sum_ofFn]

theorem dsum_fin (f : ℕ → ℕ → XF) (g : Fin D → Fin D → ℝ) (h : ∀ i j : Fin D, f i j = fin (g i j)) :
    dsum D f = fin (∑ i, ∑ j, g i j) := by
  unfold dsum
  exact range_map_fin _ _ fun i => range_map_fin _ _ fun j => h i j

theorem forRange_add (D : ℕ) (s : XF) (f : ℕ → XF) :
    forRange 0 D s (fun i s => s + f i) = s + ((List.range D).map f).sum := by
  unfold forRange
  rw [foldl_add_eq, Nat.sub_zero,
    show List.range' 0 D = List.range D from (List.range_eq_range').symm]

theorem forRange_add2 (D : ℕ) (s : XF) (f : ℕ → ℕ → XF) :
    forRange 0 D s (fun i s => forRange 0 D s fun j s => s + f i j) = s + dsum D f := by
  simp only [forRange_add]
  unfold dsum
  rfl

/-- weighted mean of the distances to `y` -/
def vabs (p : ℝ) (W : Fin D → Fin D → ℝ) (y : Eu D) (l : List (Eu D × ℝ)) : ℝ :=
  (l.map fun q => q.2 * vdist p W q.1 y).sum
/-- weighted sum of distances over ordered pairs -/
def vpair (p : ℝ) (W : Fin D → Fin D → ℝ) (l : List (Eu D × ℝ)) : ℝ :=
  pairsAll (fun q r => q.2 * r.2 * vdist p W q.1 r.1) l
/-- weighted squared size of a variogram -/
def vsq (p : ℝ) (W : Fin D → Fin D → ℝ) (x : Eu D) : ℝ := ∑ i, ∑ j, W i j * vdiff p x i j ^ 2

theorem vdist_comm (p : ℝ) (W : Fin D → Fin D → ℝ) (a b : Eu D) : vdist p W a b = vdist p W b a := by
  unfold vdist
  refine Finset.sum_congr rfl fun i _ => Finset.sum_congr rfl fun j _ => ?_
  ring

theorem vdist_self (p : ℝ) (W : Fin D → Fin D → ℝ) (a : Eu D) : vdist p W a a = 0 := by
  simp [vdist]

theorem sum_finset_list {α : Type} (l : List α) (f : α → Fin D → Fin D → ℝ) :
    (l.map fun a => ∑ i, ∑ j, f a i j).sum = ∑ i, ∑ j, (l.map fun a => f a i j).sum := by
  induction l with
  | nil => simp
  | cons a l ih => simp [ih, Finset.sum_add_distrib]

theorem pairsAll_finset' {α : Type} (l : List α) (f : α → α → Fin D → Fin D → ℝ) :
    pairsAll (fun a b => ∑ i, ∑ j, f a b i j) l = ∑ i, ∑ j, pairsAll (fun a b => f a b i j) l := by
  unfold pairsAll
  simp only [sum_finset_list]

/-- Kernel form of the variogram score. -/
theorem vs_kernel (p : ℝ) (W : Fin D → Fin D → ℝ) (y : Eu D) (l : List (Eu D × ℝ))
    (h : gtot l = 1) : Spec.vs p W y l = vabs p W y l - 1 / 2 * vpair p W l := by
  unfold vabs vpair vdist Spec.vs
  simp only [Finset.mul_sum]
  rw [sum_finset_list, pairsAll_finset']
  rw [Finset.mul_sum, ← Finset.sum_sub_distrib]
  refine Finset.sum_congr rfl fun i _ => ?_
  rw [Finset.mul_sum, ← Finset.sum_sub_distrib]
  refine Finset.sum_congr rfl fun j _ => ?_
  have e1 : (l.map fun q : Eu D × ℝ => q.2 * (W i j * (vdiff p q.1 i j - vdiff p y i j) ^ 2)).sum
      = W i j * ((l.map fun q => q.2 * vdiff p q.1 i j ^ 2).sum
        - 2 * vdiff p y i j * (l.map fun q => q.2 * vdiff p q.1 i j).sum
        + vdiff p y i j ^ 2) := by
    have : ∀ q : Eu D × ℝ, q.2 * (W i j * (vdiff p q.1 i j - vdiff p y i j) ^ 2)
        = W i j * (q.2 * vdiff p q.1 i j ^ 2 - (2 * vdiff p y i j) * (q.2 * vdiff p q.1 i j))
          + W i j * vdiff p y i j ^ 2 * q.2 := by intro q; ring
    simp only [this]
    rw [sum_map_add', sum_map_mul_left', sum_map_sub', sum_map_mul_left', sum_map_mul_left']
    have h1 : (l.map fun q : Eu D × ℝ => q.2).sum = 1 := h
    rw [h1]; ring
  have e2 : pairsAll (fun q r : Eu D × ℝ =>
        q.2 * r.2 * (W i j * (vdiff p q.1 i j - vdiff p r.1 i j) ^ 2)) l
      = W i j * (2 * (l.map fun q => q.2 * vdiff p q.1 i j ^ 2).sum
        - 2 * (l.map fun q => q.2 * vdiff p q.1 i j).sum ^ 2) := by
    have : (fun q r : Eu D × ℝ => q.2 * r.2 * (W i j * (vdiff p q.1 i j - vdiff p r.1 i j) ^ 2))
        = fun q r => W i j * (((q.2 * vdiff p q.1 i j ^ 2) * r.2 + q.2 * (r.2 * vdiff p r.1 i j ^ 2))
          + (-2) * ((q.2 * vdiff p q.1 i j) * (r.2 * vdiff p r.1 i j))) := by
      funext q r; ring
    rw [this, pairsAll_mul_left, pairsAll_add, pairsAll_add, pairsAll_mul_left, pairsAll_prod,
      pairsAll_prod, pairsAll_prod]
    have h1 : (l.map fun q : Eu D × ℝ => q.2).sum = 1 := h
    rw [h1]; ring
  rw [e1, e2]
  ring

theorem vabs_map {α : Type} (p : ℝ) (W : Fin D → Fin D → ℝ) (y : Eu D) (f : α → Eu D × ℝ)
    (l : List α) : vabs p W y (l.map f) = (l.map fun a => (f a).2 * vdist p W (f a).1 y).sum := by
  unfold vabs; rw [List.map_map]; rfl

theorem vpair_map {α : Type} (p : ℝ) (W : Fin D → Fin D → ℝ) (f : α → Eu D × ℝ) (l : List α) :
    vpair p W (l.map f)
      = pairsAll (fun a b => (f a).2 * (f b).2 * vdist p W (f a).1 (f b).1) l := by
  unfold vpair; rw [pairsAll_map]

theorem vabs_scale (p : ℝ) (W : Fin D → Fin D → ℝ) (c : ℝ) (y : Eu D) (l : List (Eu D × ℝ)) :
    vabs p W y (l.map fun q => (q.1, c * q.2)) = c * vabs p W y l := by
  rw [vabs_map, vabs, ← sum_map_mul_left']
  apply sum_map_congr; intro q _; ring

theorem vpair_scale (p : ℝ) (W : Fin D → Fin D → ℝ) (c : ℝ) (l : List (Eu D × ℝ)) :
    vpair p W (l.map fun q => (q.1, c * q.2)) = c ^ 2 * vpair p W l := by
  rw [vpair_map, vpair, ← pairsAll_mul_left]
  apply pairsAll_congr; intro q _ r _; ring

theorem vs_normW (p : ℝ) (W : Fin D → Fin D → ℝ) (y : Eu D) (l : List (Eu D × ℝ))
    (h : gtot l ≠ 0) : Spec.vs p W y (Spec.normW l)
      = vabs p W y l / gtot l - 1 / 2 * vpair p W l / gtot l ^ 2 := by
  rw [normW_eq, vs_kernel _ _ _ _ (by rw [gtot_scale]; exact inv_mul_cancel₀ h), vabs_scale,
    vpair_scale, inv_pow]
  ring

/-! ### kernels -/

section kernels
variable {p : ℝ} (hp : 0 < p) (W : Fin D → Fin D → ℝ)
include hp

theorem VsGufunc.nrg_fin (y : Eu D) (xs : List (Eu D)) (h : xs ≠ []) :
    VsGufunc.nrg (matl W) p (vec y) (xs.map vec) = fin (Spec.vs p W y (equalW xs)) := by
  have hM : (xs.length : ℝ) ≠ 0 := by simpa using h
  unfold VsGufunc.nrg
  simp only [vec_length, List.length_map]
  rw [forRange_add2, zero_add]
  refine dsum_fin _ _ fun i j => ?_
  have := forRange_sum xs (fun o => rho p (o.elim [] vec) i j)
  simp only [vat_map]
  rw [this]
  simp only [Option.elim, rho_vec hp, sum_map_fin', natCast_fin, fin_div hM, fin_sub, fin_pow,
    mget_matl, fin_mul, fin_inj]
  congr 3
  unfold equalW
  rw [List.map_map, ← sum_map_div']
  apply sum_map_congr; intro x _
  simp only [Function.comp_apply]
  ring

theorem VsApprox.nrg_fin (y : Eu D) (xs : List (Eu D)) (h : xs ≠ []) :
    VsApprox.nrg (matl W) p (vec y) (xs.map vec) = fin (Spec.vs p W y (equalW xs)) := by
  have hM : (xs.length : ℝ) ≠ 0 := by simpa using h
  unfold VsApprox.nrg
  simp only [vec_length, List.length_map]
  refine dsum_fin _ _ fun i j => ?_
  simp only [List.map_map, Function.comp_def, rhoT_vec hp, sum_map_fin', natCast_fin, fin_div hM,
    fin_sub, fin_pow, mget_matl, fin_mul, fin_inj]
  congr 3
  unfold equalW
  rw [List.map_map, ← sum_map_div']
  apply sum_map_congr; intro x _
  simp only [Function.comp_apply]
  ring

theorem dsum_rho (a b : Eu D) (c : ℝ) :
    (dsum D fun i j => fin c * (mget (matl W) i j * (rho p (vec a) i j - rho p (vec b) i j) ^ 2))
      = fin (c * vdist p W a b) := by
  rw [dsum_fin _ (fun i j => c * (W i j * (vdiff p a i j - vdiff p b i j) ^ 2))]
  · congr 1
    unfold vdist
    simp only [Finset.mul_sum]
  · intro i j
    simp only [rho_vec hp, mget_matl, fin_sub, fin_pow, fin_mul]

theorem dsum_sq (a : Eu D) (c : ℝ) :
    (dsum D fun i j => fin c * (mget (matl W) i j * (rho p (vec a) i j) ^ 2))
      = fin (c * vsq p W a) := by
  rw [dsum_fin _ (fun i j => c * (W i j * vdiff p a i j ^ 2))]
  · congr 1
    unfold vsq
    simp only [Finset.mul_sum]
  · intro i j
    simp only [rho_vec hp, mget_matl, fin_pow, fin_mul]

theorem VsApprox.e1_fin (y x : Eu D) :
    VsApprox.e1 (matl W) p (vec y) (vec x) = fin (vdist p W x y) := by
  unfold VsApprox.e1
  rw [vec_length]
  refine dsum_fin _ _ fun i j => ?_
  simp only [rhoT_vec hp, mget_matl, fin_sub, fin_pow, fin_mul]

theorem VsApprox.e2_fin (x x' : Eu D) :
    VsApprox.e2 (matl W) p D (vec x) (vec x') = fin (vdist p W x x') := by
  unfold VsApprox.e2
  refine dsum_fin _ _ fun i j => ?_
  simp only [rhoT_vec hp, mget_matl, fin_sub, fin_pow, fin_mul]

theorem VsApprox.sq_fin (x : Eu D) :
    (dsum D fun i j => mget (matl W) i j * rhoT p (vec x) i j ^ 2) = fin (vsq p W x) := by
  refine dsum_fin _ _ fun i j => ?_
  simp only [rhoT_vec hp, mget_matl, fin_pow, fin_mul]

end kernels

/-- the shape of all four double loops: with outcome weights `f`, ensemble weights and the factor of
the observation folded into the per-member function -/
theorem vloop {α : Type} (l : List α) (D : ℕ) (F : Option α → ℕ → ℕ → XF)
    (H : Option α → Option α → ℕ → ℕ → XF) :
    forRange 0 l.length ((0, 0) : XF × XF) (fun k e =>
      (forRange 0 D e.1 fun i e1 => forRange 0 D e1 fun j e1 =>
        e1 + F ((l.map some).getD k none) i j,
       forRange (k + 1) l.length e.2 fun m e2 => forRange 0 D e2 fun i e2 =>
        forRange 0 D e2 fun j e2 =>
          e2 + H ((l.map some).getD k none) ((l.map some).getD m none) i j))
      = ((l.map fun a => dsum D (F (some a))).sum,
         pairsUp (fun a b => dsum D (H (some a) (some b))) l) := by
  simp only [forRange_add2]
  exact forRange_pairs l (fun o => dsum D (F o)) (fun o o' => dsum D (H o o'))

theorem vloop1 {α : Type} (l : List α) (D : ℕ) (F : Option α → ℕ → ℕ → XF) :
    forRange 0 l.length (0 : XF) (fun k s => forRange 0 D s fun i s => forRange 0 D s fun j s =>
      s + F ((l.map some).getD k none) i j) = (l.map fun a => dsum D (F (some a))).sum := by
  simp only [forRange_add2]
  exact forRange_sum l fun o => dsum D (F o)

section kernels
variable {p : ℝ} (hp : 0 < p) (W : Fin D → Fin D → ℝ)
include hp

theorem VsGufunc.fair_fin (y : Eu D) (xs : List (Eu D)) (h : 2 ≤ xs.length) :
    VsGufunc.fair (matl W) p (vec y) (xs.map vec) = fin (vsFair p W y xs) := by
  have h2 : (2 : ℝ) ≤ xs.length := by exact_mod_cast h
  have a : (xs.length : ℝ) ≠ 0 := by linarith
  have b : (xs.length : ℝ) - 1 ≠ 0 := by linarith
  have := vloop xs D (fun o i j => mget (matl W) i j * (rho p (o.elim [] vec) i j
      - rho p (vec y) i j) ^ 2)
    (fun o o' i j => mget (matl W) i j * 2 * (rho p (o.elim [] vec) i j
      - rho p (o'.elim [] vec) i j) ^ 2)
  unfold VsGufunc.fair
  simp only [vec_length, List.length_map, vat_map]
  rw [this]
  simp only [Option.elim]
  have e1 : ∀ x, (dsum D fun i j => mget (matl W) i j * (rho p (vec x) i j - rho p (vec y) i j) ^ 2)
      = fin (vdist p W x y) := by
    intro x
    have := dsum_rho hp W x y 1
    simpa [← one_def] using this
  have e2 : ∀ x x', (dsum D fun i j => mget (matl W) i j * 2
      * (rho p (vec x) i j - rho p (vec x') i j) ^ 2) = fin (2 * vdist p W x x') := by
    intro x x'
    rw [← dsum_rho hp W x x' 2]
    congr 1; funext i j
    rw [two_fin, mul_comm (mget _ _ _) (fin 2), mul_assoc]
  simp only [e1, e2, sum_map_fin', pairsUp_fin]
  rw [pairsUp_double _ (vdist_comm p W) (vdist_self p W)]
  simp only [natCast_fin, half_fin, natPred_cast h, fin_mul]
  rw [fin_div a, fin_div (mul_ne_zero a b), fin_sub, fin_inj, vsFair]
  unfold pairsAll
  field_simp

theorem VsApprox.fair_fin (y : Eu D) (xs : List (Eu D)) (h : 2 ≤ xs.length) :
    VsApprox.fair (matl W) p (vec y) (xs.map vec) = fin (vsFair p W y xs) := by
  have h2 : (2 : ℝ) ≤ xs.length := by exact_mod_cast h
  have a : (xs.length : ℝ) ≠ 0 := by linarith
  have b : (xs.length : ℝ) - 1 ≠ 0 := by linarith
  unfold VsApprox.fair
  simp only [List.map_map, Function.comp_def, List.length_map, vec_length, VsApprox.e1_fin hp,
    VsApprox.e2_fin hp, sum_map_fin', natCast_fin, half_fin, natPred_cast h]
  rw [fin_div a, fin_div (mul_ne_zero a b), fin_mul, fin_sub, fin_inj, vsFair]
  field_simp

theorem VsGufunc.ow_fin (y : Eu D) (o : ℝ) (l : List (Eu D × ℝ)) (h : gtot l ≠ 0) :
    VsGufunc.ow (matl W) p (vec y) (l.map fun q => vec q.1) (fin o) (l.map fun q => fin q.2)
      = fin (owvs p W o y l) := by
  have hl : l ≠ [] := by rintro rfl; exact h rfl
  have hM : (l.length : ℝ) ≠ 0 := by simpa using hl
  have := vloop l D (fun a i j => mget (matl W) i j * (rho p (a.elim [] fun q => vec q.1) i j
      - rho p (vec y) i j) ^ 2 * (a.elim nan fun q => fin q.2) * fin o)
    (fun a b i j => 2 * mget (matl W) i j * (rho p (a.elim [] fun q => vec q.1) i j
      - rho p (b.elim [] fun q => vec q.1) i j) ^ 2 * (a.elim nan fun q => fin q.2)
        * (b.elim nan fun q => fin q.2) * fin o)
  unfold VsGufunc.ow mean
  simp only [vec_length, List.length_map, vat_map, idx_map]
  rw [this]
  simp only [Option.elim]
  have e1 : ∀ q : Eu D × ℝ, (dsum D fun i j => mget (matl W) i j
      * (rho p (vec q.1) i j - rho p (vec y) i j) ^ 2 * fin q.2 * fin o)
      = fin (o * (q.2 * vdist p W q.1 y)) := by
    intro q
    rw [← mul_assoc, ← dsum_rho hp W q.1 y (o * q.2)]
    congr 1; funext i j
    rw [mul_comm (fin (o * q.2)), mul_assoc _ (fin q.2), fin_mul, mul_comm q.2]
  have e2 : ∀ q r : Eu D × ℝ, (dsum D fun i j => 2 * mget (matl W) i j
      * (rho p (vec q.1) i j - rho p (vec r.1) i j) ^ 2 * fin q.2 * fin r.2 * fin o)
      = fin (2 * (o * (q.2 * r.2 * vdist p W q.1 r.1))) := by
    intro q r
    rw [show 2 * (o * (q.2 * r.2 * vdist p W q.1 r.1)) = 2 * (q.2 * (r.2 * o)) * vdist p W q.1 r.1
      by ring, ← dsum_rho hp W q.1 r.1]
    congr 1; funext i j
    rw [two_fin, ← fin_mul, ← fin_mul, ← fin_mul]
    simp only [mul_assoc, mul_left_comm, mul_comm]
  simp only [e1, e2, sum_map_fin', pairsUp_fin]
  rw [pairsUp_double _ (fun a b => by rw [vdist_comm]; ring) (fun a => by rw [vdist_self]; ring),
    pairsAll_mul_left, sum_map_mul_left']
  have t1 : (l.map fun q : Eu D × ℝ => q.2 * vdist p W q.1 y).sum = vabs p W y l := rfl
  have t2 : pairsAll (fun q r : Eu D × ℝ => q.2 * r.2 * vdist p W q.1 r.1) l = vpair p W l := rfl
  have t3 : (l.map fun q : Eu D × ℝ => q.2).sum = gtot l := rfl
  simp only [natCast_fin]
  rw [t1, t2, t3, fin_div hM]
  simp only [half_fin, fin_mul, fin_pow]
  have e4 : (l.length : ℝ) * (gtot l / l.length) = gtot l := by field_simp
  have e5 : ((l.length ^ 2 : ℕ) : ℝ) * (gtot l / l.length) ^ 2 = gtot l ^ 2 := by
    push_cast; field_simp
  rw [e4, e5, fin_div h, fin_div (pow_ne_zero 2 h), fin_sub, fin_inj, owvs, vs_normW _ _ _ _ h]
  ring

theorem VsApprox.ow_fin (y : Eu D) (o : ℝ) (l : List (Eu D × ℝ)) (h : gtot l ≠ 0) :
    VsApprox.ow (matl W) p (vec y) (l.map fun q => vec q.1) (fin o) (l.map fun q => fin q.2)
      = fin (owvs p W o y l) := by
  have hl : l ≠ [] := by rintro rfl; exact h rfl
  have hM : (l.length : ℝ) ≠ 0 := by simpa using hl
  unfold VsApprox.ow mean
  rw [List.map_map, zip_vw]
  simp only [Function.comp_def, VsApprox.e1_fin hp]
  rw [zip2_map]
  simp only [List.map_map, Function.comp_def, vec_length, VsApprox.e2_fin hp, fin_mul, sum_map_fin',
    natCast_fin, List.length_map]
  have e1 : (l.map fun q : Eu D × ℝ => vdist p W q.1 y * q.2 * o).sum = o * vabs p W y l := by
    unfold vabs; rw [← sum_map_mul_left']; apply sum_map_congr; intro q _; ring
  have e2 : (l.map fun a : Eu D × ℝ => (l.map fun b : Eu D × ℝ =>
      vdist p W a.1 b.1 * (b.2 * a.2 * o)).sum).sum = o * vpair p W l := by
    unfold vpair; rw [← pairsAll_mul_left]
    apply sum_map_congr; intro p _; apply sum_map_congr; intro q _; ring
  have e3 : (l.map fun p : Eu D × ℝ => p.2).sum = gtot l := rfl
  have hMM : ((l.length * l.length : ℕ) : ℝ) ≠ 0 := by push_cast; positivity
  have hw : gtot l / l.length ≠ 0 := div_ne_zero h hM
  rw [e1, e2, e3, fin_div hM, fin_div hM, fin_div hw, fin_div hMM]
  simp only [half_fin, fin_pow]
  rw [fin_div (pow_ne_zero 2 hw), fin_mul, fin_sub, fin_inj, owvs, vs_normW _ _ _ _ h]
  push_cast
  field_simp

omit hp in
theorem vvr_aux {l : List (Eu D × ℝ)} (hM : (l.length : ℝ) ≠ 0) (y : Eu D) (o : ℝ) :
    vrvs p W o y (l.map fun q => (q.1, (l.length : ℝ)⁻¹ * q.2))
      = o * vabs p W y l / l.length - 1 / 2 * vpair p W l / (l.length : ℝ) ^ 2
        + ((l.map fun q => q.2 * vsq p W q.1).sum / l.length - vsq p W y * o)
          * (gtot l / l.length - o) := by
  have e1 := vabs_scale p W (l.length : ℝ)⁻¹ y l
  have e2 := vpair_scale p W (l.length : ℝ)⁻¹ l
  have e3 := gtot_scale (l.length : ℝ)⁻¹ l
  have e4 : ((l.map fun q : Eu D × ℝ => (q.1, (l.length : ℝ)⁻¹ * q.2)).map
      fun q : Eu D × ℝ => q.2 * vsq p W q.1).sum
      = (l.length : ℝ)⁻¹ * (l.map fun q => q.2 * vsq p W q.1).sum := by
    rw [List.map_map, ← sum_map_mul_left']
    apply sum_map_congr; intro q _; simp only [Function.comp_apply]; ring
  unfold vrvs
  unfold vabs at e1
  unfold vpair pairsAll at e2
  unfold gtot at e3
  unfold vsq at e4
  rw [e1, e2, e3, e4]
  unfold vabs vpair gtot vsq pairsAll
  field_simp

theorem VsGufunc.vr_fin (y : Eu D) (o : ℝ) (l : List (Eu D × ℝ)) (hl : l ≠ []) :
    VsGufunc.vr (matl W) p (vec y) (l.map fun q => vec q.1) (fin o) (l.map fun q => fin q.2)
      = fin (vrvs p W o y (l.map fun q => (q.1, (l.length : ℝ)⁻¹ * q.2))) := by
  have hM : (l.length : ℝ) ≠ 0 := by simpa using hl
  have := vloop l D (fun a i j => mget (matl W) i j * (rho p (a.elim [] fun q => vec q.1) i j
      - rho p (vec y) i j) ^ 2 * (a.elim nan fun q => fin q.2) * fin o)
    (fun a b i j => 2 * mget (matl W) i j * (rho p (a.elim [] fun q => vec q.1) i j
      - rho p (b.elim [] fun q => vec q.1) i j) ^ 2 * (a.elim nan fun q => fin q.2)
        * (b.elim nan fun q => fin q.2))
  have h3 := vloop1 l D (fun a i j => mget (matl W) i j
      * (rho p (a.elim [] fun q => vec q.1) i j) ^ 2 * (a.elim nan fun q => fin q.2))
  unfold VsGufunc.vr mean
  simp only [vec_length, List.length_map, vat_map, idx_map]
  rw [this, h3, forRange_add2, zero_add]
  simp only [Option.elim]
  have e1 : ∀ q : Eu D × ℝ, (dsum D fun i j => mget (matl W) i j
      * (rho p (vec q.1) i j - rho p (vec y) i j) ^ 2 * fin q.2 * fin o)
      = fin (o * (q.2 * vdist p W q.1 y)) := by
    intro q
    rw [← mul_assoc, ← dsum_rho hp W q.1 y (o * q.2)]
    congr 1; funext i j
    rw [mul_comm (fin (o * q.2)), mul_assoc _ (fin q.2), fin_mul, mul_comm q.2]
  have e2 : ∀ q r : Eu D × ℝ, (dsum D fun i j => 2 * mget (matl W) i j
      * (rho p (vec q.1) i j - rho p (vec r.1) i j) ^ 2 * fin q.2 * fin r.2)
      = fin (2 * (q.2 * r.2 * vdist p W q.1 r.1)) := by
    intro q r
    rw [show 2 * (q.2 * r.2 * vdist p W q.1 r.1) = 2 * (q.2 * r.2) * vdist p W q.1 r.1
      by ring, ← dsum_rho hp W q.1 r.1]
    congr 1; funext i j
    rw [two_fin, ← fin_mul, ← fin_mul]
    simp only [mul_assoc, mul_left_comm, mul_comm]
  have e3 : ∀ q : Eu D × ℝ, (dsum D fun i j => mget (matl W) i j
      * (rho p (vec q.1) i j) ^ 2 * fin q.2) = fin (q.2 * vsq p W q.1) := by
    intro q
    rw [← dsum_sq hp W q.1 q.2]
    congr 1; funext i j
    rw [mul_comm (fin q.2)]
  have e4 : (dsum D fun i j => mget (matl W) i j * (rho p (vec y) i j) ^ 2 * fin o)
      = fin (o * vsq p W y) := by
    rw [← dsum_sq hp W y o]
    congr 1; funext i j
    rw [mul_comm (fin o)]
  simp only [e1, e2, e3, e4, sum_map_fin', pairsUp_fin]
  rw [pairsUp_double _ (fun a b => by rw [vdist_comm]; ring) (fun a => by rw [vdist_self]; ring),
    sum_map_mul_left']
  have t1 : (l.map fun q : Eu D × ℝ => q.2 * vdist p W q.1 y).sum = vabs p W y l := rfl
  have t2 : pairsAll (fun q r : Eu D × ℝ => q.2 * r.2 * vdist p W q.1 r.1) l = vpair p W l := rfl
  have t3 : (l.map fun q : Eu D × ℝ => q.2).sum = gtot l := rfl
  simp only [natCast_fin, one_fin]
  rw [t1, t2, t3, fin_div hM, fin_div hM, fin_div hM]
  simp only [half_fin, fin_mul]
  rw [fin_div (by push_cast; positivity)]
  simp only [fin_mul, fin_sub, fin_add, fin_inj]
  rw [vvr_aux W hM]
  push_cast
  ring

theorem VsApprox.vr_fin (y : Eu D) (o : ℝ) (l : List (Eu D × ℝ)) (hl : l ≠ []) :
    VsApprox.vr (matl W) p (vec y) (l.map fun q => vec q.1) (fin o) (l.map fun q => fin q.2)
      = fin (vrvs p W o y (l.map fun q => (q.1, (l.length : ℝ)⁻¹ * q.2))) := by
  have hM : (l.length : ℝ) ≠ 0 := by simpa using hl
  unfold VsApprox.vr mean
  rw [List.map_map, List.map_map, zip_vw]
  simp only [Function.comp_def, VsApprox.e1_fin hp, vec_length, VsApprox.sq_fin hp]
  rw [zip2_map, zip2_map]
  simp only [List.map_map, Function.comp_def, VsApprox.e2_fin hp, fin_mul, sum_map_fin',
    natCast_fin, List.length_map]
  have e1 : (l.map fun q : Eu D × ℝ => vdist p W q.1 y * q.2 * o).sum = o * vabs p W y l := by
    unfold vabs; rw [← sum_map_mul_left']; apply sum_map_congr; intro q _; ring
  have e2 : (l.map fun a : Eu D × ℝ => (l.map fun b : Eu D × ℝ =>
      vdist p W a.1 b.1 * (b.2 * a.2)).sum).sum = vpair p W l := by
    apply sum_map_congr; intro p _; apply sum_map_congr; intro q _; ring
  have e3 : (l.map fun p : Eu D × ℝ => p.2).sum = gtot l := rfl
  have e4 : (l.map fun q : Eu D × ℝ => vsq p W q.1 * q.2).sum
      = (l.map fun q : Eu D × ℝ => q.2 * vsq p W q.1).sum := by
    apply sum_map_congr; intro q _; ring
  rw [e1, e2, e3, e4, fin_div hM, fin_div hM, fin_div hM, fin_div (by push_cast; positivity)]
  simp only [half_fin, fin_mul, fin_sub, fin_add, fin_inj]
  rw [vvr_aux W hM]
  push_cast
  ring

/-! ### ensemble weights -/

theorem VsGufuncW.nrg_fin (y : Eu D) (l : List (Eu D × ℝ)) :
    VsGufuncW.nrg (matl W) p (vec y) (l.map fun q => vec q.1) (l.map fun q => fin q.2)
      = fin (Spec.vs p W y l) := by
  unfold VsGufuncW.nrg
  simp only [vec_length, List.length_map]
  rw [forRange_add2, zero_add]
  refine dsum_fin _ _ fun i j => ?_
  have := forRange_sum l (fun o => (o.elim nan fun q => fin q.2)
    * rho p (o.elim [] fun q => vec q.1) i j)
  simp only [vat_map, idx_map]
  rw [this]
  simp only [Option.elim, rho_vec hp, fin_mul, sum_map_fin', fin_sub, fin_pow, mget_matl]

theorem VsApproxW.nrg_fin (y : Eu D) (l : List (Eu D × ℝ)) :
    VsApproxW.nrg (matl W) p (vec y) (l.map fun q => vec q.1) (l.map fun q => fin q.2)
      = fin (Spec.vs p W y l) := by
  unfold VsApproxW.nrg
  simp only [vec_length]
  refine dsum_fin _ _ fun i j => ?_
  rw [List.map_map, Function.comp_def, zip2_map]
  simp only [rhoT_vec hp, fin_mul, sum_map_fin', fin_sub, fin_pow, mget_matl, fin_inj]
  congr 4
  apply List.map_congr_left; intro q _; ring

theorem VsApproxW.fair_eq (y : Eu D) (l : List (Eu D × ℝ)) :
    VsApproxW.fair (matl W) p (vec y) (l.map fun q => vec q.1) (l.map fun q => fin q.2)
      = fin (vabs p W y l)
        - half * fin (vpair p W l) / (1 - fin (l.map fun q => q.2 * q.2).sum) := by
  unfold VsApproxW.fair
  rw [sq_sum, List.map_map, zip_vw]
  simp only [Function.comp_def, VsApprox.e1_fin hp, vec_length]
  rw [zip2_map]
  simp only [List.map_map, Function.comp_def, VsApprox.e2_fin hp, fin_mul, sum_map_fin']
  have e1 : (l.map fun q : Eu D × ℝ => vdist p W q.1 y * q.2).sum = vabs p W y l := by
    unfold vabs; apply sum_map_congr; intro q _; ring
  have e2 : (l.map fun a : Eu D × ℝ => (l.map fun b : Eu D × ℝ =>
      vdist p W a.1 b.1 * b.2 * a.2).sum).sum = vpair p W l := by
    apply sum_map_congr; intro p _; apply sum_map_congr; intro q _; ring
  rw [e1, e2]

theorem VsGufuncW.fair_eq (y : Eu D) (l : List (Eu D × ℝ)) :
    VsGufuncW.fair (matl W) p (vec y) (l.map fun q => vec q.1) (l.map fun q => fin q.2)
      = VsApproxW.fair (matl W) p (vec y) (l.map fun q => vec q.1) (l.map fun q => fin q.2) := by
  rw [VsApproxW.fair_eq hp]
  have := vloop l D (fun a i j => mget (matl W) i j * (rho p (a.elim [] fun q => vec q.1) i j
      - rho p (vec y) i j) ^ 2 * (a.elim nan fun q => fin q.2))
    (fun a b i j => mget (matl W) i j * (2 * (rho p (a.elim [] fun q => vec q.1) i j
      - rho p (b.elim [] fun q => vec q.1) i j) ^ 2 * (a.elim nan fun q => fin q.2)
        * (b.elim nan fun q => fin q.2)))
  unfold VsGufuncW.fair
  simp only [vec_length, List.length_map, vat_map, idx_map]
  rw [this]
  simp only [Option.elim]
  have e1 : ∀ q : Eu D × ℝ, (dsum D fun i j => mget (matl W) i j
      * (rho p (vec q.1) i j - rho p (vec y) i j) ^ 2 * fin q.2)
      = fin (q.2 * vdist p W q.1 y) := by
    intro q
    rw [← dsum_rho hp W q.1 y q.2]
    congr 1; funext i j
    rw [mul_comm (fin q.2)]
  have e2 : ∀ q r : Eu D × ℝ, (dsum D fun i j => mget (matl W) i j
      * (2 * (rho p (vec q.1) i j - rho p (vec r.1) i j) ^ 2 * fin q.2 * fin r.2))
      = fin (2 * (q.2 * r.2 * vdist p W q.1 r.1)) := by
    intro q r
    rw [show 2 * (q.2 * r.2 * vdist p W q.1 r.1) = 2 * (q.2 * r.2) * vdist p W q.1 r.1
      by ring, ← dsum_rho hp W q.1 r.1]
    congr 1; funext i j
    rw [two_fin, ← fin_mul, ← fin_mul]
    simp only [mul_assoc, mul_left_comm, mul_comm]
  simp only [e1, e2, sum_map_fin', pairsUp_fin]
  rw [pairsUp_double _ (fun a b => by rw [vdist_comm]; ring) (fun a => by rw [vdist_self]; ring)]
  simp only [List.map_map, Function.comp_def, pow_two, fin_mul, sum_map_fin']
  rfl

theorem VsGufuncW.ow_fin (y : Eu D) (o : ℝ) (l : List (Eu D × ℝ × ℝ)) (h : gtot (gcomb l) ≠ 0) :
    VsGufuncW.ow (matl W) p (vec y) (l.map fun q => vec q.1) (fin o) (l.map fun q => fin q.2.1)
        (l.map fun q => fin q.2.2) = fin (owvs p W o y (gcomb l)) := by
  have := vloop l D (fun a i j => mget (matl W) i j * (rho p (a.elim [] fun q => vec q.1) i j
      - rho p (vec y) i j) ^ 2 * (a.elim nan fun q => fin q.2.1) * fin o
      * (a.elim nan fun q => fin q.2.2))
    (fun a b i j => mget (matl W) i j * (2 * (rho p (a.elim [] fun q => vec q.1) i j
      - rho p (b.elim [] fun q => vec q.1) i j) ^ 2 * (a.elim nan fun q => fin q.2.1)
        * (b.elim nan fun q => fin q.2.1) * fin o * (a.elim nan fun q => fin q.2.2)
        * (b.elim nan fun q => fin q.2.2)))
  unfold VsGufuncW.ow
  simp only [vec_length, List.length_map, vat_map, idx_map]
  rw [this, zip2_map]
  simp only [Option.elim]
  have e1 : ∀ q : Eu D × ℝ × ℝ, (dsum D fun i j => mget (matl W) i j
      * (rho p (vec q.1) i j - rho p (vec y) i j) ^ 2 * fin q.2.1 * fin o * fin q.2.2)
      = fin (o * (q.2.1 * q.2.2 * vdist p W q.1 y)) := by
    intro q
    rw [show o * (q.2.1 * q.2.2 * vdist p W q.1 y) = q.2.1 * (o * q.2.2) * vdist p W q.1 y by ring,
      ← dsum_rho hp W q.1 y]
    congr 1; funext i j
    rw [← fin_mul, ← fin_mul]
    simp only [mul_assoc, mul_left_comm, mul_comm]
  have e2 : ∀ q r : Eu D × ℝ × ℝ, (dsum D fun i j => mget (matl W) i j
      * (2 * (rho p (vec q.1) i j - rho p (vec r.1) i j) ^ 2 * fin q.2.1 * fin r.2.1 * fin o
        * fin q.2.2 * fin r.2.2))
      = fin (2 * (o * (q.2.1 * q.2.2 * (r.2.1 * r.2.2) * vdist p W q.1 r.1))) := by
    intro q r
    rw [show 2 * (o * (q.2.1 * q.2.2 * (r.2.1 * r.2.2) * vdist p W q.1 r.1))
      = 2 * (q.2.1 * (r.2.1 * (o * (q.2.2 * r.2.2)))) * vdist p W q.1 r.1
      by ring, ← dsum_rho hp W q.1 r.1]
    congr 1; funext i j
    rw [two_fin, ← fin_mul, ← fin_mul, ← fin_mul, ← fin_mul, ← fin_mul]
    simp only [mul_assoc, mul_left_comm, mul_comm]
  simp only [e1, e2, fin_mul, sum_map_fin', pairsUp_fin]
  rw [pairsUp_double _ (fun a b => by rw [vdist_comm]; ring) (fun a => by rw [vdist_self]; ring),
    pairsAll_mul_left, sum_map_mul_left']
  have t1 : (l.map fun q : Eu D × ℝ × ℝ => q.2.1 * q.2.2 * vdist p W q.1 y).sum
      = vabs p W y (gcomb l) := by unfold gcomb; rw [vabs_map]
  have t2 : pairsAll (fun q r : Eu D × ℝ × ℝ => q.2.1 * q.2.2 * (r.2.1 * r.2.2) * vdist p W q.1 r.1) l
      = vpair p W (gcomb l) := by unfold gcomb; rw [vpair_map]
  have t3 : (l.map fun q : Eu D × ℝ × ℝ => q.2.1 * q.2.2).sum = gtot (gcomb l) := by
    unfold gcomb; rw [gtot_map]
  rw [t1, t2, t3]
  simp only [half_fin, fin_mul, fin_pow]
  rw [fin_div h, fin_div (pow_ne_zero 2 h), fin_sub, fin_inj, owvs, vs_normW _ _ _ _ h]
  ring

theorem VsApproxW.ow_fin (y : Eu D) (o : ℝ) (l : List (Eu D × ℝ × ℝ)) (h : gtot (gcomb l) ≠ 0) :
    VsApproxW.ow (matl W) p (vec y) (l.map fun q => vec q.1) (fin o) (l.map fun q => fin q.2.1)
        (l.map fun q => fin q.2.2) = fin (owvs p W o y (gcomb l)) := by
  unfold VsApproxW.ow
  rw [List.map_map, zip_vww]
  simp only [Function.comp_def, VsApprox.e1_fin hp, vec_length]
  rw [zip2_map, zip2_map, zip2_map]
  simp only [List.map_map, Function.comp_def, VsApprox.e2_fin hp, fin_mul, sum_map_fin', half_fin,
    fin_pow]
  have e1 : (l.map fun q : Eu D × ℝ × ℝ => vdist p W q.1 y * q.2.1 * o * q.2.2).sum
      = o * vabs p W y (gcomb l) := by
    unfold gcomb
    rw [vabs_map, ← sum_map_mul_left']; apply sum_map_congr; intro q _; ring
  have e2 : (l.map fun a : Eu D × ℝ × ℝ => (l.map fun b : Eu D × ℝ × ℝ =>
      vdist p W a.1 b.1 * (b.2.1 * a.2.1 * o * (b.2.2 * a.2.2))).sum).sum
      = o * vpair p W (gcomb l) := by
    unfold gcomb
    rw [vpair_map, ← pairsAll_mul_left]
    apply sum_map_congr; intro p _; apply sum_map_congr; intro q _; ring
  have e3 : (l.map fun p : Eu D × ℝ × ℝ => p.2.1 * p.2.2).sum = gtot (gcomb l) := by
    unfold gcomb; rw [gtot_map]
  rw [e1, e2, e3, fin_div h, fin_div (pow_ne_zero 2 h), fin_mul, fin_sub, fin_inj, owvs,
    vs_normW _ _ _ _ h]
  ring

omit hp in
theorem vrvs_eq (o : ℝ) (y : Eu D) (l : List (Eu D × ℝ)) :
    vrvs p W o y l = o * vabs p W y l - 1 / 2 * vpair p W l
      + ((l.map fun q => q.2 * vsq p W q.1).sum - vsq p W y * o) * (gtot l - o) := rfl

theorem VsGufuncW.vr_fin (y : Eu D) (o : ℝ) (l : List (Eu D × ℝ × ℝ)) :
    VsGufuncW.vr (matl W) p (vec y) (l.map fun q => vec q.1) (fin o) (l.map fun q => fin q.2.1)
        (l.map fun q => fin q.2.2) = fin (vrvs p W o y (gcomb l)) := by
  have := vloop l D (fun a i j => mget (matl W) i j * (rho p (a.elim [] fun q => vec q.1) i j
      - rho p (vec y) i j) ^ 2 * (a.elim nan fun q => fin q.2.1) * fin o
      * (a.elim nan fun q => fin q.2.2))
    (fun a b i j => mget (matl W) i j * (2 * (rho p (a.elim [] fun q => vec q.1) i j
      - rho p (b.elim [] fun q => vec q.1) i j) ^ 2 * (a.elim nan fun q => fin q.2.1)
        * (b.elim nan fun q => fin q.2.1) * (a.elim nan fun q => fin q.2.2)
        * (b.elim nan fun q => fin q.2.2)))
  have h3 := vloop1 l D (fun a i j => mget (matl W) i j
      * (rho p (a.elim [] fun q => vec q.1) i j) ^ 2 * (a.elim nan fun q => fin q.2.1)
      * (a.elim nan fun q => fin q.2.2))
  unfold VsGufuncW.vr
  simp only [vec_length, List.length_map, vat_map, idx_map]
  rw [this, h3, zip2_map, forRange_add2, zero_add]
  simp only [Option.elim]
  have e1 : ∀ q : Eu D × ℝ × ℝ, (dsum D fun i j => mget (matl W) i j
      * (rho p (vec q.1) i j - rho p (vec y) i j) ^ 2 * fin q.2.1 * fin o * fin q.2.2)
      = fin (o * (q.2.1 * q.2.2 * vdist p W q.1 y)) := by
    intro q
    rw [show o * (q.2.1 * q.2.2 * vdist p W q.1 y) = q.2.1 * (o * q.2.2) * vdist p W q.1 y by ring,
      ← dsum_rho hp W q.1 y]
    congr 1; funext i j
    rw [← fin_mul, ← fin_mul]
    simp only [mul_assoc, mul_left_comm, mul_comm]
  have e2 : ∀ q r : Eu D × ℝ × ℝ, (dsum D fun i j => mget (matl W) i j
      * (2 * (rho p (vec q.1) i j - rho p (vec r.1) i j) ^ 2 * fin q.2.1 * fin r.2.1
        * fin q.2.2 * fin r.2.2))
      = fin (2 * (q.2.1 * q.2.2 * (r.2.1 * r.2.2) * vdist p W q.1 r.1)) := by
    intro q r
    rw [show 2 * (q.2.1 * q.2.2 * (r.2.1 * r.2.2) * vdist p W q.1 r.1)
      = 2 * (q.2.1 * (r.2.1 * (q.2.2 * r.2.2))) * vdist p W q.1 r.1
      by ring, ← dsum_rho hp W q.1 r.1]
    congr 1; funext i j
    rw [two_fin, ← fin_mul, ← fin_mul, ← fin_mul, ← fin_mul]
    simp only [mul_assoc, mul_left_comm, mul_comm]
  have e3 : ∀ q : Eu D × ℝ × ℝ, (dsum D fun i j => mget (matl W) i j
      * (rho p (vec q.1) i j) ^ 2 * fin q.2.1 * fin q.2.2)
      = fin (q.2.1 * q.2.2 * vsq p W q.1) := by
    intro q
    rw [← dsum_sq hp W q.1]
    congr 1; funext i j
    rw [mul_comm (fin _), mul_assoc _ (fin q.2.1), fin_mul]
  have e4 : (dsum D fun i j => mget (matl W) i j * (rho p (vec y) i j) ^ 2 * fin o)
      = fin (o * vsq p W y) := by
    rw [← dsum_sq hp W y o]
    congr 1; funext i j
    rw [mul_comm (fin o)]
  simp only [e1, e2, e3, e4, fin_mul, sum_map_fin', pairsUp_fin]
  rw [pairsUp_double _ (fun a b => by rw [vdist_comm]; ring) (fun a => by rw [vdist_self]; ring),
    sum_map_mul_left']
  have t1 : (l.map fun q : Eu D × ℝ × ℝ => q.2.1 * q.2.2 * vdist p W q.1 y).sum
      = vabs p W y (gcomb l) := by unfold gcomb; rw [vabs_map]
  have t2 : pairsAll (fun q r : Eu D × ℝ × ℝ => q.2.1 * q.2.2 * (r.2.1 * r.2.2) * vdist p W q.1 r.1) l
      = vpair p W (gcomb l) := by unfold gcomb; rw [vpair_map]
  have t3 : (l.map fun q : Eu D × ℝ × ℝ => q.2.1 * q.2.2).sum = gtot (gcomb l) := by
    unfold gcomb; rw [gtot_map]
  have t4 : (l.map fun q : Eu D × ℝ × ℝ => q.2.1 * q.2.2 * vsq p W q.1).sum
      = ((gcomb l).map fun q => q.2 * vsq p W q.1).sum := by
    unfold gcomb; rw [List.map_map]; rfl
  rw [t1, t2, t3, t4]
  simp only [half_fin, fin_mul, fin_sub, fin_add, fin_inj]
  rw [vrvs_eq]
  ring

theorem VsApproxW.vr_fin (y : Eu D) (o : ℝ) (l : List (Eu D × ℝ × ℝ)) :
    VsApproxW.vr (matl W) p (vec y) (l.map fun q => vec q.1) (fin o) (l.map fun q => fin q.2.1)
        (l.map fun q => fin q.2.2) = fin (vrvs p W o y (gcomb l)) := by
  unfold VsApproxW.vr
  rw [List.map_map, List.map_map, zip_vww]
  simp only [Function.comp_def, VsApprox.e1_fin hp, vec_length, VsApprox.sq_fin hp]
  rw [zip2_map, zip2_map, zip2_map, zip2_map, zip2_map]
  simp only [List.map_map, Function.comp_def, VsApprox.e2_fin hp, fin_mul, sum_map_fin', half_fin]
  have e1 : (l.map fun q : Eu D × ℝ × ℝ => vdist p W q.1 y * q.2.1 * o * q.2.2).sum
      = o * vabs p W y (gcomb l) := by
    unfold gcomb
    rw [vabs_map, ← sum_map_mul_left']; apply sum_map_congr; intro q _; ring
  have e2 : (l.map fun a : Eu D × ℝ × ℝ => (l.map fun b : Eu D × ℝ × ℝ =>
      vdist p W a.1 b.1 * (b.2.1 * a.2.1) * (b.2.2 * a.2.2)).sum).sum
      = vpair p W (gcomb l) := by
    unfold gcomb
    rw [vpair_map]
    apply sum_map_congr; intro p _; apply sum_map_congr; intro q _; ring
  have e3 : (l.map fun p : Eu D × ℝ × ℝ => p.2.1 * p.2.2).sum = gtot (gcomb l) := by
    unfold gcomb; rw [gtot_map]
  have e4 : (l.map fun q : Eu D × ℝ × ℝ => vsq p W q.1 * q.2.1 * q.2.2).sum
      = ((gcomb l).map fun q => q.2 * vsq p W q.1).sum := by
    unfold gcomb; rw [List.map_map]; apply sum_map_congr; intro q _
    simp only [Function.comp_apply]; ring
  rw [e1, e2, e3, e4]
  simp only [fin_mul, fin_sub, fin_add, fin_inj]
  rw [vrvs_eq]

end kernels
end Verif
