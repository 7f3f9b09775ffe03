import Verif.Lemmas.Variogram
import Verif.Model.Kernel
import Verif.Spec.Kernel

/-! Values of the kernel scores on finite inputs, for an arbitrary kernel. -/

noncomputable section

open scoped Classical

namespace Verif

open XF Py Mv Spec

variable {α β : Type}

/-- On embedded points the model kernel `k` computes the real kernel `K`, which is symmetric. -/
structure Emb (k : α → α → XF) (emb : β → α) (K : β → β → ℝ) : Prop where
  val : ∀ a b, k (emb a) (emb b) = fin (K a b)
  symm : ∀ a b, K a b = K b a

theorem getD_emb (l : List β) (f : β → α) (d : α) (i : ℕ) :
    (l.map f).getD i d = ((l.map some).getD i none).elim d f := by
  by_cases h : i < l.length
  · simp [h]
  · simp [h]

theorem forRange_full (l : List β) (F : Option β → XF) (H : Option β → Option β → XF) :
    forRange 0 l.length ((0, 0) : XF × XF) (fun i e =>
      (e.1 + F ((l.map some).getD i none),
       forRange 0 l.length e.2 fun j e2 =>
        e2 + H ((l.map some).getD i none) ((l.map some).getD j none)))
      = ((l.map fun a => F (some a)).sum, pairsAll (fun a b => H (some a) (some b)) l) := by
  simp only [forRange_add]
  rw [forRange_two l.length (fun i => F ((l.map some).getD i none)) (fun i =>
    ((List.range l.length).map fun j =>
      H ((l.map some).getD i none) ((l.map some).getD j none)).sum)]
  have h1 := map_range_getD (l.map some) none F
  have h2 : ∀ o, ((List.range l.length).map fun j => H o ((l.map some).getD j none))
      = l.map fun b => H o (some b) := by
    intro o
    have := map_range_getD (l.map some) none (H o)
    rw [List.length_map, List.map_map] at this
    exact this
  have h3 := map_range_getD (l.map some) none (fun o => (l.map fun b => H o (some b)).sum)
  rw [List.length_map, List.map_map] at h1 h3
  simp only [h2]
  unfold pairsAll
  rw [h1, h3]
  rfl

/-- weighted mean of the kernel at `y` -/
def kabs (K : β → β → ℝ) (y : β) (l : List (β × ℝ)) : ℝ := (l.map fun p => p.2 * K p.1 y).sum
/-- weighted sum of the kernel over ordered pairs -/
def kpair (K : β → β → ℝ) (l : List (β × ℝ)) : ℝ := pairsAll (fun p q => p.2 * q.2 * K p.1 q.1) l
/-- weighted sum over pairs of a member with itself -/
def kdiag (K : β → β → ℝ) (l : List (β × ℝ)) : ℝ := (l.map fun p => p.2 * p.2 * K p.1 p.1).sum
/-- total weight -/
def ktot (l : List (β × ℝ)) : ℝ := (l.map Prod.snd).sum

theorem ks_eq (K : β → β → ℝ) (y : β) (l : List (β × ℝ)) :
    ks K y l = 1 / 2 * kpair K l + 1 / 2 * K y y - kabs K y l := rfl

theorem vrks_eq (K : β → β → ℝ) (o : ℝ) (y : β) (l : List (β × ℝ)) :
    vrks K o y l = 1 / 2 * kpair K l + 1 / 2 * (o * o * K y y) - o * kabs K y l := rfl

theorem ksFairW_eq (K : β → β → ℝ) (y : β) (l : List (β × ℝ)) :
    ksFairW K y l = (kpair K l - kdiag K l) / (2 * (1 - (l.map fun p => p.2 * p.2).sum))
      + 1 / 2 * K y y - kabs K y l := rfl

theorem kabs_scale (K : β → β → ℝ) (c : ℝ) (y : β) (l : List (β × ℝ)) :
    kabs K y (l.map fun p => (p.1, c * p.2)) = c * kabs K y l := by
  unfold kabs
  rw [List.map_map, ← sum_map_mul_left']
  apply sum_map_congr; intro p _; simp only [Function.comp_apply]; ring

theorem kpair_scale (K : β → β → ℝ) (c : ℝ) (l : List (β × ℝ)) :
    kpair K (l.map fun p => (p.1, c * p.2)) = c ^ 2 * kpair K l := by
  unfold kpair
  rw [pairsAll_map, ← pairsAll_mul_left]
  apply pairsAll_congr; intro a _ b _; ring

theorem nrmW_eq (l : List (β × ℝ)) : nrmW l = l.map fun p => (p.1, (ktot l)⁻¹ * p.2) := by
  unfold nrmW ktot
  apply List.map_congr_left; intro p _
  simp only [Prod.mk.injEq, true_and]
  rw [div_eq_mul_inv, mul_comm]

theorem eqW_eq (xs : List β) :
    eqW xs = (xs.map fun x => (x, (1 : ℝ))).map fun p => (p.1, (xs.length : ℝ)⁻¹ * p.2) := by
  unfold eqW
  rw [List.map_map]
  apply List.map_congr_left; intro p _
  simp

theorem kabs_eqW (K : β → β → ℝ) (y : β) (xs : List β) :
    kabs K y (eqW xs) = (xs.map fun x => K x y).sum / xs.length := by
  rw [eqW_eq, kabs_scale]
  unfold kabs
  rw [List.map_map]
  simp only [Function.comp_def, one_mul]
  rw [div_eq_inv_mul]

theorem kpair_eqW (K : β → β → ℝ) (xs : List β) :
    kpair K (eqW xs) = pairsAll K xs / (xs.length : ℝ) ^ 2 := by
  rw [eqW_eq, kpair_scale]
  unfold kpair
  rw [pairsAll_map]
  simp only [one_mul]
  rw [div_eq_inv_mul, inv_pow]

theorem kdiag_eqW (K : β → β → ℝ) (xs : List β) :
    kdiag K (eqW xs) = (xs.map fun x => K x x).sum / (xs.length : ℝ) ^ 2 := by
  unfold kdiag eqW
  rw [List.map_map, ← sum_map_div']
  apply sum_map_congr; intro x _
  simp only [Function.comp_apply]
  ring

section values
variable {k : α → α → XF} {emb : β → α} {K : β → β → ℝ} (E : Emb k emb K) (d : α)
include E

/-! unweighted -/

theorem KsGufunc.nrg_fin (y : β) {xs : List β} (h : xs ≠ []) :
    KsGufunc.nrg k d (emb y) (xs.map emb) = fin (ks K y (eqW xs)) := by
  have hM : (xs.length : ℝ) ≠ 0 := by simpa using h
  unfold KsGufunc.nrg
  rw [List.length_map]
  simp only [getD_emb xs emb d]
  rw [forRange_full xs (fun o => k (o.elim d emb) (emb y))
    (fun o o' => k (o.elim d emb) (o'.elim d emb))]
  simp only [Option.elim, E.val, sum_map_fin', pairsAll_fin, natCast_fin, Nat.cast_pow]
  rw [half_fin, fin_div hM, fin_div (pow_ne_zero 2 hM), fin_mul, fin_mul, fin_sub, fin_sub, fin_neg,
    fin_inj, ks_eq, kabs_eqW, kpair_eqW]
  ring

theorem KsApprox.e1_fin (y : β) (xs : List β) :
    KsApprox.e1 k (emb y) (xs.map emb) = fin (xs.map fun x => K x y).sum := by
  unfold KsApprox.e1
  rw [List.map_map]
  simp only [Function.comp_def, E.val, E.symm y, sum_map_fin']

theorem KsApprox.e2_fin (xs : List β) :
    KsApprox.e2 k (xs.map emb) = fin (pairsAll K xs) := by
  unfold KsApprox.e2
  simp only [List.map_map, Function.comp_def, E.val, sum_map_fin']
  rfl

theorem KsApprox.nrg_fin (y : β) {xs : List β} (h : xs ≠ []) :
    KsApprox.nrg k (emb y) (xs.map emb) = fin (ks K y (eqW xs)) := by
  have hM : (xs.length : ℝ) ≠ 0 := by simpa using h
  unfold KsApprox.nrg
  dsimp only
  rw [KsApprox.e1_fin E, KsApprox.e2_fin E, List.length_map, E.val, natCast_fin, natCast_fin,
    Nat.cast_pow, half_fin, fin_mul, fin_mul, fin_div hM, fin_div (pow_ne_zero 2 hM), fin_sub, fin_sub,
    fin_neg, fin_inj, ks_eq, kabs_eqW, kpair_eqW]
  ring

theorem KsGufunc.fair_fin (y : β) {xs : List β} (h : 2 ≤ xs.length) :
    KsGufunc.fair k d (emb y) (xs.map emb) = fin (ksFair K y xs) := by
  have hM : (xs.length : ℝ) ≠ 0 := by norm_cast; omega
  have hM1 : (xs.length : ℝ) - 1 ≠ 0 := by
    have : (2 : ℝ) ≤ xs.length := by exact_mod_cast h
    linarith
  have hc : ((xs.length * (xs.length - 1) : ℕ) : ℝ) = xs.length * ((xs.length : ℝ) - 1) := by
    rw [Nat.cast_mul, Nat.cast_sub (by omega), Nat.cast_one]
  have hp := pairsAll_eq K E.symm xs
  unfold KsGufunc.fair
  rw [List.length_map]
  simp only [getD_emb xs emb d]
  rw [forRange_pairs xs (fun o => k (o.elim d emb) (emb y))
    (fun o o' => k (o.elim d emb) (o'.elim d emb))]
  simp only [Option.elim, E.val, sum_map_fin', pairsUp_fin, natCast_fin]
  rw [hc, half_fin, fin_div hM, fin_div (mul_ne_zero hM hM1), fin_mul, fin_sub, fin_sub, fin_neg,
    fin_inj]
  unfold ksFair
  have hp' : (xs.map fun a => (xs.map fun b => K a b).sum).sum
      = pairsUp K xs + pairsUp K xs + (xs.map fun a => K a a).sum := hp
  rw [hp']
  field_simp
  ring

theorem KsApprox.fair_fin (y : β) {xs : List β} (h : 2 ≤ xs.length) :
    KsApprox.fair k (emb y) (xs.map emb) = fin (ksFair K y xs) := by
  have hM : (xs.length : ℝ) ≠ 0 := by norm_cast; omega
  have hM1 : (xs.length : ℝ) - 1 ≠ 0 := by
    have : (2 : ℝ) ≤ xs.length := by exact_mod_cast h
    linarith
  have hc : ((xs.length * (xs.length - 1) : ℕ) : ℝ) = xs.length * ((xs.length : ℝ) - 1) := by
    rw [Nat.cast_mul, Nat.cast_sub (by omega), Nat.cast_one]
  unfold KsApprox.fair
  dsimp only
  rw [KsApprox.e1_fin E, KsApprox.e2_fin E, List.length_map, List.map_map]
  simp only [Function.comp_def, E.val, sum_map_fin', natCast_fin]
  rw [hc, half_fin, fin_sub, fin_div hM, fin_mul, fin_div (mul_ne_zero hM hM1), fin_mul, fin_sub,
    fin_sub, fin_neg, fin_inj]
  unfold ksFair pairsAll
  field_simp
  ring

/-! outcome weights; members are pairs (point, outcome weight) -/

theorem KsGufunc.ow_fin (y : β) (o : ℝ) {l : List (β × ℝ)} (h : ktot l ≠ 0) :
    KsGufunc.ow k d (emb y) (l.map fun p => emb p.1) (fin o) (l.map fun p => fin p.2)
      = fin (owks K o y l) := by
  have hl : l ≠ [] := by rintro rfl; exact h rfl
  have hM : (l.length : ℝ) ≠ 0 := by simpa using hl
  unfold KsGufunc.ow mean
  rw [List.length_map]
  simp only [getD_emb l (fun p => emb p.1) d, idx_map]
  rw [forRange_full l
    (fun a => k (a.elim d fun p => emb p.1) (emb y) * (a.elim nan fun p => fin p.2) * fin o)
    (fun a b => k (a.elim d fun p => emb p.1) (b.elim d fun p => emb p.1)
      * (a.elim nan fun p => fin p.2) * (b.elim nan fun p => fin p.2) * fin o)]
  simp only [Option.elim, E.val, fin_mul, sum_map_fin', pairsAll_fin, natCast_fin, List.length_map,
    Nat.cast_pow]
  have e1 : (l.map fun p : β × ℝ => K p.1 y * p.2 * o).sum = o * kabs K y l := by
    unfold kabs; rw [← sum_map_mul_left']; apply sum_map_congr; intro p _; ring
  have e2 : pairsAll (fun a b : β × ℝ => K a.1 b.1 * a.2 * b.2 * o) l = o * kpair K l := by
    unfold kpair; rw [← pairsAll_mul_left]; apply pairsAll_congr; intro a _ b _; ring
  have e3 : (l.map fun p : β × ℝ => p.2).sum = ktot l := rfl
  rw [e1, e2, e3, half_fin, fin_div hM]
  simp only [fin_mul, fin_pow]
  rw [fin_div (mul_ne_zero hM (div_ne_zero h hM)),
    fin_div (mul_ne_zero (pow_ne_zero 2 hM) (pow_ne_zero 2 (div_ne_zero h hM))), fin_sub, fin_sub,
    fin_neg, fin_inj]
  unfold owks
  rw [ks_eq, nrmW_eq, kabs_scale, kpair_scale]
  field_simp
  ring

theorem zip_kw (l : List (β × ℝ)) :
    (l.map fun p => emb p.1).zip (l.map fun p => fin p.2) = l.map fun p => (emb p.1, fin p.2) := by
  clear E
  induction l with
  | nil => rfl
  | cons p l ih => simp [ih]

theorem KsApprox.owUv_fin (y : β) (o : ℝ) {l : List (β × ℝ)} (h : ktot l ≠ 0) :
    KsApprox.owUv k (emb y) (l.map fun p => emb p.1) (fin o) (l.map fun p => fin p.2)
      = fin (owks K o y l) := by
  have hl : l ≠ [] := by rintro rfl; exact h rfl
  have hM : (l.length : ℝ) ≠ 0 := by simpa using hl
  unfold KsApprox.owUv mean
  dsimp only
  rw [zip_kw E]
  simp only [List.map_map, Function.comp_def, E.val, E.symm y, fin_mul, sum_map_fin', natCast_fin,
    List.length_map, Nat.cast_pow]
  have e1 : (l.map fun p : β × ℝ => K p.1 y * p.2).sum = kabs K y l := by
    unfold kabs; apply sum_map_congr; intro p _; ring
  have e2 : (l.map fun p : β × ℝ => (l.map fun q : β × ℝ => K p.1 q.1 * p.2 * q.2).sum).sum
      = kpair K l := by
    unfold kpair pairsAll
    apply sum_map_congr; intro p _; apply sum_map_congr; intro q _; ring
  have e3 : (l.map fun p : β × ℝ => p.2).sum = ktot l := rfl
  rw [e1, e2, e3, half_fin, fin_div hM]
  simp only [fin_mul, fin_pow]
  rw [fin_div (mul_ne_zero hM (div_ne_zero h hM)),
    fin_div (mul_ne_zero (pow_ne_zero 2 hM) (pow_ne_zero 2 (div_ne_zero h hM)))]
  simp only [fin_mul, fin_sub, fin_neg, fin_inj]
  unfold owks
  rw [ks_eq, nrmW_eq, kabs_scale, kpair_scale]
  field_simp
  ring

theorem KsApprox.owMv_fin (y : β) (o : ℝ) {l : List (β × ℝ)} (h : ktot l ≠ 0) :
    KsApprox.owMv k (emb y) (l.map fun p => emb p.1) (fin o) (l.map fun p => fin p.2)
      = fin (owks K o y l) := by
  have hl : l ≠ [] := by rintro rfl; exact h rfl
  have hM : (l.length : ℝ) ≠ 0 := by simpa using hl
  unfold KsApprox.owMv
  dsimp only
  rw [zip_kw E]
  simp only [List.map_map, Function.comp_def, E.val, E.symm y, fin_mul, sum_map_fin', natCast_fin,
    List.length_map, Nat.cast_pow]
  have e1 : (l.map fun p : β × ℝ => K p.1 y * p.2 * o).sum = o * kabs K y l := by
    unfold kabs; rw [← sum_map_mul_left']; apply sum_map_congr; intro p _; ring
  have e2 : (l.map fun p : β × ℝ => (l.map fun q : β × ℝ => K p.1 q.1 * (p.2 * q.2 * o)).sum).sum
      = o * kpair K l := by
    unfold kpair
    rw [← pairsAll_mul_left]
    unfold pairsAll
    apply sum_map_congr; intro p _; apply sum_map_congr; intro q _; ring
  have e3 : (l.map fun p : β × ℝ => p.2).sum = ktot l := rfl
  rw [e1, e2, e3, half_fin, fin_div hM]
  simp only [fin_mul, fin_pow]
  rw [fin_div (mul_ne_zero hM (div_ne_zero h hM)),
    fin_div (mul_ne_zero (pow_ne_zero 2 hM) (pow_ne_zero 2 (div_ne_zero h hM)))]
  simp only [fin_mul, fin_sub, fin_neg, fin_inj]
  unfold owks
  rw [ks_eq, nrmW_eq, kabs_scale, kpair_scale]
  field_simp
  ring

theorem KsGufunc.vr_fin (y : β) (o : ℝ) {l : List (β × ℝ)} (hl : l ≠ []) :
    KsGufunc.vr k d (emb y) (l.map fun p => emb p.1) (fin o) (l.map fun p => fin p.2)
      = fin (vrks K o y (l.map fun p => (p.1, (l.length : ℝ)⁻¹ * p.2))) := by
  have hM : (l.length : ℝ) ≠ 0 := by simpa using hl
  unfold KsGufunc.vr
  rw [List.length_map]
  simp only [getD_emb l (fun p => emb p.1) d, idx_map]
  rw [forRange_full l
    (fun a => k (a.elim d fun p => emb p.1) (emb y) * (a.elim nan fun p => fin p.2) * fin o)
    (fun a b => k (a.elim d fun p => emb p.1) (b.elim d fun p => emb p.1)
      * (a.elim nan fun p => fin p.2) * (b.elim nan fun p => fin p.2))]
  simp only [Option.elim, E.val, fin_mul, sum_map_fin', pairsAll_fin, natCast_fin, Nat.cast_pow]
  have e1 : (l.map fun p : β × ℝ => K p.1 y * p.2 * o).sum = o * kabs K y l := by
    unfold kabs; rw [← sum_map_mul_left']; apply sum_map_congr; intro p _; ring
  have e2 : pairsAll (fun a b : β × ℝ => K a.1 b.1 * a.2 * b.2) l = kpair K l := by
    unfold kpair; apply pairsAll_congr; intro a _ b _; ring
  rw [e1, e2, half_fin, fin_div hM, fin_div (pow_ne_zero 2 hM)]
  simp only [fin_mul, fin_sub, fin_neg, fin_inj]
  rw [vrks_eq, kabs_scale, kpair_scale]
  field_simp
  ring

theorem KsApprox.vrUv_fin (y : β) (o : ℝ) {l : List (β × ℝ)} (hl : l ≠ []) :
    KsApprox.vrUv k (emb y) (l.map fun p => emb p.1) (fin o) (l.map fun p => fin p.2)
      = fin (vrks K o y (l.map fun p => (p.1, (l.length : ℝ)⁻¹ * p.2))) := by
  have hM : (l.length : ℝ) ≠ 0 := by simpa using hl
  unfold KsApprox.vrUv
  dsimp only
  rw [zip_kw E]
  simp only [List.map_map, Function.comp_def, E.val, E.symm y, fin_mul, sum_map_fin', natCast_fin,
    List.length_map, Nat.cast_pow]
  have e1 : (l.map fun p : β × ℝ => K p.1 y * p.2).sum = kabs K y l := by
    unfold kabs; apply sum_map_congr; intro p _; ring
  have e2 : (l.map fun p : β × ℝ => (l.map fun q : β × ℝ => K p.1 q.1 * (p.2 * q.2)).sum).sum
      = kpair K l := by
    unfold kpair pairsAll
    apply sum_map_congr; intro p _; apply sum_map_congr; intro q _; ring
  rw [e1, e2, half_fin, fin_div hM, fin_div (pow_ne_zero 2 hM)]
  simp only [fin_mul, fin_sub, fin_neg, fin_inj]
  rw [vrks_eq, kabs_scale, kpair_scale]
  field_simp
  ring

theorem KsApprox.vrMv_fin (y : β) (o : ℝ) {l : List (β × ℝ)} (hl : l ≠ []) :
    KsApprox.vrMv k (emb y) (l.map fun p => emb p.1) (fin o) (l.map fun p => fin p.2)
      = fin (vrks K o y (l.map fun p => (p.1, (l.length : ℝ)⁻¹ * p.2))) := by
  have hM : (l.length : ℝ) ≠ 0 := by simpa using hl
  unfold KsApprox.vrMv
  dsimp only
  rw [zip_kw E]
  simp only [List.map_map, Function.comp_def, E.val, E.symm y, fin_mul, sum_map_fin', natCast_fin,
    List.length_map, Nat.cast_pow]
  have e1 : (l.map fun p : β × ℝ => K p.1 y * p.2 * o).sum = o * kabs K y l := by
    unfold kabs; rw [← sum_map_mul_left']; apply sum_map_congr; intro p _; ring
  have e2 : (l.map fun p : β × ℝ => (l.map fun q : β × ℝ => K p.1 q.1 * (p.2 * q.2)).sum).sum
      = kpair K l := by
    unfold kpair pairsAll
    apply sum_map_congr; intro p _; apply sum_map_congr; intro q _; ring
  rw [e1, e2, half_fin, fin_div hM, fin_div (pow_ne_zero 2 hM)]
  simp only [fin_mul, fin_sub, fin_neg, fin_inj]
  rw [vrks_eq, kabs_scale, kpair_scale]
  field_simp
  ring

/-! ensemble weights -/

theorem KsGufuncW.nrg_fin (y : β) (l : List (β × ℝ)) :
    KsGufuncW.nrg k d (emb y) (l.map fun p => emb p.1) (l.map fun p => fin p.2)
      = fin (ks K y l) := by
  unfold KsGufuncW.nrg
  rw [List.length_map]
  simp only [getD_emb l (fun p => emb p.1) d, idx_map]
  rw [forRange_full l
    (fun a => k (a.elim d fun p => emb p.1) (emb y) * (a.elim nan fun p => fin p.2))
    (fun a b => k (a.elim d fun p => emb p.1) (b.elim d fun p => emb p.1)
      * (a.elim nan fun p => fin p.2) * (b.elim nan fun p => fin p.2))]
  simp only [Option.elim, E.val, fin_mul, sum_map_fin', pairsAll_fin]
  have e1 : (l.map fun p : β × ℝ => K p.1 y * p.2).sum = kabs K y l := by
    unfold kabs; apply sum_map_congr; intro p _; ring
  have e2 : pairsAll (fun a b : β × ℝ => K a.1 b.1 * a.2 * b.2) l = kpair K l := by
    unfold kpair; apply pairsAll_congr; intro a _ b _; ring
  rw [e1, e2, half_fin]
  simp only [fin_mul, fin_sub, fin_neg, fin_inj]
  rw [ks_eq]; ring

theorem KsApproxW.e1_fin (y : β) (l : List (β × ℝ)) :
    KsApproxW.e1 k (emb y) (l.map fun p => emb p.1) (l.map fun p => fin p.2) = fin (kabs K y l) := by
  unfold KsApproxW.e1
  rw [zip_kw E]
  simp only [List.map_map, Function.comp_def, E.val, E.symm y, fin_mul, sum_map_fin']
  congr 1
  unfold kabs; apply sum_map_congr; intro p _; ring

theorem KsApproxW.e2_fin (l : List (β × ℝ)) :
    KsApproxW.e2 k (l.map fun p => emb p.1) (l.map fun p => fin p.2) = fin (kpair K l) := by
  unfold KsApproxW.e2
  rw [zip_kw E]
  simp only [List.map_map, Function.comp_def, E.val, fin_mul, sum_map_fin']
  congr 1
  unfold kpair pairsAll
  apply sum_map_congr; intro p _; apply sum_map_congr; intro q _; ring

theorem KsApproxW.nrg_fin (y : β) (l : List (β × ℝ)) :
    KsApproxW.nrg k (emb y) (l.map fun p => emb p.1) (l.map fun p => fin p.2) = fin (ks K y l) := by
  unfold KsApproxW.nrg
  dsimp only
  rw [KsApproxW.e1_fin E, KsApproxW.e2_fin E, E.val, half_fin]
  simp only [fin_mul, fin_sub, fin_neg, fin_inj]
  rw [ks_eq]; ring

theorem KsGufuncW.fair_fin (y : β) (l : List (β × ℝ)) (h : (l.map fun p => p.2 * p.2).sum ≠ 1) :
    KsGufuncW.fair k d (emb y) (l.map fun p => emb p.1) (l.map fun p => fin p.2)
      = fin (ksFairW K y l) := by
  have h' : 1 - (l.map fun p => p.2 * p.2).sum ≠ 0 := fun e => h (by linarith)
  have hp := pairsAll_eq (fun p q : β × ℝ => p.2 * q.2 * K p.1 q.1)
    (fun a b => by rw [E.symm]; ring) l
  unfold KsGufuncW.fair
  rw [List.length_map]
  simp only [getD_emb l (fun p => emb p.1) d, idx_map]
  rw [forRange_pairs l
    (fun a => k (a.elim d fun p => emb p.1) (emb y) * (a.elim nan fun p => fin p.2))
    (fun a b => k (a.elim d fun p => emb p.1) (b.elim d fun p => emb p.1)
      * (a.elim nan fun p => fin p.2) * (b.elim nan fun p => fin p.2))]
  simp only [Option.elim, E.val, fin_mul, sum_map_fin', pairsUp_fin, zip2_map]
  have e1 : (l.map fun p : β × ℝ => K p.1 y * p.2).sum = kabs K y l := by
    unfold kabs; apply sum_map_congr; intro p _; ring
  have e2 : pairsUp (fun a b : β × ℝ => K a.1 b.1 * a.2 * b.2) l
      = (kpair K l - kdiag K l) / 2 := by
    have : (fun a b : β × ℝ => K a.1 b.1 * a.2 * b.2) = fun p q => p.2 * q.2 * K p.1 q.1 := by
      funext a b; ring
    rw [this]
    unfold kpair kdiag
    rw [hp]; ring
  rw [e1, e2, half_fin, one_fin, fin_sub, fin_div h']
  simp only [fin_mul, fin_sub, fin_neg, fin_inj]
  rw [ksFairW_eq]
  field_simp
  ring

/-- numpy's weighted fair estimator keeps the diagonal. -/
theorem KsApproxW.fair_fin (y : β) (l : List (β × ℝ)) (h : (l.map fun p => p.2 * p.2).sum ≠ 1) :
    KsApproxW.fair k (emb y) (l.map fun p => emb p.1) (l.map fun p => fin p.2)
      = fin (ksFairW K y l + kdiag K l / (2 * (1 - (l.map fun p => p.2 * p.2).sum))) := by
  have h' : 1 - (l.map fun p => p.2 * p.2).sum ≠ 0 := fun e => h (by linarith)
  unfold KsApproxW.fair
  dsimp only
  rw [KsApproxW.e1_fin E, KsApproxW.e2_fin E, E.val, zip2_map]
  simp only [fin_mul, sum_map_fin']
  rw [half_fin, one_fin, fin_sub, fin_mul, fin_div h']
  simp only [fin_mul, fin_sub, fin_neg, fin_inj]
  rw [ksFairW_eq]
  field_simp
  ring

/-! outcome weights and ensemble weights; members are triples (point, outcome weight, weight) -/

end values

/-- combined weights -/
def kcomb (l : List (β × ℝ × ℝ)) : List (β × ℝ) := l.map fun p => (p.1, p.2.1 * p.2.2)

theorem kcomb_pair (K : β → β → ℝ) (l : List (β × ℝ × ℝ)) :
    kpair K (kcomb l) = pairsAll (fun p q : β × ℝ × ℝ =>
      p.2.1 * p.2.2 * (q.2.1 * q.2.2) * K p.1 q.1) l := by
  unfold kcomb kpair; rw [pairsAll_map]

theorem kcomb_abs (K : β → β → ℝ) (y : β) (l : List (β × ℝ × ℝ)) :
    kabs K y (kcomb l) = (l.map fun p : β × ℝ × ℝ => p.2.1 * p.2.2 * K p.1 y).sum := by
  unfold kcomb kabs; rw [List.map_map]; rfl

theorem zip_kww (emb : β → α) (l : List (β × ℝ × ℝ)) :
    ((l.map fun p => emb p.1).zip (l.map fun p => fin p.2.1)).zip (l.map fun p => fin p.2.2)
      = l.map fun p => ((emb p.1, fin p.2.1), fin p.2.2) := by
  induction l with
  | nil => rfl
  | cons p l ih => simp [ih]

section values2
variable {k : α → α → XF} {emb : β → α} {K : β → β → ℝ} (E : Emb k emb K) (d : α)
include E

theorem KsGufuncW.ow_fin (y : β) (o : ℝ) {l : List (β × ℝ × ℝ)} (h : ktot (kcomb l) ≠ 0) :
    KsGufuncW.ow k d (emb y) (l.map fun p => emb p.1) (fin o) (l.map fun p => fin p.2.1)
        (l.map fun p => fin p.2.2)
      = fin (owks K o y (kcomb l)) := by
  unfold KsGufuncW.ow
  rw [List.length_map]
  simp only [getD_emb l (fun p => emb p.1) d, idx_map]
  rw [forRange_full l
    (fun a => k (a.elim d fun p => emb p.1) (emb y) * (a.elim nan fun p => fin p.2.1) * fin o
      * (a.elim nan fun p => fin p.2.2))
    (fun a b => k (a.elim d fun p => emb p.1) (b.elim d fun p => emb p.1)
      * (a.elim nan fun p => fin p.2.1) * (b.elim nan fun p => fin p.2.1) * fin o
      * (a.elim nan fun p => fin p.2.2) * (b.elim nan fun p => fin p.2.2))]
  simp only [Option.elim, E.val, fin_mul, sum_map_fin', pairsAll_fin, zip2_map]
  have e1 : (l.map fun p : β × ℝ × ℝ => K p.1 y * p.2.1 * o * p.2.2).sum
      = o * kabs K y (kcomb l) := by
    rw [kcomb_abs, ← sum_map_mul_left']; apply sum_map_congr; intro p _; ring
  have e2 : pairsAll (fun a b : β × ℝ × ℝ => K a.1 b.1 * a.2.1 * b.2.1 * o * a.2.2 * b.2.2) l
      = o * kpair K (kcomb l) := by
    rw [kcomb_pair, ← pairsAll_mul_left]; apply pairsAll_congr; intro a _ b _; ring
  have e3 : (l.map fun p : β × ℝ × ℝ => p.2.1 * p.2.2).sum = ktot (kcomb l) := by
    unfold ktot kcomb; rw [List.map_map]; rfl
  rw [e1, e2, e3, half_fin]
  simp only [fin_mul, fin_pow]
  rw [fin_div h, fin_div (pow_ne_zero 2 h)]
  simp only [fin_mul, fin_sub, fin_neg, fin_inj]
  unfold owks
  rw [ks_eq, nrmW_eq, kabs_scale, kpair_scale]
  field_simp
  ring

theorem KsApproxW.owUv_fin (y : β) (o : ℝ) {l : List (β × ℝ × ℝ)} (h : ktot (kcomb l) ≠ 0) :
    KsApproxW.owUv k (emb y) (l.map fun p => emb p.1) (fin o) (l.map fun p => fin p.2.1)
        (l.map fun p => fin p.2.2)
      = fin (owks K o y (kcomb l)) := by
  unfold KsApproxW.owUv
  dsimp only
  rw [zip_kww]
  simp only [List.map_map, Function.comp_def, E.val, E.symm y, fin_mul, sum_map_fin', zip2_map]
  have e1 : (l.map fun p : β × ℝ × ℝ => p.2.2 * K p.1 y * p.2.1).sum = kabs K y (kcomb l) := by
    rw [kcomb_abs]; apply sum_map_congr; intro p _; ring
  have e2 : (l.map fun p : β × ℝ × ℝ => (l.map fun q : β × ℝ × ℝ =>
      p.2.2 * q.2.2 * K p.1 q.1 * p.2.1 * q.2.1).sum).sum = kpair K (kcomb l) := by
    rw [kcomb_pair]
    unfold pairsAll
    apply sum_map_congr; intro p _; apply sum_map_congr; intro q _; ring
  have e3 : (l.map fun p : β × ℝ × ℝ => p.2.2 * p.2.1).sum = ktot (kcomb l) := by
    unfold ktot kcomb; rw [List.map_map]; apply sum_map_congr; intro p _
    simp only [Function.comp_apply]; ring
  rw [e1, e2, e3, half_fin]
  simp only [fin_mul, fin_pow]
  rw [fin_div h, fin_div (pow_ne_zero 2 h)]
  simp only [fin_mul, fin_sub, fin_neg, fin_inj]
  unfold owks
  rw [ks_eq, nrmW_eq, kabs_scale, kpair_scale]
  field_simp
  ring

theorem KsApproxW.owMv_fin (y : β) (o : ℝ) {l : List (β × ℝ × ℝ)} (h : ktot (kcomb l) ≠ 0) :
    KsApproxW.owMv k (emb y) (l.map fun p => emb p.1) (fin o) (l.map fun p => fin p.2.1)
        (l.map fun p => fin p.2.2)
      = fin (owks K o y (kcomb l)) := by
  unfold KsApproxW.owMv
  dsimp only
  rw [zip_kww]
  simp only [List.map_map, Function.comp_def, E.val, E.symm y, fin_mul, sum_map_fin', zip2_map]
  have e1 : (l.map fun p : β × ℝ × ℝ => K p.1 y * p.2.1 * o * p.2.2).sum
      = o * kabs K y (kcomb l) := by
    rw [kcomb_abs, ← sum_map_mul_left']; apply sum_map_congr; intro p _; ring
  have e2 : (l.map fun p : β × ℝ × ℝ => (l.map fun q : β × ℝ × ℝ =>
      K p.1 q.1 * (p.2.1 * q.2.1 * o) * p.2.2 * q.2.2).sum).sum = o * kpair K (kcomb l) := by
    rw [kcomb_pair, ← pairsAll_mul_left]
    unfold pairsAll
    apply sum_map_congr; intro p _; apply sum_map_congr; intro q _; ring
  have e3 : (l.map fun p : β × ℝ × ℝ => p.2.1 * p.2.2).sum = ktot (kcomb l) := by
    unfold ktot kcomb; rw [List.map_map]; rfl
  rw [e1, e2, e3, half_fin]
  simp only [fin_mul, fin_pow]
  rw [fin_div h, fin_div (pow_ne_zero 2 h)]
  simp only [fin_mul, fin_sub, fin_neg, fin_inj]
  unfold owks
  rw [ks_eq, nrmW_eq, kabs_scale, kpair_scale]
  field_simp
  ring

theorem KsGufuncW.vr_fin (y : β) (o : ℝ) (l : List (β × ℝ × ℝ)) :
    KsGufuncW.vr k d (emb y) (l.map fun p => emb p.1) (fin o) (l.map fun p => fin p.2.1)
        (l.map fun p => fin p.2.2)
      = fin (vrks K o y (kcomb l)) := by
  unfold KsGufuncW.vr
  rw [List.length_map]
  simp only [getD_emb l (fun p => emb p.1) d, idx_map]
  rw [forRange_full l
    (fun a => k (a.elim d fun p => emb p.1) (emb y) * (a.elim nan fun p => fin p.2.1) * fin o
      * (a.elim nan fun p => fin p.2.2))
    (fun a b => k (a.elim d fun p => emb p.1) (b.elim d fun p => emb p.1)
      * (a.elim nan fun p => fin p.2.1) * (b.elim nan fun p => fin p.2.1)
      * (a.elim nan fun p => fin p.2.2) * (b.elim nan fun p => fin p.2.2))]
  simp only [Option.elim, E.val, fin_mul, sum_map_fin', pairsAll_fin]
  have e1 : (l.map fun p : β × ℝ × ℝ => K p.1 y * p.2.1 * o * p.2.2).sum
      = o * kabs K y (kcomb l) := by
    rw [kcomb_abs, ← sum_map_mul_left']; apply sum_map_congr; intro p _; ring
  have e2 : pairsAll (fun a b : β × ℝ × ℝ => K a.1 b.1 * a.2.1 * b.2.1 * a.2.2 * b.2.2) l
      = kpair K (kcomb l) := by
    rw [kcomb_pair]; apply pairsAll_congr; intro a _ b _; ring
  rw [e1, e2, half_fin]
  simp only [fin_mul, fin_sub, fin_neg, fin_inj]
  rw [vrks_eq]; ring

theorem KsApproxW.vrUv_fin (y : β) (o : ℝ) (l : List (β × ℝ × ℝ)) :
    KsApproxW.vrUv k (emb y) (l.map fun p => emb p.1) (fin o) (l.map fun p => fin p.2.1)
        (l.map fun p => fin p.2.2)
      = fin (vrks K o y (kcomb l)) := by
  unfold KsApproxW.vrUv
  dsimp only
  rw [zip_kww]
  simp only [List.map_map, Function.comp_def, E.val, E.symm y, fin_mul, sum_map_fin']
  have e1 : (l.map fun p : β × ℝ × ℝ => p.2.2 * K p.1 y * p.2.1).sum = kabs K y (kcomb l) := by
    rw [kcomb_abs]; apply sum_map_congr; intro p _; ring
  have e2 : (l.map fun p : β × ℝ × ℝ => (l.map fun q : β × ℝ × ℝ =>
      p.2.2 * q.2.2 * K p.1 q.1 * p.2.1 * q.2.1).sum).sum = kpair K (kcomb l) := by
    rw [kcomb_pair]
    unfold pairsAll
    apply sum_map_congr; intro p _; apply sum_map_congr; intro q _; ring
  rw [e1, e2, half_fin]
  simp only [fin_mul, fin_sub, fin_neg, fin_inj]
  rw [vrks_eq]; ring

theorem KsApproxW.vrMv_fin (y : β) (o : ℝ) (l : List (β × ℝ × ℝ)) :
    KsApproxW.vrMv k (emb y) (l.map fun p => emb p.1) (fin o) (l.map fun p => fin p.2.1)
        (l.map fun p => fin p.2.2)
      = fin (vrks K o y (kcomb l)) := by
  unfold KsApproxW.vrMv
  dsimp only
  rw [zip_kww]
  simp only [List.map_map, Function.comp_def, E.val, E.symm y, fin_mul, sum_map_fin']
  have e1 : (l.map fun p : β × ℝ × ℝ => K p.1 y * p.2.1 * o * p.2.2).sum
      = o * kabs K y (kcomb l) := by
    rw [kcomb_abs, ← sum_map_mul_left']; apply sum_map_congr; intro p _; ring
  have e2 : (l.map fun p : β × ℝ × ℝ => (l.map fun q : β × ℝ × ℝ =>
      K p.1 q.1 * (p.2.1 * q.2.1) * p.2.2 * q.2.2).sum).sum = kpair K (kcomb l) := by
    rw [kcomb_pair]
    unfold pairsAll
    apply sum_map_congr; intro p _; apply sum_map_congr; intro q _; ring
  rw [e1, e2, half_fin]
  simp only [fin_mul, fin_sub, fin_neg, fin_inj]
  rw [vrks_eq]; ring

end values2

/-! ### the `akr` estimators: both implementations coincide on all inputs -/

theorem zip_kroll (k : α → α → XF) (d : α) (xs : List α) (s : ℕ) :
    List.zipWith k xs (KsApprox.roll d xs s) = (List.range xs.length).map fun i =>
      k (xs.getD i d) (xs.getD ((i + (xs.length - s % xs.length)) % xs.length) d) := by
  unfold KsApprox.roll
  apply List.ext_getElem
  · simp
  · intro i h1 h2
    simp at h1 h2
    simp [h2]

theorem e1_krange {k : α → α → XF} (hk : ∀ a b, k a b = k b a) (d obs : α) (xs : List α) :
    KsApprox.e1 k obs xs = ((List.range xs.length).map fun i => k (xs.getD i d) obs).sum := by
  unfold KsApprox.e1
  rw [map_range_getD xs d fun x => k x obs]
  simp only [hk obs]

theorem KsGufunc.akr_eq {k : α → α → XF} (hk : ∀ a b, k a b = k b a) (d obs : α) (xs : List α) :
    KsGufunc.akr k d obs xs = KsApprox.akr k d obs xs := by
  unfold KsGufunc.akr KsApprox.akr
  dsimp only
  rw [forRange_two xs.length (fun i => k (xs.getD i d) obs)
    (fun i => k (xs.getD i d) (xs.getD ((if i = 0 then xs.length else i) - 1) d)), zip_kroll,
    e1_krange hk d]
  dsimp only
  congr 6
  apply List.map_congr_left
  intro i hi
  rw [prev_index (by simpa using hi)]

theorem KsGufunc.akrCircperm_eq {k : α → α → XF} (hk : ∀ a b, k a b = k b a) (d obs : α)
    (xs : List α) : KsGufunc.akrCircperm k d obs xs = KsApprox.akrCircperm k d obs xs := by
  unfold KsGufunc.akrCircperm KsApprox.akrCircperm
  dsimp only
  rw [forRange_two xs.length (fun i => k (xs.getD i d) obs)
    (fun i => k (xs.getD i d) (xs.getD (Gufunc.sigma xs.length i) d)), zip_kroll,
    e1_krange hk d]
  dsimp only
  congr 6
  apply List.map_congr_left
  intro i hi
  have : i < xs.length := by simpa using hi
  rw [sigma_eq, shift_half _ _ (by omega)]

theorem zip2_range (n : ℕ) (f : ℕ → XF) (w : List XF) (h : w.length = n) :
    zip2 (· * ·) ((List.range n).map f) w = (List.range n).map fun i => f i * idx w i := by
  unfold zip2
  apply List.ext_getElem
  · simp [h]
  · intro i h1 h2
    simp at h1 h2
    have h3 : i < w.length := by omega
    simp [idx, h3]

theorem e1W_krange {k : α → α → XF} (hk : ∀ a b, k a b = k b a) (d obs : α) (xs : List α)
    (w : List XF) (h : w.length = xs.length) :
    KsApproxW.e1 k obs xs w
      = ((List.range xs.length).map fun i => k (xs.getD i d) obs * idx w i).sum := by
  unfold KsApproxW.e1
  congr 1
  apply List.ext_getElem
  · simp [h]
  · intro i h1 h2
    simp at h1 h2
    have h3 : i < w.length := by omega
    simp [idx, h2, h3, hk obs]

theorem KsGufuncW.akr_eq {k : α → α → XF} (hk : ∀ a b, k a b = k b a) (d obs : α) (xs : List α)
    (w : List XF) (h : w.length = xs.length) :
    KsGufuncW.akr k d obs xs w = KsApproxW.akr k d obs xs w := by
  unfold KsGufuncW.akr KsApproxW.akr
  dsimp only
  rw [forRange_two xs.length (fun i => k (xs.getD i d) obs * idx w i)
    (fun i => k (xs.getD i d) (xs.getD ((if i = 0 then xs.length else i) - 1) d) * idx w i),
    zip_kroll, e1W_krange hk d obs xs w h, zip2_range _ _ _ h]
  dsimp only
  congr 5
  apply List.map_congr_left
  intro i hi
  rw [prev_index (by simpa using hi)]

theorem KsGufuncW.akrCircperm_eq {k : α → α → XF} (hk : ∀ a b, k a b = k b a) (d obs : α)
    (xs : List α) (w : List XF) (h : w.length = xs.length) :
    KsGufuncW.akrCircperm k d obs xs w = KsApproxW.akrCircperm k d obs xs w := by
  unfold KsGufuncW.akrCircperm KsApproxW.akrCircperm
  dsimp only
  rw [forRange_two xs.length (fun i => k (xs.getD i d) obs * idx w i)
    (fun i => k (xs.getD i d) (xs.getD (Gufunc.sigma xs.length i) d) * idx w i),
    zip_kroll, e1W_krange hk d obs xs w h, zip2_range _ _ _ h]
  dsimp only
  congr 5
  apply List.map_congr_left
  intro i hi
  have : i < xs.length := by simpa using hi
  rw [sigma_eq, shift_half _ _ (by omega)]

/-! constant weights -/

theorem add_mul_pos (a b : XF) {r : ℝ} (hr : 0 < r) : (a + b) * fin r = a * fin r + b * fin r := by
  cases a <;> cases b <;>
    first
    | (simp only [fin_add, fin_mul, add_mul]; done)
    | (show XF.mul (XF.add _ _) _ = XF.add (XF.mul _ _) (XF.mul _ _)
       simp [XF.add, XF.mul, XF.infMul, hr, hr.le, hr.ne'])

theorem sum_mul_pos {γ : Type} (l : List γ) (f : γ → XF) {r : ℝ} (hr : 0 < r) :
    (l.map fun i => f i * fin r).sum = (l.map f).sum * fin r := by
  induction l with
  | nil => simp [zero_def]
  | cons a l ih => simp only [List.map_cons, List.sum_cons, ih, add_mul_pos _ _ hr]

theorem div_eq_mul_pos (a : XF) {r : ℝ} (hr : 0 < r) : a / fin r = a * fin (1 / r) := by
  have h1 : 0 < r⁻¹ := by positivity
  cases a with
  | fin a => rw [fin_div hr.ne', fin_mul]; congr 1; ring
  | nan => rfl
  | pinf => show XF.div _ _ = XF.mul _ _; simp [XF.div, XF.mul, XF.infMul, hr, hr.le, hr.ne', h1, h1.le]
  | ninf => show XF.div _ _ = XF.mul _ _; simp [XF.div, XF.mul, XF.infMul, hr, hr.le, hr.ne', h1, h1.le]

theorem range_const_w (xs : List α) (f : ℕ → XF) (c : XF) :
    ((List.range xs.length).map fun i => f i * idx (xs.map fun _ => c) i)
      = (List.range xs.length).map fun i => f i * c := by
  apply List.map_congr_left
  intro i hi
  have : i < xs.length := by simpa using hi
  simp [idx, this]

theorem half_assoc (e : XF) {r : ℝ} (hr : 0 < r) : half * e / fin r = half * (e / fin r) := by
  have h1 : 0 < r⁻¹ := by positivity
  rw [half_fin, div_eq_mul_pos _ hr, div_eq_mul_pos _ hr, mul_assoc]

theorem KsGufuncW.akr_const (k : α → α → XF) (d obs : α) {xs : List α} (h : xs ≠ []) :
    KsGufuncW.akr k d obs xs (xs.map fun _ => fin (1 / (xs.length : ℝ)))
      = KsGufunc.akr k d obs xs := by
  have hM : (0 : ℝ) < xs.length := by exact_mod_cast List.length_pos_iff.2 h
  have hM' : (0 : ℝ) < 1 / xs.length := by positivity
  unfold KsGufuncW.akr KsGufunc.akr
  dsimp only
  rw [forRange_two xs.length (fun i => k (xs.getD i d) obs)
    (fun i => k (xs.getD i d) (xs.getD ((if i = 0 then xs.length else i) - 1) d)),
    forRange_two xs.length
      (fun i => k (xs.getD i d) obs * idx (xs.map fun _ => fin (1 / (xs.length : ℝ))) i)
    (fun i => k (xs.getD i d) (xs.getD ((if i = 0 then xs.length else i) - 1) d)
      * idx (xs.map fun _ => fin (1 / (xs.length : ℝ))) i)]
  dsimp only
  rw [range_const_w, range_const_w, sum_mul_pos _ _ hM', sum_mul_pos _ _ hM', natCast_fin,
    half_assoc _ hM, div_eq_mul_pos _ hM, div_eq_mul_pos _ hM]

theorem KsGufuncW.akrCircperm_const (k : α → α → XF) (d obs : α) {xs : List α} (h : xs ≠ []) :
    KsGufuncW.akrCircperm k d obs xs (xs.map fun _ => fin (1 / (xs.length : ℝ)))
      = KsGufunc.akrCircperm k d obs xs := by
  have hM : (0 : ℝ) < xs.length := by exact_mod_cast List.length_pos_iff.2 h
  have hM' : (0 : ℝ) < 1 / xs.length := by positivity
  unfold KsGufuncW.akrCircperm KsGufunc.akrCircperm
  dsimp only
  rw [forRange_two xs.length (fun i => k (xs.getD i d) obs)
    (fun i => k (xs.getD i d) (xs.getD (Gufunc.sigma xs.length i) d)),
    forRange_two xs.length
      (fun i => k (xs.getD i d) obs * idx (xs.map fun _ => fin (1 / (xs.length : ℝ))) i)
    (fun i => k (xs.getD i d) (xs.getD (Gufunc.sigma xs.length i) d)
      * idx (xs.map fun _ => fin (1 / (xs.length : ℝ))) i)]
  dsimp only
  rw [range_const_w, range_const_w, sum_mul_pos _ _ hM', sum_mul_pos _ _ hM', natCast_fin,
    half_assoc _ hM, div_eq_mul_pos _ hM, div_eq_mul_pos _ hM]

/-! ### the two Gaussian kernels -/

theorem uv_emb : Emb Kern.uv fin gauss1 where
  val a b := by
    unfold Kern.uv gauss1
    rw [half_fin, fin_sub, fin_neg, fin_pow, fin_mul, fin_exp]
    congr 2; ring
  symm a b := by unfold gauss1; congr 2; ring

theorem mv_emb {D : ℕ} : Emb Kern.mv (vec (D := D)) gaussD where
  val a b := by
    unfold Kern.mv gaussD
    rw [vnorm_sub, half_fin, fin_neg, fin_pow, fin_mul, fin_exp]
    congr 2; ring
  symm a b := by unfold gaussD; rw [dist_comm]

theorem uv_symm (a b : XF) : Kern.uv a b = Kern.uv b a := by
  unfold Kern.uv
  have : (a - b) ^ 2 = (b - a) ^ 2 := by
    rw [pow_two, pow_two]
    cases a <;> cases b <;>
      first
      | rfl
      | (simp only [fin_sub, fin_mul, fin_inj]; ring)
  rw [this]

theorem mv_symm (a b : List XF) : Kern.mv a b = Kern.mv b a := by
  unfold Kern.mv
  rw [vsub_norm_comm]

end Verif
