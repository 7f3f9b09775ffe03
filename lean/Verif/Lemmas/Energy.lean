import Verif.Model.Energy
import Verif.Spec.Energy
import Verif.Lemmas.WeightedUv

/-! Values of the energy-score kernels on finite data. -/

noncomputable section

open scoped Classical

namespace Verif

open XF Py Mv Spec

variable {D : ℕ}

/-- a point of Euclidean space as an array -/
def vec (v : Eu D) : List XF := List.ofFn fun i => fin (v i)

@[simp] theorem vec_length (v : Eu D) : (vec v).length = D := by simp [vec]

theorem vsub_vec (a b : Eu D) : vsub (vec a) (vec b) = vec (a - b) := by
  unfold vsub zip2 vec
  apply List.ext_getElem
  · simp
  · intro i h1 h2
    simp

theorem vnorm_vec (a : Eu D) : vnorm (vec a) = fin ‖a‖ := by
  unfold vnorm vec
  have : ((List.ofFn fun i => fin (a i)).map fun x => x * x).sum = fin (∑ i, ‖a i‖ ^ 2) := by
    rw [List.map_ofFn]
    have e : ((fun x : XF => x * x) ∘ fun i => fin (a i)) = fin ∘ fun i => ‖a i‖ ^ 2 := by
      funext i
      simp only [Function.comp, fin_mul, fin_inj, Real.norm_eq_abs, sq_abs]
      ring
    rw [e, ← List.map_ofFn, sum_map_fin, List.sum_ofFn]
  rw [this, fin_sqrt (Finset.sum_nonneg fun i _ => by positivity), EuclideanSpace.norm_eq]

theorem vnorm_sub (a b : Eu D) : vnorm (vsub (vec a) (vec b)) = fin (dist a b) := by
  rw [vsub_vec, vnorm_vec, dist_eq_norm]

section generic
variable {α : Type}

theorem vat_map (l : List α) (f : α → List XF) (i : ℕ) :
    vat (l.map f) i = ((l.map some).getD i none).elim [] f := by
  unfold vat
  by_cases h : i < l.length
  · simp [h]
  · simp [h]

theorem forRange_sum (l : List α) (F : Option α → XF) :
    forRange 0 l.length (0 : XF) (fun i s => s + F ((l.map some).getD i none))
      = (l.map fun a => F (some a)).sum := by
  unfold forRange
  simp only [foldl_add_eq, Nat.sub_zero]
  rw [show List.range' 0 l.length = List.range l.length from (List.range_eq_range').symm]
  have h1 := map_range_getD (l.map some) none F
  simp only [List.length_map] at h1
  rw [h1, zero_add, List.map_map]
  rfl

theorem forRange_two (M : ℕ) (f g : ℕ → XF) :
    forRange 0 M ((0, 0) : XF × XF) (fun i e => (e.1 + f i, e.2 + g i))
      = (((List.range M).map f).sum, ((List.range M).map g).sum) := by
  unfold forRange
  rw [foldl_pair_eq, Nat.sub_zero]
  rw [show List.range' 0 M = List.range M from (List.range_eq_range').symm]
  simp

end generic

/-! ### real-number forms -/

/-- weighted mean distance to `y` -/
def gabs (y : Eu D) (l : List (Eu D × ℝ)) : ℝ := (l.map fun p => p.2 * dist p.1 y).sum
/-- weighted sum of distances over ordered pairs -/
def gpair (l : List (Eu D × ℝ)) : ℝ := pairsAll (fun p q => p.2 * q.2 * dist p.1 q.1) l
/-- total weight -/
def gtot (l : List (Eu D × ℝ)) : ℝ := (l.map Prod.snd).sum
/-- weighted mean norm -/
def gnorm (l : List (Eu D × ℝ)) : ℝ := (l.map fun p => p.2 * ‖p.1‖).sum

theorem es_eq (y : Eu D) (l : List (Eu D × ℝ)) : es y l = gabs y l - 1 / 2 * gpair l := rfl

theorem vres_eq (o : ℝ) (y : Eu D) (l : List (Eu D × ℝ)) :
    vres o y l = o * gabs y l - 1 / 2 * gpair l + (gnorm l - ‖y‖ * o) * (gtot l - o) := rfl

theorem gabs_map {α : Type} (y : Eu D) (f : α → Eu D × ℝ) (l : List α) :
    gabs y (l.map f) = (l.map fun a => (f a).2 * dist (f a).1 y).sum := by
  unfold gabs; rw [List.map_map]; rfl

theorem gpair_map {α : Type} (f : α → Eu D × ℝ) (l : List α) :
    gpair (l.map f) = pairsAll (fun a b => (f a).2 * (f b).2 * dist (f a).1 (f b).1) l := by
  unfold gpair; rw [pairsAll_map]

theorem gtot_map {α : Type} (f : α → Eu D × ℝ) (l : List α) :
    gtot (l.map f) = (l.map fun a => (f a).2).sum := by
  unfold gtot; rw [List.map_map]; rfl

theorem gnorm_map {α : Type} (f : α → Eu D × ℝ) (l : List α) :
    gnorm (l.map f) = (l.map fun a => (f a).2 * ‖(f a).1‖).sum := by
  unfold gnorm; rw [List.map_map]; rfl

theorem gabs_scale (c : ℝ) (y : Eu D) (l : List (Eu D × ℝ)) :
    gabs y (l.map fun p => (p.1, c * p.2)) = c * gabs y l := by
  rw [gabs_map, gabs, ← sum_map_mul_left']
  apply sum_map_congr; intro p _; ring

theorem gpair_scale (c : ℝ) (l : List (Eu D × ℝ)) :
    gpair (l.map fun p => (p.1, c * p.2)) = c ^ 2 * gpair l := by
  rw [gpair_map, gpair, ← pairsAll_mul_left]
  apply pairsAll_congr; intro p _ q _; ring

theorem gtot_scale (c : ℝ) (l : List (Eu D × ℝ)) :
    gtot (l.map fun p => (p.1, c * p.2)) = c * gtot l := by
  rw [gtot_map, gtot, ← sum_map_mul_left']

theorem gnorm_scale (c : ℝ) (l : List (Eu D × ℝ)) :
    gnorm (l.map fun p => (p.1, c * p.2)) = c * gnorm l := by
  rw [gnorm_map, gnorm, ← sum_map_mul_left']
  apply sum_map_congr; intro p _; ring

theorem normW_eq (l : List (Eu D × ℝ)) :
    normW l = l.map fun p => (p.1, (gtot l)⁻¹ * p.2) := by
  unfold normW
  apply List.map_congr_left
  intro p _
  rw [div_eq_inv_mul]; rfl

theorem es_normW (y : Eu D) (l : List (Eu D × ℝ)) :
    es y (normW l) = gabs y l / gtot l - 1 / 2 * gpair l / gtot l ^ 2 := by
  rw [normW_eq, es_eq, gabs_scale, gpair_scale, inv_pow]
  ring

theorem equalW_eq (xs : List (Eu D)) : equalW xs =
    (xs.map fun x => (x, (1 : ℝ))).map fun p => (p.1, (xs.length : ℝ)⁻¹ * p.2) := by
  unfold equalW
  rw [List.map_map]
  apply List.map_congr_left
  intro x _
  simp

/-- twice the sum over unordered pairs is the sum over ordered pairs -/
theorem pairsUp_double {α : Type} (h : α → α → ℝ) (hs : ∀ a b, h a b = h b a)
    (hz : ∀ a, h a a = 0) (l : List α) : pairsUp (fun a b => 2 * h a b) l = pairsAll h l := by
  rw [pairsAll_eq h hs, show (l.map fun a => h a a).sum = 0 by simp [hz], add_zero]
  clear hs hz
  induction l with
  | nil => simp [pairsUp]
  | cons a l ih =>
    simp only [pairsUp, ih, sum_map_mul_left']
    ring

/-! ### kernels without ensemble weights -/

theorem EsGufunc.loop_fin (y : Eu D) (xs : List (Eu D)) :
    EsGufunc.loop (vec y) (xs.map vec)
      = (fin (xs.map fun x => dist x y).sum, fin (pairsAll dist xs)) := by
  have := forRange_pairs xs
    (fun o => vnorm (vsub (o.elim [] vec) (vec y)))
    (fun o o' => 2 * vnorm (vsub (o.elim [] vec) (o'.elim [] vec)))
  unfold EsGufunc.loop
  rw [List.length_map]
  simp only [vat_map]
  rw [this]
  simp only [Option.elim, vnorm_sub, two_fin, fin_mul, sum_map_fin', pairsUp_fin]
  rw [pairsUp_double _ dist_comm dist_self]

theorem gabs_equal (y : Eu D) (xs : List (Eu D)) :
    gabs y (equalW xs) = (xs.map fun x => dist x y).sum / xs.length := by
  rw [equalW_eq, gabs_scale, gabs_map]
  simp only [one_mul]
  ring

theorem gpair_equal (xs : List (Eu D)) :
    gpair (equalW xs) = pairsAll dist xs / (xs.length : ℝ) ^ 2 := by
  rw [equalW_eq, gpair_scale, gpair_map]
  simp only [one_mul, inv_pow]
  ring

theorem EsGufunc.nrg_fin (y : Eu D) (xs : List (Eu D)) (h : xs ≠ []) :
    EsGufunc.nrg (vec y) (xs.map vec) = fin (es y (equalW xs)) := by
  have hM : (xs.length : ℝ) ≠ 0 := by simpa using h
  unfold EsGufunc.nrg
  rw [EsGufunc.loop_fin]
  simp only [List.length_map, natCast_fin, half_fin]
  rw [fin_div hM, fin_div (by push_cast; positivity), fin_mul, fin_sub, fin_inj, es_eq,
    gabs_equal, gpair_equal]
  push_cast; ring

theorem EsGufunc.fair_fin (y : Eu D) (xs : List (Eu D)) (h : 2 ≤ xs.length) :
    EsGufunc.fair (vec y) (xs.map vec) = fin (esFair y xs) := by
  have h2 : (2 : ℝ) ≤ xs.length := by exact_mod_cast h
  have a : (xs.length : ℝ) ≠ 0 := by linarith
  have b : (xs.length : ℝ) - 1 ≠ 0 := by linarith
  unfold EsGufunc.fair
  rw [EsGufunc.loop_fin]
  simp only [List.length_map, natCast_fin, half_fin, natPred_cast h]
  rw [fin_div a, fin_div (mul_ne_zero a b), fin_mul, fin_sub, fin_inj, esFair]
  unfold pairsAll
  field_simp

theorem EsApprox.e1_fin (y : Eu D) (xs : List (Eu D)) (h : xs ≠ []) :
    EsApprox.e1 (vec y) (xs.map vec) = fin ((xs.map fun x => dist x y).sum / xs.length) := by
  have hM : (xs.length : ℝ) ≠ 0 := by simpa using h
  unfold EsApprox.e1 EsApprox.errNorm
  simp only [List.map_map, Function.comp_def, vnorm_sub, sum_map_fin', List.length_map,
    natCast_fin, fin_div hM]

theorem EsApprox.spread_fin (xs : List (Eu D)) :
    EsApprox.spread (xs.map vec) = fin (pairsAll dist xs) := by
  unfold EsApprox.spread
  simp only [List.map_map, Function.comp_def, vnorm_sub, sum_map_fin', pairsAll]

theorem EsApprox.nrg_fin (y : Eu D) (xs : List (Eu D)) (h : xs ≠ []) :
    EsApprox.nrg (vec y) (xs.map vec) = fin (es y (equalW xs)) := by
  have hM : (xs.length : ℝ) ≠ 0 := by simpa using h
  unfold EsApprox.nrg
  rw [EsApprox.e1_fin y xs h, EsApprox.spread_fin]
  simp only [List.length_map, natCast_fin, half_fin]
  rw [fin_div (by push_cast; positivity), fin_mul, fin_sub, fin_inj, es_eq, gabs_equal,
    gpair_equal]
  push_cast; ring

theorem EsApprox.fair_fin (y : Eu D) (xs : List (Eu D)) (h : 2 ≤ xs.length) :
    EsApprox.fair (vec y) (xs.map vec) = fin (esFair y xs) := by
  have h2 : (2 : ℝ) ≤ xs.length := by exact_mod_cast h
  have a : (xs.length : ℝ) ≠ 0 := by linarith
  have b : (xs.length : ℝ) - 1 ≠ 0 := by linarith
  have hne : xs ≠ [] := by intro e; simp [e] at h
  unfold EsApprox.fair
  rw [EsApprox.e1_fin y xs hne, EsApprox.spread_fin]
  simp only [List.length_map, natCast_fin, half_fin, natPred_cast h]
  rw [fin_div (mul_ne_zero a b), fin_mul, fin_sub, fin_inj, esFair]
  unfold pairsAll
  field_simp

/-! ### approximate kernel representation: both implementations coincide on all inputs -/

theorem errNorm_range (obs : List XF) (fct : List (List XF)) :
    (List.range fct.length).map (fun i => vnorm (vsub (vat fct i) obs)) = EsApprox.errNorm obs fct := by
  unfold EsApprox.errNorm vat
  exact map_range_getD fct [] (fun x => vnorm (vsub x obs))

theorem rollNorm_range (fct : List (List XF)) (s : ℕ) :
    EsApprox.rollNorm fct s = (List.range fct.length).map fun i =>
      vnorm (vsub (vat fct i) (vat fct ((i + (fct.length - s % fct.length)) % fct.length))) := by
  unfold EsApprox.rollNorm vroll
  apply List.ext_getElem
  · simp
  · intro i h1 h2
    simp at h1 h2
    simp [vat, h2]

theorem vsub_norm_comm (a b : List XF) : vnorm (vsub a b) = vnorm (vsub b a) := by
  unfold vnorm vsub zip2
  congr 2
  induction a generalizing b with
  | nil => cases b <;> rfl
  | cons x a ih =>
    cases b with
    | nil => rfl
    | cons y b =>
      simp only [List.zipWith_cons_cons, List.map_cons, ih, List.cons.injEq, and_true]
      cases x <;> cases y <;>
        first
        | rfl
        | (simp only [fin_sub, fin_mul, fin_inj]; ring)

theorem prev_index {M i : ℕ} (hi : i < M) :
    (i + (M - 1 % M)) % M = (if i = 0 then M else i) - 1 := by
  rcases Nat.eq_zero_or_pos i with rfl | hpos
  · rcases Nat.lt_or_ge 1 M with h1 | h1
    · rw [Nat.mod_eq_of_lt h1, if_pos rfl, Nat.zero_add, Nat.mod_eq_of_lt (by omega)]
    · have : M = 1 := by omega
      subst this; rfl
  · rw [if_neg (by omega), Nat.mod_eq_of_lt (by omega : 1 < M)]
    have : i + (M - 1) = (i - 1) + M := by omega
    rw [this, Nat.add_mod_right, Nat.mod_eq_of_lt (by omega)]

theorem EsGufunc.akr_eq (obs : List XF) (fct : List (List XF)) (h : fct ≠ []) :
    EsGufunc.akr obs fct = EsApprox.akr obs fct := by
  have hM : fct.length ≠ 0 := by simpa using h
  unfold EsGufunc.akr EsApprox.akr EsApprox.e1
  dsimp only
  rw [forRange_two fct.length (fun i => vnorm (vsub (vat fct i) obs))
    (fun i => vnorm (vsub (vat fct i) (vat fct ((if i = 0 then fct.length else i) - 1)))),
    errNorm_range, half_div _ _ hM, rollNorm_range]
  dsimp only
  congr 4
  apply List.map_congr_left
  intro i hi
  rw [prev_index (by simpa using hi)]

/-- shifting by `s` forwards or backwards gives the same sum of distances -/
theorem sum_shift_back (fct : List (List XF)) (s : ℕ) (hs : s ≤ fct.length) :
    ((List.range fct.length).map fun i => vnorm (vsub (vat fct i) (vat fct ((i + s) % fct.length)))).sum
      = ((List.range fct.length).map fun i =>
        vnorm (vsub (vat fct i) (vat fct ((i + (fct.length - s)) % fct.length)))).sum := by
  rw [← sum_shift fct.length s (fun i =>
        vnorm (vsub (vat fct i) (vat fct ((i + (fct.length - s)) % fct.length))))]
  congr 1
  apply List.map_congr_left
  intro i hi
  have hi' : i < fct.length := by simpa using hi
  rw [vsub_norm_comm, Nat.mod_add_mod]
  have : i + s + (fct.length - s) = i + fct.length := by omega
  rw [this, Nat.add_mod_right, Nat.mod_eq_of_lt hi']

theorem half_mod (M : ℕ) : M / 2 % M = M / 2 := by
  rcases Nat.eq_zero_or_pos M with rfl | h
  · rfl
  · exact Nat.mod_eq_of_lt (by omega)

theorem EsGufunc.akrCircperm_eq (obs : List XF) (fct : List (List XF)) (h : fct ≠ []) :
    EsGufunc.akrCircperm obs fct = EsApprox.akrCircperm obs fct := by
  have hM : fct.length ≠ 0 := by simpa using h
  unfold EsGufunc.akrCircperm EsApprox.akrCircperm EsApprox.e1
  dsimp only
  rw [forRange_two fct.length (fun i => vnorm (vsub (vat fct i) obs))
    (fun i => vnorm (vsub (vat fct i) (vat fct ((i + fct.length / 2) % fct.length)))),
    errNorm_range, half_div _ _ hM, rollNorm_range]
  dsimp only
  rw [sum_shift_back fct _ (by omega), half_mod]

/-! ### kernels with ensemble weights -/

/-- members -/
def Vx {α : Type} (f : α → Eu D) (l : List α) : List (List XF) := l.map fun a => vec (f a)

theorem EsGufuncW.loop_fin (y : Eu D) (l : List (Eu D × ℝ)) :
    EsGufuncW.loop (vec y) (l.map fun p => vec p.1) (l.map fun p => fin p.2)
      = (fin (gabs y l), fin (gpair l)) := by
  have := forRange_pairs l
    (fun o => vnorm (vsub (o.elim [] fun p => vec p.1) (vec y)) * o.elim nan fun p => fin p.2)
    (fun o o' => 2 * vnorm (vsub (o.elim [] fun p => vec p.1) (o'.elim [] fun p => vec p.1))
      * (o.elim nan fun p => fin p.2) * o'.elim nan fun p => fin p.2)
  unfold EsGufuncW.loop
  rw [List.length_map]
  simp only [vat_map, idx_map]
  rw [this]
  simp only [Option.elim, vnorm_sub, two_fin, fin_mul, sum_map_fin', pairsUp_fin]
  congr 2
  · unfold gabs; apply sum_map_congr; intro p _; ring
  · unfold gpair
    rw [← pairsUp_double _ (fun a b => by rw [dist_comm]; ring) (fun a => by simp)]
    congr 1; funext a b; ring

theorem sq_sum (l : List (Eu D × ℝ)) :
    (zip2 (· * ·) (l.map fun p => fin p.2) (l.map fun p => fin p.2)).sum
      = fin (l.map fun p => p.2 * p.2).sum := by
  rw [zip2_map]
  simp only [fin_mul, sum_map_fin']

theorem EsGufuncW.nrg_fin (y : Eu D) (l : List (Eu D × ℝ)) :
    EsGufuncW.nrg (vec y) (l.map fun p => vec p.1) (l.map fun p => fin p.2) = fin (es y l) := by
  unfold EsGufuncW.nrg
  rw [EsGufuncW.loop_fin]
  simp only [half_fin, fin_mul, fin_sub, es_eq]

theorem EsApproxW.e1_fin (y : Eu D) (l : List (Eu D × ℝ)) :
    EsApproxW.e1 (vec y) (l.map fun p => vec p.1) (l.map fun p => fin p.2) = fin (gabs y l) := by
  unfold EsApproxW.e1 EsApprox.errNorm
  rw [List.map_map]
  simp only [Function.comp_def]
  rw [zip2_map]
  simp only [vnorm_sub, fin_mul, sum_map_fin', fin_inj, gabs, mul_comm]

theorem zip_vw (l : List (Eu D × ℝ)) :
    (l.map fun p => vec p.1).zip (l.map fun p => fin p.2) = l.map fun p => (vec p.1, fin p.2) := by
  induction l with
  | nil => rfl
  | cons p l ih => simp [ih]

theorem EsApproxW.spread_fin (l : List (Eu D × ℝ)) :
    EsApproxW.spread (l.map fun p => vec p.1) (l.map fun p => fin p.2) = fin (gpair l) := by
  unfold EsApproxW.spread
  rw [zip_vw]
  simp only [List.map_map, Function.comp_def, vnorm_sub, fin_mul, sum_map_fin', fin_inj]
  unfold gpair pairsAll
  apply sum_map_congr; intro p _
  apply sum_map_congr; intro q _
  ring

theorem EsApproxW.nrg_fin (y : Eu D) (l : List (Eu D × ℝ)) :
    EsApproxW.nrg (vec y) (l.map fun p => vec p.1) (l.map fun p => fin p.2) = fin (es y l) := by
  unfold EsApproxW.nrg
  rw [EsApproxW.e1_fin, EsApproxW.spread_fin]
  simp only [half_fin, fin_mul, fin_sub, es_eq]

/-- value of the weighted fair score (NaN or infinite when a single member has all the weight) -/
theorem EsGufuncW.fair_eq (y : Eu D) (l : List (Eu D × ℝ)) :
    EsGufuncW.fair (vec y) (l.map fun p => vec p.1) (l.map fun p => fin p.2)
      = EsApproxW.fair (vec y) (l.map fun p => vec p.1) (l.map fun p => fin p.2) := by
  unfold EsGufuncW.fair EsApproxW.fair
  rw [EsGufuncW.loop_fin, EsApproxW.e1_fin, EsApproxW.spread_fin]

theorem EsApproxW.fair_fin (y : Eu D) (l : List (Eu D × ℝ))
    (h : 1 - (l.map fun p => p.2 * p.2).sum ≠ 0) :
    EsApproxW.fair (vec y) (l.map fun p => vec p.1) (l.map fun p => fin p.2)
      = fin (gabs y l - 1 / 2 * gpair l / (1 - (l.map fun p => p.2 * p.2).sum)) := by
  unfold EsApproxW.fair
  rw [EsApproxW.e1_fin, EsApproxW.spread_fin, sq_sum]
  simp only [half_fin, one_fin, fin_mul, fin_sub]
  rw [fin_div h, fin_sub]

theorem errNormW_range (obs : List XF) (fct : List (List XF)) (w : List XF)
    (h : w.length = fct.length) :
    ((List.range fct.length).map fun i => vnorm (vsub (vat fct i) obs) * idx w i)
      = zip2 (· * ·) (EsApprox.errNorm obs fct) w := by
  unfold EsApprox.errNorm zip2
  apply List.ext_getElem
  · simp [h]
  · intro i h1 h2
    simp at h1 h2
    simp [vat, idx, h1, h]

theorem rollNormW_range (fct : List (List XF)) (w : List XF) (s : ℕ)
    (h : w.length = fct.length) :
    zip2 (· * ·) (EsApprox.rollNorm fct s) w = (List.range fct.length).map fun i =>
      vnorm (vsub (vat fct i) (vat fct ((i + (fct.length - s % fct.length)) % fct.length)))
        * idx w i := by
  rw [rollNorm_range]
  unfold zip2
  apply List.ext_getElem
  · simp [h]
  · intro i h1 h2
    simp at h1 h2
    simp [idx, h2, h]

/-- weighted `akr`: both implementations coincide on all inputs. -/
theorem EsGufuncW.akr_eq (obs : List XF) (fct : List (List XF)) (w : List XF)
    (h : w.length = fct.length) : EsGufuncW.akr obs fct w = EsApproxW.akr obs fct w := by
  unfold EsGufuncW.akr EsApproxW.akr EsApproxW.e1
  dsimp only
  rw [forRange_two fct.length (fun i => vnorm (vsub (vat fct i) obs) * idx w i)
    (fun i => vnorm (vsub (vat fct i) (vat fct ((if i = 0 then fct.length else i) - 1))) * idx w i),
    errNormW_range _ _ _ h, rollNormW_range _ _ _ h]
  dsimp only
  congr 3
  apply List.map_congr_left
  intro i hi
  rw [prev_index (by simpa using hi)]

/-- weighted `akr_circperm`: both implementations coincide for an even number of members. -/
theorem EsGufuncW.akrCircperm_eq (obs : List XF) (fct : List (List XF)) (w : List XF)
    (h : w.length = fct.length) (he : fct.length % 2 = 0) :
    EsGufuncW.akrCircperm obs fct w = EsApproxW.akrCircperm obs fct w := by
  unfold EsGufuncW.akrCircperm EsApproxW.akrCircperm EsApproxW.e1
  dsimp only
  rw [forRange_two fct.length (fun i => vnorm (vsub (vat fct i) obs) * idx w i)
    (fun i => vnorm (vsub (vat fct i) (vat fct ((i + fct.length / 2) % fct.length))) * idx w i),
    errNormW_range _ _ _ h, rollNormW_range _ _ _ h]
  dsimp only
  rw [half_mod]
  have : fct.length - fct.length / 2 = fct.length / 2 := by omega
  rw [this]

/-! ### outcome weights -/

theorem EsGufunc.ow_fin (y : Eu D) (o : ℝ) (l : List (Eu D × ℝ)) (h : gtot l ≠ 0) :
    EsGufunc.ow (vec y) (l.map fun p => vec p.1) (fin o) (l.map fun p => fin p.2)
      = fin (owes o y l) := by
  have hl : l ≠ [] := by rintro rfl; exact h rfl
  have hM : (l.length : ℝ) ≠ 0 := by simpa using hl
  have := forRange_pairs l
    (fun a => vnorm (vsub (a.elim [] fun p => vec p.1) (vec y)) * (a.elim nan fun p => fin p.2)
      * fin o)
    (fun a b => 2 * (vnorm (vsub (a.elim [] fun p => vec p.1) (b.elim [] fun p => vec p.1))
      * (a.elim nan fun p => fin p.2) * (b.elim nan fun p => fin p.2) * fin o))
  unfold EsGufunc.ow mean
  rw [List.length_map]
  simp only [vat_map, idx_map]
  rw [this]
  simp only [Option.elim, vnorm_sub, two_fin, fin_mul, sum_map_fin', pairsUp_fin, natCast_fin,
    List.length_map]
  rw [pairsUp_double (fun a b : Eu D × ℝ => dist a.1 b.1 * a.2 * b.2 * o)
    (fun a b => by rw [dist_comm]; ring) (fun a => by simp)]
  have e1 : (l.map fun p : Eu D × ℝ => dist p.1 y * p.2 * o).sum = o * gabs y l := by
    unfold gabs; rw [← sum_map_mul_left']; apply sum_map_congr; intro p _; ring
  have e2 : pairsAll (fun a b : Eu D × ℝ => dist a.1 b.1 * a.2 * b.2 * o) l = o * gpair l := by
    unfold gpair; rw [← pairsAll_mul_left]; apply pairsAll_congr; intro p _ q _; ring
  have e3 : (l.map fun p : Eu D × ℝ => p.2).sum = gtot l := rfl
  rw [e1, e2, e3, fin_div hM]
  simp only [half_fin, fin_mul, fin_pow]
  have e4 : (l.length : ℝ) * (gtot l / l.length) = gtot l := by field_simp
  have e5 : ((l.length ^ 2 : ℕ) : ℝ) * (gtot l / l.length) ^ 2 = gtot l ^ 2 := by
    push_cast; field_simp
  rw [e4, e5, fin_div h, fin_div (pow_ne_zero 2 h), fin_sub, fin_inj, owes, es_normW]
  ring

theorem EsApprox.ow_fin (y : Eu D) (o : ℝ) (l : List (Eu D × ℝ)) (h : gtot l ≠ 0) :
    EsApprox.ow (vec y) (l.map fun p => vec p.1) (fin o) (l.map fun p => fin p.2)
      = fin (owes o y l) := by
  have hl : l ≠ [] := by rintro rfl; exact h rfl
  have hM : (l.length : ℝ) ≠ 0 := by simpa using hl
  unfold EsApprox.ow EsApprox.errNorm mean
  rw [List.map_map, zip_vw]
  simp only [Function.comp_def]
  rw [zip2_map]
  simp only [List.map_map, Function.comp_def, vnorm_sub, fin_mul, sum_map_fin', natCast_fin,
    List.length_map]
  have e1 : (l.map fun p : Eu D × ℝ => dist p.1 y * p.2 * o).sum = o * gabs y l := by
    unfold gabs; rw [← sum_map_mul_left']; apply sum_map_congr; intro p _; ring
  have e2 : (l.map fun a : Eu D × ℝ => (l.map fun b : Eu D × ℝ =>
      dist a.1 b.1 * (a.2 * b.2 * o)).sum).sum = o * gpair l := by
    unfold gpair; rw [← pairsAll_mul_left]
    apply sum_map_congr; intro p _; apply sum_map_congr; intro q _; ring
  have e3 : (l.map fun p : Eu D × ℝ => p.2).sum = gtot l := rfl
  have hMM : ((l.length * l.length : ℕ) : ℝ) ≠ 0 := by push_cast; positivity
  have hw : gtot l / l.length ≠ 0 := div_ne_zero h hM
  rw [e1, e2, e3, fin_div hM, fin_div hM, fin_div hw, fin_div hMM]
  simp only [half_fin, fin_pow]
  rw [fin_div (pow_ne_zero 2 hw), fin_mul, fin_sub, fin_inj, owes, es_normW]
  push_cast
  field_simp

theorem vr_aux {l : List (Eu D × ℝ)} (hM : (l.length : ℝ) ≠ 0) (y : Eu D) (o : ℝ) :
    vres o y (l.map fun p => (p.1, (l.length : ℝ)⁻¹ * p.2))
      = o * gabs y l / l.length - 1 / 2 * gpair l / (l.length : ℝ) ^ 2
        + (gnorm l / l.length - ‖y‖ * o) * (gtot l / l.length - o) := by
  rw [vres_eq, gabs_scale, gpair_scale, gtot_scale, gnorm_scale]
  field_simp

theorem EsGufunc.vr_fin (y : Eu D) (o : ℝ) (l : List (Eu D × ℝ)) (hl : l ≠ []) :
    EsGufunc.vr (vec y) (l.map fun p => vec p.1) (fin o) (l.map fun p => fin p.2)
      = fin (vres o y (l.map fun p => (p.1, (l.length : ℝ)⁻¹ * p.2))) := by
  have hM : (l.length : ℝ) ≠ 0 := by simpa using hl
  have := forRange_pairs l
    (fun a => vnorm (vsub (a.elim [] fun p => vec p.1) (vec y)) * (a.elim nan fun p => fin p.2)
      * fin o)
    (fun a b => 2 * (vnorm (vsub (a.elim [] fun p => vec p.1) (b.elim [] fun p => vec p.1))
      * (a.elim nan fun p => fin p.2) * (b.elim nan fun p => fin p.2)))
  have h2 := forRange_sum l
    (fun a => vnorm (a.elim [] fun p => vec p.1) * (a.elim nan fun p => fin p.2))
  unfold EsGufunc.vr mean
  rw [List.length_map]
  simp only [vat_map, idx_map]
  rw [this, h2]
  simp only [Option.elim, vnorm_sub, vnorm_vec, two_fin, fin_mul, sum_map_fin', pairsUp_fin,
    natCast_fin, List.length_map]
  rw [pairsUp_double (fun a b : Eu D × ℝ => dist a.1 b.1 * a.2 * b.2)
    (fun a b => by rw [dist_comm]; ring) (fun a => by simp)]
  have e1 : (l.map fun p : Eu D × ℝ => dist p.1 y * p.2 * o).sum = o * gabs y l := by
    unfold gabs; rw [← sum_map_mul_left']; apply sum_map_congr; intro p _; ring
  have e2 : pairsAll (fun a b : Eu D × ℝ => dist a.1 b.1 * a.2 * b.2) l = gpair l := by
    unfold gpair; apply pairsAll_congr; intro p _ q _; ring
  have e3 : (l.map fun p : Eu D × ℝ => p.2).sum = gtot l := rfl
  have e4 : (l.map fun p : Eu D × ℝ => ‖p.1‖ * p.2).sum = gnorm l := by
    unfold gnorm; apply sum_map_congr; intro p _; ring
  rw [e1, e2, e3, e4, fin_div hM, fin_div hM, fin_div hM]
  simp only [half_fin, fin_mul]
  rw [fin_div (by push_cast; positivity)]
  simp only [fin_mul, fin_sub, fin_add, fin_inj]
  rw [vr_aux hM]
  push_cast
  ring

theorem EsApprox.vr_fin (y : Eu D) (o : ℝ) (l : List (Eu D × ℝ)) (hl : l ≠ []) :
    EsApprox.vr (vec y) (l.map fun p => vec p.1) (fin o) (l.map fun p => fin p.2)
      = fin (vres o y (l.map fun p => (p.1, (l.length : ℝ)⁻¹ * p.2))) := by
  have hM : (l.length : ℝ) ≠ 0 := by simpa using hl
  unfold EsApprox.vr EsApprox.errNorm mean
  rw [List.map_map, List.map_map, zip_vw]
  simp only [Function.comp_def]
  rw [zip2_map, zip2_map]
  simp only [List.map_map, Function.comp_def, vnorm_sub, vnorm_vec, fin_mul, sum_map_fin',
    natCast_fin, List.length_map]
  have e1 : (l.map fun p : Eu D × ℝ => dist p.1 y * (p.2 * o)).sum = o * gabs y l := by
    unfold gabs; rw [← sum_map_mul_left']; apply sum_map_congr; intro p _; ring
  have e2 : (l.map fun a : Eu D × ℝ => (l.map fun b : Eu D × ℝ =>
      dist a.1 b.1 * (a.2 * b.2)).sum).sum = gpair l := by
    apply sum_map_congr; intro p _; apply sum_map_congr; intro q _; ring
  have e3 : (l.map fun p : Eu D × ℝ => p.2).sum = gtot l := rfl
  have e4 : (l.map fun p : Eu D × ℝ => ‖p.1‖ * p.2).sum = gnorm l := by
    unfold gnorm; apply sum_map_congr; intro p _; ring
  rw [e1, e2, e3, e4, fin_div hM, fin_div hM, fin_div hM]
  rw [fin_div (by push_cast; positivity)]
  simp only [half_fin, fin_mul, fin_sub, fin_add, fin_inj]
  rw [vr_aux hM]
  push_cast
  ring

/-! ### outcome weights and ensemble weights; members are triples (point, outcome weight, weight) -/

/-- combined weights -/
def gcomb (l : List (Eu D × ℝ × ℝ)) : List (Eu D × ℝ) := l.map fun p => (p.1, p.2.1 * p.2.2)

theorem gcomb_pair (l : List (Eu D × ℝ × ℝ)) :
    gpair (gcomb l) = pairsAll (fun p q : Eu D × ℝ × ℝ =>
      p.2.1 * p.2.2 * (q.2.1 * q.2.2) * dist p.1 q.1) l := by
  unfold gcomb; rw [gpair_map]

theorem zip_vww (l : List (Eu D × ℝ × ℝ)) :
    ((l.map fun p => vec p.1).zip (l.map fun p => fin p.2.1)).zip (l.map fun p => fin p.2.2)
      = l.map fun p => ((vec p.1, fin p.2.1), fin p.2.2) := by
  induction l with
  | nil => rfl
  | cons p l ih => simp [ih]

/-- numba's weighted `owes`: the denominators use the unweighted mean of the outcome weights -/
theorem EsGufuncW.ow_fin (y : Eu D) (o : ℝ) (l : List (Eu D × ℝ × ℝ))
    (h : (l.map fun p => p.2.1).sum ≠ 0) :
    EsGufuncW.ow (vec y) (l.map fun p => vec p.1) (fin o) (l.map fun p => fin p.2.1)
        (l.map fun p => fin p.2.2)
      = fin (o * gabs y (gcomb l) / ((l.map fun p => p.2.1).sum / l.length)
        - 1 / 2 * (o * gpair (gcomb l)) / ((l.map fun p => p.2.1).sum / l.length) ^ 2) := by
  have hl : l ≠ [] := by rintro rfl; exact h rfl
  have hM : (l.length : ℝ) ≠ 0 := by simpa using hl
  have := forRange_pairs l
    (fun a => vnorm (vsub (a.elim [] fun p => vec p.1) (vec y)) * (a.elim nan fun p => fin p.2.1)
      * fin o * (a.elim nan fun p => fin p.2.2))
    (fun a b => 2 * (vnorm (vsub (a.elim [] fun p => vec p.1) (b.elim [] fun p => vec p.1))
      * (a.elim nan fun p => fin p.2.1) * (b.elim nan fun p => fin p.2.1) * fin o)
      * (a.elim nan fun p => fin p.2.2) * (b.elim nan fun p => fin p.2.2))
  unfold EsGufuncW.ow mean
  rw [List.length_map]
  simp only [vat_map, idx_map]
  rw [this]
  simp only [Option.elim, vnorm_sub, two_fin, fin_mul, sum_map_fin', pairsUp_fin, natCast_fin,
    List.length_map]
  have e2 : pairsUp (fun a b : Eu D × ℝ × ℝ => 2 * (dist a.1 b.1 * a.2.1 * b.2.1 * o) * a.2.2 * b.2.2) l
      = o * gpair (gcomb l) := by
    rw [gcomb_pair, ← pairsAll_mul_left, ← pairsUp_double _ (fun a b => by rw [dist_comm]; ring)
      (fun a => by simp)]
    congr 1; funext a b; ring
  have e1 : (l.map fun p : Eu D × ℝ × ℝ => dist p.1 y * p.2.1 * o * p.2.2).sum
      = o * gabs y (gcomb l) := by
    unfold gcomb
    rw [gabs_map, ← sum_map_mul_left']; apply sum_map_congr; intro p _; ring
  rw [e1, e2, fin_div hM]
  simp only [half_fin, fin_mul, fin_pow]
  have hw : (l.map fun p : Eu D × ℝ × ℝ => p.2.1).sum / l.length ≠ 0 := div_ne_zero h hM
  rw [fin_div hw, fin_div (pow_ne_zero 2 hw), fin_sub]

theorem EsApproxW.ow_fin (y : Eu D) (o : ℝ) (l : List (Eu D × ℝ × ℝ)) (h : gtot (gcomb l) ≠ 0) :
    EsApproxW.ow (vec y) (l.map fun p => vec p.1) (fin o) (l.map fun p => fin p.2.1)
        (l.map fun p => fin p.2.2) = fin (owes o y (gcomb l)) := by
  unfold EsApproxW.ow EsApprox.errNorm
  rw [List.map_map, zip_vww]
  simp only [Function.comp_def]
  rw [zip2_map, zip2_map, zip2_map]
  simp only [List.map_map, Function.comp_def, vnorm_sub, fin_mul, sum_map_fin', half_fin, fin_pow]
  have e1 : (l.map fun p : Eu D × ℝ × ℝ => dist p.1 y * p.2.1 * o * p.2.2).sum
      = o * gabs y (gcomb l) := by
    unfold gcomb
    rw [gabs_map, ← sum_map_mul_left']; apply sum_map_congr; intro p _; ring
  have e2 : (l.map fun a : Eu D × ℝ × ℝ => (l.map fun b : Eu D × ℝ × ℝ =>
      dist a.1 b.1 * (a.2.1 * b.2.1 * o) * a.2.2 * b.2.2).sum).sum = o * gpair (gcomb l) := by
    rw [gcomb_pair, ← pairsAll_mul_left]
    apply sum_map_congr; intro p _; apply sum_map_congr; intro q _; ring
  have e3 : (l.map fun p : Eu D × ℝ × ℝ => p.2.1 * p.2.2).sum = gtot (gcomb l) := by
    unfold gcomb; rw [gtot_map]
  rw [e1, e2, e3, fin_div h, fin_div (pow_ne_zero 2 h), fin_mul, fin_sub, fin_inj, owes, es_normW]
  ring

theorem EsGufuncW.vr_fin (y : Eu D) (o : ℝ) (l : List (Eu D × ℝ × ℝ)) :
    EsGufuncW.vr (vec y) (l.map fun p => vec p.1) (fin o) (l.map fun p => fin p.2.1)
        (l.map fun p => fin p.2.2) = fin (vres o y (gcomb l)) := by
  have := forRange_pairs l
    (fun a => vnorm (vsub (a.elim [] fun p => vec p.1) (vec y)) * (a.elim nan fun p => fin p.2.1)
      * fin o * (a.elim nan fun p => fin p.2.2))
    (fun a b => 2 * (vnorm (vsub (a.elim [] fun p => vec p.1) (b.elim [] fun p => vec p.1))
      * (a.elim nan fun p => fin p.2.1) * (b.elim nan fun p => fin p.2.1))
      * (a.elim nan fun p => fin p.2.2) * (b.elim nan fun p => fin p.2.2))
  have h2 := forRange_sum l
    (fun a => vnorm (a.elim [] fun p => vec p.1) * (a.elim nan fun p => fin p.2.1)
      * (a.elim nan fun p => fin p.2.2))
  unfold EsGufuncW.vr
  rw [List.length_map]
  simp only [vat_map, idx_map]
  rw [this, h2, zip2_map]
  simp only [Option.elim, vnorm_sub, vnorm_vec, two_fin, fin_mul, sum_map_fin', pairsUp_fin,
    half_fin]
  have e2 : pairsUp (fun a b : Eu D × ℝ × ℝ => 2 * (dist a.1 b.1 * a.2.1 * b.2.1) * a.2.2 * b.2.2) l
      = gpair (gcomb l) := by
    rw [gcomb_pair, ← pairsUp_double _ (fun a b => by rw [dist_comm]; ring) (fun a => by simp)]
    congr 1; funext a b; ring
  have e1 : (l.map fun p : Eu D × ℝ × ℝ => dist p.1 y * p.2.1 * o * p.2.2).sum
      = o * gabs y (gcomb l) := by
    unfold gcomb
    rw [gabs_map, ← sum_map_mul_left']; apply sum_map_congr; intro p _; ring
  have e3 : (l.map fun p : Eu D × ℝ × ℝ => p.2.1 * p.2.2).sum = gtot (gcomb l) := by
    unfold gcomb; rw [gtot_map]
  have e4 : (l.map fun p : Eu D × ℝ × ℝ => ‖p.1‖ * p.2.1 * p.2.2).sum = gnorm (gcomb l) := by
    unfold gcomb; rw [gnorm_map]; apply sum_map_congr; intro p _; ring
  rw [e1, e2, e3, e4]
  simp only [fin_mul, fin_sub, fin_add, fin_inj]
  rw [vres_eq]

theorem EsApproxW.vr_fin (y : Eu D) (o : ℝ) (l : List (Eu D × ℝ × ℝ)) :
    EsApproxW.vr (vec y) (l.map fun p => vec p.1) (fin o) (l.map fun p => fin p.2.1)
        (l.map fun p => fin p.2.2) = fin (vres o y (gcomb l)) := by
  unfold EsApproxW.vr EsApprox.errNorm
  rw [List.map_map, List.map_map, zip_vww]
  simp only [Function.comp_def]
  rw [zip2_map, zip2_map, zip2_map, zip2_map, zip2_map]
  simp only [List.map_map, Function.comp_def, vnorm_sub, vnorm_vec, fin_mul, sum_map_fin', half_fin]
  have e1 : (l.map fun p : Eu D × ℝ × ℝ => dist p.1 y * (p.2.1 * o) * p.2.2).sum
      = o * gabs y (gcomb l) := by
    unfold gcomb
    rw [gabs_map, ← sum_map_mul_left']; apply sum_map_congr; intro p _; ring
  have e2 : (l.map fun a : Eu D × ℝ × ℝ => (l.map fun b : Eu D × ℝ × ℝ =>
      dist a.1 b.1 * (a.2.1 * b.2.1) * a.2.2 * b.2.2).sum).sum = gpair (gcomb l) := by
    rw [gcomb_pair]
    apply sum_map_congr; intro p _; apply sum_map_congr; intro q _; ring
  have e3 : (l.map fun p : Eu D × ℝ × ℝ => p.2.1 * p.2.2).sum = gtot (gcomb l) := by
    unfold gcomb; rw [gtot_map]
  have e4 : (l.map fun p : Eu D × ℝ × ℝ => ‖p.1‖ * p.2.1 * p.2.2).sum = gnorm (gcomb l) := by
    unfold gcomb; rw [gnorm_map]; apply sum_map_congr; intro p _; ring
  rw [e1, e2, e3, e4]
  simp only [fin_mul, fin_sub, fin_add, fin_inj]
  rw [vres_eq]

end Verif
