import Verif.Spec.Pool
import Verif.Props.VariogramProper
import Verif.Props.Proper

/-!
# Property C112: pooling ensembles
-/

noncomputable section

open scoped Classical
open MeasureTheory

namespace Verif

open XF Py Api Spec Mv

variable {D : ℕ} {p : ℝ}

/-- members with weight one -/
def ones {β : Type} (xs : List β) : List (β × ℝ) := xs.map fun x => (x, 1)

theorem ones_append {β : Type} (xs ys : List β) : ones (xs ++ ys) = ones xs ++ ones ys := by simp [ones]

theorem ones_sum {β : Type} (xs : List β) : ((ones xs).map Prod.snd).sum = xs.length := by
  simp [ones, Function.comp_def]

theorem ones_nonneg {β : Type} (xs : List β) : ∀ q ∈ ones xs, 0 ≤ q.2 := by
  intro q hq
  obtain ⟨x, -, rfl⟩ := List.mem_map.1 hq
  simp

theorem ones_nrmW {β : Type} (xs : List β) : nrmW (ones xs) = eqW xs := by
  unfold nrmW
  rw [ones_sum]
  simp [ones, eqW]

theorem ones_wcdf (xs : List ℝ) : wcdf (ones xs) = ecdf xs := by
  funext z
  unfold wcdf ecdf
  rw [ones_sum]
  congr 1
  induction xs with
  | nil => simp [ones]
  | cons x xs ih =>
    simp only [ones, List.map_cons] at ih ⊢
    by_cases h : x ≤ z
    · rw [List.filter_cons_of_pos (by simpa using h), List.countP_cons_of_pos (by simpa using h)]
      simp only [List.map_cons, List.sum_cons, ih]
      push_cast
      ring
    · rw [List.filter_cons_of_neg (by simpa using h), List.countP_cons_of_neg (by simpa using h), ih]

theorem len_pos {β : Type} {xs : List β} (h : xs ≠ []) : (0:ℝ) < xs.length := by
  exact_mod_cast List.length_pos_iff.2 h

/-! ### Kernel scores -/

theorem lsum_append {α : Type} (l m : List α) (f : α → ℝ) : ((l ++ m).map f).sum = (l.map f).sum + (m.map f).sum := by
  rw [List.map_append, List.sum_append]

theorem lsum_add {α : Type} (l : List α) (f g : α → ℝ) :
    (l.map fun x => f x + g x).sum = (l.map f).sum + (l.map g).sum := by
  induction l with
  | nil => simp
  | cons a l ih => simp only [List.map_cons, List.sum_cons, ih]; ring

theorem lsum_mul {α : Type} (l : List α) (c : ℝ) (f : α → ℝ) : (l.map fun x => c * f x).sum = c * (l.map f).sum := by
  induction l with
  | nil => simp
  | cons a l ih => simp only [List.map_cons, List.sum_cons, ih]; ring

/-- weighted sum over all pairs of a member of `l` and one of `m` -/
def cross {β : Type} (K : β → β → ℝ) (l m : List (β × ℝ)) : ℝ :=
  (l.map fun q => (m.map fun r => q.2 * r.2 * K q.1 r.1).sum).sum

theorem cross_append {β : Type} (K : β → β → ℝ) (l m l' m' : List (β × ℝ)) :
    cross K (l ++ l') (m ++ m') = cross K l m + cross K l m' + (cross K l' m + cross K l' m') := by
  unfold cross
  simp only [lsum_append, lsum_add]

theorem lsum_comm {α γ : Type} (l : List α) (m : List γ) (f : α → γ → ℝ) :
    (l.map fun a => (m.map fun b => f a b).sum).sum = (m.map fun b => (l.map fun a => f a b).sum).sum := by
  induction l with
  | nil => simp
  | cons a l ih => simp only [List.map_cons, List.sum_cons, ih, lsum_add]

theorem cross_symm {β : Type} {K : β → β → ℝ} (hK : ∀ a b, K a b = K b a) (l m : List (β × ℝ)) :
    cross K l m = cross K m l := by
  unfold cross
  rw [lsum_comm]
  simp only [fun q r : β × ℝ => (by rw [hK q.1 r.1]; ring : q.2 * r.2 * K q.1 r.1 = r.2 * q.2 * K r.1 q.1)]

theorem cross_nrmW {β : Type} (K : β → β → ℝ) (l m : List (β × ℝ)) :
    cross K (nrmW l) (nrmW m) = cross K l m / ((l.map Prod.snd).sum * (m.map Prod.snd).sum) := by
  unfold cross nrmW
  simp only [List.map_map, Function.comp_def]
  generalize (l.map Prod.snd).sum = a
  generalize (m.map Prod.snd).sum = b
  have e : ∀ q r : β × ℝ, q.2 / a * (r.2 / b) * K q.1 r.1 = (a * b)⁻¹ * (q.2 * r.2 * K q.1 r.1) := fun q r => by
    rw [mul_inv]; ring
  simp only [e, lsum_mul]
  ring

theorem ks_nrmW {β : Type} (K : β → β → ℝ) (y : β) (l : List (β × ℝ)) :
    ks K y (nrmW l) = 1 / 2 * (cross K l l / ((l.map Prod.snd).sum * (l.map Prod.snd).sum)) + 1 / 2 * K y y
      - (l.map fun q => q.2 * K q.1 y).sum / (l.map Prod.snd).sum := by
  rw [← cross_nrmW]
  unfold ks cross
  congr 1
  unfold nrmW
  simp only [List.map_map, Function.comp_def]
  generalize (l.map Prod.snd).sum = a
  have e : ∀ q : β × ℝ, q.2 / a * K q.1 y = a⁻¹ * (q.2 * K q.1 y) := fun q => by ring
  simp only [e, lsum_mul]
  ring

theorem pairMean_cross {E : Type} [MeasurableSpace E] [MeasurableSingletonClass E] {K : E → E → ℝ}
    (hm : Measurable fun z : E × E => K z.1 z.2) (hK : ∀ a b, K a b = K b a) {l m : List (E × ℝ)}
    (hl : ∀ q ∈ l, 0 ≤ q.2) (hm' : ∀ q ∈ m, 0 ≤ q.2) (f : IsFiniteMeasure (ensLaw l)) :
    pairMean K (ensLaw l) (ensLaw m) = cross K l m := by
  rw [(pairMean_ensLaw hm' (ensLaw l) hm fun x => (integral_ensLaw hl _).1).2, cross_symm hK]
  unfold cross
  simp only [(integral_ensLaw hl _).2, ← lsum_mul]
  simp only [fun q r : E × ℝ => (by rw [hK r.1 q.1]; ring : q.2 * (r.2 * K r.1 q.1) = q.2 * r.2 * K q.1 r.1)]

theorem nrmW_sum {β : Type} {l : List (β × ℝ)} (h : (l.map Prod.snd).sum ≠ 0) : ((nrmW l).map Prod.snd).sum = 1 :=
  ktot_nrmW h

/-- Pooling for kernel scores. -/
theorem ks_pool {E : Type} [MeasurableSpace E] [MeasurableSingletonClass E] {K : E → E → ℝ}
    (hm : Measurable fun z : E × E => K z.1 z.2) (hK : ∀ a b, K a b = K b a) (y : E) {l m : List (E × ℝ)}
    (hl : ∀ q ∈ l, 0 ≤ q.2) (hm' : ∀ q ∈ m, 0 ≤ q.2) (h1 : 0 < (l.map Prod.snd).sum) (h2 : 0 < (m.map Prod.snd).sum) :
    PoolGain (l.map Prod.snd).sum (m.map Prod.snd).sum (ks K y (nrmW l)) (ks K y (nrmW m)) (ks K y (nrmW (l ++ m)))
      (1 / 2 * mmd2 K (ensLaw (nrmW l)) (ensLaw (nrmW m))) := by
  have f1 := ensLaw_prob (nrmW_nonneg hl) (nrmW_sum h1.ne')
  have f2 := ensLaw_prob (nrmW_nonneg hm') (nrmW_sum h2.ne')
  unfold PoolGain mmd2
  rw [pairMean_cross hm hK (nrmW_nonneg hl) (nrmW_nonneg hl) inferInstance,
    pairMean_cross hm hK (nrmW_nonneg hl) (nrmW_nonneg hm') inferInstance,
    pairMean_cross hm hK (nrmW_nonneg hm') (nrmW_nonneg hm') inferInstance]
  simp only [cross_nrmW, ks_nrmW, cross_append, lsum_append, cross_symm hK m l]
  generalize (l.map Prod.snd).sum = a at *
  generalize (m.map Prod.snd).sum = b at *
  have h3 : a + b ≠ 0 := by positivity
  field_simp
  ring

theorem append_nonneg {β : Type} {l m : List (β × ℝ)} (hl : ∀ q ∈ l, 0 ≤ q.2) (hm : ∀ q ∈ m, 0 ≤ q.2) :
    ∀ q ∈ l ++ m, 0 ≤ q.2 := fun q hq => (List.mem_append.1 hq).elim (hl q) (hm q)

theorem append_sum {β : Type} {l m : List (β × ℝ)} (hl : 0 < (l.map Prod.snd).sum) (hm : 0 < (m.map Prod.snd).sum) :
    0 < ((l ++ m).map Prod.snd).sum := by
  rw [lsum_append]; linarith

/-! ### The continuous ranked probability score -/

theorem crps_pool {F G H : ℝ → ℝ} (hF : ∀ y, HasCrps F y) (hG : ∀ y, HasCrps G y) {a b : ℝ} (h : a + b ≠ 0)
    (hH : ∀ z, H z = a / (a + b) * F z + b / (a + b) * G z) (y : ℝ) :
    (Integrable fun z => (F z - G z) ^ 2) ∧ PoolGain a b (crps F y) (crps G y) (crps H y) (cramer F G) := by
  have m1 := aem_of_hasCrps hF
  have m2 := aem_of_hasCrps hG
  have hi : Integrable fun z => (F z - G z) ^ 2 := by
    refine Integrable.mono' (((hF y).add (hG y)).const_mul 2) ((m1.sub m2).pow_const 2).aestronglyMeasurable
      (ae_of_all _ fun z => ?_)
    rw [Real.norm_eq_abs, abs_of_nonneg (sq_nonneg _)]
    show _ ≤ 2 * ((F z - if y ≤ z then 1 else 0) ^ 2 + (G z - if y ≤ z then 1 else 0) ^ 2)
    nlinarith [sq_nonneg ((F z - if y ≤ z then 1 else 0) + (G z - if y ≤ z then 1 else 0))]
  refine ⟨hi, ?_⟩
  unfold PoolGain crps cramer
  have e : ∀ z, (H z - if y ≤ z then 1 else 0) ^ 2 = a / (a + b) * (F z - if y ≤ z then 1 else 0) ^ 2
      + b / (a + b) * (G z - if y ≤ z then 1 else 0) ^ 2 - a * b / (a + b) ^ 2 * (F z - G z) ^ 2 := fun z => by
    rw [hH z]
    generalize (if y ≤ z then (1:ℝ) else 0) = s
    field_simp
    ring
  have i1 := (hF y).const_mul (a / (a + b))
  have i2 := (hG y).const_mul (b / (a + b))
  have i12 : Integrable fun z => a / (a + b) * (F z - if y ≤ z then 1 else 0) ^ 2
      + b / (a + b) * (G z - if y ≤ z then 1 else 0) ^ 2 := i1.add i2
  simp only [e]
  rw [integral_sub i12 (hi.const_mul _), integral_add i1 i2, integral_const_mul, integral_const_mul,
    integral_const_mul]

theorem wcdf_append {l m : List (ℝ × ℝ)} (hl : (l.map Prod.snd).sum ≠ 0) (hm : (m.map Prod.snd).sum ≠ 0) (z : ℝ) :
    wcdf (l ++ m) z = (l.map Prod.snd).sum / ((l.map Prod.snd).sum + (m.map Prod.snd).sum) * wcdf l z
      + (m.map Prod.snd).sum / ((l.map Prod.snd).sum + (m.map Prod.snd).sum) * wcdf m z := by
  unfold wcdf
  rw [List.filter_append, lsum_append, lsum_append]
  by_cases h : (l.map Prod.snd).sum + (m.map Prod.snd).sum = 0
  · simp [h]
  · field_simp

/-- C112, weighted: the score of two pooled ensembles is the mean of their scores in proportion to the total weights
less a multiple of the integrated squared difference of their distribution functions. -/
theorem C112_crps_weighted (path : Path) (est : String) (he : est ∈ ["nrg", "qd", "int"]) (y : ℝ)
    {l m : List (ℝ × ℝ)} (hl : ∀ q ∈ l, 0 ≤ q.2) (hm : ∀ q ∈ m, 0 ≤ q.2) (h1 : 0 < (l.map Prod.snd).sum)
    (h2 : 0 < (m.map Prod.snd).sum) :
    ∃ s : List (ℝ × ℝ) → ℝ,
      (∀ k ∈ [l, m, l ++ m], crps1 path est false "propagate" (fin y) (k.map fun q => fin q.1)
        (some (k.map fun q => fin q.2)) = .ok (fin (s k))) ∧
      PoolGain (l.map Prod.snd).sum (m.map Prod.snd).sum (s l) (s m) (s (l ++ m)) (cramer (wcdf l) (wcdf m)) ∧
      0 ≤ cramer (wcdf l) (wcdf m) ∧ (cramer (wcdf l) (wcdf m) = 0 ↔ wcdf l = wcdf m) := by
  refine ⟨fun k => crps (wcdf k) y, fun k hk => ?_, ?_⟩
  · have hk' : (∀ q ∈ k, 0 ≤ q.2) ∧ 0 < (k.map Prod.snd).sum := by
      simp only [List.mem_cons, List.not_mem_nil, or_false] at hk
      rcases hk with rfl | rfl | rfl
      · exact ⟨hl, h1⟩
      · exact ⟨hm, h2⟩
      · exact ⟨append_nonneg hl hm, append_sum h1 h2⟩
    simp only [List.mem_cons, List.not_mem_nil, or_false] at he
    rcases he with rfl | he
    · exact C01_nrg_weighted_is_integral path false y k hk'.1 hk'.2
    · exact C02_weighted path false y k hk'.1 hk'.2 (by simp) he
  · obtain ⟨hi, hp⟩ := crps_pool (hasCrps_wcdf' h1.ne') (hasCrps_wcdf' h2.ne') (by positivity)
      (wcdf_append h1.ne' h2.ne') y
    refine ⟨hp, cramer_nonneg _ _, ?_⟩
    rw [cramer_eq_zero_iff hi]
    exact ⟨fun h => RightCont.eq_of_ae (wcdf_rightCont l) (wcdf_rightCont m) h, fun h => by rw [h]⟩

/-- a member without weight, and total weights 2 and 5 -/
example : "int" ∈ ["nrg", "qd", "int"] ∧ (∀ q ∈ ([(1, 2), (3, 0)] : List (ℝ × ℝ)), 0 ≤ q.2) ∧
    (∀ q ∈ ([(2, 5)] : List (ℝ × ℝ)), 0 ≤ q.2) ∧ 0 < (([(1, 2), (3, 0)] : List (ℝ × ℝ)).map Prod.snd).sum ∧
    0 < (([(2, 5)] : List (ℝ × ℝ)).map Prod.snd).sum := by simp

/-- C112: the score of two pooled ensembles is the mean of their scores in proportion to the numbers of members, less a
multiple of the integrated squared difference of their empirical distribution functions. -/
theorem C112_crps (path : Path) (est : String) (he : est ∈ ["nrg", "qd", "int"]) (y : ℝ) {xs ys : List ℝ}
    (hx : xs ≠ []) (hy : ys ≠ []) :
    ∃ s : List ℝ → ℝ,
      (∀ k ∈ [xs, ys, xs ++ ys], crps1 path est false "propagate" (fin y) (k.map fin) none = .ok (fin (s k))) ∧
      PoolGain xs.length ys.length (s xs) (s ys) (s (xs ++ ys)) (cramer (ecdf xs) (ecdf ys)) ∧
      0 ≤ cramer (ecdf xs) (ecdf ys) ∧ (cramer (ecdf xs) (ecdf ys) = 0 ↔ ecdf xs = ecdf ys) := by
  refine ⟨fun k => crps (ecdf k) y, fun k hk => ?_, ?_⟩
  · have hk' : k ≠ [] := by
      simp only [List.mem_cons, List.not_mem_nil, or_false] at hk
      rcases hk with rfl | rfl | rfl
      · exact hx
      · exact hy
      · simp [hx]
    simp only [List.mem_cons, List.not_mem_nil, or_false] at he
    rcases he with rfl | he
    · exact C01_nrg_is_integral path false y k hk'
    · exact C02_qd_int_are_integral path false y k hk' (by simp) he
  · have h1 : 0 < ((ones xs).map Prod.snd).sum := by rw [ones_sum]; exact len_pos hx
    have h2 : 0 < ((ones ys).map Prod.snd).sum := by rw [ones_sum]; exact len_pos hy
    have w := wcdf_append h1.ne' h2.ne'
    rw [← ones_append] at w
    simp only [ones_sum, ones_wcdf] at w
    have c1 := hasCrps_wcdf' h1.ne'
    have c2 := hasCrps_wcdf' h2.ne'
    rw [ones_wcdf] at c1 c2
    obtain ⟨hi, hp⟩ := crps_pool c1 c2 (by have := len_pos hx; have := len_pos hy; positivity) w y
    refine ⟨hp, cramer_nonneg _ _, ?_⟩
    rw [cramer_eq_zero_iff hi]
    have r1 := wcdf_rightCont (ones xs)
    have r2 := wcdf_rightCont (ones ys)
    rw [ones_wcdf] at r1 r2
    exact ⟨fun h => RightCont.eq_of_ae r1 r2 h, fun h => by rw [h]⟩

/-- ensembles of two and of three members with a common member -/
example : "qd" ∈ ["nrg", "qd", "int"] ∧ ([1, 2] : List ℝ) ≠ [] ∧ ([2, 4, 4] : List ℝ) ≠ [] := by simp

/-! ### Energy score -/

theorem measurable_negDist {E : Type} [NormedAddCommGroup E] [MeasurableSpace E] [BorelSpace E]
    [SecondCountableTopology E] : Measurable fun z : E × E => negDist z.1 z.2 := by
  unfold negDist
  exact (by fun_prop : Continuous fun z : E × E => -dist z.1 z.2).measurable

theorem negDist_comm {E : Type} [NormedAddCommGroup E] (a b : E) : negDist a b = negDist b a := by
  unfold negDist; rw [dist_comm]

/-- the distance of the empirical laws is never negative, and zero only if they are the same -/
theorem mmd_negDist_ens {l m : List (Eu D × ℝ)} (hl : ∀ q ∈ l, 0 ≤ q.2) (hm : ∀ q ∈ m, 0 ≤ q.2)
    (h1 : (l.map Prod.snd).sum = 1) (h2 : (m.map Prod.snd).sum = 1) :
    0 ≤ mmd2 negDist (ensLaw l) (ensLaw m) ∧ (mmd2 negDist (ensLaw l) (ensLaw m) = 0 ↔ ensLaw l = ensLaw m) := by
  have f1 := ensLaw_prob hl h1
  have f2 := ensLaw_prob hm h2
  have i1 : Integrable (fun x => ‖x‖) (ensLaw l) := (integral_ensLaw hl _).1
  have i2 : Integrable (fun x => ‖x‖) (ensLaw m) := (integral_ensLaw hm _).1
  exact ⟨mmd2_negDist_nonneg i1 i2 (by simp), mmd2_negDist_eq_zero_iff i1 i2 (by simp)⟩

/-- C112 for the energy score: the gain is a multiple of the energy distance of the ensembles. -/
theorem C112_es_weighted (path : Path) (y : Eu D) {l m : List (Eu D × ℝ)} (hl : ∀ q ∈ l, 0 ≤ q.2)
    (hm : ∀ q ∈ m, 0 ≤ q.2) (h1 : 0 < (l.map Prod.snd).sum) (h2 : 0 < (m.map Prod.snd).sum) :
    ∃ s : List (Eu D × ℝ) → ℝ,
      (∀ k ∈ [l, m, l ++ m], es1 path "nrg" D (vec y) (k.map fun q => vec q.1) (some (k.map fun q => fin q.2))
        = .ok (fin (s k))) ∧
      PoolGain (l.map Prod.snd).sum (m.map Prod.snd).sum (s l) (s m) (s (l ++ m))
        (1 / 2 * mmd2 negDist (ensLaw (nrmW l)) (ensLaw (nrmW m))) ∧
      0 ≤ mmd2 negDist (ensLaw (nrmW l)) (ensLaw (nrmW m)) ∧
      (mmd2 negDist (ensLaw (nrmW l)) (ensLaw (nrmW m)) = 0 ↔ ensLaw (nrmW l) = ensLaw (nrmW m)) := by
  refine ⟨fun k => ks negDist y (nrmW k), fun k hk => ?_,
    ks_pool measurable_negDist negDist_comm y hl hm h1 h2,
    mmd_negDist_ens (nrmW_nonneg hl) (nrmW_nonneg hm) (nrmW_sum h1.ne') (nrmW_sum h2.ne')⟩
  show _ = Except.ok (fin (ks negDist y _))
  rw [← es_ks]
  simp only [List.mem_cons, List.not_mem_nil, or_false] at hk
  rcases hk with rfl | rfl | rfl
  · exact C33_value_weighted path y _ hl h1.ne'
  · exact C33_value_weighted path y _ hm h2.ne'
  · exact C33_value_weighted path y _ (append_nonneg hl hm) (append_sum h1 h2).ne'

/-- a member without weight, and total weights 2 and 5 -/
example : (∀ q ∈ ([(!₂[1, 2], 2), (0, 0)] : List (Eu 2 × ℝ)), 0 ≤ q.2) ∧
    (∀ q ∈ ([(0, 5)] : List (Eu 2 × ℝ)), 0 ≤ q.2) ∧ 0 < (([(!₂[1, 2], 2), (0, 0)] : List (Eu 2 × ℝ)).map Prod.snd).sum ∧
    0 < (([(0, 5)] : List (Eu 2 × ℝ)).map Prod.snd).sum := by simp

/-- C112 for the energy score without ensemble weights. -/
theorem C112_es (path : Path) (y : Eu D) {xs ys : List (Eu D)} (hx : xs ≠ []) (hy : ys ≠ []) :
    ∃ s : List (Eu D) → ℝ,
      (∀ k ∈ [xs, ys, xs ++ ys], es1 path "nrg" D (vec y) (k.map vec) none = .ok (fin (s k))) ∧
      PoolGain xs.length ys.length (s xs) (s ys) (s (xs ++ ys))
        (1 / 2 * mmd2 negDist (ensLaw (eqW xs)) (ensLaw (eqW ys))) ∧
      0 ≤ mmd2 negDist (ensLaw (eqW xs)) (ensLaw (eqW ys)) ∧
      (mmd2 negDist (ensLaw (eqW xs)) (ensLaw (eqW ys)) = 0 ↔ ensLaw (eqW xs) = ensLaw (eqW ys)) := by
  have h1 : 0 < ((ones xs).map Prod.snd).sum := by rw [ones_sum]; exact len_pos hx
  have h2 : 0 < ((ones ys).map Prod.snd).sum := by rw [ones_sum]; exact len_pos hy
  have hp := ks_pool measurable_negDist negDist_comm y (ones_nonneg xs) (ones_nonneg ys) h1 h2
  rw [← ones_append] at hp
  simp only [ones_sum, ones_nrmW] at hp
  refine ⟨fun k => ks negDist y (eqW k), fun k hk => ?_, hp,
    mmd_negDist_ens (eqW_nonneg xs) (eqW_nonneg ys) (eqW_sum hx) (eqW_sum hy)⟩
  show _ = Except.ok (fin (ks negDist y _))
  rw [← es_ks]
  simp only [List.mem_cons, List.not_mem_nil, or_false] at hk
  rcases hk with rfl | rfl | rfl
  · exact es1_nrg path y hx
  · exact es1_nrg path y hy
  · exact es1_nrg path y (by simp [hx])

/-- ensembles of two and of one members -/
example : ([!₂[1, 2], 0] : List (Eu 2)) ≠ [] ∧ ([0] : List (Eu 2)) ≠ [] := by simp

/-! ### Gaussian kernel scores -/

theorem mmd_gk_ens {E : Type} [NormedAddCommGroup E] [InnerProductSpace ℝ E] [FiniteDimensional ℝ E]
    [MeasurableSpace E] [BorelSpace E] {l m : List (E × ℝ)} (hl : ∀ q ∈ l, 0 ≤ q.2) (hm : ∀ q ∈ m, 0 ≤ q.2)
    (h1 : (l.map Prod.snd).sum = 1) (h2 : (m.map Prod.snd).sum = 1) :
    0 ≤ mmd2 (gk (1 / 2)) (ensLaw l) (ensLaw m) ∧
      (mmd2 (gk (1 / 2)) (ensLaw l) (ensLaw m) = 0 ↔ ensLaw l = ensLaw m) := by
  have f1 := ensLaw_prob hl h1
  have f2 := ensLaw_prob hm h2
  exact ⟨mmd2_gk_nonneg (by norm_num) _ _, mmd2_gk_eq_zero_iff (by norm_num) _ _⟩

theorem gk_comm {E : Type} [NormedAddCommGroup E] [InnerProductSpace ℝ E] [FiniteDimensional ℝ E]
    [MeasurableSpace E] [BorelSpace E] (s : ℝ) (a b : E) : gk s a b = gk s b a := by
  unfold gk; rw [dist_comm]

/-- C112 for the univariate Gaussian kernel score. -/
theorem C112_gksuv_weighted (path : Path) (y : ℝ) {l m : List (ℝ × ℝ)} (hl : ∀ q ∈ l, 0 ≤ q.2)
    (hm : ∀ q ∈ m, 0 ≤ q.2) (h1 : 0 < (l.map Prod.snd).sum) (h2 : 0 < (m.map Prod.snd).sum) :
    ∃ s : List (ℝ × ℝ) → ℝ,
      (∀ k ∈ [l, m, l ++ m], gksuv1 path "nrg" (fin y) (k.map fun q => fin q.1) (some (k.map fun q => fin q.2))
        = .ok (fin (s k))) ∧
      PoolGain (l.map Prod.snd).sum (m.map Prod.snd).sum (s l) (s m) (s (l ++ m))
        (1 / 2 * mmd2 gauss1 (ensLaw (nrmW l)) (ensLaw (nrmW m))) ∧
      0 ≤ mmd2 gauss1 (ensLaw (nrmW l)) (ensLaw (nrmW m)) ∧
      (mmd2 gauss1 (ensLaw (nrmW l)) (ensLaw (nrmW m)) = 0 ↔ ensLaw (nrmW l) = ensLaw (nrmW m)) := by
  refine ⟨fun k => ks gauss1 y (nrmW k), fun k hk => ?_, ?_⟩
  · simp only [List.mem_cons, List.not_mem_nil, or_false] at hk
    rcases hk with rfl | rfl | rfl
    · exact C37_gksuv_weighted_value path y _ hl h1.ne'
    · exact C37_gksuv_weighted_value path y _ hm h2.ne'
    · exact C37_gksuv_weighted_value path y _ (append_nonneg hl hm) (append_sum h1 h2).ne'
  · rw [gauss1_eq]
    exact ⟨ks_pool (gk_continuous _).measurable (gk_comm _) y hl hm h1 h2,
      mmd_gk_ens (nrmW_nonneg hl) (nrmW_nonneg hm) (nrmW_sum h1.ne') (nrmW_sum h2.ne')⟩

/-- a member without weight, and total weights 2 and 5 -/
example : (∀ q ∈ ([(1, 2), (3, 0)] : List (ℝ × ℝ)), 0 ≤ q.2) ∧
    (∀ q ∈ ([(2, 5)] : List (ℝ × ℝ)), 0 ≤ q.2) ∧ 0 < (([(1, 2), (3, 0)] : List (ℝ × ℝ)).map Prod.snd).sum ∧
    0 < (([(2, 5)] : List (ℝ × ℝ)).map Prod.snd).sum := by simp

/-- C112 for the univariate Gaussian kernel score without ensemble weights. -/
theorem C112_gksuv (path : Path) (y : ℝ) {xs ys : List ℝ} (hx : xs ≠ []) (hy : ys ≠ []) :
    ∃ s : List ℝ → ℝ,
      (∀ k ∈ [xs, ys, xs ++ ys], gksuv1 path "nrg" (fin y) (k.map fin) none = .ok (fin (s k))) ∧
      PoolGain xs.length ys.length (s xs) (s ys) (s (xs ++ ys))
        (1 / 2 * mmd2 gauss1 (ensLaw (eqW xs)) (ensLaw (eqW ys))) ∧
      0 ≤ mmd2 gauss1 (ensLaw (eqW xs)) (ensLaw (eqW ys)) ∧
      (mmd2 gauss1 (ensLaw (eqW xs)) (ensLaw (eqW ys)) = 0 ↔ ensLaw (eqW xs) = ensLaw (eqW ys)) := by
  have h1 : 0 < ((ones xs).map Prod.snd).sum := by rw [ones_sum]; exact len_pos hx
  have h2 : 0 < ((ones ys).map Prod.snd).sum := by rw [ones_sum]; exact len_pos hy
  refine ⟨fun k => ks gauss1 y (eqW k), fun k hk => ?_, ?_⟩
  · simp only [List.mem_cons, List.not_mem_nil, or_false] at hk
    rcases hk with rfl | rfl | rfl
    · exact C37_gksuv_value path y hx
    · exact C37_gksuv_value path y hy
    · exact C37_gksuv_value path y (by simp [hx])
  · rw [gauss1_eq]
    have hp := ks_pool (gk_continuous (1 / 2)).measurable (gk_comm _) y (ones_nonneg xs) (ones_nonneg ys) h1 h2
    rw [← ones_append] at hp
    simp only [ones_sum, ones_nrmW] at hp
    exact ⟨hp, mmd_gk_ens (eqW_nonneg xs) (eqW_nonneg ys) (eqW_sum hx) (eqW_sum hy)⟩

/-- ensembles of two and of three members with a common member -/
example : ([1, 2] : List ℝ) ≠ [] ∧ ([2, 4, 4] : List ℝ) ≠ [] := by simp

/-- C112 for the multivariate Gaussian kernel score. -/
theorem C112_gksmv_weighted (path : Path) (y : Eu D) {l m : List (Eu D × ℝ)} (hl : ∀ q ∈ l, 0 ≤ q.2)
    (hm : ∀ q ∈ m, 0 ≤ q.2) (h1 : 0 < (l.map Prod.snd).sum) (h2 : 0 < (m.map Prod.snd).sum) :
    ∃ s : List (Eu D × ℝ) → ℝ,
      (∀ k ∈ [l, m, l ++ m], gksmv1 path "nrg" D (vec y) (k.map fun q => vec q.1) (some (k.map fun q => fin q.2))
        = .ok (fin (s k))) ∧
      PoolGain (l.map Prod.snd).sum (m.map Prod.snd).sum (s l) (s m) (s (l ++ m))
        (1 / 2 * mmd2 gaussD (ensLaw (nrmW l)) (ensLaw (nrmW m))) ∧
      0 ≤ mmd2 gaussD (ensLaw (nrmW l)) (ensLaw (nrmW m)) ∧
      (mmd2 gaussD (ensLaw (nrmW l)) (ensLaw (nrmW m)) = 0 ↔ ensLaw (nrmW l) = ensLaw (nrmW m)) := by
  refine ⟨fun k => ks gaussD y (nrmW k), fun k hk => ?_, ?_⟩
  · simp only [List.mem_cons, List.not_mem_nil, or_false] at hk
    rcases hk with rfl | rfl | rfl
    · exact C37_gksmv_weighted_value path y _ hl h1.ne'
    · exact C37_gksmv_weighted_value path y _ hm h2.ne'
    · exact C37_gksmv_weighted_value path y _ (append_nonneg hl hm) (append_sum h1 h2).ne'
  · rw [gaussD_eq]
    exact ⟨ks_pool (gk_continuous _).measurable (gk_comm _) y hl hm h1 h2,
      mmd_gk_ens (nrmW_nonneg hl) (nrmW_nonneg hm) (nrmW_sum h1.ne') (nrmW_sum h2.ne')⟩

/-- a member without weight, and total weights 2 and 5 -/
example : (∀ q ∈ ([(!₂[1, 2], 2), (0, 0)] : List (Eu 2 × ℝ)), 0 ≤ q.2) ∧
    (∀ q ∈ ([(0, 5)] : List (Eu 2 × ℝ)), 0 ≤ q.2) ∧ 0 < (([(!₂[1, 2], 2), (0, 0)] : List (Eu 2 × ℝ)).map Prod.snd).sum ∧
    0 < (([(0, 5)] : List (Eu 2 × ℝ)).map Prod.snd).sum := by simp

/-- C112 for the multivariate Gaussian kernel score without ensemble weights. -/
theorem C112_gksmv (path : Path) (y : Eu D) {xs ys : List (Eu D)} (hx : xs ≠ []) (hy : ys ≠ []) :
    ∃ s : List (Eu D) → ℝ,
      (∀ k ∈ [xs, ys, xs ++ ys], gksmv1 path "nrg" D (vec y) (k.map vec) none = .ok (fin (s k))) ∧
      PoolGain xs.length ys.length (s xs) (s ys) (s (xs ++ ys))
        (1 / 2 * mmd2 gaussD (ensLaw (eqW xs)) (ensLaw (eqW ys))) ∧
      0 ≤ mmd2 gaussD (ensLaw (eqW xs)) (ensLaw (eqW ys)) ∧
      (mmd2 gaussD (ensLaw (eqW xs)) (ensLaw (eqW ys)) = 0 ↔ ensLaw (eqW xs) = ensLaw (eqW ys)) := by
  have h1 : 0 < ((ones xs).map Prod.snd).sum := by rw [ones_sum]; exact len_pos hx
  have h2 : 0 < ((ones ys).map Prod.snd).sum := by rw [ones_sum]; exact len_pos hy
  refine ⟨fun k => ks gaussD y (eqW k), fun k hk => ?_, ?_⟩
  · simp only [List.mem_cons, List.not_mem_nil, or_false] at hk
    rcases hk with rfl | rfl | rfl
    · exact C37_gksmv_value path y hx
    · exact C37_gksmv_value path y hy
    · exact C37_gksmv_value path y (by simp [hx])
  · rw [gaussD_eq]
    have hp := ks_pool (gk_continuous (1 / 2)).measurable (gk_comm _) y (ones_nonneg xs) (ones_nonneg ys) h1 h2
    rw [← ones_append] at hp
    simp only [ones_sum, ones_nrmW] at hp
    exact ⟨hp, mmd_gk_ens (eqW_nonneg xs) (eqW_nonneg ys) (eqW_sum hx) (eqW_sum hy)⟩

/-- ensembles of two and of one members -/
example : ([!₂[1, 2], 0] : List (Eu 2)) ≠ [] ∧ ([0] : List (Eu 2)) ≠ [] := by simp

/-! ### Variogram score -/

theorem vs_pool (W : Fin D → Fin D → ℝ) (y : Eu D) {l m : List (Eu D × ℝ)} (hl : ∀ q ∈ l, 0 ≤ q.2)
    (hm : ∀ q ∈ m, 0 ≤ q.2) (h1 : 0 < (l.map Prod.snd).sum) (h2 : 0 < (m.map Prod.snd).sum) :
    PoolGain (l.map Prod.snd).sum (m.map Prod.snd).sum (vs p W y (nrmW l)) (vs p W y (nrmW m))
      (vs p W y (nrmW (l ++ m))) (featDist (vdiff p) W (ensLaw (nrmW l)) (ensLaw (nrmW m))) := by
  have e : ∀ (k : List (Eu D × ℝ)) (i j : Fin D), ((nrmW k).map fun q => q.2 * vdiff p q.1 i j).sum
      = (k.map fun q => q.2 * vdiff p q.1 i j).sum / (k.map Prod.snd).sum := fun k i j => by
    unfold nrmW
    simp only [List.map_map, Function.comp_def]
    generalize (k.map Prod.snd).sum = a
    have e : ∀ q : Eu D × ℝ, q.2 / a * vdiff p q.1 i j = a⁻¹ * (q.2 * vdiff p q.1 i j) := fun q => by ring
    simp only [e, lsum_mul]
    ring
  unfold PoolGain vs featDist
  simp only [featMean_ens _ (nrmW_nonneg hl), featMean_ens _ (nrmW_nonneg hm), e, lsum_append, Finset.mul_sum]
  rw [← Finset.sum_add_distrib, ← Finset.sum_sub_distrib]
  refine Finset.sum_congr rfl fun i _ => ?_
  rw [← Finset.sum_add_distrib, ← Finset.sum_sub_distrib]
  refine Finset.sum_congr rfl fun j _ => ?_
  generalize (l.map Prod.snd).sum = a at *
  generalize (m.map Prod.snd).sum = b at *
  have h3 : a + b ≠ 0 := by positivity
  field_simp
  ring

/-- C112 for the variogram score: the gain is a multiple of the weighted squared distance of the expected variograms. -/
theorem C112_vs_weighted (hp : 0 < p) (W : Fin D → Fin D → ℝ) (path : Path) (y : Eu D) {l m : List (Eu D × ℝ)}
    (hl : ∀ q ∈ l, 0 ≤ q.2) (hm : ∀ q ∈ m, 0 ≤ q.2) (h1 : 0 < (l.map Prod.snd).sum) (h2 : 0 < (m.map Prod.snd).sum) :
    ∃ s : List (Eu D × ℝ) → ℝ,
      (∀ k ∈ [l, m, l ++ m], vs1 path "nrg" p (some (matl W)) D (vec y) (k.map fun q => vec q.1)
        (some (k.map fun q => fin q.2)) = .ok (fin (s k))) ∧
      PoolGain (l.map Prod.snd).sum (m.map Prod.snd).sum (s l) (s m) (s (l ++ m))
        (featDist (vdiff p) W (ensLaw (nrmW l)) (ensLaw (nrmW m))) ∧
      ((∀ i j, 0 ≤ W i j) → 0 ≤ featDist (vdiff p) W (ensLaw (nrmW l)) (ensLaw (nrmW m)) ∧
        (featDist (vdiff p) W (ensLaw (nrmW l)) (ensLaw (nrmW m)) = 0
          ↔ SameFeat (vdiff p) W (ensLaw (nrmW l)) (ensLaw (nrmW m)))) := by
  refine ⟨fun k => vs p W y (nrmW k), fun k hk => ?_, vs_pool W y hl hm h1 h2, fun hW => featDist_zero_iff _ hW _ _⟩
  simp only [List.mem_cons, List.not_mem_nil, or_false] at hk
  rcases hk with rfl | rfl | rfl
  · exact vs1_nrg_weighted hp W path y _ hl h1.ne'
  · exact vs1_nrg_weighted hp W path y _ hm h2.ne'
  · exact vs1_nrg_weighted hp W path y _ (append_nonneg hl hm) (append_sum h1 h2).ne'

/-- order 1/2, a member without weight, and total weights 2 and 5 -/
example : (0:ℝ) < 1 / 2 ∧ (∀ q ∈ ([(!₂[1, 2], 2), (0, 0)] : List (Eu 2 × ℝ)), 0 ≤ q.2) ∧
    (∀ q ∈ ([(0, 5)] : List (Eu 2 × ℝ)), 0 ≤ q.2) ∧ 0 < (([(!₂[1, 2], 2), (0, 0)] : List (Eu 2 × ℝ)).map Prod.snd).sum ∧
    0 < (([(0, 5)] : List (Eu 2 × ℝ)).map Prod.snd).sum := by simp

/-- C112 for the variogram score without ensemble weights. -/
theorem C112_vs (hp : 0 < p) (W : Fin D → Fin D → ℝ) (path : Path) (y : Eu D) {xs ys : List (Eu D)} (hx : xs ≠ [])
    (hy : ys ≠ []) :
    ∃ s : List (Eu D) → ℝ,
      (∀ k ∈ [xs, ys, xs ++ ys], vs1 path "nrg" p (some (matl W)) D (vec y) (k.map vec) none = .ok (fin (s k))) ∧
      PoolGain xs.length ys.length (s xs) (s ys) (s (xs ++ ys))
        (featDist (vdiff p) W (ensLaw (eqW xs)) (ensLaw (eqW ys))) ∧
      ((∀ i j, 0 ≤ W i j) → 0 ≤ featDist (vdiff p) W (ensLaw (eqW xs)) (ensLaw (eqW ys)) ∧
        (featDist (vdiff p) W (ensLaw (eqW xs)) (ensLaw (eqW ys)) = 0
          ↔ SameFeat (vdiff p) W (ensLaw (eqW xs)) (ensLaw (eqW ys)))) := by
  have h1 : 0 < ((ones xs).map Prod.snd).sum := by rw [ones_sum]; exact len_pos hx
  have h2 : 0 < ((ones ys).map Prod.snd).sum := by rw [ones_sum]; exact len_pos hy
  have hpp := vs_pool (p := p) W y (ones_nonneg xs) (ones_nonneg ys) h1 h2
  rw [← ones_append] at hpp
  simp only [ones_sum, ones_nrmW] at hpp
  refine ⟨fun k => vs p W y (eqW k), fun k hk => ?_, hpp, fun hW => featDist_zero_iff _ hW _ _⟩
  simp only [List.mem_cons, List.not_mem_nil, or_false] at hk
  rcases hk with rfl | rfl | rfl
  · exact vs1_nrg hp W path y hx
  · exact vs1_nrg hp W path y hy
  · exact vs1_nrg hp W path y (by simp [hx])

/-- order 1/2, ensembles of two and of one members -/
example : (0:ℝ) < 1 / 2 ∧ ([!₂[1, 2], 0] : List (Eu 2)) ≠ [] ∧ ([0] : List (Eu 2)) ≠ [] := by simp

end Verif
