import Verif.Lemmas.RoundQuantile
import Verif.Props.RoundCrps

/-!
# Property C167: accuracy of the CRPS from quantiles in binary64

`quantile_pinball` of the array path and of the numba path.
-/

noncomputable section

open scoped Classical

namespace Verif

open XF Py Spec

/-- Twice the mean pinball loss of the pairs of a quantile and its level. -/
def Spec.quantileCrps (y : ℝ) (l : List (ℝ × ℝ)) : ℝ := 2 * ((l.map fun p => Spec.pinball p.2 p.1 y).sum / l.length)

/-- Without rounding the functions are those of the exact model. -/
theorem C167_exact {S : List XF → XF} (hS : ∀ xs, RSum fin xs (S xs)) :
    Rnd.quantilePinball fin S = Approx.quantilePinball ∧ RndLoop.quantilePinball fin = Gufunc.quantilePinball := by
  have hs : S = List.sum := funext fun xs => (hS xs).exact
  subst hs
  constructor <;> funext y q a
  · simp only [Rnd.quantilePinball, Approx.quantilePinball, rd_fin_eq, mean]
  · simp only [RndLoop.quantilePinball, Gufunc.quantilePinball, rd_fin_eq]

example : ∃ S : List XF → XF, ∀ xs, RSum fin xs (S xs) := exists_rsum fin

theorem pin_bound {y q : ℝ} (hy : |y| ≤ 2 ^ 959) (hq : |q| ≤ 2 ^ 959) : |q - y| ≤ 2 ^ 960 := dist960 hq hy

example : |(3:ℝ)| ≤ 2 ^ 959 ∧ |(1:ℝ)| ≤ 2 ^ 959 := ⟨trio_bound 3 (by simp [trio]), trio_bound 1 (by simp [trio])⟩

theorem pin_finish {x : XF} {y : ℝ} {l : List (ℝ × ℝ)} (h : SqNear (1 / 2 ^ 1073) x (Spec.quantileCrps y l) (l.length + 11) 23) :
    ∃ v : ℝ, x = fin v ∧ 0 ≤ v ∧
      |v - Spec.quantileCrps y l| ≤ (l.length + 11) / 2 ^ 51 * Spec.quantileCrps y l + 1 / 2 ^ 1068 := by
  obtain ⟨v, e, v0, hv⟩ := h
  refine ⟨v, e, v0, hv.trans (add_le_add (le_of_eq (by ring)) ?_)⟩
  rw [show (1073:ℕ) = 5 + 1068 from rfl, pow_add, ← one_div_mul_one_div, ← mul_assoc]
  exact mul_le_of_le_one_left (by positivity) (by norm_num)

/-- Full property: for all finite data and all levels between 0 and 1 the array path computed in binary64 is nonnegative
and close to twice the mean pinball loss, relative to the score itself, whatever the order of the summation.  Proved for
data up to `2 ^ 959`, up to `2 ^ 20` quantiles and levels at least `2 ^ -900` away from 0 and 1; for larger data it is false
(`C167_overflow_false`). -/
theorem C167_array_partial {r : ℝ → XF} (hr : Nearest64 r) {S : List XF → XF} (hS : ∀ xs, RSum r xs (S xs)) {y : ℝ}
    {l : List (ℝ × ℝ)} (hl : l ≠ []) (hlen : l.length ≤ 2 ^ 20) (hy : |y| ≤ 2 ^ 959)
    (hq : ∀ p ∈ l, |p.1| ≤ 2 ^ 959 ∧ 1 / 2 ^ 900 ≤ p.2 ∧ p.2 ≤ 1 - 1 / 2 ^ 900) :
    ∃ v : ℝ, Rnd.quantilePinball r S (fin y) (l.map fun p => fin p.1) (l.map fun p => fin p.2) = fin v ∧ 0 ≤ v ∧
      |v - Spec.quantileCrps y l| ≤ (l.length + 11) / 2 ^ 51 * Spec.quantileCrps y l + 1 / 2 ^ 1068 := by
  have near := fun p (hp : p ∈ l) => pinE_near hr (y := y) (q := p.1) (α := p.2) (o := ind (fin p.1 ≤ fin y)) (o' := ind (fin y < fin p.1))
    (by
      rw [fin_le, fin_lt]
      by_cases h : p.1 ≤ y
      · exact .inl ⟨h, ind_true h, ind_false (not_lt.2 h)⟩
      · exact .inr ⟨(not_le.1 h).le, ind_false h, ind_true (not_le.1 h)⟩)
    (hq p hp).2.1 (hq p hp).2.2 (pin_bound hy (hq p hp).1)
  apply pin_finish
  unfold Rnd.quantilePinball
  simp only [zip2_map, List.length_map]
  rw [natCast_fin]
  refine pinMean_near hr (hS _) (as := l.map fun p => Spec.pinball p.2 p.1 y) ?_ rfl hl hlen (n := l.length) (by simp)
    (by linarith) fun p hp => ⟨(near p hp).1, (near p hp).2.1⟩
  rw [List.forall₂_map_left_iff, List.forall₂_map_right_iff, List.forall₂_same]
  exact fun p hp => ⟨(near p hp).1, (near p hp).2.2⟩

/-- three quantiles with their levels -/
def trioQ : List (ℝ × ℝ) := [(1, 1 / 4), (3, 1 / 2), (7, 3 / 4)]

theorem trioQ_ok : ∀ p ∈ trioQ, |p.1| ≤ 2 ^ 959 ∧ 1 / 2 ^ 900 ≤ p.2 ∧ p.2 ≤ 1 - 1 / 2 ^ 900 := by
  have h1 : (7:ℝ) ≤ 2 ^ 959 := le_trans (by norm_num : (7:ℝ) ≤ 2 ^ 3) (pow_le_pow_right₀ (by norm_num) (by norm_num))
  have h2 : (1:ℝ) / 2 ^ 900 ≤ 1 / 2 ^ 2 := one_div_le_one_div_of_le (by norm_num) (pow_le_pow_right₀ (by norm_num) (by norm_num))
  generalize (2:ℝ) ^ 959 = P at *
  generalize (1:ℝ) / 2 ^ 900 = w at *
  norm_num at h2
  intro p hp
  simp only [trioQ, List.mem_cons, List.not_mem_nil, or_false] at hp
  rcases hp with rfl | rfl | rfl <;> refine ⟨abs_le.2 ⟨?_, ?_⟩, ?_, ?_⟩ <;> dsimp only <;> linarith

example : ((7:ℝ), (3 / 4 : ℝ)) ∈ trioQ := by simp [trioQ]

example : ∃ S : List XF → XF, (∀ xs, RSum rn64 xs (S xs)) ∧ Nearest64 rn64 ∧ trioQ ≠ [] ∧ trioQ.length ≤ 2 ^ 20 ∧
    |(3:ℝ)| ≤ 2 ^ 959 ∧ ∀ p ∈ trioQ, |p.1| ≤ 2 ^ 959 ∧ 1 / 2 ^ 900 ≤ p.2 ∧ p.2 ≤ 1 - 1 / 2 ^ 900 := by
  obtain ⟨S, hS⟩ := exists_rsum rn64
  exact ⟨S, hS, rn64_nearest, by simp [trioQ], by simp [trioQ], trio_bound 3 (by simp [trio]), trioQ_ok⟩

/-- Full property: as `C167_array_partial`, for the loop of the numba path, which adds from the first to the last quantile.
The restrictions are the same. -/
theorem C167_loop_partial {r : ℝ → XF} (hr : Nearest64 r) {y : ℝ}
    {l : List (ℝ × ℝ)} (hl : l ≠ []) (hlen : l.length ≤ 2 ^ 20) (hy : |y| ≤ 2 ^ 959)
    (hq : ∀ p ∈ l, |p.1| ≤ 2 ^ 959 ∧ 1 / 2 ^ 900 ≤ p.2 ∧ p.2 ≤ 1 - 1 / 2 ^ 900) :
    ∃ v : ℝ, RndLoop.quantilePinball r (fin y) (l.map fun p => fin p.1) (l.map fun p => fin p.2) = fin v ∧ 0 ≤ v ∧
      |v - Spec.quantileCrps y l| ≤ (l.length + 11) / 2 ^ 51 * Spec.quantileCrps y l + 1 / 2 ^ 1068 := by
  have near := fun p (hp : p ∈ l) => pinE_near hr (y := y) (q := p.1) (α := p.2) (o := ind (fin p.1 < fin y)) (o' := ind (fin y ≤ fin p.1))
    (by
      rw [fin_le, fin_lt]
      by_cases h : p.1 < y
      · exact .inl ⟨h.le, ind_true h, ind_false (not_le.2 h)⟩
      · exact .inr ⟨not_lt.1 h, ind_false h, ind_true (not_lt.1 h)⟩)
    (hq p hp).2.1 (hq p hp).2.2 (pin_bound hy (hq p hp).1)
  apply pin_finish
  unfold RndLoop.quantilePinball
  rw [List.zip_map', List.foldl_map, List.length_map]
  dsimp only
  rw [natCast_fin]
  have hs := RSum.fold (r := r) (fun p : ℝ × ℝ => pinE r y p.1 p.2 (ind (fin p.1 < fin y)) (ind (fin y ≤ fin p.1))) l
    (RSum.one (fin 0)) (by simp)
  refine pinMean_near hr hs (as := 0 :: l.map fun p => Spec.pinball p.2 p.1 y) ?_ (by simp) hl hlen (n := l.length + 1)
    (by simp) le_rfl fun p hp => ⟨(near p hp).1, (near p hp).2.1⟩
  refine List.Forall₂.cons ⟨le_rfl, 0, rfl, le_rfl, ?_⟩ ?_
  · simp
  show List.Forall₂ _ (l.map _) _
  rw [List.forall₂_map_left_iff, List.forall₂_map_right_iff, List.forall₂_same]
  exact fun p hp => ⟨(near p hp).1, (near p hp).2.2⟩

example : Nearest64 rn64 ∧ trioQ ≠ [] ∧ trioQ.length ≤ 2 ^ 20 ∧
    |(3:ℝ)| ≤ 2 ^ 959 ∧ ∀ p ∈ trioQ, |p.1| ≤ 2 ^ 959 ∧ 1 / 2 ^ 900 ≤ p.2 ∧ p.2 ≤ 1 - 1 / 2 ^ 900 :=
  ⟨rn64_nearest, by simp [trioQ], by simp [trioQ], trio_bound 3 (by simp [trio]), trioQ_ok⟩

/-- Full property of `C167_array_partial` and `C167_loop_partial` without the bound on the data: false.  For the quantile
`2 ^ 1023` of level 7/8 and the observation `-2 ^ 1023` the score is `2 ^ 1022`, but both paths return NaN: the difference
overflows and the branch that is switched off multiplies it by 0. -/
theorem C167_overflow_false {r : ℝ → XF} (hr : Nearest64 r) {S : List XF → XF} (hS : ∀ xs, RSum r xs (S xs)) :
    Rnd.quantilePinball r S (fin (-2 ^ 1023)) [fin (2 ^ 1023)] [fin (7 / 8)] = nan ∧
      RndLoop.quantilePinball r (fin (-2 ^ 1023)) [fin (2 ^ 1023)] [fin (7 / 8)] = nan ∧
      Spec.quantileCrps (-2 ^ 1023) [(2 ^ 1023, 7 / 8)] = 2 ^ 1022 := by
  have e4 : (2:ℝ) ^ 1023 = 2 * 2 ^ 1022 := pow_succ' _ _
  have p : (0:ℝ) < 2 ^ 1022 := by positivity
  have o : Rnd.rd r (fin (2 ^ 1023 - -2 ^ 1023)) = pinf := by
    refine hr.over (le_of_eq ?_)
    rw [sub_neg_eq_add, ← two_mul, ← pow_succ']
  have o' : Rnd.rd r (fin (-2 ^ 1023 - 2 ^ 1023)) = ninf := by
    have : r (-(2 ^ 1023 - -2 ^ 1023)) = -Rnd.rd r (fin (2 ^ 1023 - -2 ^ 1023)) := hr.neg _
    rw [o] at this
    rw [show (-2 ^ 1023 - 2 ^ 1023 : ℝ) = -(2 ^ 1023 - -2 ^ 1023) by generalize (2:ℝ) ^ 1023 = P; ring]
    exact this
  have h1 : ¬ (2:ℝ) ^ 1023 ≤ -2 ^ 1023 := by
    rw [e4]; generalize (2:ℝ) ^ 1022 = P at p ⊢; linarith only [p]
  have z : fin 0 * ninf = nan := by
    rw [fin_mul_ninf]; simp [infMul]
  have b : Rnd.rd r (Rnd.rd r (fin 0 * fin (7 / 8)) * Rnd.rd r (fin (-2 ^ 1023) - fin (2 ^ 1023))) = nan := by
    rw [fin_mul, zero_mul, rd_zero hr, fin_sub, o', z]; rfl
  have rn : Rnd.rd r nan = nan := rfl
  refine ⟨?_, ?_, ?_⟩
  · unfold Rnd.quantilePinball
    simp only [zip2, List.zipWith_cons_cons, List.zipWith_nil_right, List.length_cons, List.length_nil]
    rw [ind_false (by rw [fin_le]; exact h1), b, nan_add, rn, (hS [nan]).eq_one rfl, nan_div, rn, mul_nan, rn]
  · unfold RndLoop.quantilePinball
    simp only [List.zip_cons_cons, List.zip_nil_right, List.foldl_cons, List.foldl_nil]
    rw [ind_false (by rw [fin_lt]; exact fun h => h1 h.le), b, nan_add, rn, add_nan, rn, nan_div, rn, mul_nan, rn]
  · unfold Spec.quantileCrps Spec.pinball
    simp only [List.map_cons, List.map_nil, List.sum_cons, List.sum_nil, List.length_cons, List.length_nil]
    rw [e4]
    clear o o' h1 e4 b z
    generalize (2:ℝ) ^ 1022 = P at *
    rw [max_eq_right (by linarith)]
    push_cast
    ring

example : ∃ S : List XF → XF, (∀ xs, RSum rn64 xs (S xs)) ∧ Nearest64 rn64 := by
  obtain ⟨S, hS⟩ := exists_rsum rn64
  exact ⟨S, hS, rn64_nearest⟩

end Verif
