import Verif.Lemmas.RoundEnergy
import Verif.Lemmas.Nearest64

/-!
# Property C154: accuracy of the energy score in binary64

The vectorised energy score (`core/energy/_score.py`) of data below `2 ^ 479` is computed with an error of at most
`(D + M ^ 2) / 2 ^ 46` times the mean distance of the members from the observation, plus `2 ^ -500`, in whatever order
the backend adds.  Beyond that size the squares inside the norm overflow, and for differences below `2 ^ -540` they
vanish, so the property fails for general data.
-/

noncomputable section

open scoped Classical

namespace Verif

open XF Py Mv Spec

theorem es_equal_eq {D : ℕ} (y : Eu D) (xs : List (Eu D)) :
    es y (equalW xs) = meanDist y xs - 1 / 2 * (pairDist xs / (xs.length : ℝ) ^ 2) := by
  rw [es_eq, gabs_equal, gpair_equal]
  unfold meanDist pairDist pairsAll
  ring

/-- Without rounding the functions are those of the exact model, in whatever order the entries are added. -/
theorem C154_exact {S : List XF → XF} (hS : ∀ xs, RSum fin xs (S xs)) :
    Rnd.esNrg fin S = EsApprox.nrg ∧ Rnd.esFair fin S = EsApprox.fair := by
  have hs : S = List.sum := funext fun xs => (hS xs).exact
  subst hs
  have e1 : ∀ y xs, Rnd.esErr fin List.sum y xs = EsApprox.e1 y xs := by
    intro y xs
    simp only [Rnd.esErr, Rnd.vnorm, Rnd.vsub, EsApprox.e1, EsApprox.errNorm, Mv.vnorm, Mv.vsub, rd_fin_eq]
  have e2 : ∀ xs, Rnd.esSpread fin List.sum xs = EsApprox.spread xs := by
    intro xs
    unfold Rnd.esSpread EsApprox.spread
    rw [xsum_flatMap]
    congr 1
    refine List.map_congr_left fun a _ => ?_
    congr 1
    refine List.map_congr_left fun b _ => ?_
    rw [vsub_norm_comm]
    simp only [Rnd.vnorm, Rnd.vsub, Mv.vnorm, Mv.vsub, rd_fin_eq]
  constructor
  · funext y xs; simp only [Rnd.esNrg, EsApprox.nrg, rd_fin_eq, e1, e2]
  · funext y xs; simp only [Rnd.esFair, EsApprox.fair, rd_fin_eq, e1, e2]

example : ∃ S : List XF → XF, ∀ xs, RSum fin xs (S xs) := exists_rsum fin

/-- Full property: for all finite data the energy score computed in binary64 is close to the energy score.  Proved for
coordinates up to `2 ^ 479` and up to `2 ^ 20` members and coordinates; missing: larger data, for which it is false
(`C154_overflow_false`), and a relative error for very close data, for which it is false too
(`C154_underflow_false`). -/
theorem C154_nrg_partial {r : ℝ → XF} (hr : Binary64 r) {S : List XF → XF} (hS : ∀ xs, RSum r xs (S xs)) {D : ℕ}
    (hD : D ≤ 2 ^ 20) {y : Eu D} {xs : List (Eu D)} (hne : xs ≠ []) (hM : xs.length ≤ 2 ^ 20)
    (hy : ∀ i, |y i| ≤ 2 ^ 479) (hx : ∀ x ∈ xs, ∀ i, |x i| ≤ 2 ^ 479) :
    ∃ v : ℝ, Rnd.esNrg r S (vec y) (xs.map vec) = fin v ∧
      |v - es y (equalW xs)| ≤ (D + xs.length ^ 2) / 2 ^ 46 * ((xs.map fun x => dist x y).sum / xs.length) + 1 / 2 ^ 500 := by
  obtain ⟨v, e, hv⟩ := es_near hr hS hD hM hne hy hx (Q := (xs.length : ℝ) ^ 2) (by nlinarith [sq_nonneg (xs.length : ℝ)])
  refine ⟨v, ?_, ?_⟩
  · unfold Rnd.esNrg
    rw [List.length_map, natCast_fin, Nat.cast_pow, half_fin]
    exact e
  · rw [es_equal_eq]
    exact hv

/-- the data of the examples: three members in the plane -/
def plane3 : List (Eu 2) := [!₂[1, 2], !₂[3, -1], !₂[0, 5]]

theorem plane3_bound : ∀ x ∈ plane3, ∀ i, |x i| ≤ 2 ^ 479 := by
  have h : (5:ℝ) ≤ 2 ^ 479 := by
    calc (5:ℝ) ≤ 2 ^ 3 := by norm_num
      _ ≤ 2 ^ 479 := pow_le_pow_right₀ (by norm_num) (by norm_num)
  intro x hx i
  refine le_trans ?_ h
  simp only [plane3, List.mem_cons, List.not_mem_nil, or_false] at hx
  rcases hx with rfl | rfl | rfl <;> fin_cases i <;> norm_num

example : ∃ (S : List XF → XF), (∀ xs, RSum rn64 xs (S xs)) ∧ Binary64 rn64 ∧ 2 ≤ 2 ^ 20 ∧ plane3 ≠ [] ∧
    plane3.length ≤ 2 ^ 20 ∧ (∀ i, |(!₂[1, 2] : Eu 2) i| ≤ 2 ^ 479) ∧ ∀ x ∈ plane3, ∀ i, |x i| ≤ 2 ^ 479 := by
  obtain ⟨S, hS⟩ := exists_rsum rn64
  exact ⟨S, hS, rn64_nearest.toBinary64, by norm_num, by simp [plane3], by simp [plane3],
    plane3_bound _ (by simp [plane3]), plane3_bound⟩

/-- The same for the fair form, for two members or more. -/
theorem C154_fair_partial {r : ℝ → XF} (hr : Binary64 r) {S : List XF → XF} (hS : ∀ xs, RSum r xs (S xs)) {D : ℕ}
    (hD : D ≤ 2 ^ 20) {y : Eu D} {xs : List (Eu D)} (h2 : 2 ≤ xs.length) (hM : xs.length ≤ 2 ^ 20)
    (hy : ∀ i, |y i| ≤ 2 ^ 479) (hx : ∀ x ∈ xs, ∀ i, |x i| ≤ 2 ^ 479) :
    ∃ v : ℝ, Rnd.esFair r S (vec y) (xs.map vec) = fin v ∧
      |v - Spec.esFair y xs| ≤ (D + xs.length ^ 2) / 2 ^ 46 * ((xs.map fun x => dist x y).sum / xs.length) + 1 / 2 ^ 500 := by
  have hne : xs ≠ [] := by intro e; simp [e] at h2
  have h2' : (2:ℝ) ≤ xs.length := by exact_mod_cast h2
  obtain ⟨v, e, hv⟩ := es_near hr hS hD hM hne hy hx (Q := (xs.length : ℝ) * ((xs.length : ℝ) - 1)) (by nlinarith)
  refine ⟨v, ?_, ?_⟩
  · unfold Rnd.esFair
    rw [List.length_map, natCast_fin, natPred_cast h2, half_fin]
    exact e
  · have e2 : Spec.esFair y xs = meanDist y xs - 1 / 2 * (pairDist xs / ((xs.length : ℝ) * ((xs.length : ℝ) - 1))) := by
      unfold Spec.esFair meanDist pairDist
      rw [mul_comm (2:ℝ), ← div_div]
      ring
    rw [e2]
    exact hv

example : ∃ (S : List XF → XF), (∀ xs, RSum rn64 xs (S xs)) ∧ Binary64 rn64 ∧ 2 ≤ plane3.length ∧
    plane3.length ≤ 2 ^ 20 ∧ (∀ i, |(!₂[1, 2] : Eu 2) i| ≤ 2 ^ 479) ∧ ∀ x ∈ plane3, ∀ i, |x i| ≤ 2 ^ 479 := by
  obtain ⟨S, hS⟩ := exists_rsum rn64
  exact ⟨S, hS, rn64_nearest.toBinary64, by simp [plane3], by simp [plane3],
    plane3_bound _ (by simp [plane3]), plane3_bound⟩

/-- a point of the line -/
def pt (a : ℝ) : Eu 1 := !₂[a]

theorem vec_pt (a : ℝ) : vec (pt a) = [fin a] := by simp [vec, pt]

theorem dist_pt (a b : ℝ) : dist (pt a) (pt b) = |a - b| := by
  simp [pt, EuclideanSpace.dist_eq, Real.dist_eq, Real.sqrt_sq_eq_abs]

section
variable {r : ℝ → XF} (hr : Binary64 r) {S : List XF → XF} (hS : ∀ xs, RSum r xs (S xs))
include hr hS

theorem esNrg_single {a : ℝ} {v : XF} (hv : Rnd.vnorm r S (Rnd.vsub r [fin a] [fin 0]) = v) :
    Rnd.esNrg r S (vec (pt 0)) ([pt a].map vec) = Rnd.rd r (Rnd.rd r (v / fin 1) - fin 0) := by
  have h0 : r 0 = fin 0 := by simpa using hr.nat 0 (by norm_num)
  have e1 : Rnd.esErr r S [fin 0] [[fin a]] = Rnd.rd r (v / fin 1) := by
    show Rnd.rd r (S [Rnd.vnorm r S (Rnd.vsub r [fin a] [fin 0])] / fin ((1:ℕ) : ℝ)) = _
    rw [hv, (hS [v]).eq_one rfl, Nat.cast_one]
  have e2 : Rnd.esSpread r S [[fin a]] = fin 0 := by
    show S [Rnd.vnorm r S (Rnd.vsub r [fin a] [fin a])] = _
    rw [vnorm_self hr hS, (hS [fin 0]).eq_one rfl]
  have e3 : [pt a].map vec = [[fin a]] := by rw [List.map_singleton, vec_pt]
  rw [e3, vec_pt]
  unfold Rnd.esNrg
  rw [e1, e2]
  have e4 : fin 0 / (([[fin a]].length ^ 2 : ℕ) : XF) = fin 0 := by
    show fin 0 / fin ((1 ^ 2 : ℕ) : ℝ) = fin 0
    rw [fin_div (by norm_num), zero_div]
  rw [e4]
  have e5 : Rnd.rd r (fin 0) = fin 0 := h0
  rw [e5, half_fin, fin_mul, mul_zero, e5]

theorem esNrg_two {P : ℝ} (hP : 2 ^ 513 ≤ P) : Rnd.esNrg r S (vec (pt 0)) ([pt P, pt (-P)].map vec) = nan := by
  have hP0 : 0 < P := lt_of_lt_of_le (by positivity) hP
  have v1 := vnorm_over hr hS (a := P) (b := 0) (by rw [sub_zero, abs_of_pos hP0]; exact hP)
  have v2 := vnorm_over hr hS (a := -P) (b := 0) (by rw [sub_zero, abs_neg, abs_of_pos hP0]; exact hP)
  have v3 := vnorm_over hr hS (a := P) (b := -P) (by
    rw [sub_neg_eq_add, abs_of_pos (add_pos hP0 hP0)]; exact hP.trans (le_add_of_nonneg_left hP0.le))
  have v4 := vnorm_over hr hS (a := -P) (b := P) (by
    rw [abs_sub_comm, sub_neg_eq_add, abs_of_pos (add_pos hP0 hP0)]; exact hP.trans (le_add_of_nonneg_left hP0.le))
  have i1 : NonnegX pinf := .inl rfl
  have i2 : NonnegX (fin 0) := .inr ⟨0, le_refl _, rfl⟩
  have e1 : Rnd.esErr r S [fin 0] [[fin P], [fin (-P)]] = pinf := by
    show Rnd.rd r (S [Rnd.vnorm r S (Rnd.vsub r [fin P] [fin 0]), Rnd.vnorm r S (Rnd.vsub r [fin (-P)] [fin 0])]
      / fin ((2:ℕ) : ℝ)) = _
    rw [v1, v2, ((hS [pinf, pinf]).nonneg hr (by simp [i1])).2 (by simp)]
    simp [HDiv.hDiv, Div.div, XF.div, Rnd.rd]
  have e2 : Rnd.esSpread r S [[fin P], [fin (-P)]] = pinf := by
    show S [Rnd.vnorm r S (Rnd.vsub r [fin P] [fin P]), Rnd.vnorm r S (Rnd.vsub r [fin (-P)] [fin P]),
      Rnd.vnorm r S (Rnd.vsub r [fin P] [fin (-P)]), Rnd.vnorm r S (Rnd.vsub r [fin (-P)] [fin (-P)])] = _
    rw [v3, v4, vnorm_self hr hS, vnorm_self hr hS]
    exact ((hS [fin 0, pinf, pinf, fin 0]).nonneg hr (by simp [i1, i2])).2 (by simp)
  have e3 : [pt P, pt (-P)].map vec = [[fin P], [fin (-P)]] := by
    rw [List.map_cons, List.map_singleton, vec_pt, vec_pt]
  rw [e3, vec_pt]
  unfold Rnd.esNrg
  rw [e1, e2]
  have e4 : pinf / (([[fin P], [fin (-P)]].length ^ 2 : ℕ) : XF) = pinf := by
    show pinf / fin ((2 ^ 2 : ℕ) : ℝ) = pinf
    simp [HDiv.hDiv, Div.div, XF.div]
  rw [e4]
  have e5 : half * pinf = pinf := by rw [half_fin]; simp [HMul.hMul, Mul.mul, XF.mul, XF.infMul]
  show Rnd.rd r (pinf - Rnd.rd r (half * pinf)) = nan
  rw [e5]
  rfl

/-- A member `2 ^ 513` or more away from the observation gives an infinite score; two members that far away on either
side of the observation give NaN.  The energy scores are finite numbers. -/
theorem C154_overflow_false {P : ℝ} (hP : 2 ^ 513 ≤ P) :
    Rnd.esNrg r S (vec (pt 0)) ([pt P].map vec) = pinf ∧ es (pt 0) (equalW [pt P]) = P ∧
    Rnd.esNrg r S (vec (pt 0)) ([pt P, pt (-P)].map vec) = nan ∧ es (pt 0) (equalW [pt P, pt (-P)]) = P / 2 := by
  have hP0 : 0 < P := lt_of_lt_of_le (by positivity) hP
  refine ⟨?_, ?_, esNrg_two hr hS hP, ?_⟩
  · rw [esNrg_single hr hS (vnorm_over hr hS (by rw [sub_zero, abs_of_pos hP0]; exact hP))]
    have : pinf / fin 1 = pinf := by simp [HDiv.hDiv, Div.div, XF.div]
    rw [this]
    rfl
  · rw [es_equal_eq]
    simp [meanDist, pairDist, dist_pt, abs_of_pos hP0]
  · clear hP
    rw [es_equal_eq]
    simp only [meanDist, pairDist, dist_pt, List.map_cons, List.map_nil, List.sum_cons, List.sum_nil, List.length_cons,
      List.length_nil, sub_zero, sub_self, abs_neg, abs_zero, sub_neg_eq_add]
    rw [abs_of_pos hP0, abs_of_pos (by linarith : 0 < P + P), show |(-P) - P| = P + P by
      rw [abs_of_neg (by linarith)]; ring]
    norm_num
    ring

example : (2:ℝ) ^ 513 ≤ 2 ^ 600 := pow_le_pow_right₀ (by norm_num) (by norm_num)

/-- Observation and member at most `2 ^ -540` apart give the score zero, although the energy score is their distance. -/
theorem C154_underflow_false {d : ℝ} (h0 : 0 < d) (h : d ≤ 1 / 2 ^ 540) :
    Rnd.esNrg r S (vec (pt 0)) ([pt d].map vec) = fin 0 ∧ es (pt 0) (equalW [pt d]) = d := by
  have hz : r 0 = fin 0 := by simpa using hr.nat 0 (by norm_num)
  have e5 : Rnd.rd r (fin 0) = fin 0 := hz
  constructor
  · rw [esNrg_single hr hS (vnorm_under hr hS (by rw [sub_zero, abs_of_pos h0]; exact h)), fin_div one_ne_zero, zero_div, e5,
      fin_sub, sub_zero, e5]
  · rw [es_equal_eq]
    simp [meanDist, pairDist, dist_pt, abs_of_pos h0]

example : (0:ℝ) < 1 / 2 ^ 600 ∧ (1:ℝ) / 2 ^ 600 ≤ 1 / 2 ^ 540 :=
  ⟨by positivity, one_div_le_one_div_of_le (by positivity) (pow_le_pow_right₀ (by norm_num) (by norm_num))⟩

end

example : ∃ S : List XF → XF, (∀ xs, RSum rn64 xs (S xs)) ∧ Binary64 rn64 := by
  obtain ⟨S, hS⟩ := exists_rsum rn64
  exact ⟨S, hS, rn64_nearest.toBinary64⟩

end Verif
