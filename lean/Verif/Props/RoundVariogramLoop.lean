import Verif.Lemmas.RoundVariogramLoop2
import Verif.Props.RoundVariogram

/-!
# Property C169: accuracy of the compiled variogram score in binary64

The variogram score of the numba path (`core/variogram/_gufuncs.py:8-54`) of order between one half and two is computed
with an error of at most `3 M + D ^ 2 + 42` (fair form `M ^ 2 D ^ 2 + 40`) units of `2 ^ -51` relative to the same sum
with plus signs in place of the minus signs.  The fair form adds all pairs of members into one variable, so its bound
grows with the product of the two sizes, where that of the array form (`C164_fair_partial`) grows with their sum.
-/

noncomputable section

open scoped Classical

namespace Verif

open XF Py Mv Spec

/-- Without rounding the functions are those of the exact model. -/
theorem C169_exact : RndLoop.vsNrg fin = VsGufunc.nrg ∧ RndLoop.vsFair fin = VsGufunc.fair := by
  constructor
  · funext w p y xs
    simp only [RndLoop.vsNrg, VsGufunc.nrg, RndLoop.vrho, Mv.rho, rd_fin_eq]
  · funext w p y xs
    simp only [RndLoop.vsFair, VsGufunc.fair, RndLoop.vrho, Mv.rho, rd_fin_eq]

example : RndLoop.vsNrg fin (matl fun _ _ : Fin 2 => 1) 1 (vec !₂[1, 2]) (plane3v.map vec)
    = VsGufunc.nrg (matl fun _ _ : Fin 2 => 1) 1 (vec !₂[1, 2]) (plane3v.map vec) := by rw [C169_exact.1]

/-- Full property: for all finite data and every positive order the compiled variogram score is close to the variogram
score.  Proved for orders between one half and two, coordinates up to `2 ^ 199`, weights up to `2 ^ 100` and up to
`2 ^ 20` members and coordinates; missing: other orders, and larger data, for which it is false
(`C169_overflow_false`). -/
theorem C169_nrg_partial {r : ℝ → XF} (hr : Binary64 r) {p : ℝ}
    (hp : 1 / 2 ≤ p) (hp2 : p ≤ 2) {D : ℕ} (hD : 0 < D) (hD2 : D ≤ 2 ^ 20) {W : Fin D → Fin D → ℝ}
    (hW : ∀ i j, |W i j| ≤ 2 ^ 100) {y : Eu D} {xs : List (Eu D)} (hne : xs ≠ []) (hM : xs.length ≤ 2 ^ 20)
    (hy : ∀ i, |y i| ≤ 2 ^ 199) (hx : ∀ x ∈ xs, ∀ i, |x i| ≤ 2 ^ 199) :
    ∃ v : ℝ, RndLoop.vsNrg r (matl W) p (vec y) (xs.map vec) = fin v ∧
      |v - vs p W y (equalW xs)| ≤ (3 * xs.length + (D : ℝ) ^ 2 + 42) / 2 ^ 51 *
        ∑ i, ∑ j, (|W i j| * (|y i - y j| ^ p + (xs.map fun x => |x i - x j| ^ p).sum / xs.length + 1 / 2 ^ 469) ^ 2
          + 1 / 2 ^ 938) := by
  obtain ⟨_, _, v, e, hv⟩ := loopNrg_near hr hp hp2 hD hD2 hW hne hM (diff_big hy) fun x h => diff_big (hx x h)
  refine ⟨v, e, ?_⟩
  rw [vs_equal_eq]
  refine hv.trans (le_of_eq ?_)
  rw [mul_one_div]
  rfl

example : Binary64 rn64 ∧ (1:ℝ) / 2 ≤ 1 / 2 ∧ (1:ℝ) / 2 ≤ 2 ∧
    2 ≤ 2 ^ 20 ∧ (∀ i j : Fin 2, |(fun _ _ => 1 : Fin 2 → Fin 2 → ℝ) i j| ≤ 2 ^ 100) ∧ plane3v ≠ [] ∧
    plane3v.length ≤ 2 ^ 20 ∧ (∀ i, |(!₂[1, 2] : Eu 2) i| ≤ 2 ^ 199) ∧ ∀ x ∈ plane3v, ∀ i, |x i| ≤ 2 ^ 199 :=
  ⟨rn64_nearest.toBinary64, by norm_num, by norm_num, by norm_num, by norm_num, by simp [plane3v],
    by simp [plane3v], plane3v_bound _ (by simp [plane3v]), plane3v_bound⟩

/-- The same for the fair form, for two members or more, at most `2 ^ 20` values in all and weights whose double is a
binary64 number (`hW2`; every binary64 weight up to `2 ^ 99` is one).  Both terms of the score count with plus signs. -/
theorem C169_fair_partial {r : ℝ → XF} (hr : Binary64 r) {p : ℝ}
    (hp : 1 / 2 ≤ p) (hp2 : p ≤ 2) {D : ℕ} (hD : 0 < D) {W : Fin D → Fin D → ℝ}
    (hW : ∀ i j, |W i j| ≤ 2 ^ 99) (hW2 : ∀ i j, r (2 * W i j) = fin (2 * W i j)) {y : Eu D} {xs : List (Eu D)}
    (h2 : 2 ≤ xs.length) (hMD : xs.length * D ≤ 2 ^ 20)
    (hy : ∀ i, |y i| ≤ 2 ^ 199) (hx : ∀ x ∈ xs, ∀ i, |x i| ≤ 2 ^ 199) :
    ∃ v : ℝ, RndLoop.vsFair r (matl W) p (vec y) (xs.map vec) = fin v ∧
      |v - Spec.vsFair p W y xs| ≤ ((xs.length : ℝ) ^ 2 * (D : ℝ) ^ 2 + 40) / 2 ^ 51 *
        ((xs.map fun x => ∑ i, ∑ j, (|W i j| * (|x i - x j| ^ p + |y i - y j| ^ p + 1 / 2 ^ 469) ^ 2 + 1 / 2 ^ 938)).sum
            / xs.length
          + 1 / 2 * ((xs.map fun a => (xs.map fun b => ∑ i, ∑ j, (|W i j| * (|a i - a j| ^ p + |b i - b j| ^ p
              + 1 / 2 ^ 469) ^ 2 + 1 / 2 ^ 938)).sum).sum / ((xs.length : ℝ) * ((xs.length : ℝ) - 1)))) := by
  obtain ⟨_, _, v, e, hv⟩ := loopFair_near hr hp hp2 hD hW hW2 h2 hMD (diff_big hy) fun x h => diff_big (hx x h)
  refine ⟨v, e, hv.trans (le_of_eq ?_)⟩
  rw [mul_one_div]
  rfl

example : Binary64 rn64 ∧ (1:ℝ) / 2 ≤ 1 / 2 ∧ (1:ℝ) / 2 ≤ 2 ∧
    (∀ i j : Fin 2, |(fun _ _ => 1 : Fin 2 → Fin 2 → ℝ) i j| ≤ 2 ^ 99) ∧
    (∀ i j : Fin 2, rn64 (2 * (fun _ _ => 1 : Fin 2 → Fin 2 → ℝ) i j) = fin (2 * (fun _ _ => 1 : Fin 2 → Fin 2 → ℝ) i j)) ∧
    2 ≤ plane3v.length ∧ plane3v.length * 2 ≤ 2 ^ 20 ∧ (∀ i, |(!₂[1, 2] : Eu 2) i| ≤ 2 ^ 199) ∧
    ∀ x ∈ plane3v, ∀ i, |x i| ≤ 2 ^ 199 := by
  refine ⟨rn64_nearest.toBinary64, by norm_num, by norm_num, by norm_num, fun _ _ => ?_,
    by simp [plane3v], by simp [plane3v], plane3v_bound _ (by simp [plane3v]), plane3v_bound⟩
  exact int_rd rn64_nearest (n := 2) (by norm_num) (x := 2 * 1) (by norm_num)

/-- Both coordinates of `wide` are binary64 numbers, the forecast puts all its weight on the observation and its variogram
score is zero, for every order; the compiled code returns NaN. -/
theorem C169_overflow_false {r : ℝ → XF} (hr : Binary64 r) {p : ℝ} (hp : 0 < p) :
    RndLoop.vsNrg r (matl fun _ _ : Fin 2 => 1) p (vec wide) [vec wide] = nan ∧ vs p (fun _ _ => 1) wide (equalW [wide]) = 0 := by
  constructor
  · have e : RndLoop.vrho r p (vec wide) 1 0 = pinf := by
      unfold RndLoop.vrho
      have i0 : idx (vec wide) 0 = fin (-2 ^ 1023) := idx_vec wide 0
      have i1 : idx (vec wide) 1 = fin (2 ^ 1023) := idx_vec wide 1
      rw [i0, i1, fin_sub]
      have : Rnd.rd r (fin (2 ^ 1023 - -2 ^ 1023)) = pinf := by
        refine hr.over (le_of_eq ?_)
        rw [sub_neg_eq_add, ← two_mul, ← pow_succ']
      rw [this, abs_pinf]
      unfold XF.rpow
      rw [if_neg hp.ne']
      simp only [if_pos hp]
      rfl
    have hs := RSum.fold (r := r) (fun q : Fin 2 × Fin 2 => Rnd.wsq r (fin 1) (RndLoop.vrho r p (vec wide) q.1 q.2)
      (Rnd.rd r ((forRange 0 1 (0 : XF) fun m v =>
        Rnd.rd r (v + RndLoop.vrho r p (vat [vec wide] m) q.1 q.2)) / ((1:ℕ) : XF)))) (gridF 2)
      (L := [fin 0]) (s := fin 0) (.one _) (by simp)
    unfold RndLoop.vsNrg
    simp only [vec_length, List.length_singleton]
    rw [grid_fold 2 (0 : XF) fun s i j => _]
    simp only [mget_matl]
    refine hs.nan_mem (List.mem_append_right _ (List.mem_map.2 ⟨(1, 0), ?_, ?_⟩))
    · unfold gridF
      exact List.pair_mem_product.2 ⟨List.mem_finRange _, List.mem_finRange _⟩
    · have ev : vat [vec wide] 0 = vec wide := rfl
      have e2 : (forRange 0 1 (0 : XF) fun m v => Rnd.rd r (v + RndLoop.vrho r p (vat [vec wide] m) (1 : Fin 2) (0 : Fin 2)))
          = pinf := by
        show Rnd.rd r (0 + RndLoop.vrho r p (vat [vec wide] 0) 1 0) = pinf
        rw [ev, e]
        rfl
      dsimp only
      rw [e2]
      show Rnd.wsq r (fin 1) (RndLoop.vrho r p (vec wide) 1 0) _ = nan
      rw [e, pinf_div_nat]
      unfold Rnd.wsq
      have e3 : Rnd.rd r (pinf - Rnd.rd r pinf) = nan := rfl
      rw [e3, nan_pow 1]
      have e4 : Rnd.rd r nan = nan := rfl
      rw [e4, mul_nan]
      rfl
  · rw [vs_equal_eq]
    simp

example : Binary64 rn64 ∧ (0:ℝ) < 1 / 2 := ⟨rn64_nearest.toBinary64, by norm_num⟩

end Verif
