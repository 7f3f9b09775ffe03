import Verif.Lemmas.RoundVariogram2
import Verif.Lemmas.Nearest64
import Verif.Lemmas.CrpsInf
import Verif.Lemmas.ClosedInf

/-!
# Property C164: accuracy of the variogram score in binary64

The vectorised variogram score (`core/variogram/_score.py`) of order between one half and two is computed with an error
of at most `3 M + D ^ 2 + 38` (fair form `M ^ 2 + D ^ 2 + 38`) units of `2 ^ -51` relative to the same sum with plus
signs in place of the minus signs, in whatever order the backend adds.  Beyond the range of binary64 a perfect forecast
gets the score NaN.
-/

noncomputable section

open scoped Classical

namespace Verif

open XF Py Mv Spec

/-- Without rounding the functions are those of the exact model, in whatever order the entries are added. -/
theorem C164_exact {S : List XF → XF} (hS : ∀ xs, RSum fin xs (S xs)) :
    Rnd.vsNrg fin S = VsApprox.nrg ∧ Rnd.vsFair fin S = VsApprox.fair := by
  have hs : S = List.sum := funext fun xs => (hS xs).exact
  subst hs
  have e : ∀ D f, Rnd.dsum List.sum D f = Mv.dsum D f := by
    intro D f
    unfold Rnd.dsum Mv.dsum
    rw [xsum_flatMap]
  constructor
  · funext w p y xs
    simp only [Rnd.vsNrg, VsApprox.nrg, Rnd.wsq, Rnd.rhoT, Mv.rhoT, rd_fin_eq, e]
  · funext w p y xs
    simp only [Rnd.vsFair, VsApprox.fair, Rnd.vsE1, Rnd.vsE2, VsApprox.e1, VsApprox.e2, Rnd.wsq, Rnd.rhoT, Mv.rhoT,
      rd_fin_eq, e, xsum_flatMap]

example : ∃ S : List XF → XF, ∀ xs, RSum fin xs (S xs) := exists_rsum fin

theorem diff_big {D : ℕ} {v : Eu D} (h : ∀ i, |v i| ≤ 2 ^ 199) (i j : Fin D) : |v i - v j| ≤ 2 ^ 200 := by
  refine (abs_sub _ _).trans ((add_le_add (h i) (h j)).trans (le_of_eq ?_))
  rw [← two_mul, ← pow_succ']

theorem vs_equal_eq {D : ℕ} (p : ℝ) (W : Fin D → Fin D → ℝ) (y : Eu D) (xs : List (Eu D)) :
    vs p W y (equalW xs) = ∑ i, ∑ j, W i j * (vdiff p y i j - (xs.map fun x => vdiff p x i j).sum / xs.length) ^ 2 := by
  unfold Spec.vs
  refine Finset.sum_congr rfl fun i _ => Finset.sum_congr rfl fun j _ => ?_
  congr 3
  unfold equalW
  rw [List.map_map, ← sum_map_div']
  apply sum_map_congr; intro x _
  simp only [Function.comp_apply]
  ring

/-- Full property: for all finite data and every positive order the variogram score computed in binary64 is close to the
variogram score.  Proved for orders between one half and two, coordinates up to `2 ^ 199`, weights up to `2 ^ 100` and up
to `2 ^ 20` members and coordinates; missing: other orders, and larger data, for which it is false
(`C164_overflow_false`). -/
theorem C164_nrg_partial {r : ℝ → XF} (hr : Binary64 r) {S : List XF → XF} (hS : ∀ xs, RSum r xs (S xs)) {p : ℝ}
    (hp : 1 / 2 ≤ p) (hp2 : p ≤ 2) {D : ℕ} (hD : 0 < D) (hD2 : D ≤ 2 ^ 20) {W : Fin D → Fin D → ℝ}
    (hW : ∀ i j, |W i j| ≤ 2 ^ 100) {y : Eu D} {xs : List (Eu D)} (hne : xs ≠ []) (hM : xs.length ≤ 2 ^ 20)
    (hy : ∀ i, |y i| ≤ 2 ^ 199) (hx : ∀ x ∈ xs, ∀ i, |x i| ≤ 2 ^ 199) :
    ∃ v : ℝ, Rnd.vsNrg r S (matl W) p (vec y) (xs.map vec) = fin v ∧
      |v - vs p W y (equalW xs)| ≤ (3 * xs.length + (D : ℝ) ^ 2 + 38) / 2 ^ 51 *
        ∑ i, ∑ j, (|W i j| * (|y i - y j| ^ p + (xs.map fun x => |x i - x j| ^ p).sum / xs.length + 1 / 2 ^ 469) ^ 2
          + 1 / 2 ^ 938) := by
  obtain ⟨_, _, v, e, hv⟩ := vsNrg_near hr hS hp hp2 hD hD2 hW hne hM (diff_big hy) fun x h => diff_big (hx x h)
  refine ⟨v, e, ?_⟩
  rw [vs_equal_eq]
  refine hv.trans (le_of_eq ?_)
  rw [mul_one_div]
  rfl

/-- the data of the examples: three members in the plane -/
def plane3v : List (Eu 2) := [!₂[1, 2], !₂[3, -1], !₂[0, 5]]

theorem plane3v_bound : ∀ x ∈ plane3v, ∀ i, |x i| ≤ 2 ^ 199 := by
  have h : (5:ℝ) ≤ 2 ^ 199 := by
    calc (5:ℝ) ≤ 2 ^ 3 := by norm_num
      _ ≤ 2 ^ 199 := pow_le_pow_right₀ (by norm_num) (by norm_num)
  intro x hx i
  refine le_trans ?_ h
  simp only [plane3v, List.mem_cons, List.not_mem_nil, or_false] at hx
  rcases hx with rfl | rfl | rfl <;> fin_cases i <;> norm_num

example : ∃ (S : List XF → XF), (∀ xs, RSum rn64 xs (S xs)) ∧ Binary64 rn64 ∧ (1:ℝ) / 2 ≤ 1 / 2 ∧ (1:ℝ) / 2 ≤ 2 ∧
    2 ≤ 2 ^ 20 ∧ (∀ i j : Fin 2, |(fun _ _ => 1 : Fin 2 → Fin 2 → ℝ) i j| ≤ 2 ^ 100) ∧ plane3v ≠ [] ∧
    2 ≤ plane3v.length ∧ plane3v.length ≤ 2 ^ 20 ∧ (∀ i, |(!₂[1, 2] : Eu 2) i| ≤ 2 ^ 199) ∧
    ∀ x ∈ plane3v, ∀ i, |x i| ≤ 2 ^ 199 := by
  obtain ⟨S, hS⟩ := exists_rsum rn64
  exact ⟨S, hS, rn64_nearest.toBinary64, by norm_num, by norm_num, by norm_num, by norm_num, by simp [plane3v],
    by simp [plane3v], by simp [plane3v], plane3v_bound _ (by simp [plane3v]), plane3v_bound⟩

/-- The same for the fair form, for two members or more; both terms of the score count with plus signs. -/
theorem C164_fair_partial {r : ℝ → XF} (hr : Binary64 r) {S : List XF → XF} (hS : ∀ xs, RSum r xs (S xs)) {p : ℝ}
    (hp : 1 / 2 ≤ p) (hp2 : p ≤ 2) {D : ℕ} (hD : 0 < D) (hD2 : D ≤ 2 ^ 20) {W : Fin D → Fin D → ℝ}
    (hW : ∀ i j, |W i j| ≤ 2 ^ 100) {y : Eu D} {xs : List (Eu D)} (h2 : 2 ≤ xs.length) (hM : xs.length ≤ 2 ^ 20)
    (hy : ∀ i, |y i| ≤ 2 ^ 199) (hx : ∀ x ∈ xs, ∀ i, |x i| ≤ 2 ^ 199) :
    ∃ v : ℝ, Rnd.vsFair r S (matl W) p (vec y) (xs.map vec) = fin v ∧
      |v - Spec.vsFair p W y xs| ≤ ((xs.length : ℝ) ^ 2 + (D : ℝ) ^ 2 + 38) / 2 ^ 51 *
        ((xs.map fun x => ∑ i, ∑ j, (|W i j| * (|x i - x j| ^ p + |y i - y j| ^ p + 1 / 2 ^ 469) ^ 2 + 1 / 2 ^ 938)).sum
            / xs.length
          + 1 / 2 * ((xs.map fun a => (xs.map fun b => ∑ i, ∑ j, (|W i j| * (|a i - a j| ^ p + |b i - b j| ^ p
              + 1 / 2 ^ 469) ^ 2 + 1 / 2 ^ 938)).sum).sum / ((xs.length : ℝ) * ((xs.length : ℝ) - 1)))) := by
  obtain ⟨_, _, v, e, hv⟩ := vsFair_near hr hS hp hp2 hD hD2 hW h2 hM (diff_big hy) fun x h => diff_big (hx x h)
  refine ⟨v, e, hv.trans (le_of_eq ?_)⟩
  rw [mul_one_div]
  rfl

example : ∃ (S : List XF → XF), (∀ xs, RSum rn64 xs (S xs)) ∧ Binary64 rn64 ∧ (1:ℝ) / 2 ≤ 1 / 2 ∧ (1:ℝ) / 2 ≤ 2 ∧
    2 ≤ 2 ^ 20 ∧ (∀ i j : Fin 2, |(fun _ _ => 1 : Fin 2 → Fin 2 → ℝ) i j| ≤ 2 ^ 100) ∧
    2 ≤ plane3v.length ∧ plane3v.length ≤ 2 ^ 20 ∧ (∀ i, |(!₂[1, 2] : Eu 2) i| ≤ 2 ^ 199) ∧
    ∀ x ∈ plane3v, ∀ i, |x i| ≤ 2 ^ 199 := by
  obtain ⟨S, hS⟩ := exists_rsum rn64
  exact ⟨S, hS, rn64_nearest.toBinary64, by norm_num, by norm_num, by norm_num, by norm_num,
    by simp [plane3v], by simp [plane3v], plane3v_bound _ (by simp [plane3v]), plane3v_bound⟩

theorem RSum.nan_mem {r : ℝ → XF} {xs : List XF} {s : XF} (h : RSum r xs s) : nan ∈ xs → s = nan := by
  induction h with
  | nil => intro h; simp at h
  | one x => intro h; exact (List.mem_singleton.1 h).symm
  | append _ _ _ _ ih1 ih2 =>
    intro h
    rcases List.mem_append.1 h with h | h
    · rw [ih1 h, nan_add]; rfl
    · rw [ih2 h, add_nan]; rfl
  | perm hp _ ih => intro h; exact ih (hp.mem_iff.2 h)

/-- two coordinates whose difference is beyond binary64 -/
def wide : Eu 2 := !₂[-2 ^ 1023, 2 ^ 1023]

/-- Both coordinates of `wide` are binary64 numbers, the forecast puts all its weight on the observation and its variogram
score is zero, for every order; the code returns NaN. -/
theorem C164_overflow_false {r : ℝ → XF} (hr : Binary64 r) {S : List XF → XF} (hS : ∀ xs, RSum r xs (S xs)) {p : ℝ}
    (hp : 0 < p) :
    Rnd.vsNrg r S (matl fun _ _ : Fin 2 => 1) p (vec wide) [vec wide] = nan ∧ vs p (fun _ _ => 1) wide (equalW [wide]) = 0 := by
  constructor
  · have e : Rnd.rhoT r p (vec wide) 0 1 = pinf := by
      unfold Rnd.rhoT
      have i0 : idx (vec wide) 0 = fin (-2 ^ 1023) := idx_vec wide 0
      have i1 : idx (vec wide) 1 = fin (2 ^ 1023) := idx_vec wide 1
      rw [i0, i1, fin_sub]
      have : Rnd.rd r (fin (2 ^ 1023 - -2 ^ 1023)) = pinf := by
        refine hr.over (le_of_eq ?_)
        rw [sub_neg_eq_add, ← two_mul, ← pow_succ']
      rw [this, abs_pinf]
      unfold XF.rpow
      rw [if_neg hp.ne']
      simp only [if_pos hp]
      rfl
    refine (hS _).nan_mem ?_
    rw [List.mem_flatMap]
    refine ⟨0, by simp [vec_length], ?_⟩
    rw [List.mem_map]
    refine ⟨1, by simp [vec_length], ?_⟩
    have e2 : S ([vec wide].map fun x => Rnd.rhoT r p x 0 1) = pinf := by
      have := (hS ([vec wide].map fun x => Rnd.rhoT r p x 0 1)).eq_one (x := pinf) (by simp [e])
      exact this
    dsimp only
    rw [e, e2, pinf_div_nat]
    unfold Rnd.wsq
    have e3 : Rnd.rd r (pinf - Rnd.rd r pinf) = nan := rfl
    rw [e3, nan_pow 1]
    have e4 : Rnd.rd r nan = nan := rfl
    rw [e4, mul_nan]
    rfl
  · rw [vs_equal_eq]
    simp

example : ∃ S : List XF → XF, (∀ xs, RSum rn64 xs (S xs)) ∧ Binary64 rn64 ∧ (0:ℝ) < 1 / 2 := by
  obtain ⟨S, hS⟩ := exists_rsum rn64
  exact ⟨S, hS, rn64_nearest.toBinary64, by norm_num⟩

end Verif
