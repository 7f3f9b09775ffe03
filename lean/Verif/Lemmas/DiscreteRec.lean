import Verif.Lemmas.DiscreteInf

/-!
# The CRPS of a mass function with `(i + 1) f (i + 1) = (α + β i) f i`
-/

noncomputable section

open scoped Classical

namespace Verif

open Spec

/-- Sign of `i - j`. -/
def sg (i j : ℕ) : ℝ := if j < i then 1 else if i < j then -1 else 0

theorem sg_abs (i j : ℕ) : |sg i j| ≤ 1 := by
  unfold sg; split_ifs <;> simp

theorem sg_swap (i j : ℕ) : sg j i = -sg i j := by
  unfold sg
  rcases lt_trichotomy i j with h | h | h
  · simp [h, h.le, not_lt.2 h.le]
  · simp [h]
  · simp [h, not_lt.2 h.le]

theorem sg_mul (i j : ℕ) : ((i:ℝ) - j) * sg i j = |(i:ℝ) - j| := by
  unfold sg
  rcases lt_trichotomy i j with h | h | h
  · have : (i:ℝ) < j := by exact_mod_cast h
    rw [if_neg (not_lt.2 h.le), if_pos h, abs_of_neg (by linarith)]; ring
  · simp [h]
  · have : (j:ℝ) < i := by exact_mod_cast h
    rw [if_pos h, abs_of_pos (by linarith)]; ring

theorem sg_succ (i j : ℕ) :
    sg (i + 1) j - sg i j = (if j = i then 1 else 0) + (if j = i + 1 then 1 else 0) := by
  unfold sg
  rcases lt_trichotomy j i with h | h | h
  · rw [if_pos (by omega), if_pos h, if_neg (by omega), if_neg (by omega)]; ring
  · rw [if_pos (by omega), if_neg (by omega), if_neg (by omega), if_pos h, if_neg (by omega)]; ring
  · rcases Nat.lt_or_ge (i + 1) j with h2 | h2
    · rw [if_neg (by omega), if_pos h2, if_neg (by omega), if_pos h, if_neg (by omega), if_neg (by omega)]; ring
    · rw [if_neg (by omega), if_neg (by omega), if_neg (by omega), if_pos h, if_neg (by omega),
        if_pos (by omega)]; ring

theorem summable_sg {f : ℕ → ℝ} (h : IsPmf f) (i : ℕ) : Summable fun j => f j * sg i j := by
  refine Summable.of_norm_bounded h.total.summable fun j => ?_
  rw [norm_mul, Real.norm_of_nonneg (h.nonneg j)]
  exact mul_le_of_le_one_right (h.nonneg j) (sg_abs i j)

theorem summable_pair_sg {u v : ℕ → ℝ} (hu : Summable u) (hv : Summable v) (u0 : ∀ k, 0 ≤ u k)
    (v0 : ∀ k, 0 ≤ v k) : Summable fun p : ℕ × ℕ => u p.1 * v p.2 * sg p.1 p.2 := by
  refine Summable.of_norm_bounded (hu.mul_of_nonneg hv u0 v0) fun p => ?_
  rw [norm_mul, Real.norm_of_nonneg (mul_nonneg (u0 _) (v0 _))]
  exact mul_le_of_le_one_right (mul_nonneg (u0 _) (v0 _)) (sg_abs _ _)

theorem hasSum_swap {F : ℕ × ℕ → ℝ} {a : ℝ} (h : HasSum F a) : HasSum (fun p : ℕ × ℕ => F (p.2, p.1)) a :=
  (Equiv.prodComm ℕ ℕ).hasSum_iff.2 h

/-- The mean absolute difference of two independent draws. -/
theorem pair_recur {f : ℕ → ℝ} {α β : ℝ} (h : IsPmf f) (hm : Summable fun k : ℕ => (k:ℝ) * f k)
    (hr : ∀ i : ℕ, ((i:ℝ) + 1) * f (i + 1) = (α + β * i) * f i) :
    HasSum (fun i : ℕ => (α + β * i) * f i * (f i + f (i + 1)))
      ((1 - β) * ((∑' p : ℕ × ℕ, f p.1 * f p.2 * |(p.1:ℝ) - p.2|) / 2)) := by
  have m0 : ∀ k : ℕ, 0 ≤ (k:ℝ) * f k := fun k => mul_nonneg (Nat.cast_nonneg k) (h.nonneg k)
  set g : ℕ → ℝ := fun i => ∑' j, f j * sg i j with hg
  have hgs : ∀ i, HasSum (fun j => f j * sg i j) (g i) := fun i => (summable_sg h i).hasSum
  have hstep : ∀ i, g (i + 1) - g i = f i + f (i + 1) := by
    intro i
    have h1 := (hgs (i + 1)).sub (hgs i)
    have h2 : HasSum (fun j => (if j = i then f i else 0) + (if j = i + 1 then f (i + 1) else 0))
        (f i + f (i + 1)) := (hasSum_ite_eq i (f i)).add (hasSum_ite_eq (i + 1) (f (i + 1)))
    refine (hasSum_of_eq h1 (fun j => ?_) rfl).unique h2 |>.symm ▸ rfl
    rw [← mul_sub, sg_succ]
    split_ifs with a b b <;> simp_all
  -- the sum of `f i * g i` vanishes
  have P0 := (summable_pair_sg h.total.summable h.total.summable h.nonneg h.nonneg).hasSum
  set p0 := ∑' p : ℕ × ℕ, f p.1 * f p.2 * sg p.1 p.2
  have e0 : p0 = 0 := by
    have h1 := hasSum_of_eq (hasSum_swap P0).neg (g := fun p : ℕ × ℕ => f p.1 * f p.2 * sg p.1 p.2)
      (fun p => by dsimp only; rw [sg_swap p.1 p.2]; ring) rfl
    have := h1.unique P0
    linarith
  have G0 : HasSum (fun i => f i * g i) 0 := by
    rw [← e0]
    exact P0.prod_fiberwise fun i =>
      hasSum_of_eq ((hgs i).mul_left (f i)) (fun j => by dsimp only; ring) rfl
  -- the sum of `i * f i * g i` is half the mean absolute difference
  have P1 := (summable_pair_sg hm h.total.summable m0 h.nonneg).hasSum
  set T := ∑' p : ℕ × ℕ, (p.1:ℝ) * f p.1 * f p.2 * sg p.1 p.2
  have G1 : HasSum (fun i : ℕ => (i:ℝ) * f i * g i) T :=
    P1.prod_fiberwise fun i =>
      hasSum_of_eq ((hgs i).mul_left ((i:ℝ) * f i)) (fun j => by dsimp only; ring) rfl
  have eT : (∑' p : ℕ × ℕ, f p.1 * f p.2 * |(p.1:ℝ) - p.2|) / 2 = T := by
    have h1 := P1.add (hasSum_swap P1)
    have h2 := hasSum_of_eq h1 (g := fun p : ℕ × ℕ => f p.1 * f p.2 * |(p.1:ℝ) - p.2|)
      (fun p => by dsimp only; rw [← sg_mul, sg_swap p.1 p.2]; ring) rfl
    rw [h2.tsum_eq]; ring
  have G2 : HasSum (fun i : ℕ => (α + β * i) * f i * g (i + 1)) T := by
    have h1 := (hasSum_nat_add_iff (f := fun i : ℕ => (i:ℝ) * f i * g i) 1 (g := T)).2 (by simpa using G1)
    refine hasSum_of_eq h1 (fun i => ?_) rfl
    rw [← hr]; push_cast; ring
  rw [eT]
  refine hasSum_of_eq ((G2.sub (G0.mul_left α)).sub (G1.mul_left β)) (fun i => ?_) ?_
  · rw [← hstep]; ring
  · ring

theorem cdfPmf_floor {f : ℕ → ℝ} {y : ℝ} (hy : 0 ≤ y) :
    cdfPmf f y = ∑ k ∈ Finset.range (⌊y⌋₊ + 1), f k := by
  unfold cdfPmf
  rw [tsum_eq_sum (s := Finset.range (⌊y⌋₊ + 1))]
  · refine Finset.sum_congr rfl fun k hk => ?_
    rw [if_pos]
    exact (Nat.le_floor_iff hy).1 (by simpa [Nat.lt_succ_iff] using hk)
  · intro k hk
    rw [if_neg]
    intro h
    exact hk (by simpa [Nat.lt_succ_iff] using Nat.le_floor h)

theorem cdfPmf_neg {f : ℕ → ℝ} {y : ℝ} (hy : y < 0) : cdfPmf f y = 0 := by
  unfold cdfPmf
  have : ∀ k : ℕ, ¬ (k:ℝ) ≤ y := fun k h => absurd (h.trans_lt hy) (not_lt.2 (Nat.cast_nonneg k))
  simp [this]

/-- The mean absolute deviation from `y`. -/
theorem absdev {f : ℕ → ℝ} (h : IsPmf f) {m : ℝ} (hm : HasSum (fun k : ℕ => (k:ℝ) * f k) m) (y : ℝ) :
    ∑' k : ℕ, f k * |(k:ℝ) - y| = m - y + 2 * ∑ k ∈ Finset.range (⌊y⌋₊ + 1),
      if (k:ℝ) ≤ y then (y - k) * f k else 0 := by
  have h1 := (hm.sub (h.total.mul_left y)).add ((hasSum_sum_of_ne_finset_zero (L := .unconditional ℕ)
    (f := fun k : ℕ => if (k:ℝ) ≤ y then (y - k) * f k else 0) (s := Finset.range (⌊y⌋₊ + 1)) (by
      intro k hk
      rw [if_neg]
      intro h
      exact hk (by simpa [Nat.lt_succ_iff] using Nat.le_floor h))).mul_left 2)
  rw [(hasSum_of_eq h1 (g := fun k : ℕ => f k * |(k:ℝ) - y|) (fun k => ?_) rfl).tsum_eq, mul_one]
  split_ifs with hk
  · rw [abs_of_nonpos (by linarith)]; ring
  · rw [abs_of_nonneg (by linarith)]; ring

theorem absdev_neg {f : ℕ → ℝ} (h : IsPmf f) {m : ℝ} (hm : HasSum (fun k : ℕ => (k:ℝ) * f k) m) {y : ℝ}
    (hy : y < 0) : ∑' k : ℕ, f k * |(k:ℝ) - y| = m - y := by
  rw [absdev h hm, Finset.sum_eq_zero, mul_zero, add_zero]
  intro k _
  rw [if_neg]
  exact fun hk => absurd (hk.trans_lt hy) (not_lt.2 (Nat.cast_nonneg k))

theorem absdev_nonneg {f : ℕ → ℝ} (h : IsPmf f) {m : ℝ} (hm : HasSum (fun k : ℕ => (k:ℝ) * f k) m) {y : ℝ}
    (hy : 0 ≤ y) : ∑' k : ℕ, f k * |(k:ℝ) - y| = m - y + 2 * (y * cdfPmf f y
      - ∑ k ∈ Finset.range (⌊y⌋₊ + 1), (k:ℝ) * f k) := by
  rw [absdev h hm, cdfPmf_floor hy, Finset.mul_sum _ f, ← Finset.sum_sub_distrib]
  congr 2
  refine Finset.sum_congr rfl fun k hk => ?_
  rw [if_pos ((Nat.le_floor_iff hy).1 (by simpa [Nat.lt_succ_iff] using hk))]
  ring

end Verif
