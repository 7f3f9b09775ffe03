import Verif.Props.Unbiased

/-!
# A small change of the data changes a kernel score by little
-/

noncomputable section

open scoped Classical

namespace Verif

open XF Py Api Spec Mv

section
variable {M : ℕ} {E : Type} [PseudoMetricSpace E] {K : E → E → ℝ} {L : ℝ}

/-- the kernel changes by at most `L` times the distances its arguments move, and is constant on the diagonal -/
structure LipK (K : E → E → ℝ) (L : ℝ) : Prop where
  lip : ∀ a a' b b', |K a b - K a' b'| ≤ L * (dist a a' + dist b b')
  diag : ∀ a b, K a a = K b b

theorem ks_ofFnW (K : E → E → ℝ) (y : E) (x : Fin M → E) (w : Fin M → ℝ) :
    ks K y (List.ofFn fun i => (x i, w i))
      = 1 / 2 * (∑ i, ∑ j, w i * w j * K (x i) (x j)) + 1 / 2 * K y y - ∑ i, w i * K (x i) y := by
  unfold ks
  simp only [sum_ofFn_map]

theorem eqW_ofFn (x : Fin M → E) : eqW (List.ofFn x) = List.ofFn fun i => (x i, 1 / (M:ℝ)) := by
  unfold eqW
  rw [List.map_ofFn, List.length_ofFn]; rfl

theorem abs_sum_sub_le {ι : Type} (s : Finset ι) {f g b : ι → ℝ} (h : ∀ i ∈ s, |f i - g i| ≤ b i) :
    |∑ i ∈ s, f i - ∑ i ∈ s, g i| ≤ ∑ i ∈ s, b i := by
  rw [← Finset.sum_sub_distrib]
  exact (Finset.abs_sum_le_sum_abs _ _).trans (Finset.sum_le_sum h)

/-- weights summing to one -/
theorem ks_lip (hK : LipK K L) {w : Fin M → ℝ} (hw : ∀ i, 0 ≤ w i) (h1 : ∑ i, w i = 1) (y y' : E)
    (x x' : Fin M → E) :
    |ks K y (List.ofFn fun i => (x i, w i)) - ks K y' (List.ofFn fun i => (x' i, w i))|
      ≤ L * (dist y y' + 2 * ∑ i, w i * dist (x i) (x' i)) := by
  rw [ks_ofFnW, ks_ofFnW, hK.diag y y']
  have e1 : |∑ i, ∑ j, w i * w j * K (x i) (x j) - ∑ i, ∑ j, w i * w j * K (x' i) (x' j)|
      ≤ ∑ i, ∑ j, w i * w j * (L * (dist (x i) (x' i) + dist (x j) (x' j))) := by
    refine abs_sum_sub_le _ fun i _ => abs_sum_sub_le _ fun j _ => ?_
    rw [← mul_sub, abs_mul, abs_of_nonneg (mul_nonneg (hw i) (hw j))]
    exact mul_le_mul_of_nonneg_left (hK.lip _ _ _ _) (mul_nonneg (hw i) (hw j))
  have e2 : |∑ i, w i * K (x i) y - ∑ i, w i * K (x' i) y'|
      ≤ ∑ i, w i * (L * (dist (x i) (x' i) + dist y y')) := by
    refine abs_sum_sub_le _ fun i _ => ?_
    rw [← mul_sub, abs_mul, abs_of_nonneg (hw i)]
    exact mul_le_mul_of_nonneg_left (hK.lip _ _ _ _) (hw i)
  set S := ∑ i, w i * dist (x i) (x' i) with hS
  have e3 : ∑ i, ∑ j, w i * w j * (L * (dist (x i) (x' i) + dist (x j) (x' j))) = 2 * L * S := by
    have a1 : ∀ i, ∑ j, w i * w j * (L * (dist (x i) (x' i) + dist (x j) (x' j)))
        = L * (w i * dist (x i) (x' i)) * ∑ j, w j + L * w i * S := by
      intro i
      rw [hS, Finset.mul_sum, Finset.mul_sum, ← Finset.sum_add_distrib]
      exact Finset.sum_congr rfl fun j _ => by ring
    simp only [a1, h1, mul_one]
    rw [Finset.sum_add_distrib, ← Finset.mul_sum, ← hS, ← Finset.sum_mul, ← Finset.mul_sum, h1]
    ring
  have e4 : ∑ i, w i * (L * (dist (x i) (x' i) + dist y y')) = L * S + L * dist y y' := by
    have a1 : ∀ i, w i * (L * (dist (x i) (x' i) + dist y y'))
        = L * (w i * dist (x i) (x' i)) + L * dist y y' * w i := fun i => by ring
    simp only [a1]
    rw [Finset.sum_add_distrib, ← Finset.mul_sum, ← hS, ← Finset.mul_sum, h1, mul_one]
  rw [e3] at e1
  rw [e4] at e2
  rw [abs_le] at *
  constructor <;> linarith [e1.1, e1.2, e2.1, e2.2]

theorem ksEq_lip (hK : LipK K L) (hM : M ≠ 0) (y y' : E) (x x' : Fin M → E) :
    |ks K y (eqW (List.ofFn x)) - ks K y' (eqW (List.ofFn x'))|
      ≤ L * (dist y y' + 2 * ((∑ i, dist (x i) (x' i)) / M)) := by
  have hM0 : (M:ℝ) ≠ 0 := by exact_mod_cast hM
  rw [eqW_ofFn, eqW_ofFn]
  refine (ks_lip hK (fun i => by positivity) (by simp [hM0]) y y' x x').trans (le_of_eq ?_)
  rw [← Finset.mul_sum]; ring

theorem ksFair_lip (hK : LipK K L) (hM : 2 ≤ M) (y y' : E) (x x' : Fin M → E) :
    |ksFair K y (List.ofFn x) - ksFair K y' (List.ofFn x')|
      ≤ L * (dist y y' + 2 * ((∑ i, dist (x i) (x' i)) / M)) := by
  have hM0 : (0:ℝ) < M := by positivity
  have hM1 : (0:ℝ) < (M:ℝ) - 1 := by
    have : (2:ℝ) ≤ M := by exact_mod_cast hM
    linarith
  rw [ksFair_ofFn, ksFair_ofFn, hK.diag y y']
  set S := ∑ i, dist (x i) (x' i) with hS
  have r : ∀ z : Fin M → E, ∑ i, ∑ j, K (z i) (z j) - ∑ i, K (z i) (z i)
      = ∑ i, ∑ j ∈ Finset.univ.erase i, K (z i) (z j) := by
    intro z
    rw [← Finset.sum_sub_distrib]
    refine Finset.sum_congr rfl fun i _ => ?_
    rw [← Finset.add_sum_erase _ _ (Finset.mem_univ i)]; ring
  have e1 : |∑ i, ∑ j ∈ Finset.univ.erase i, K (x i) (x j) - ∑ i, ∑ j ∈ Finset.univ.erase i, K (x' i) (x' j)|
      ≤ ∑ i, ∑ j ∈ Finset.univ.erase i, L * (dist (x i) (x' i) + dist (x j) (x' j)) :=
    abs_sum_sub_le _ fun i _ => abs_sum_sub_le _ fun j _ => hK.lip _ _ _ _
  have e3 : ∑ i, ∑ j ∈ Finset.univ.erase i, L * (dist (x i) (x' i) + dist (x j) (x' j))
      = 2 * L * (M - 1) * S := by
    have a1 : ∀ i : Fin M, ∑ j ∈ Finset.univ.erase i, L * (dist (x i) (x' i) + dist (x j) (x' j))
        = L * (M - 1) * dist (x i) (x' i) + L * (S - dist (x i) (x' i)) := by
      intro i
      rw [← Finset.mul_sum, Finset.sum_add_distrib, Finset.sum_const, Finset.card_erase_of_mem (Finset.mem_univ i),
        Finset.card_univ, Fintype.card_fin, nsmul_eq_mul, Nat.cast_sub (by omega), hS,
        ← Finset.add_sum_erase _ _ (Finset.mem_univ i)]
      push_cast
      ring
    simp only [a1]
    rw [Finset.sum_add_distrib, ← Finset.mul_sum, ← Finset.mul_sum, Finset.sum_sub_distrib, Finset.sum_const,
      Finset.card_univ, Fintype.card_fin, nsmul_eq_mul, ← hS]
    ring
  have e2 : |∑ i, K (x i) y - ∑ i, K (x' i) y'| ≤ L * S + L * dist y y' * M := by
    refine (abs_sum_sub_le _ fun i _ => hK.lip _ _ _ _).trans (le_of_eq ?_)
    rw [← Finset.mul_sum, Finset.sum_add_distrib, Finset.sum_const, Finset.card_univ, Fintype.card_fin, nsmul_eq_mul]
    ring
  rw [r, r]
  rw [e3] at e1
  set A := ∑ i, ∑ j ∈ Finset.univ.erase i, K (x i) (x j)
  set A' := ∑ i, ∑ j ∈ Finset.univ.erase i, K (x' i) (x' j)
  set B := ∑ i, K (x i) y
  set B' := ∑ i, K (x' i) y'
  have t : A * (1 / (2 * (M * (M - 1)))) + 1 / 2 * K y' y' - B * (1 / M)
      - (A' * (1 / (2 * (M * (M - 1)))) + 1 / 2 * K y' y' - B' * (1 / M))
      = (A - A') * (1 / (2 * (M * (M - 1)))) - (B - B') * (1 / M) := by ring
  have c1 : 0 < 1 / (2 * ((M:ℝ) * (M - 1))) := by positivity
  have c2 : 0 < 1 / (M:ℝ) := by positivity
  rw [t]
  refine (abs_sub _ _).trans ?_
  rw [abs_mul, abs_mul, abs_of_pos c1, abs_of_pos c2]
  refine (add_le_add (mul_le_mul_of_nonneg_right e1 c1.le) (mul_le_mul_of_nonneg_right e2 c2.le)).trans (le_of_eq ?_)
  field_simp
  ring

theorem ksCirc_lip (hK : LipK K L) (hM : M ≠ 0) {g : Fin M → Fin M} (hg : Function.Injective g) (y y' : E)
    (x x' : Fin M → E) :
    |ksCirc K g y x - ksCirc K g y' x'| ≤ L * (dist y y' + 2 * ((∑ i, dist (x i) (x' i)) / M)) := by
  have hM0 : (0:ℝ) < M := by positivity
  unfold ksCirc
  rw [hK.diag y y']
  set S := ∑ i, dist (x i) (x' i) with hS
  have hb : ∑ i, dist (x (g i)) (x' (g i)) = S :=
    (Finite.injective_iff_bijective.1 hg).sum_comp fun i => dist (x i) (x' i)
  have e1 : |∑ i, K (x i) (x (g i)) - ∑ i, K (x' i) (x' (g i))| ≤ 2 * L * S := by
    refine (abs_sum_sub_le _ fun i _ => hK.lip _ _ _ _).trans (le_of_eq ?_)
    rw [← Finset.mul_sum, Finset.sum_add_distrib, hb]; ring
  have e2 : |∑ i, K (x i) y - ∑ i, K (x' i) y'| ≤ L * S + L * dist y y' * M := by
    refine (abs_sum_sub_le _ fun i _ => hK.lip _ _ _ _).trans (le_of_eq ?_)
    rw [← Finset.mul_sum, Finset.sum_add_distrib, Finset.sum_const, Finset.card_univ, Fintype.card_fin, nsmul_eq_mul]
    ring
  set A := ∑ i, K (x i) (x (g i))
  set A' := ∑ i, K (x' i) (x' (g i))
  set B := ∑ i, K (x i) y
  set B' := ∑ i, K (x' i) y'
  have t : A * (1 / (2 * M)) + 1 / 2 * K y' y' - B * (1 / M) - (A' * (1 / (2 * M)) + 1 / 2 * K y' y' - B' * (1 / M))
      = (A - A') * (1 / (2 * M)) - (B - B') * (1 / M) := by ring
  have c1 : 0 < 1 / (2 * (M:ℝ)) := by positivity
  have c2 : 0 < 1 / (M:ℝ) := by positivity
  rw [t]
  refine (abs_sub _ _).trans ?_
  rw [abs_mul, abs_mul, abs_of_pos c1, abs_of_pos c2]
  refine (add_le_add (mul_le_mul_of_nonneg_right e1 c1.le) (mul_le_mul_of_nonneg_right e2 c2.le)).trans (le_of_eq ?_)
  field_simp
  ring

end

/-! ### The kernels -/

theorem lipK_negDist {E : Type} [NormedAddCommGroup E] : LipK (negDist (E := E)) 1 where
  lip a a' b b' := by
    unfold negDist
    have h1 := dist_triangle4 a a' b' b
    have h2 := dist_triangle4 a' a b b'
    rw [dist_comm b' b] at h1
    rw [dist_comm a' a] at h2
    rw [abs_le]
    constructor <;> linarith
  diag a b := by simp [negDist]

/-- the slope of `exp (-t²/2)` is at most `exp (-1/2)` -/
theorem gauss_slope (s t : ℝ) :
    |Real.exp (-(s ^ 2) / 2) - Real.exp (-(t ^ 2) / 2)| ≤ Real.exp (-1 / 2) * |s - t| := by
  have hd : ∀ x : ℝ, HasDerivAt (fun x : ℝ => Real.exp (-(x ^ 2) / 2)) (Real.exp (-(x ^ 2) / 2) * (-x)) x := by
    intro x
    have h1 : HasDerivAt (fun x : ℝ => -(x ^ 2) / 2) (-x) x := by
      have := ((hasDerivAt_pow 2 x).neg.div_const 2)
      refine this.congr_deriv ?_
      simp; ring
    exact h1.exp
  have hb : ∀ x : ℝ, ‖Real.exp (-(x ^ 2) / 2) * (-x)‖ ≤ Real.exp (-1 / 2) := by
    intro x
    rw [norm_mul, norm_neg, Real.norm_eq_abs, Real.norm_eq_abs, abs_of_pos (Real.exp_pos _)]
    have h1 : |x| ≤ Real.exp (x ^ 2 / 2 - 1 / 2) := by
      have h2 := Real.add_one_le_exp (x ^ 2 / 2 - 1 / 2)
      have h3 : |x| ≤ x ^ 2 / 2 - 1 / 2 + 1 := by
        nlinarith [sq_nonneg (|x| - 1), sq_abs x]
      linarith
    calc Real.exp (-(x ^ 2) / 2) * |x| ≤ Real.exp (-(x ^ 2) / 2) * Real.exp (x ^ 2 / 2 - 1 / 2) :=
          mul_le_mul_of_nonneg_left h1 (Real.exp_pos _).le
      _ = Real.exp (-1 / 2) := by rw [← Real.exp_add]; congr 1; ring
  have := Convex.norm_image_sub_le_of_norm_hasDerivWithin_le (s := Set.univ)
    (fun x _ => (hd x).hasDerivWithinAt) (fun x _ => hb x) convex_univ (Set.mem_univ t) (Set.mem_univ s)
  simpa [Real.norm_eq_abs] using this

theorem lipK_gk {E : Type} [NormedAddCommGroup E] : LipK (gk (E := E) (1 / 2)) (Real.exp (-1 / 2)) where
  lip a a' b b' := by
    have h := gauss_slope (dist a b) (dist a' b')
    have e : ∀ u v : E, gk (1 / 2) u v = Real.exp (-(dist u v ^ 2) / 2) := fun u v => by
      unfold gk; congr 1; ring
    rw [e, e]
    refine h.trans (mul_le_mul_of_nonneg_left ?_ (Real.exp_pos _).le)
    have h1 := dist_triangle4 a a' b' b
    have h2 := dist_triangle4 a' a b b'
    rw [dist_comm b' b] at h1
    rw [dist_comm a' a] at h2
    rw [abs_le]
    constructor <;> linarith
  diag a b := by simp [gk]

/-! ### Rotations -/

theorem shift_inj {M s a b : ℕ} (ha : a < M) (hb : b < M) (h : (a + s) % M = (b + s) % M) : a = b := by
  have h1 : a + s ≡ b + s [MOD M] := h
  have h2 := Nat.ModEq.add_right_cancel' s h1
  have h3 : a % M = b % M := h2
  rwa [Nat.mod_eq_of_lt ha, Nat.mod_eq_of_lt hb] at h3

theorem prevF_inj {M : ℕ} : Function.Injective (prevF (M := M)) := by
  intro i j h
  have h1 := congrArg Fin.val h
  have hi := i.2
  have hj := j.2
  simp only [prevF, prevI] at h1
  apply Fin.ext
  split_ifs at h1 <;> omega

theorem sigmaF_inj {M : ℕ} : Function.Injective (sigmaF (M := M)) := by
  intro i j h
  have h1 := congrArg Fin.val h
  simp only [sigmaF, sigma_eq, Nat.add_assoc] at h1
  exact Fin.ext (shift_inj i.2 j.2 h1)

theorem halfF_inj {M : ℕ} : Function.Injective (halfF (M := M)) := by
  intro i j h
  have h1 := congrArg Fin.val h
  exact Fin.ext (shift_inj i.2 j.2 h1)

end Verif
