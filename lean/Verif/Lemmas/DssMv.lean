import Verif.Spec.DssMv
import Mathlib.Analysis.Matrix.Order
import Mathlib.Analysis.Matrix.PosDef
import Mathlib.LinearAlgebra.Matrix.ToLinearEquiv
import Mathlib.LinearAlgebra.FiniteDimensional.Lemmas
import Mathlib.Algebra.BigOperators.Field

/-!
# Covariance matrices
-/

noncomputable section

open scoped Classical
open Matrix MeasureTheory

namespace Verif

open Spec

variable {D : ℕ}

/-- The divisor of the covariance. -/
def vfact (bias : Bool) (n : ℕ) : ℝ := if bias then (n : ℝ) else (n : ℝ) - 1

theorem list_sum_fn {α : Type} (l : List α) (f : α → ℝ) : (l.map f).sum = ∑ k : Fin l.length, f l[k] := by
  rw [← List.sum_ofFn]
  congr 1
  apply List.ext_getElem <;> simp

/-- The centred members as rows of a matrix. -/
def cmat (xs : List (Fin D → ℝ)) : Matrix (Fin xs.length) (Fin D) ℝ := fun k i => xs[k] i - vmean xs i

theorem vcov_eq (bias : Bool) (xs : List (Fin D → ℝ)) :
    vcov bias xs = (vfact bias xs.length)⁻¹ • ((cmat xs)ᵀ * cmat xs) := by
  ext i j
  simp only [vcov, Matrix.smul_apply, Matrix.mul_apply, transpose_apply, cmat, smul_eq_mul]
  rw [list_sum_fn, div_eq_inv_mul]
  rfl

theorem vfact_nonneg {bias : Bool} {n : ℕ} (h : n ≠ 0) : 0 ≤ vfact bias n := by
  unfold vfact
  have : (1 : ℝ) ≤ n := by exact_mod_cast Nat.one_le_iff_ne_zero.2 h
  cases bias
  · simp only [Bool.false_eq_true, if_false]; linarith
  · simp only [if_true]; linarith

theorem vcov_posSemidef (bias : Bool) {xs : List (Fin D → ℝ)} (hx : xs ≠ []) : (vcov bias xs).PosSemidef := by
  rw [vcov_eq]
  have h := posSemidef_conjTranspose_mul_self (cmat xs)
  rw [conjTranspose_eq_transpose_of_trivial] at h
  exact h.smul (inv_nonneg.2 (vfact_nonneg (by simpa using hx)))

theorem cmat_sum (xs : List (Fin D → ℝ)) (i : Fin D) : ∑ k, cmat xs k i = 0 := by
  by_cases hx : xs = []
  · subst hx; simp
  have : (xs.length : ℝ) ≠ 0 := by simpa using hx
  simp only [cmat, Finset.sum_sub_distrib, Finset.sum_const, Finset.card_univ, Fintype.card_fin, nsmul_eq_mul]
  rw [show ∑ k : Fin xs.length, xs[k] i = (xs.map fun x => x i).sum from (list_sum_fn xs fun x => x i).symm]
  simp only [vmean, avg, List.length_map]
  field_simp
  ring

/-- With at most as many members as variables the covariance matrix is singular. -/
theorem vcov_singular (bias : Bool) {xs : List (Fin D → ℝ)} (hD : 0 < D) (h : xs.length ≤ D) :
    (vcov bias xs).det = 0 := by
  by_cases hx : xs = []
  · subst hx
    have : vcov (D := D) bias [] = 0 := by ext i j; simp [vcov]
    have : Nonempty (Fin D) := ⟨⟨0, hD⟩⟩
    simp [*]
  have hl : 0 < xs.length := List.length_pos_iff.2 hx
  rw [← exists_mulVec_eq_zero_iff]
  obtain ⟨n, hn⟩ : ∃ n, xs.length = n + 1 := ⟨xs.length - 1, by omega⟩
  let f : (Fin D → ℝ) →ₗ[ℝ] (Fin n → ℝ) :=
    (LinearMap.funLeft ℝ ℝ fun k : Fin n => (⟨k, by omega⟩ : Fin xs.length)) ∘ₗ (cmat xs).mulVecLin
  have hk : LinearMap.ker f ≠ ⊥ := LinearMap.ker_ne_bot_of_finrank_lt (by simp; omega)
  obtain ⟨v, hv, hv0⟩ := Submodule.exists_mem_ne_zero_of_ne_bot hk
  refine ⟨v, hv0, ?_⟩
  have h1 : ∀ k : Fin xs.length, (k : ℕ) < n → (cmat xs *ᵥ v) k = 0 := by
    intro k hk
    have := congrFun (LinearMap.mem_ker.1 hv) ⟨k, hk⟩
    simpa [f, LinearMap.funLeft_apply] using this
  have h2 : ∑ k, (cmat xs *ᵥ v) k = 0 := by
    simp only [mulVec, dotProduct]
    rw [Finset.sum_comm]
    simp only [← Finset.sum_mul, cmat_sum, zero_mul, Finset.sum_const_zero]
  have h3 : cmat xs *ᵥ v = 0 := by
    have hlast : (cmat xs *ᵥ v) ⟨n, by omega⟩ = 0 := by
      rw [← h2]
      symm
      refine Finset.sum_eq_single _ (fun k _ hk => h1 k ?_) (by simp)
      have := k.2
      have : (k : ℕ) ≠ n := fun h => hk (Fin.ext h)
      omega
    funext k
    by_cases hkn : (k : ℕ) < n
    · exact h1 k hkn
    · have : k = ⟨n, by omega⟩ := Fin.ext (by have := k.2; simp only; omega)
      rw [this, hlast]; rfl
  rw [vcov_eq, smul_mulVec, ← mulVec_mulVec, h3, mulVec_zero, smul_zero]

/-! ### affine changes -/

theorem vmean_affine (A : Matrix (Fin D) (Fin D) ℝ) (b : Fin D → ℝ) {xs : List (Fin D → ℝ)} (hx : xs ≠ []) :
    vmean (xs.map fun x => A *ᵥ x + b) = A *ᵥ vmean xs + b := by
  have : (xs.length : ℝ) ≠ 0 := by simpa using hx
  funext i
  simp only [vmean, avg, List.map_map, List.length_map, Pi.add_apply]
  rw [list_sum_fn]
  simp only [Function.comp_apply, Pi.add_apply, Finset.sum_add_distrib, Finset.sum_const, Finset.card_univ,
    Fintype.card_fin, nsmul_eq_mul, add_div, mul_div_cancel_left₀ _ this, mulVec, dotProduct]
  congr 1
  rw [Finset.sum_comm, Finset.sum_div]
  refine Finset.sum_congr rfl fun j _ => ?_
  rw [← Finset.mul_sum, mul_div_assoc]
  simp only [vmean, avg, list_sum_fn, List.length_map]

theorem vcov_affine (bias : Bool) (A : Matrix (Fin D) (Fin D) ℝ) (b : Fin D → ℝ) {xs : List (Fin D → ℝ)}
    (hx : xs ≠ []) : vcov bias (xs.map fun x => A *ᵥ x + b) = A * vcov bias xs * Aᵀ := by
  ext i j
  simp only [vcov, List.map_map, List.length_map]
  rw [list_sum_fn]
  have e : ∀ (x : Fin D → ℝ) (i : Fin D), (A *ᵥ x + b) i - vmean (xs.map fun x => A *ᵥ x + b) i
      = ∑ k, A i k * (x k - vmean xs k) := by
    intro x i
    rw [vmean_affine A b hx]
    simp only [Pi.add_apply, mulVec, dotProduct, mul_sub, Finset.sum_sub_distrib]
    ring
  simp only [Function.comp_apply, e]
  simp only [Matrix.mul_apply, transpose_apply, vcov, list_sum_fn]
  generalize (if bias = true then (xs.length : ℝ) else (xs.length : ℝ) - 1) = c
  simp only [Finset.sum_mul, Finset.mul_sum, Finset.sum_div]
  rw [Finset.sum_comm]
  refine Finset.sum_congr rfl fun l _ => ?_
  rw [Finset.sum_comm]
  refine Finset.sum_congr rfl fun k _ => ?_
  refine Finset.sum_congr rfl fun m _ => ?_
  ring

theorem dsMv_affine {A : Matrix (Fin D) (Fin D) ℝ} (hA : A.det ≠ 0) (b : Fin D → ℝ) (μ y : Fin D → ℝ)
    {S : Matrix (Fin D) (Fin D) ℝ} (hS : S.det ≠ 0) :
    dsMv (A *ᵥ μ + b) (A * S * Aᵀ) (A *ᵥ y + b) = dsMv μ S y + 2 * Real.log |A.det| := by
  have hAu : IsUnit A.det := isUnit_iff_ne_zero.2 hA
  unfold dsMv
  have e1 : A *ᵥ y + b - (A *ᵥ μ + b) = A *ᵥ (y - μ) := by rw [mulVec_sub]; abel
  have e2 : (A * S * Aᵀ)⁻¹ = (Aᵀ)⁻¹ * (S⁻¹ * A⁻¹) := by
    rw [Matrix.mul_inv_rev, Matrix.mul_inv_rev]
  have e3 : A *ᵥ (y - μ) ⬝ᵥ (A * S * Aᵀ)⁻¹ *ᵥ (A *ᵥ (y - μ)) = (y - μ) ⬝ᵥ S⁻¹ *ᵥ (y - μ) := by
    rw [e2]
    simp only [mulVec_mulVec, Matrix.mul_assoc, Matrix.nonsing_inv_mul A hAu, Matrix.mul_one]
    rw [← mulVec_mulVec, dotProduct_mulVec, ← vecMul_transpose, vecMul_vecMul,
      Matrix.mul_nonsing_inv _ (by rwa [det_transpose]), vecMul_one]
  rw [e1, e3, det_mul, det_mul, det_transpose, Real.log_mul (mul_ne_zero hA hS) hA,
    Real.log_mul hA hS, Real.log_abs]
  ring

/-! ### permutations of the members -/

theorem vmean_perm {xs xs' : List (Fin D → ℝ)} (h : xs.Perm xs') : vmean xs = vmean xs' := by
  funext i
  simp only [vmean, avg, List.length_map, (h.map fun x => x i).sum_eq, h.length_eq]

theorem vcov_perm (bias : Bool) {xs xs' : List (Fin D → ℝ)} (h : xs.Perm xs') : vcov bias xs = vcov bias xs' := by
  ext i j
  simp only [vcov, vmean_perm h, h.length_eq,
    (h.map fun x => (x i - vmean xs' i) * (x j - vmean xs' j)).sum_eq]

/-! ### propriety -/

/-- For a positive definite matrix the trace exceeds the logarithm of the determinant by at least the
dimension; only the identity attains the bound. -/
theorem trace_log_det {T : Matrix (Fin D) (Fin D) ℝ} (hT : T.PosDef) :
    (D : ℝ) + Real.log T.det ≤ T.trace ∧ (T.trace = D + Real.log T.det → T = 1) := by
  have hH := hT.isHermitian
  have hp := hT.eigenvalues_pos
  have ht : T.trace = ∑ i, hH.eigenvalues i := by simpa using hH.trace_eq_sum_eigenvalues
  have hd : Real.log T.det = ∑ i, Real.log (hH.eigenvalues i) := by
    have : T.det = ∏ i, hH.eigenvalues i := by simpa using hH.det_eq_prod_eigenvalues
    rw [this, Real.log_prod fun i _ => (hp i).ne']
  have hD : (D : ℝ) = ∑ _i : Fin D, (1:ℝ) := by simp
  have hle : ∀ i, 1 + Real.log (hH.eigenvalues i) ≤ hH.eigenvalues i := fun i => by
    linarith [Real.log_le_sub_one_of_pos (hp i)]
  have hs : (D : ℝ) + Real.log T.det = ∑ i, (1 + Real.log (hH.eigenvalues i)) := by
    rw [hd, Finset.sum_add_distrib, ← hD]
  refine ⟨by rw [hs, ht]; exact Finset.sum_le_sum fun i _ => hle i, fun he => ?_⟩
  rw [hs, ht, eq_comm, Finset.sum_eq_sum_iff_of_le fun i _ => hle i] at he
  have h1 : hH.eigenvalues = fun _ => 1 := by
    funext i
    by_contra hne
    have := Real.log_lt_sub_one_of_pos (hp i) hne
    have := he i (Finset.mem_univ i)
    linarith
  have hsp := hH.spectral_theorem
  rw [h1] at hsp
  have e : (diagonal (RCLike.ofReal ∘ fun _ : Fin D => (1:ℝ)) : Matrix (Fin D) (Fin D) ℝ) = 1 := by
    rw [← diagonal_one]; congr 1
  rw [e, map_one] at hsp
  exact hsp

open scoped MatrixOrder in
theorem dsMv_gap {S S0 : Matrix (Fin D) (Fin D) ℝ} (hS : S.PosDef) (hS0 : S0.PosDef) (d : Fin D → ℝ) :
    (D : ℝ) + Real.log S0.det ≤ (S⁻¹ * S0).trace + d ⬝ᵥ S⁻¹ *ᵥ d + Real.log S.det ∧
    ((S⁻¹ * S0).trace + d ⬝ᵥ S⁻¹ *ᵥ d + Real.log S.det = D + Real.log S0.det ↔ d = 0 ∧ S = S0) := by
  have hSu : IsUnit S.det := isUnit_iff_ne_zero.2 hS.det_pos.ne'
  have hSi := hS.inv
  obtain ⟨B, hB⟩ := CStarAlgebra.nonneg_iff_eq_star_mul_self.mp hSi.posSemidef.nonneg
  rw [star_eq_conjTranspose] at hB
  have hBd : B.det ≠ 0 := by
    intro h
    have := hSi.det_pos
    rw [hB, det_mul, h, mul_zero] at this
    exact lt_irrefl _ this
  have hBu : IsUnit B.det := isUnit_iff_ne_zero.2 hBd
  have hT : (B * S0 * Bᴴ).PosDef := hS0.mul_mul_conjTranspose_same
    (vecMul_injective_iff_isUnit.2 ((isUnit_iff_isUnit_det B).2 hBu))
  obtain ⟨h1, h2⟩ := trace_log_det hT
  have et : (B * S0 * Bᴴ).trace = (S⁻¹ * S0).trace := by
    rw [trace_mul_comm, ← Matrix.mul_assoc, ← hB]
  have ed : Real.log (B * S0 * Bᴴ).det = Real.log S0.det - Real.log S.det := by
    have : (B * S0 * Bᴴ).det = S0.det * S⁻¹.det := by
      rw [hB, det_mul, det_mul, det_mul]; ring
    rw [this, det_nonsing_inv, Ring.inverse_eq_inv', Real.log_mul hS0.det_pos.ne' (inv_ne_zero hS.det_pos.ne'),
      Real.log_inv]; ring
  rw [et, ed] at h1 h2
  have hq : 0 ≤ d ⬝ᵥ S⁻¹ *ᵥ d := by simpa using hSi.posSemidef.dotProduct_mulVec_nonneg d
  refine ⟨by linarith, fun he => ?_, fun ⟨hd, hs⟩ => ?_⟩
  · have hd0 : d = 0 := by
      by_contra hne
      have : 0 < d ⬝ᵥ S⁻¹ *ᵥ d := by simpa using hSi.dotProduct_mulVec_pos hne
      linarith
    refine ⟨hd0, ?_⟩
    have hone := h2 (by linarith)
    have e1 : S⁻¹ * S0 = 1 := by
      have : Bᴴ * (B * S0 * Bᴴ) = Bᴴ := by rw [hone, Matrix.mul_one]
      rw [← Matrix.mul_assoc, ← Matrix.mul_assoc, ← hB] at this
      have hBH : IsUnit (Bᴴ).det := by rw [det_conjTranspose]; simpa using hBd
      have h3 : S⁻¹ * S0 * Bᴴ * (Bᴴ)⁻¹ = Bᴴ * (Bᴴ)⁻¹ := by rw [this]
      rwa [Matrix.mul_assoc, Matrix.mul_nonsing_inv _ hBH, Matrix.mul_one] at h3
    calc S = S * (S⁻¹ * S0) := by rw [e1, Matrix.mul_one]
      _ = S0 := by rw [← Matrix.mul_assoc, Matrix.mul_nonsing_inv _ hSu, Matrix.one_mul]
  · subst hs
    rw [hd, Matrix.nonsing_inv_mul _ hSu]
    simp

end Verif
