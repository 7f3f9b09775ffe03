import Verif.Lemmas.RoundKernel
import Verif.Lemmas.Nearest64

/-!
# Property C159: accuracy of the Gaussian kernel score in binary64

The vectorised kernel score (`core/kernels/_approx.py`) of any finite data is computed with an error of a few units of
`2 ^ -52`, growing with the square of the number of members, in whatever order the backend adds.  Unlike the energy
score (`C154_overflow_false`) nothing goes wrong for large data: when a difference, its square or the norm
overflows, the kernel becomes `exp(-inf) = 0`, which is also its value up to `2 ^ -1075`.
-/

noncomputable section

open scoped Classical

namespace Verif

open XF Py Mv Spec

theorem gauss1_mem (a b : ℝ) : 0 ≤ gauss1 a b ∧ gauss1 a b ≤ 1 := by
  refine ⟨(Real.exp_pos _).le, Real.exp_le_one_iff.2 ?_⟩
  have := sq_nonneg (a - b); linarith

theorem gaussD_mem {D : ℕ} (a b : Eu D) : 0 ≤ gaussD a b ∧ gaussD a b ≤ 1 := by
  refine ⟨(Real.exp_pos _).le, Real.exp_le_one_iff.2 ?_⟩
  have := sq_nonneg (dist a b); linarith

/-- Without rounding the functions are those of the exact model, in whatever order the entries are added. -/
theorem C159_exact {S : List XF → XF} (hS : ∀ xs, RSum fin xs (S xs)) :
    Rnd.ksNrg fin S (Rnd.kernUv fin) = KsApprox.nrg Kern.uv ∧ Rnd.ksFair fin S (Rnd.kernUv fin) = KsApprox.fair Kern.uv ∧
      Rnd.ksNrg fin S (Rnd.kernMv fin S) = KsApprox.nrg Kern.mv ∧
      Rnd.ksFair fin S (Rnd.kernMv fin S) = KsApprox.fair Kern.mv := by
  have hs : S = List.sum := funext fun xs => (hS xs).exact
  subst hs
  have k1 : Rnd.kernUv fin = Kern.uv := by
    funext a b; simp only [Rnd.kernUv, Rnd.gaussOf, Kern.uv, rd_fin_eq]
  have k2 : Rnd.kernMv fin List.sum = Kern.mv := by
    funext a b
    simp only [Rnd.kernMv, Rnd.gaussOf, Kern.mv, Rnd.vnorm, Rnd.vsub, Mv.vnorm, Mv.vsub, rd_fin_eq]
  refine ⟨?_, ?_, ?_, ?_⟩ <;> funext y xs <;>
    simp only [k1, k2, Rnd.ksNrg, Rnd.ksFair, KsApprox.nrg, KsApprox.fair, KsApprox.e1, KsApprox.e2, rd_fin_eq, xsum_flatMap]

example : ∃ S : List XF → XF, ∀ xs, RSum fin xs (S xs) := exists_rsum fin

/-- The univariate kernel score: every finite observation, every ensemble of up to `2 ^ 20` finite members. -/
theorem C159_nrg_uv {r : ℝ → XF} (hr : Binary64 r) {S : List XF → XF} (hS : ∀ xs, RSum r xs (S xs)) (y : ℝ) {xs : List ℝ}
    (hne : xs ≠ []) (hM : xs.length ≤ 2 ^ 20) :
    ∃ v : ℝ, Rnd.ksNrg r S (Rnd.kernUv r) (fin y) (xs.map fin) = fin v ∧
      |v - ks gauss1 y (eqW xs)| ≤ ((xs.length : ℝ) ^ 2 + 2 * xs.length + 179) / 2 ^ 52 := by
  obtain ⟨v, e, hv⟩ := ksNrg_near hr hS (k := Rnd.kernUv r) (emb := fin) (K := gauss1) (t := 1 / 2 ^ 48)
    ⟨one_div_le_one_div_of_le (by positivity) (pow_le_pow_right₀ (by norm_num) (by norm_num)), by norm_num⟩ (by norm_num)
    (fun a b => ⟨(gauss1_mem a b).1, (gauss1_mem a b).2, kernUv_near hr a b⟩)
    (fun a b => by unfold gauss1; rw [show (a - b) ^ 2 = (b - a) ^ 2 by ring]) y hne hM
  exact ⟨v, e, hv.trans (le_of_eq (by ring))⟩

/-- the data of the examples: members of very different sizes -/
def mixed4 : List ℝ := [0, 1, -2 ^ 1000, 2 ^ 1023]

example : ∃ (S : List XF → XF), (∀ xs, RSum rn64 xs (S xs)) ∧ Binary64 rn64 ∧ mixed4 ≠ [] ∧ mixed4.length ≤ 2 ^ 20 := by
  obtain ⟨S, hS⟩ := exists_rsum rn64
  exact ⟨S, hS, rn64_nearest.toBinary64, by simp [mixed4], by simp [mixed4]⟩

/-- The fair univariate kernel score, for two members or more. -/
theorem C159_fair_uv {r : ℝ → XF} (hr : Binary64 r) {S : List XF → XF} (hS : ∀ xs, RSum r xs (S xs)) (y : ℝ) {xs : List ℝ}
    (h2 : 2 ≤ xs.length) (hM : xs.length ≤ 2 ^ 20) :
    ∃ v : ℝ, Rnd.ksFair r S (Rnd.kernUv r) (fin y) (xs.map fin) = fin v ∧
      |v - Spec.ksFair gauss1 y xs| ≤ (3 * (xs.length : ℝ) ^ 2 + 2 * xs.length + 214) / 2 ^ 52 := by
  obtain ⟨v, e, hv⟩ := ksFair_near hr hS (k := Rnd.kernUv r) (emb := fin) (K := gauss1) (t := 1 / 2 ^ 48)
    ⟨one_div_le_one_div_of_le (by positivity) (pow_le_pow_right₀ (by norm_num) (by norm_num)), by norm_num⟩ (by norm_num)
    (fun a b => ⟨(gauss1_mem a b).1, (gauss1_mem a b).2, kernUv_near hr a b⟩)
    (fun a b => by unfold gauss1; rw [show (a - b) ^ 2 = (b - a) ^ 2 by ring]) y h2 hM
  exact ⟨v, e, hv.trans (le_of_eq (by ring))⟩

example : ∃ (S : List XF → XF), (∀ xs, RSum rn64 xs (S xs)) ∧ Binary64 rn64 ∧ 2 ≤ mixed4.length ∧ mixed4.length ≤ 2 ^ 20 := by
  obtain ⟨S, hS⟩ := exists_rsum rn64
  exact ⟨S, hS, rn64_nearest.toBinary64, by simp [mixed4], by simp [mixed4]⟩

theorem kernMv_unit {D : ℕ} (hD : D ≤ 2 ^ 20) : Unit' ((4 * D + 13) / 2 ^ 49) ∧ ((4 * D + 13) / 2 ^ 49 : ℝ) ≤ 1 / 2 ^ 20 := by
  have hD' : (D : ℝ) ≤ 1048576 := by exact_mod_cast hD
  have hD0 : (0 : ℝ) ≤ D := Nat.cast_nonneg D
  have h1 : ((4 * D + 13) / 2 ^ 49 : ℝ) ≤ 1 / 2 ^ 20 := by norm_num; linarith
  refine ⟨⟨?_, h1.trans (by norm_num)⟩, h1⟩
  have h2 : (1:ℝ) / 2 ^ 1073 ≤ 1 / 2 ^ 49 :=
    one_div_le_one_div_of_le (by positivity) (pow_le_pow_right₀ (by norm_num) (by norm_num))
  exact h2.trans (div_le_div_of_nonneg_right (by linarith) (by positivity))

/-- The multivariate kernel score: every finite observation, every ensemble of up to `2 ^ 20` members in up to `2 ^ 20`
dimensions. -/
theorem C159_nrg_mv {r : ℝ → XF} (hr : Binary64 r) {S : List XF → XF} (hS : ∀ xs, RSum r xs (S xs)) {D : ℕ}
    (hD : D ≤ 2 ^ 20) (y : Eu D) {xs : List (Eu D)} (hne : xs ≠ []) (hM : xs.length ≤ 2 ^ 20) :
    ∃ v : ℝ, Rnd.ksNrg r S (Rnd.kernMv r S) (vec y) (xs.map vec) = fin v ∧
      |v - ks gaussD y (eqW xs)| ≤ ((xs.length : ℝ) ^ 2 + 2 * xs.length + 304 * D + 1015) / 2 ^ 52 := by
  obtain ⟨v, e, hv⟩ := ksNrg_near hr hS (k := Rnd.kernMv r S) (emb := vec) (K := gaussD) (t := (4 * D + 13) / 2 ^ 49)
    (kernMv_unit hD).1 (kernMv_unit hD).2
    (fun a b => ⟨(gaussD_mem a b).1, (gaussD_mem a b).2, kernMv_near hr hS hD a b⟩)
    (fun a b => by unfold gaussD; rw [dist_comm]) y hne hM
  exact ⟨v, e, hv.trans (le_of_eq (by ring))⟩

/-- the data of the examples: members in the plane of very different sizes -/
def mixedPlane : List (Eu 2) := [!₂[1, 2], !₂[2 ^ 1023, -1], !₂[0, 1 / 2 ^ 1000]]

example : ∃ (S : List XF → XF), (∀ xs, RSum rn64 xs (S xs)) ∧ Binary64 rn64 ∧ 2 ≤ 2 ^ 20 ∧ mixedPlane ≠ [] ∧
    mixedPlane.length ≤ 2 ^ 20 := by
  obtain ⟨S, hS⟩ := exists_rsum rn64
  exact ⟨S, hS, rn64_nearest.toBinary64, by norm_num, by simp [mixedPlane], by simp [mixedPlane]⟩

/-- The fair multivariate kernel score, for two members or more. -/
theorem C159_fair_mv {r : ℝ → XF} (hr : Binary64 r) {S : List XF → XF} (hS : ∀ xs, RSum r xs (S xs)) {D : ℕ}
    (hD : D ≤ 2 ^ 20) (y : Eu D) {xs : List (Eu D)} (h2 : 2 ≤ xs.length) (hM : xs.length ≤ 2 ^ 20) :
    ∃ v : ℝ, Rnd.ksFair r S (Rnd.kernMv r S) (vec y) (xs.map vec) = fin v ∧
      |v - Spec.ksFair gaussD y xs| ≤ (3 * (xs.length : ℝ) ^ 2 + 2 * xs.length + 352 * D + 1182) / 2 ^ 52 := by
  obtain ⟨v, e, hv⟩ := ksFair_near hr hS (k := Rnd.kernMv r S) (emb := vec) (K := gaussD) (t := (4 * D + 13) / 2 ^ 49)
    (kernMv_unit hD).1 (kernMv_unit hD).2
    (fun a b => ⟨(gaussD_mem a b).1, (gaussD_mem a b).2, kernMv_near hr hS hD a b⟩)
    (fun a b => by unfold gaussD; rw [dist_comm]) y h2 hM
  exact ⟨v, e, hv.trans (le_of_eq (by ring))⟩

example : ∃ (S : List XF → XF), (∀ xs, RSum rn64 xs (S xs)) ∧ Binary64 rn64 ∧ 2 ≤ 2 ^ 20 ∧ 2 ≤ mixedPlane.length ∧
    mixedPlane.length ≤ 2 ^ 20 := by
  obtain ⟨S, hS⟩ := exists_rsum rn64
  exact ⟨S, hS, rn64_nearest.toBinary64, by norm_num, by simp [mixedPlane], by simp [mixedPlane]⟩

end Verif
