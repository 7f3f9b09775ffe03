import Verif.Lemmas.RoundKernelLoop
import Verif.Props.RoundKernel
import Verif.Props.RoundEnergyLoop

/-!
# Property C172: accuracy of the compiled Gaussian kernel score in binary64

The loops of the numba path (`core/kernels/_gufuncs.py`) compute the univariate kernel score of all finite data up to
`2 ^ 20` members with an absolute error of order `M ^ 2 / 2 ^ 52` (of order `M / 2 ^ 52` for the two `akr` forms), and the
multivariate one with a norm routine of relative error `L / 2 ^ 51` for coordinates up to `2 ^ 940`.
-/

noncomputable section

open scoped Classical

namespace Verif

open XF Py Mv Spec

/-- Without rounding and with the exact norm the functions are those of the exact model. -/
theorem C172_exact :
    (RndLoop.ksNrg fin (Rnd.kernUv fin) nan = KsGufunc.nrg Kern.uv nan ∧ RndLoop.ksFairUv fin = KsGufunc.fair Kern.uv nan ∧
      RndLoop.ksAkr fin (Rnd.kernUv fin) nan = KsGufunc.akr Kern.uv nan ∧
      RndLoop.ksAkrCircperm fin (Rnd.kernUv fin) nan = KsGufunc.akrCircperm Kern.uv nan) ∧
    RndLoop.ksNrg fin (RndLoop.kernMv fin Mv.vnorm) [] = KsGufunc.nrg Kern.mv [] ∧
      RndLoop.ksFairMv fin Mv.vnorm = KsGufunc.fair Kern.mv [] ∧
      RndLoop.ksAkr fin (RndLoop.kernMv fin Mv.vnorm) [] = KsGufunc.akr Kern.mv [] ∧
      RndLoop.ksAkrCircperm fin (RndLoop.kernMv fin Mv.vnorm) [] = KsGufunc.akrCircperm Kern.mv [] := by
  have k1 : Rnd.kernUv fin = Kern.uv := by
    funext a b; simp only [Rnd.kernUv, Rnd.gaussOf, Kern.uv, rd_fin_eq]
  have k2 : RndLoop.kernMv fin Mv.vnorm = Kern.mv := by
    funext a b; simp only [RndLoop.kernMv, Rnd.gaussOf, Rnd.vsub, Mv.vsub, Kern.mv, rd_fin_eq]
  have k3 : (fun a b => Kern.uv b a) = Kern.uv := by funext a b; exact uv_symm b a
  unfold RndLoop.ksFairUv RndLoop.ksFairMv
  rw [k1, k2, k3]
  refine ⟨⟨?_, ?_, ?_, ?_⟩, ?_, ?_, ?_, ?_⟩ <;> funext y xs <;>
    simp only [RndLoop.ksNrg, RndLoop.ksFairOf, RndLoop.ksAkr, RndLoop.ksAkrCircperm, RndLoop.ksCirc, KsGufunc.nrg,
      KsGufunc.fair, KsGufunc.akr, KsGufunc.akrCircperm, rd_fin_eq]

example : RndLoop.ksFairUv fin (fin 1) [fin 0, fin 3] = KsGufunc.fair Kern.uv nan (fin 1) [fin 0, fin 3] := by
  rw [C172_exact.1.2.1]

/-- the accuracy of the univariate kernel, a unit as the error bounds need it -/
theorem kernUv_unit : Unit' (1 / 2 ^ 48) ∧ (1 / 2 ^ 48 : ℝ) ≤ 1 / 2 ^ 20 :=
  ⟨⟨one_div_le_one_div_of_le (by positivity) (pow_le_pow_right₀ (by norm_num) (by norm_num)), by norm_num⟩, by norm_num⟩

example : (1 / 2 ^ 48 : ℝ) ≤ 1 / 2 ^ 20 := kernUv_unit.2

/-- The univariate kernel score: every finite observation, every ensemble of up to `2 ^ 20` finite members. -/
theorem C172_nrg_uv {r : ℝ → XF} (hr : Binary64 r) (y : ℝ) {xs : List ℝ} (hne : xs ≠ []) (hM : xs.length ≤ 2 ^ 20) :
    ∃ v : ℝ, RndLoop.ksNrg r (Rnd.kernUv r) nan (fin y) (xs.map fin) = fin v ∧
      |v - ks gauss1 y (eqW xs)| ≤ ((xs.length : ℝ) ^ 2 + 2 * xs.length + 246) / 2 ^ 52 := by
  obtain ⟨v, e, hv⟩ := ksLoopNrg_near hr (k := Rnd.kernUv r) (emb := fin) (K := gauss1) (P := fun _ => True) kernUv_unit.1
    kernUv_unit.2 (fun a b _ _ => ⟨(gauss1_mem a b).1, (gauss1_mem a b).2, kernUv_near hr a b⟩) nan (y := y) trivial
    (fun _ _ => trivial) hne hM
  exact ⟨v, e, hv.trans (le_of_eq (by ring))⟩

example : Binary64 rn64 ∧ mixed4 ≠ [] ∧ mixed4.length ≤ 2 ^ 20 :=
  ⟨rn64_nearest.toBinary64, by simp [mixed4], by simp [mixed4]⟩

/-- The fair univariate kernel score, for two members or more. -/
theorem C172_fair_uv {r : ℝ → XF} (hr : Binary64 r) (y : ℝ) {xs : List ℝ} (h2 : 2 ≤ xs.length) (hM : xs.length ≤ 2 ^ 20) :
    ∃ v : ℝ, RndLoop.ksFairUv r (fin y) (xs.map fin) = fin v ∧
      |v - Spec.ksFair gauss1 y xs| ≤ ((xs.length : ℝ) ^ 2 + xs.length + 132) / 2 ^ 51 := by
  have hs : ∀ a b, gauss1 a b = gauss1 b a := fun a b => by unfold gauss1; rw [show (a - b) ^ 2 = (b - a) ^ 2 by ring]
  obtain ⟨v, e, hv⟩ := ksLoopFair_near hr (k := Rnd.kernUv r) (kk := fun a b => Rnd.kernUv r b a) (emb := fin) (K := gauss1)
    (P := fun _ => True) kernUv_unit.1
    kernUv_unit.2 (fun a b _ _ => ⟨(gauss1_mem a b).1, (gauss1_mem a b).2, kernUv_near hr a b⟩)
    (fun a b _ _ => by rw [hs a b]; exact kernUv_near hr b a) hs nan (y := y) trivial (fun _ _ => trivial) h2 hM
  exact ⟨v, e, hv.trans (le_of_eq (by ring))⟩

example : Binary64 rn64 ∧ 2 ≤ mixed4.length ∧ mixed4.length ≤ 2 ^ 20 :=
  ⟨rn64_nearest.toBinary64, by simp [mixed4], by simp [mixed4]⟩

/-- The kernel score in which every member is paired with the one `s` places after it, the members arranged in a circle. -/
def Spec.ksCircle {β : Type} (K : β → β → ℝ) (s : ℕ) (y : β) (xs : List β) : ℝ :=
  1 / 2 * (((List.range xs.length).map fun i => K (xs.getD i y) (xs.getD ((i + s) % xs.length) y)).sum / xs.length)
    + 1 / 2 * K y y - (xs.map fun x => K x y).sum / xs.length

/-- the partners of the two `akr` forms -/
theorem akr_partner {M i : ℕ} (hi : i < M) :
    (if i = 0 then M else i) - 1 = (i + (M - 1)) % M ∧ Gufunc.sigma M i = (i + (M + 1) / 2) % M := by
  constructor
  · split_ifs with h0
    · rw [h0, zero_add, Nat.mod_eq_of_lt (by omega)]
    · rw [show i + (M - 1) = (i - 1) + M by omega, Nat.add_mod_right, Nat.mod_eq_of_lt (by omega)]
  · rw [sigma_eq, show i + 1 + (M - 1) / 2 = i + (M + 1) / 2 by omega]

example : Gufunc.sigma 5 4 = 2 := (akr_partner (M := 5) (i := 4) (by norm_num)).2

/-- The `akr` forms on the line: the partner of a member is the one before it, or the one half the ensemble further on. -/
theorem C172_akr_uv {r : ℝ → XF} (hr : Binary64 r) (y : ℝ) {xs : List ℝ} (hne : xs ≠ []) (hM : xs.length ≤ 2 ^ 20) :
    (∃ v : ℝ, RndLoop.ksAkr r (Rnd.kernUv r) nan (fin y) (xs.map fin) = fin v ∧
      |v - ksCircle gauss1 (xs.length - 1) y xs| ≤ (3 * (xs.length : ℝ) + 254) / 2 ^ 52) ∧
    ∃ v : ℝ, RndLoop.ksAkrCircperm r (Rnd.kernUv r) nan (fin y) (xs.map fin) = fin v ∧
      |v - ksCircle gauss1 ((xs.length + 1) / 2) y xs| ≤ (3 * (xs.length : ℝ) + 254) / 2 ^ 52 := by
  have hM0 : 0 < xs.length := List.length_pos_iff.mpr hne
  have key : ∀ (σ : ℕ → ℕ → ℕ) (s : ℕ), (∀ i < xs.length, σ xs.length i = (i + s) % xs.length) →
      ∃ v : ℝ, RndLoop.ksCirc r (Rnd.kernUv r) nan σ (fin y) (xs.map fin) = fin v ∧
        |v - ksCircle gauss1 s y xs| ≤ (3 * (xs.length : ℝ) + 254) / 2 ^ 52 := by
    intro σ s h
    obtain ⟨v, e, hv⟩ := ksLoopCirc_near hr (k := Rnd.kernUv r) (emb := fin) (K := gauss1) (P := fun _ => True) kernUv_unit.1
      kernUv_unit.2 (fun a b _ _ => ⟨(gauss1_mem a b).1, (gauss1_mem a b).2, kernUv_near hr a b⟩) nan (y := y) trivial
      (fun _ _ => trivial) hne hM (σ := σ) (fun i hi => by rw [h i hi]; exact Nat.mod_lt _ hM0)
    rw [List.map_congr_left fun i hi => by rw [h i (List.mem_range.1 hi)]] at hv
    exact ⟨v, e, hv.trans (le_of_eq (by ring))⟩
  exact ⟨key _ _ fun i hi => (akr_partner hi).1, key _ _ fun i hi => (akr_partner hi).2⟩

example : Binary64 rn64 ∧ mixed4 ≠ [] ∧ mixed4.length ≤ 2 ^ 20 :=
  ⟨rn64_nearest.toBinary64, by simp [mixed4], by simp [mixed4]⟩

theorem kernLoop_unit {L : ℝ} (hL0 : 0 ≤ L) (hL : L ≤ 2 ^ 20) :
    Unit' ((L + 2) / 2 ^ 47) ∧ (L + 2) / 2 ^ 47 ≤ 1 / 2 ^ 20 := by
  have hL' : L ≤ 1048576 := hL.trans (by norm_num)
  have h1 : (L + 2) / 2 ^ 47 ≤ 1 / 2 ^ 20 := by norm_num; linarith
  refine ⟨⟨?_, h1.trans (by norm_num)⟩, h1⟩
  have h2 : (1:ℝ) / 2 ^ 1073 ≤ 1 / 2 ^ 47 :=
    one_div_le_one_div_of_le (by positivity) (pow_le_pow_right₀ (by norm_num) (by norm_num))
  exact h2.trans (div_le_div_of_nonneg_right (by linarith) (by positivity))

example : Unit' ((1 + 2) / 2 ^ 47) := (kernLoop_unit (L := 1) (by norm_num) (by norm_num)).1

theorem sub_le_941 {D : ℕ} {a b : Eu D} (ha : ∀ i, |a i| ≤ 2 ^ 940) (hb : ∀ i, |b i| ≤ 2 ^ 940) (i : Fin D) :
    |a i - b i| ≤ 2 ^ 941 := by
  have h := abs_sub (a i) (b i)
  have h1 := ha i
  have h2 := hb i
  rw [pow_succ]
  linarith only [h, h1, h2]

example : ∀ i, |(!₂[1, 2] : Eu 2) i - (!₂[1, 2] : Eu 2) i| ≤ 2 ^ 941 :=
  sub_le_941 (plane3_bound' _ (by simp [plane3])) (plane3_bound' _ (by simp [plane3]))

/-- Full property: for all finite data the multivariate kernel score computed by the compiled loops in binary64, with an
accurate norm routine, is close to the kernel score.  Proved for coordinates up to `2 ^ 940` and up to `2 ^ 20` members and
coordinates; missing: larger data, about which the assumption on the norm routine says nothing. -/
theorem C172_mv_partial {r : ℝ → XF} (hr : Binary64 r) {D : ℕ} (hD : D ≤ 2 ^ 20) {N : List XF → XF} {L : ℝ} (hL0 : 0 ≤ L)
    (hL : L ≤ 2 ^ 20) (hN : NormAcc N D L) {y : Eu D} {xs : List (Eu D)} (hne : xs ≠ []) (hM : xs.length ≤ 2 ^ 20)
    (hy : ∀ i, |y i| ≤ 2 ^ 940) (hx : ∀ x ∈ xs, ∀ i, |x i| ≤ 2 ^ 940) :
    (∃ v : ℝ, RndLoop.ksNrg r (RndLoop.kernMv r N) [] (vec y) (xs.map vec) = fin v ∧
      |v - ks gaussD y (eqW xs)| ≤ ((xs.length : ℝ) ^ 2 + 2 * xs.length + 432 * L + 894) / 2 ^ 52) ∧
    (2 ≤ xs.length → ∃ v : ℝ, RndLoop.ksFairMv r N (vec y) (xs.map vec) = fin v ∧
      |v - Spec.ksFair gaussD y xs| ≤ ((xs.length : ℝ) ^ 2 + xs.length + 232 * L + 480) / 2 ^ 51) ∧
    (∃ v : ℝ, RndLoop.ksAkr r (RndLoop.kernMv r N) [] (vec y) (xs.map vec) = fin v ∧
      |v - ksCircle gaussD (xs.length - 1) y xs| ≤ (3 * (xs.length : ℝ) + 448 * L + 926) / 2 ^ 52) ∧
    ∃ v : ℝ, RndLoop.ksAkrCircperm r (RndLoop.kernMv r N) [] (vec y) (xs.map vec) = fin v ∧
      |v - ksCircle gaussD ((xs.length + 1) / 2) y xs| ≤ (3 * (xs.length : ℝ) + 448 * L + 926) / 2 ^ 52 := by
  have hM0 : 0 < xs.length := List.length_pos_iff.mpr hne
  have hu := kernLoop_unit hL0 hL
  have hk : ∀ a b : Eu D, (∀ i, |a i| ≤ 2 ^ 940) → (∀ i, |b i| ≤ 2 ^ 940) → 0 ≤ gaussD a b ∧ gaussD a b ≤ 1 ∧
      SqNear ((L + 2) / 2 ^ 47) (RndLoop.kernMv r N (vec a) (vec b)) (gaussD a b) 1 2 := fun a b ha hb =>
    ⟨(gaussD_mem a b).1, (gaussD_mem a b).2, kernLoopMv_near hr hN hD hL0 hL (sub_le_941 ha hb)⟩
  have hs : ∀ a b : Eu D, gaussD a b = gaussD b a := fun a b => by unfold gaussD; rw [dist_comm]
  have key : ∀ (σ : ℕ → ℕ → ℕ) (s : ℕ), (∀ i < xs.length, σ xs.length i = (i + s) % xs.length) →
      ∃ v : ℝ, RndLoop.ksCirc r (RndLoop.kernMv r N) [] σ (vec y) (xs.map vec) = fin v ∧
        |v - ksCircle gaussD s y xs| ≤ (3 * (xs.length : ℝ) + 448 * L + 926) / 2 ^ 52 := by
    intro σ s h
    obtain ⟨v, e, hv⟩ := ksLoopCirc_near hr (emb := vec) (P := fun a : Eu D => ∀ i, |a i| ≤ 2 ^ 940) hu.1 hu.2 hk [] hy hx hne
      hM (σ := σ) (fun i hi => by rw [h i hi]; exact Nat.mod_lt _ hM0)
    rw [List.map_congr_left fun i hi => by rw [h i (List.mem_range.1 hi)]] at hv
    exact ⟨v, e, hv.trans (le_of_eq (by ring))⟩
  refine ⟨?_, fun h2 => ?_, key _ _ fun i hi => (akr_partner hi).1, key _ _ fun i hi => (akr_partner hi).2⟩
  · obtain ⟨v, e, hv⟩ := ksLoopNrg_near hr (emb := vec) (P := fun a : Eu D => ∀ i, |a i| ≤ 2 ^ 940) hu.1 hu.2 hk [] hy hx hne hM
    exact ⟨v, e, hv.trans (le_of_eq (by ring))⟩
  · obtain ⟨v, e, hv⟩ := ksLoopFair_near hr (emb := vec) (P := fun a : Eu D => ∀ i, |a i| ≤ 2 ^ 940) hu.1 hu.2 hk
      (fun a b ha hb => (hk a b ha hb).2.2) hs [] hy hx h2 hM
    exact ⟨v, e, hv.trans (le_of_eq (by ring))⟩

example : Binary64 rn64 ∧ 2 ≤ 2 ^ 20 ∧ (0:ℝ) ≤ 1 ∧ (1:ℝ) ≤ 2 ^ 20 ∧ NormAcc (fun v => Rnd.rd rn64 (Mv.vnorm v)) 2 1 ∧
    2 ≤ plane3.length ∧ plane3.length ≤ 2 ^ 20 ∧ (∀ i, |(!₂[1, 2] : Eu 2) i| ≤ 2 ^ 940) ∧
    ∀ x ∈ plane3, ∀ i, |x i| ≤ 2 ^ 940 :=
  ⟨rn64_nearest.toBinary64, by norm_num, by norm_num, by norm_num, normAcc_rd rn64_nearest.toBinary64 (by norm_num),
    by simp [plane3], by simp [plane3], plane3_bound' _ (by simp [plane3]), plane3_bound'⟩

end Verif
