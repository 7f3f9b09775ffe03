import Verif.Spec.Unbiased
import Verif.Lemmas.Proper
import Verif.Lemmas.Mmd
import Mathlib.Probability.Independence.Basic

/-!
# Sums over independent members
-/

noncomputable section

open scoped Classical
open MeasureTheory ProbabilityTheory

namespace Verif
open Spec

variable {E : Type} [MeasurableSpace E] {Q : Measure E} [IsProbabilityMeasure Q] {M : ℕ}

instance iid_prob : IsProbabilityMeasure (iid M Q) := by unfold iid; infer_instance

theorem iid_eval (i : Fin M) : MeasurePreserving (fun x : Fin M → E => x i) (iid M Q) Q :=
  measurePreserving_eval (fun _ : Fin M => Q) i

theorem iid_pair {i j : Fin M} (h : i ≠ j) :
    MeasurePreserving (fun x : Fin M → E => (x i, x j)) (iid M Q) (Q.prod Q) := by
  have hi : iIndepFun (fun (k : Fin M) (x : Fin M → E) => x k) (iid M Q) :=
    iIndepFun_pi (X := fun _ : Fin M => (id : E → E)) fun _ => aemeasurable_id
  have hp := (indepFun_iff_map_prod_eq_prod_map_map (measurable_pi_apply i).aemeasurable
    (measurable_pi_apply j).aemeasurable).1 (hi.indepFun h)
  refine ⟨(measurable_pi_apply i).prodMk (measurable_pi_apply j), ?_⟩
  rw [hp, (iid_eval i).map_eq, (iid_eval j).map_eq]

theorem iid_mean (i : Fin M) {f : E → ℝ} (hf : Integrable f Q) :
    Integrable (fun x : Fin M → E => f (x i)) (iid M Q) ∧ ∫ x, f (x i) ∂(iid M Q) = ∫ x, f x ∂Q := by
  have h := iid_eval (Q := Q) i
  refine ⟨h.integrable_comp_of_integrable hf, ?_⟩
  have e := MeasureTheory.integral_map (μ := iid M Q) h.measurable.aemeasurable (f := f)
    (by rw [h.map_eq]; exact hf.aestronglyMeasurable)
  rw [h.map_eq] at e
  exact e.symm

theorem iid_pairMean {i j : Fin M} (hij : i ≠ j) {K : E → E → ℝ}
    (hK : Integrable (fun z : E × E => K z.1 z.2) (Q.prod Q)) :
    Integrable (fun x : Fin M → E => K (x i) (x j)) (iid M Q) ∧
      ∫ x, K (x i) (x j) ∂(iid M Q) = pairMean K Q Q := by
  have h := iid_pair (Q := Q) hij
  refine ⟨h.integrable_comp_of_integrable hK, ?_⟩
  have e := MeasureTheory.integral_map (μ := iid M Q) h.measurable.aemeasurable
    (f := fun z : E × E => K z.1 z.2) (by rw [h.map_eq]; exact hK.aestronglyMeasurable)
  rw [h.map_eq] at e
  exact e.symm

theorem iid_sum {f : E → ℝ} (hf : Integrable f Q) :
    Integrable (fun x : Fin M → E => ∑ i, f (x i)) (iid M Q) ∧
      ∫ x, ∑ i, f (x i) ∂(iid M Q) = M * ∫ x, f x ∂Q := by
  refine ⟨integrable_finsetSum _ fun i _ => (iid_mean i hf).1, ?_⟩
  rw [integral_finsetSum _ fun i _ => (iid_mean i hf).1]
  simp [(iid_mean _ hf).2]

theorem iid_sum_map {K : E → E → ℝ} (hK : Integrable (fun z : E × E => K z.1 z.2) (Q.prod Q)) (g : Fin M → Fin M)
    (hg : ∀ i, i ≠ g i) :
    Integrable (fun x : Fin M → E => ∑ i, K (x i) (x (g i))) (iid M Q) ∧
      ∫ x, ∑ i, K (x i) (x (g i)) ∂(iid M Q) = M * pairMean K Q Q := by
  refine ⟨integrable_finsetSum _ fun i _ => (iid_pairMean (hg i) hK).1, ?_⟩
  rw [integral_finsetSum _ fun i _ => (iid_pairMean (hg i) hK).1,
    Finset.sum_congr rfl fun i _ => (iid_pairMean (hg i) hK).2]
  simp

theorem iid_sum_pairs {K : E → E → ℝ} (hK : Integrable (fun z : E × E => K z.1 z.2) (Q.prod Q))
    (hd : Integrable (fun x => K x x) Q) :
    Integrable (fun x : Fin M → E => ∑ i, ∑ j, K (x i) (x j)) (iid M Q) ∧
      ∫ x, ∑ i, ∑ j, K (x i) (x j) ∂(iid M Q)
        = M * ∫ x, K x x ∂Q + M * (M - 1) * pairMean K Q Q := by
  have hi : ∀ i j : Fin M, Integrable (fun x : Fin M → E => K (x i) (x j)) (iid M Q) := fun i j => by
    by_cases h : i = j
    · subst h; exact (iid_mean i hd).1
    · exact (iid_pairMean h hK).1
  refine ⟨integrable_finsetSum _ fun i _ => integrable_finsetSum _ fun j _ => hi i j, ?_⟩
  rw [integral_finsetSum _ fun i _ => integrable_finsetSum _ fun j _ => hi i j]
  have : ∀ i : Fin M, ∫ x, ∑ j, K (x i) (x j) ∂(iid M Q) = ∫ x, K x x ∂Q + (M - 1) * pairMean K Q Q := fun i => by
    rw [integral_finsetSum _ fun j _ => hi i j, ← Finset.add_sum_erase _ _ (Finset.mem_univ i), (iid_mean i hd).2,
      Finset.sum_congr rfl fun j hj => (iid_pairMean (Finset.ne_of_mem_erase hj).symm hK).2]
    rw [Finset.sum_const, Finset.card_erase_of_mem (Finset.mem_univ i), Finset.card_univ, Fintype.card_fin,
      nsmul_eq_mul]
    have : 1 ≤ M := i.pos
    push_cast [Nat.cast_sub this]
    ring
  rw [Finset.sum_congr rfl fun i _ => this i]
  simp
  ring

/-! ### kernel scores -/

theorem sum_ofFn_map {β : Type*} (x : Fin M → β) (f : β → ℝ) : ((List.ofFn x).map f).sum = ∑ i, f (x i) := by
  rw [List.map_ofFn, List.sum_ofFn]; rfl

theorem ksFair_ofFn {β : Type} (K : β → β → ℝ) (y : β) (x : Fin M → β) :
    ksFair K y (List.ofFn x) = (∑ i, ∑ j, K (x i) (x j) - ∑ i, K (x i) (x i)) * (1 / (2 * (M * (M - 1))))
      + 1 / 2 * K y y - (∑ i, K (x i) y) * (1 / M) := by
  unfold ksFair
  simp only [sum_ofFn_map, List.length_ofFn]
  ring

theorem ks_ofFn {β : Type} (K : β → β → ℝ) (y : β) (x : Fin M → β) :
    ks K y (eqW (List.ofFn x)) = (∑ i, ∑ j, K (x i) (x j)) * (1 / (2 * M ^ 2))
      + 1 / 2 * K y y - (∑ i, K (x i) y) * (1 / M) := by
  unfold ks eqW
  simp only [List.map_map, Function.comp_def, sum_ofFn_map, List.length_ofFn]
  simp only [← Finset.mul_sum]
  ring

/-- The member pairs `(i, g i)` instead of all pairs. -/
def ksCirc {β : Type} (K : β → β → ℝ) (g : Fin M → Fin M) (y : β) (x : Fin M → β) : ℝ :=
  (∑ i, K (x i) (x (g i))) * (1 / (2 * M)) + 1 / 2 * K y y - (∑ i, K (x i) y) * (1 / M)

theorem hasMean_lin {α : Type} [MeasurableSpace α] {P : Measure α} [IsProbabilityMeasure P] {A B : α → ℝ} {a b m : ℝ}
    (hA : Integrable A P ∧ ∫ x, A x ∂P = a) (hB : Integrable B P ∧ ∫ x, B x ∂P = b) (c d e : ℝ)
    (hm : a * c + d - b * e = m) : HasMean P (fun x => XF.fin (A x * c + d - B x * e)) m := by
  have i1 : Integrable (fun x => A x * c) P := hA.1.mul_const c
  have i2 : Integrable (fun x => A x * c + d) P := i1.add (integrable_const d)
  have i3 : Integrable (fun x => B x * e) P := hB.1.mul_const e
  refine ⟨_, ae_of_all _ fun x => rfl, i2.sub i3, ?_⟩
  rw [integral_sub i2 i3, integral_add i1 (integrable_const d), integral_mul_const, integral_mul_const, hA.2, hB.2,
    ← hm]
  simp

theorem ksFair_iid {K : E → E → ℝ} (hM : 2 ≤ M) (y : E)
    (hK : Integrable (fun z : E × E => K z.1 z.2) (Q.prod Q)) (hd : Integrable (fun x => K x x) Q)
    (hy : Integrable (fun x => K x y) Q) :
    HasMean (iid M Q) (fun x => XF.fin (ksFair K y (List.ofFn x))) (ksLaw K y Q) := by
  have h1 := iid_sum_pairs (M := M) hK hd
  have h2 := iid_sum (M := M) hd
  simp only [ksFair_ofFn]
  refine hasMean_lin (A := fun x : Fin M → E => (∑ i, ∑ j, K (x i) (x j)) - ∑ i, K (x i) (x i))
    ⟨h1.1.sub h2.1, (integral_sub h1.1 h2.1).trans (by rw [h1.2, h2.2])⟩ (iid_sum hy) _ _ _ ?_
  have hM0 : (M:ℝ) ≠ 0 := by positivity
  have hM1 : (M:ℝ) - 1 ≠ 0 := by
    have : (2:ℝ) ≤ M := by exact_mod_cast hM
    linarith
  simp only [ksLaw]
  field_simp
  ring

theorem ksCirc_iid {K : E → E → ℝ} (hM : M ≠ 0) (g : Fin M → Fin M) (hg : ∀ i, i ≠ g i) (y : E)
    (hK : Integrable (fun z : E × E => K z.1 z.2) (Q.prod Q)) (hy : Integrable (fun x => K x y) Q) :
    HasMean (iid M Q) (fun x => XF.fin (ksCirc K g y x)) (ksLaw K y Q) := by
  refine hasMean_lin (iid_sum_map hK g hg) (iid_sum hy) _ _ _ ?_
  have hM0 : (M:ℝ) ≠ 0 := by exact_mod_cast hM
  simp only [ksLaw]
  field_simp

theorem ks_iid {K : E → E → ℝ} (hM : M ≠ 0) (y : E)
    (hK : Integrable (fun z : E × E => K z.1 z.2) (Q.prod Q)) (hd : Integrable (fun x => K x x) Q)
    (hy : Integrable (fun x => K x y) Q) :
    HasMean (iid M Q) (fun x => XF.fin (ks K y (eqW (List.ofFn x))))
      (ksLaw K y Q + (∫ x, K x x ∂Q - pairMean K Q Q) / (2 * M)) := by
  simp only [ks_ofFn]
  refine hasMean_lin (iid_sum_pairs hK hd) (iid_sum hy) _ _ _ ?_
  have hM0 : (M:ℝ) ≠ 0 := by exact_mod_cast hM
  simp only [ksLaw]
  field_simp
  ring

/-! ### The continuous ranked probability score of a law -/

theorem hasCrps_distr {P : Measure ℝ} [IsProbabilityMeasure P] (hP : Integrable (fun y => y) P) (y : ℝ) :
    HasCrps (distr P) y := by
  have hs : ∀ z, HasCrps (fun t : ℝ => if (0:ℝ) ≤ t then (1:ℝ) else 0) z := fun z => crps_kernel_integrable z
  obtain ⟨_, h2, _, _⟩ := expected_crps hP hs
  have h0 : HasCrps (distr P) 0 := by
    refine h2.congr (Filter.Eventually.of_forall fun z => ?_)
    show _ = (distr P z - _) ^ 2
    ring
  exact hasCrps_all (distr_mono P).measurable.aemeasurable h0 y

/-- `E|X-y| - E|X-X'|/2` -/
theorem crps_distr {P : Measure ℝ} [IsProbabilityMeasure P] (hP : Integrable (fun y => y) P) (y : ℝ) :
    crps (distr P) y = ∫ x, |x - y| ∂P - crpsEntropy (distr P) := by
  have hs : ∀ z, HasCrps (fun t : ℝ => if y ≤ t then (1:ℝ) else 0) z := fun z => by
    have := (crps_kernel_integrable (z - y)).comp_sub_right y
    refine this.congr (Filter.Eventually.of_forall fun t => ?_)
    simp [sub_nonneg]
  obtain ⟨_, h2, _, h4⟩ := expected_crps hP hs
  have e : ∀ x, crps (fun t : ℝ => if y ≤ t then (1:ℝ) else 0) x = |x - y| := fun x => by
    rw [← crps_kernel_integral (x - y), ← MeasureTheory.integral_sub_right_eq_self _ y]
    unfold crps
    congr 1
    funext t
    simp [sub_nonneg]
  simp only [e] at h4
  rw [h4, add_sub_cancel_right]
  unfold crps cramer
  congr 1
  funext z
  ring

theorem crpsEntropy_eq {P : Measure ℝ} [IsProbabilityMeasure P] (hP : Integrable (fun y => y) P) :
    crpsEntropy (distr P) = 1 / 2 * pairMean (fun a b => |a - b|) P P := by
  have hc := hasCrps_distr hP
  obtain ⟨h1, _, _, h4⟩ := expected_crps hP hc
  have hp : Integrable (fun z : ℝ × ℝ => |z.1 - z.2|) (P.prod P) := ((hP.comp_fst P).sub (hP.comp_snd P)).abs
  have e : ∫ y, ∫ x, |x - y| ∂P ∂P = pairMean (fun a b => |a - b|) P P := by
    unfold pairMean
    rw [integral_prod_symm _ hp]
  simp only [crps_distr hP] at h4
  rw [integral_sub hp.integral_prod_right (integrable_const _), e] at h4
  simp [cramer] at h4
  linarith

end Verif
