import Verif.Props.Crps2
import Mathlib.Logic.Equiv.Fin.Basic
import Mathlib.Algebra.BigOperators.Fin

/-!
# Properties C19 and C20: propriety of the ensemble CRPS, unbiasedness of the fair CRPS
-/

noncomputable section

open scoped Classical
open MeasureTheory

namespace Verif

open XF Py Api

/-! ### C19 -/

theorem wcdf_sq (y : ℝ) (l : List (ℝ × ℝ)) (hw : wtot l = 1) (z : ℝ) :
    (Spec.wcdf l z - step y z) ^ 2 = (l.map fun p => (l.map fun q =>
          (p.2 * q.2) * ((step p.1 z - step y z) * (step q.1 z - step y z))).sum).sum := by
  rw [wcdf_sub l hw, pow_two, ← pairsAll_prod]
  unfold pairsAll
  apply sum_map_congr; intro p _
  apply sum_map_congr; intro q _
  ring

theorem integrable_wcdf_sq (y : ℝ) (l : List (ℝ × ℝ)) (hw : wtot l = 1) :
    Integrable fun z => (Spec.wcdf l z - step y z) ^ 2 := by
  simp only [wcdf_sq y l hw]
  exact integrable_list_sum l _ fun p _ => integrable_list_sum l _ fun q _ =>
    (integrable_step_prod y p.1 q.1).const_mul _

theorem wcdf_eq_sum (l : List (ℝ × ℝ)) (hw : wtot l = 1) (z : ℝ) :
    Spec.wcdf l z = (l.map fun p => p.2 * step p.1 z).sum := by
  have h := wcdf_sub l hw z z
  have h1 : (l.map fun p => (step p.1 z - step z z) * p.2).sum
      = (l.map fun p => p.2 * step p.1 z).sum - step z z * wtot l := by
    unfold wtot
    rw [← sum_map_mul_left', ← sum_map_sub']
    apply sum_map_congr; intro p _; ring
  rw [h1, hw] at h
  linarith

theorem proper_wcdf (F G : List (ℝ × ℝ)) (hF : wtot F = 1) (hG : wtot G = 1) :
    (G.map fun q => q.2 * Spec.crps (Spec.wcdf F) q.1).sum
      - (G.map fun q => q.2 * Spec.crps (Spec.wcdf G) q.1).sum
      = ∫ z, (Spec.wcdf F z - Spec.wcdf G z) ^ 2 := by
  have hI : ∀ l : List (ℝ × ℝ), wtot l = 1 → (G.map fun q => q.2 * Spec.crps (Spec.wcdf l) q.1).sum
      = ∫ z, (G.map fun q => q.2 * (Spec.wcdf l z - step q.1 z) ^ 2).sum := by
    intro l hl
    rw [integral_list_sum G _ fun q _ => (integrable_wcdf_sq q.1 l hl).const_mul _]
    apply sum_map_congr; intro q _
    rw [integral_const_mul]
    rfl
  rw [hI F hF, hI G hG, ← integral_sub]
  · congr 1
    funext z
    rw [← sum_map_sub']
    have e : ∀ q : ℝ × ℝ, q.2 * (Spec.wcdf F z - step q.1 z) ^ 2
          - q.2 * (Spec.wcdf G z - step q.1 z) ^ 2
        = (Spec.wcdf F z ^ 2 - Spec.wcdf G z ^ 2) * q.2
          - 2 * (Spec.wcdf F z - Spec.wcdf G z) * (q.2 * step q.1 z) := by
      intro q; ring
    simp only [e]
    rw [sum_map_sub', sum_map_mul_left', sum_map_mul_left', ← wcdf_eq_sum G hG]
    have : (G.map fun q => q.2).sum = 1 := hG
    rw [this]
    ring
  · exact integrable_list_sum G _ fun q _ => (integrable_wcdf_sq q.1 F hF).const_mul _
  · exact integrable_list_sum G _ fun q _ => (integrable_wcdf_sq q.1 G hG).const_mul _

/-- C19: when the observation is drawn from the members of `G`, the expected score of any other
ensemble `F` exceeds that of `G` by the integral of `(F - G)^2`, and is therefore not smaller. -/
theorem C19_proper (path : Path) (sorted : Bool) (F G : List ℝ) (hF : F ≠ []) (hG : G ≠ []) :
    ∃ s : List ℝ → ℝ → ℝ,
      (∀ xs, xs ≠ [] → ∀ y, crps1 path "nrg" sorted "propagate" (fin y) (xs.map fin) none
        = .ok (fin (s xs y))) ∧
      (G.map (s F)).sum / G.length - (G.map (s G)).sum / G.length
        = ∫ z, (Spec.ecdf F z - Spec.ecdf G z) ^ 2 ∧
      (G.map (s G)).sum / G.length ≤ (G.map (s F)).sum / G.length := by
  have key : (G.map (Spec.crps (Spec.ecdf F))).sum / G.length
      - (G.map (Spec.crps (Spec.ecdf G))).sum / G.length
      = ∫ z, (Spec.ecdf F z - Spec.ecdf G z) ^ 2 := by
    have h := proper_wcdf (uw F) (uw G) (wtot_uw hF) (wtot_uw hG)
    rw [wcdf_uw hF, wcdf_uw hG] at h
    rw [← h]
    have e : ∀ f : ℝ → ℝ, ((uw G).map fun q => q.2 * f q.1).sum = (G.map f).sum / G.length := by
      intro f
      unfold uw
      rw [List.map_map]
      rw [← sum_map_div']
      apply sum_map_congr; intro x _
      simp only [Function.comp_apply]
      ring
    rw [e, e]
  refine ⟨fun xs y => Spec.crps (Spec.ecdf xs) y, fun xs hx y => ?_, key, ?_⟩
  · dsimp only
    rw [crps1_nrg path sorted y hx, crps_ecdf_eq_energy y hx]
  · have : 0 ≤ ∫ z, (Spec.ecdf F z - Spec.ecdf G z) ^ 2 := integral_nonneg fun z => sq_nonneg _
    have k : (G.map (Spec.crps (Spec.ecdf G))).sum / G.length ≤
      (G.map (Spec.crps (Spec.ecdf F))).sum / G.length := by linarith
    exact k

example : ([1, 3] : List ℝ) ≠ [] ∧ ([2] : List ℝ) ≠ [] := by simp

/-- C19 with weights: the observation is drawn from `G` with its normalised weights. -/
theorem C19_proper_weighted (path : Path) (sorted : Bool) (F G : List (ℝ × ℝ))
    (hF : 0 < (F.map Prod.snd).sum) (hG : 0 < (G.map Prod.snd).sum) :
    ∃ s : List (ℝ × ℝ) → ℝ → ℝ,
      (∀ l : List (ℝ × ℝ), (∀ p ∈ l, 0 ≤ p.2) → 0 < (l.map Prod.snd).sum → ∀ y,
        crps1 path "nrg" sorted "propagate" (fin y) (l.map fun p => fin p.1)
          (some (l.map fun p => fin p.2)) = .ok (fin (s l y))) ∧
      (G.map fun q => q.2 / (G.map Prod.snd).sum * s F q.1).sum
          - (G.map fun q => q.2 / (G.map Prod.snd).sum * s G q.1).sum
        = ∫ z, (Spec.wcdf F z - Spec.wcdf G z) ^ 2 ∧
      (G.map fun q => q.2 / (G.map Prod.snd).sum * s G q.1).sum
        ≤ (G.map fun q => q.2 / (G.map Prod.snd).sum * s F q.1).sum := by
  have key := proper_wcdf (norml F) (norml G) (wtot_norml hF.ne') (wtot_norml hG.ne')
  rw [wcdf_norml hF.ne', wcdf_norml hG.ne'] at key
  have e : ∀ f : ℝ → ℝ, ((norml G).map fun q => q.2 * f q.1).sum
      = (G.map fun q => q.2 / (G.map Prod.snd).sum * f q.1).sum := by
    intro f
    unfold norml
    rw [List.map_map]
    rfl
  rw [e, e] at key
  refine ⟨fun l y => Spec.crps (Spec.wcdf l) y, fun l hw ht y => ?_, key, ?_⟩
  · rw [C01_nrg_weighted_is_integral path sorted y l hw ht]
  · have : 0 ≤ ∫ z, (Spec.wcdf F z - Spec.wcdf G z) ^ 2 := integral_nonneg fun z => sq_nonneg _
    dsimp only
    linarith

example : 0 < (([(1, 2), (3, 0)] : List (ℝ × ℝ)).map Prod.snd).sum := by norm_num

/-! ### C20 -/

section avg
variable {ι β : Type} [Fintype ι] [DecidableEq ι] [Fintype β]

theorem sum_fun_split (i : ι) (g : (ι → β) → ℝ) :
    ∑ s, g s = ∑ a, ∑ t : {j // j ≠ i} → β, g ((Equiv.funSplitAt i β).symm (a, t)) := by
  rw [← Fintype.sum_prod_type']
  exact (Equiv.sum_comp (Equiv.funSplitAt i β).symm g).symm

theorem avg_one (i : ι) (g : β → ℝ) :
    (Fintype.card β : ℝ) * ∑ s : ι → β, g (s i) = Fintype.card (ι → β) * ∑ a, g a := by
  rw [sum_fun_split i]
  have hc : Fintype.card (ι → β) = Fintype.card β * Fintype.card ({j // j ≠ i} → β) := by
    rw [Fintype.card_congr (Equiv.funSplitAt i β), Fintype.card_prod]
  have : ∀ a (t : {j // j ≠ i} → β), ((Equiv.funSplitAt i β).symm (a, t)) i = a := by
    intro a t; simp
  simp only [this, Finset.sum_const, Finset.card_univ, nsmul_eq_mul, ← Finset.mul_sum]
  rw [hc]; push_cast; ring

theorem avg_two {i j : ι} (hij : j ≠ i) (h : β → β → ℝ) :
    (Fintype.card β : ℝ) ^ 2 * ∑ s : ι → β, h (s i) (s j)
      = Fintype.card (ι → β) * ∑ a, ∑ b, h a b := by
  rw [sum_fun_split i]
  have hc : Fintype.card (ι → β) = Fintype.card β * Fintype.card ({j // j ≠ i} → β) := by
    rw [Fintype.card_congr (Equiv.funSplitAt i β), Fintype.card_prod]
  have h1 : ∀ a (t : {j // j ≠ i} → β), h (((Equiv.funSplitAt i β).symm (a, t)) i)
      (((Equiv.funSplitAt i β).symm (a, t)) j) = h a (t ⟨j, hij⟩) := by
    intro a t; simp [hij]
  simp only [h1]
  have h2 : ∀ a, (Fintype.card β : ℝ) * ∑ t : {j // j ≠ i} → β, h a (t ⟨j, hij⟩)
      = Fintype.card ({j // j ≠ i} → β) * ∑ b, h a b := fun a =>
    avg_one (ι := {j // j ≠ i}) (⟨j, hij⟩ : {j // j ≠ i}) (h a)
  rw [pow_two, mul_assoc, Finset.mul_sum]
  simp only [h2, ← Finset.mul_sum]
  rw [hc]; push_cast; ring

end avg

theorem ofFn_map_sum {n : ℕ} (x : Fin n → ℝ) (f : ℝ → ℝ) :
    ((List.ofFn x).map f).sum = ∑ i, f (x i) := by
  rw [List.map_ofFn, List.sum_ofFn]; rfl

/-- C20: averaged over all `N ^ M` samples with replacement of size `M ≥ 2` from a population of `N`
values, the `fair` score is the `nrg` score of the population. -/
theorem C20_fair_unbiased (path : Path) (sorted : Bool) (y : ℝ) (N M : ℕ) (hN : 0 < N)
    (hM : 2 ≤ M) (pop : Fin N → ℝ) :
    ∃ (v : (Fin M → Fin N) → ℝ) (V : ℝ),
      (∀ s, crps1 path "fair" sorted "propagate" (fin y) ((List.ofFn fun i => pop (s i)).map fin) none
        = .ok (fin (v s))) ∧
      crps1 path "nrg" sorted "propagate" (fin y) ((List.ofFn pop).map fin) none = .ok (fin V) ∧
      (∑ s, v s) / (N : ℝ) ^ M = V := by
  have hne : List.ofFn pop ≠ [] := by
    intro h
    have := congrArg List.length h
    simp at this
    omega
  refine ⟨fun s => Spec.fairCrps y (List.ofFn fun i => pop (s i)), energy y (uw (List.ofFn pop)),
    fun s => crps1_fair path sorted y (by simpa using hM), crps1_nrg path sorted y hne, ?_⟩
  have hN' : (N : ℝ) ≠ 0 := by exact_mod_cast hN.ne'
  have hM' : (M : ℝ) ≠ 0 := by exact_mod_cast (by omega : M ≠ 0)
  have hM1 : (M : ℝ) - 1 ≠ 0 := by
    have : (2 : ℝ) ≤ M := by exact_mod_cast hM
    linarith
  have hf : ∀ s : Fin M → Fin N, Spec.fairCrps y (List.ofFn fun i => pop (s i))
      = (∑ i, |pop (s i) - y|) / M
        - (∑ i, ∑ j, |pop (s i) - pop (s j)|) / (2 * (M * (M - 1))) := by
    intro s
    unfold Spec.fairCrps Spec.meanAbs Spec.sumAbsDiff
    rw [ofFn_map_sum, ofFn_map_sum]
    simp only [ofFn_map_sum, List.length_ofFn]
  have he : energy y (uw (List.ofFn pop))
      = (∑ k, |pop k - y|) / N - (∑ a, ∑ b, |pop a - pop b|) / (2 * N ^ 2) := by
    unfold energy
    rw [wabs_uw, wpair_uw, sabs_eq, spair_eq]
    unfold Spec.meanAbs Spec.sumAbsDiff
    rw [ofFn_map_sum, ofFn_map_sum]
    simp only [ofFn_map_sum, List.length_ofFn]
    ring
  simp only [hf]
  rw [he, Finset.sum_sub_distrib, ← Finset.sum_div, ← Finset.sum_div]
  have hcard : (Fintype.card (Fin M → Fin N) : ℝ) = (N : ℝ) ^ M := by simp
  have t1 : ∑ s : Fin M → Fin N, ∑ i, |pop (s i) - y| = M * ((N : ℝ) ^ M / N * ∑ k, |pop k - y|) := by
    rw [Finset.sum_comm]
    have : ∀ i : Fin M, ∑ s : Fin M → Fin N, |pop (s i) - y| = (N : ℝ) ^ M / N * ∑ k, |pop k - y| := by
      intro i
      have := avg_one (β := Fin N) i fun a => |pop a - y|
      rw [hcard, Fintype.card_fin] at this
      field_simp
      linarith
    simp only [this]
    simp
  have t2 : ∑ s : Fin M → Fin N, ∑ i, ∑ j, |pop (s i) - pop (s j)|
      = M * (M - 1) * ((N : ℝ) ^ M / N ^ 2 * ∑ a, ∑ b, |pop a - pop b|) := by
    rw [Finset.sum_comm]
    have : ∀ i : Fin M, ∑ s : Fin M → Fin N, ∑ j, |pop (s i) - pop (s j)|
        = (M - 1) * ((N : ℝ) ^ M / N ^ 2 * ∑ a, ∑ b, |pop a - pop b|) := by
      intro i
      rw [Finset.sum_comm]
      have h1 : ∀ j : Fin M, ∑ s : Fin M → Fin N, |pop (s i) - pop (s j)|
          = if j = i then 0 else (N : ℝ) ^ M / N ^ 2 * ∑ a, ∑ b, |pop a - pop b| := by
        intro j
        split_ifs with hj
        · rw [hj]; simp
        · have := avg_two (β := Fin N) hj fun a b => |pop a - pop b|
          rw [hcard, Fintype.card_fin] at this
          field_simp
          linarith
      simp only [h1]
      rw [Finset.sum_ite]
      simp only [Finset.sum_const_zero, zero_add, Finset.sum_const, nsmul_eq_mul]
      congr 1
      rw [Finset.filter_not, Finset.card_sdiff]
      simp [Finset.filter_eq', Nat.cast_sub (by omega : 1 ≤ M)]
    simp only [this]
    simp
    ring
  rw [t1, t2]
  field_simp

example : 0 < 3 ∧ 2 ≤ 2 := by norm_num

end Verif
