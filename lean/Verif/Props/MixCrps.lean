import Verif.Lemmas.Mix
import Verif.Lemmas.CrpsApi2
import Verif.Props.Logs
import Verif.Model.Closed2

/-!
# C72: the CRPS of a normal mixture
-/

noncomputable section

open scoped Classical Topology
open MeasureTheory Filter Set

namespace Verif

open XF Py Spec

theorem range_sum_univ (n : ℕ) (f : ℕ → XF) (g : Fin n → ℝ) (h : ∀ i : Fin n, f i = fin (g i)) :
    ((List.range n).map f).sum = fin (∑ i, g i) := by
  have e : ((List.range n).map f).sum = ∑ i ∈ Finset.range n, f i := rfl
  rw [e, Finset.sum_range]
  simp only [h]
  rw [← List.sum_ofFn, ← List.sum_ofFn, ← sum_map_fin, List.map_ofFn]
  rfl

theorem idx_get {α : Type} (l : List α) (f : α → ℝ) (i : Fin l.length) :
    Py.idx (l.map fun p => fin (f p)) i = fin (f l[i.1]) :=
  idx_map_of_getElem? (fun p => fin (f p)) (List.getElem?_eq_getElem i.2)

/-- C72: `crps_mixnorm` is the CRPS of the mixture distribution, for any number of components. -/
theorem C72_mixnorm (l : List (ℝ × ℝ × ℝ)) (hs : ∀ p ∈ l, 0 < p.2.1) (hw : ∀ p ∈ l, 0 ≤ p.2.2)
    (h1 : (l.map fun p => p.2.2).sum = 1) (y : ℝ) :
    HasCrps (cdfMix l) y ∧
    Closed.mixnorm (fin y) (l.map fun p => fin p.1) (l.map fun p => fin p.2.1) (l.map fun p => fin p.2.2)
      = fin (Spec.crps (cdfMix l) y) := by
  have hs' : ∀ i : Fin l.length, 0 < l[i.1].2.1 := fun i => hs _ (List.getElem_mem _)
  obtain ⟨hi, hv⟩ := crps_mix (n := l.length) (fun i => l[i.1].1) (fun i => l[i.1].2.1) (fun i => l[i.1].2.2)
    hs' (fun i => hw _ (List.getElem_mem _)) (by rw [← h1, ← Fin.sum_univ_fun_getElem]) y
  have e : (fun x => ∑ i : Fin l.length, l[i.1].2.2 * Φ ((x - l[i.1].1) / l[i.1].2.1)) = cdfMix l := by
    funext x
    unfold cdfMix cdfNormal
    rw [Fin.sum_univ_fun_getElem l fun p => p.2.2 * Φ ((x - p.1) / p.2.1)]
  rw [e] at hi hv
  refine ⟨hi, ?_⟩
  rw [hv]
  have hr : ∀ i j : Fin l.length, 0 < Real.sqrt (l[i.1].2.1 ^ 2 + l[j.1].2.1 ^ 2) := fun i j =>
    Real.sqrt_pos.2 (by have := hs' i; positivity)
  have hA : ∀ d t : ℝ, 0 < t → fin d * (2 * Stats.normCdf (fin d / fin t) - 1)
      + 2 * fin t * Stats.normPdf (fin d / fin t) = fin (2 * t * Φ1 (d / t) - d) := by
    intro d t ht
    rw [fin_div ht.ne', normCdf_fin, normPdf_fin]
    simp only [XF.ofNat_def, XF.one_def, fin_mul, fin_sub, fin_add, fin_inj]
    unfold Φ1
    have := ht.ne'
    field_simp
    ring
  unfold Closed.mixnorm
  dsimp only
  rw [List.length_map, range_sum_univ l.length _ (fun i => l[i.1].2.2
      * (2 * l[i.1].2.1 * Φ1 ((y - l[i.1].1) / l[i.1].2.1) - (y - l[i.1].1)))
      (fun i => by rw [idx_get, idx_get, idx_get, fin_sub, hA _ _ (hs' i), fin_mul]),
    range_sum_univ l.length _ (fun i => ∑ j : Fin l.length, l[i.1].2.2 * l[j.1].2.2
      * (2 * Real.sqrt (l[i.1].2.1 ^ 2 + l[j.1].2.1 ^ 2)
        * Φ1 ((l[i.1].1 - l[j.1].1) / Real.sqrt (l[i.1].2.1 ^ 2 + l[j.1].2.1 ^ 2))
        - (l[i.1].1 - l[j.1].1)))
      (fun i => range_sum_univ _ _ _ fun j => by
        rw [idx_get, idx_get, idx_get, idx_get, idx_get, idx_get, fin_sub, fin_pow, fin_pow, fin_add,
          fin_sqrt (by positivity), hA _ _ (hr i j), fin_mul, fin_mul])]
  rw [fin_mul, fin_sub, fin_inj]
  congr 1
  have h0 : ∑ i : Fin l.length, ∑ j : Fin l.length, l[i.1].2.2 * l[j.1].2.2 * (l[i.1].1 - l[j.1].1) = 0 := by
    have hc := Finset.sum_comm (s := Finset.univ) (t := Finset.univ)
      (f := fun i j : Fin l.length => l[i.1].2.2 * l[j.1].2.2 * (l[i.1].1 - l[j.1].1))
    have : ∑ i : Fin l.length, ∑ j : Fin l.length, l[i.1].2.2 * l[j.1].2.2 * (l[i.1].1 - l[j.1].1)
        = -∑ i : Fin l.length, ∑ j : Fin l.length, l[i.1].2.2 * l[j.1].2.2 * (l[i.1].1 - l[j.1].1) := by
      conv_lhs => rw [hc]
      simp only [← Finset.sum_neg_distrib]
      exact Finset.sum_congr rfl fun i _ => Finset.sum_congr rfl fun j _ => by ring
    linarith
  rw [Finset.sum_comm]
  simp only [mul_sub (_ * _ : ℝ), Finset.sum_sub_distrib]
  rw [Finset.sum_comm] at h0
  simp only [mul_sub (_ * _ : ℝ), Finset.sum_sub_distrib] at h0
  rw [h0, sub_zero, Finset.mul_sum]
  refine Finset.sum_congr rfl fun i _ => ?_
  rw [Finset.mul_sum]
  refine Finset.sum_congr rfl fun j _ => ?_
  rw [add_comm (l[j.1].2.1 ^ 2)]
  ring

example (y : ℝ) : HasCrps (cdfMix [(0, 1, 1 / 4), (2, 3, 3 / 4)]) y :=
  (C72_mixnorm _ (by simp) (by simp; norm_num) (by norm_num) y).1

end Verif
