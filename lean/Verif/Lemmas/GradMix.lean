import Verif.Lemmas.GradEns
import Verif.Lemmas.Variogram

/-!
# Gradients of the normal mixture CRPS, the error-spread score and the variogram score
-/

noncomputable section

open scoped Classical Topology

namespace Verif

open XF Py Mv Node Filter Grad
open Spec (φ Φ)

namespace Tr

variable {N N' : ℝ → Node} {f f' : ℝ → ℝ} {θ : ℝ}

/-- `B.sqrt`: on torch only of something that does not depend on the leaf. -/
theorem bsqrt {lib : Lib} (h : Tr N f θ) (h0 : 0 < f θ) (hl : lib = .jax ∨ ∀ t, f t = f θ) :
    Tr (fun t => Node.bsqrt lib (N t)) (fun t => Real.sqrt (f t)) θ := by
  cases lib with
  | jax => exact h.sqrt h0
  | torch =>
    have hc : ∀ t, f t = f θ := by rcases hl with h | h; cases h; exact h
    obtain ⟨hv, _⟩ := h
    refine ⟨?_, 0, ?_, fun g => by rw [mul_zero]; rfl⟩
    · filter_upwards [hv] with t ht
      show XF.sqrt (N t).val = _
      rw [ht, fin_sqrt (by rw [hc]; exact h0.le)]
    · simp only [hc]
      exact hasDerivAt_const _ _

/-- the helper `A` of `mixnorm`, `core/crps/_closed.py:643-648` -/
def A (d t : ℝ) : ℝ := d * (2 * Φ (d / t) - 1) + 2 * t * φ (d / t)

theorem mixA (h : Tr N f θ) (h' : Tr N' f' θ) (h0 : f' θ ≠ 0) :
    Tr (fun t => N t * (Node.const 2 * Grad.normCdf (N t / N' t) - Node.const 1)
      + Node.const 2 * N' t * Grad.normPdf (N t / N' t)) (fun t => A (f t) (f' t)) θ :=
  (h.mul ((Tr.two.mul (h.div h' h0).normCdf).sub Tr.one)).add ((Tr.two.mul h').mul (h.div h' h0).normPdf)

theorem mixnorm {lib : Lib} {y : ℝ → Node} {fy : ℝ → ℝ} {m s w : ℝ → List Node} {fm fs fw : ℕ → ℝ → ℝ}
    (n : ℕ) (hn : ∀ t, (m t).length = n) (hy : Tr y fy θ) (hm : ∀ i ∈ List.range n, Tr (fun t => nget (m t) i) (fm i) θ)
    (hs : ∀ i ∈ List.range n, Tr (fun t => nget (s t) i) (fs i) θ)
    (hw : ∀ i ∈ List.range n, Tr (fun t => nget (w t) i) (fw i) θ)
    (h0 : ∀ i ∈ List.range n, 0 < fs i θ)
    (hl : lib = .jax ∨ ∀ i ∈ List.range n, ∀ t, fs i t = fs i θ) :
    Tr (fun t => Grad.mixnorm lib (y t) (m t) (s t) (w t))
      (fun t => ((List.range n).map fun i => fw i t * A (fy t - fm i t) (fs i t)).sum
        - 1 / 2 * ((List.range n).map fun i => ((List.range n).map fun j =>
            fw i t * fw j t * A (fm i t - fm j t) (Real.sqrt (fs i t ^ 2 + fs j t ^ 2))).sum).sum) θ := by
  have h1 := Tr.sum (List.range n) fun i hi =>
    (hw i hi).mul ((hy.sub (hm i hi)).mixA (hs i hi) (h0 i hi).ne')
  have h2 := Tr.sum (List.range n) fun i hi => Tr.sum (List.range n) fun j hj =>
    ((hw i hi).mul (hw j hj)).mul (((hm i hi).sub (hm j hj)).mixA
      (((hs i hi).pow 2).add ((hs j hj).pow 2) |>.bsqrt (lib := lib)
        (by have := h0 i hi; have := h0 j hj; positivity)
        (hl.imp_right fun h t => by rw [h i hi, h j hj]))
      (Real.sqrt_pos.2 (by have := h0 i hi; have := h0 j hj; positivity)).ne')
  refine ((h1.sub ((Tr.const (1 / 2)).mul h2))).congrN fun t => ?_
  simp only [Grad.mixnorm, hn]

/-- `error_spread_score` -/
theorem ess {lib : Lib} {y : ℝ → Node} {fy : ℝ → ℝ} {N : ℕ → ℝ → Node} {f : ℕ → ℝ → ℝ} (M : ℕ) (hM : 3 ≤ M)
    (hy : Tr y fy θ) (hN : ∀ i ∈ List.range M, Tr (N i) (f i) θ)
    (h0 : 0 < ((List.range M).map fun i => (f i θ - ((List.range M).map fun j => f j θ).sum / M) ^ 2).sum)
    (hl : lib = .jax ∨ ∀ i ∈ List.range M, ∀ t, f i t = f i θ) :
    ∃ q, Tr (fun t => Grad.ess lib (y t) ((List.range M).map fun i => N i t)) q θ := by
  have hM0 : (M : ℝ) ≠ 0 := by positivity
  have hM1 : ((M - 1 : ℕ) : ℝ) ≠ 0 := by
    have : M - 1 ≠ 0 := by omega
    exact_mod_cast this
  have hM2 : (((M - 1) * (M - 2) : ℕ) : ℝ) ≠ 0 := by
    have : (M - 1) * (M - 2) ≠ 0 := Nat.mul_ne_zero (by omega) (by omega)
    exact_mod_cast this
  have hc0 : Tr (θ := θ) (fun _ => Node.const (M : XF)) (fun _ => (M : ℝ)) := Tr.constx (natCast_def _)
  have hc1 : Tr (θ := θ) (fun _ => Node.const ((M - 1 : ℕ) : XF)) (fun _ => ((M - 1 : ℕ) : ℝ)) :=
    Tr.constx (natCast_def _)
  have hc2 : Tr (θ := θ) (fun _ => Node.const (((M - 1) * (M - 2) : ℕ) : XF))
      (fun _ => (((M - 1) * (M - 2) : ℕ) : ℝ)) := Tr.constx (natCast_def _)
  have hm := (Tr.sum (List.range M) hN).div hc0 hM0
  have hv := (Tr.sum (List.range M) fun i hi => ((hN i hi).sub hm).pow 2).div hc1 hM1
  have hpos : 0 < ((List.range M).map fun i => (f i θ - ((List.range M).map fun j => f j θ).sum / M) ^ 2).sum
      / ((M - 1 : ℕ) : ℝ) := div_pos h0 (lt_of_le_of_ne (Nat.cast_nonneg _) hM1.symm)
  have hcst : lib = .jax ∨ ∀ t, ((List.range M).map fun i =>
      (f i t - ((List.range M).map fun j => f j t).sum / M) ^ 2).sum / ((M - 1 : ℕ) : ℝ)
      = ((List.range M).map fun i =>
      (f i θ - ((List.range M).map fun j => f j θ).sum / M) ^ 2).sum / ((M - 1 : ℕ) : ℝ) := by
    refine hl.imp_right fun h t => ?_
    have e : ((List.range M).map fun j => f j t) = (List.range M).map fun j => f j θ :=
      List.map_congr_left fun j hj => h j hj t
    rw [e]
    congr 2
    exact List.map_congr_left fun j hj => by rw [h j hj t]
  have hs := hv.bsqrt (lib := lib) hpos hcst
  have hs0 := (Real.sqrt_pos.2 hpos).ne'
  have hg := (Tr.sum (List.range M) fun i hi => (((hN i hi).sub hm).div hs hs0).pow 3).div hc2 hM2
  have he := hm.sub hy
  refine ⟨_, (((hs.pow 2).sub (he.pow 2)).sub ((he.mul hs).mul hg)).pow 2 |>.congrN fun t => ?_⟩
  simp only [Grad.ess, List.map_map, Function.comp_def, List.length_map, List.length_range]

/-- `|x| ** p` away from 0 -/
theorem rpow (h : Tr N f θ) (h0 : 0 < f θ) {p : ℝ} (hp : 0 < p) :
    Tr (fun t => Node.rpow (N t) p) (fun t => f t ^ p) θ := by
  have e := h.val
  have hpos : ∀ᶠ t in 𝓝 θ, 0 < f t := h.cont.eventually_const_lt h0
  obtain ⟨hv, d, hd, hb⟩ := h
  refine ⟨?_, p * f θ ^ (p - 1) * d, ?_, fun g => ?_⟩
  · filter_upwards [hv, hpos] with t ht hpt
    show XF.rpow (N t).val p = _
    rw [ht, fin_rpow hpt.le hp]
  · exact (Real.hasDerivAt_rpow_const (Or.inl h0.ne')).comp θ hd
  · show (N θ).back (if p = 0 then 0 else fin g * (fin p * XF.rpow (N θ).val (p - 1))) = _
    have : XF.rpow (fin (f θ)) (p - 1) = fin (f θ ^ (p - 1)) := by
      unfold XF.rpow
      by_cases h : p - 1 = 0
      · rw [if_pos h, h, Real.rpow_zero]; rfl
      · rw [if_neg h]; simp [h0.not_gt, h0.ne']
    rw [if_neg hp.ne', e, this, fin_mul, fin_mul, hb]
    congr 1; ring

/-- `|0| ** p` for `p ≥ 1` -/
theorem rpow_zero (h : Tr N f θ) (h0 : ∀ t, f t = 0) {p : ℝ} (hp : 1 ≤ p) :
    Tr (fun t => Node.rpow (Node.abs (N t)) p) (fun _ => 0) θ := by
  have e := h.val
  obtain ⟨hv, d, hd, hb⟩ := h
  have hp0 : 0 < p := by linarith
  refine ⟨?_, 0, hasDerivAt_const _ _, fun g => ?_⟩
  · filter_upwards [hv] with t ht
    show XF.rpow (XF.abs (N t).val) p = _
    rw [ht, h0, fin_abs, _root_.abs_zero, fin_rpow le_rfl hp0, Real.zero_rpow hp0.ne']
  · show (N θ).back ((if p = 0 then 0 else fin g * (fin p * XF.rpow (XF.abs (N θ).val) (p - 1)))
      * sgn (N θ).val) = _
    have : ∃ r, XF.rpow (fin 0) (p - 1) = fin r := by
      unfold XF.rpow
      by_cases h : p - 1 = 0
      · exact ⟨1, by rw [if_pos h]; rfl⟩
      · exact ⟨0 ^ (p - 1), by rw [if_neg h]; simp [show ¬ p < 1 by linarith]⟩
    obtain ⟨r, hr⟩ := this
    rw [if_neg hp0.ne', e, h0, fin_abs, _root_.abs_zero, hr, fin_mul, fin_mul]
    have hs : sgn (fin 0) = fin 0 := by simp [sgn]
    rw [hs, fin_mul, hb]
    congr 1; ring

end Tr

/-- the gradient through `|x - x| ** p` for `p < 1` -/
theorem rho_bad {x : ℝ} {p : ℝ} (hp : 0 < p) (hp1 : p < 1) :
    Bad (Node.rpow (Node.abs (leaf (fin x) - leaf (fin x))) p) := by
  intro g
  show (leaf (fin x) - leaf (fin x)).back ((if p = 0 then 0 else g * (fin p * XF.rpow
    (XF.abs (leaf (fin x) - leaf (fin x)).val) (p - 1))) * sgn (leaf (fin x) - leaf (fin x)).val) = nan
  have hr : XF.rpow (fin 0) (p - 1) = pinf := by
    unfold XF.rpow
    rw [if_neg (by linarith)]
    simp [hp1]
  have hs : sgn (fin 0) = fin 0 := by simp [sgn]
  have hm : fin p * pinf = (pinf : XF) := by simp [mul_def, XF.mul, infMul, hp, hp.ne']
  rw [if_neg hp.ne', sub_val, leaf_val, fin_sub, sub_self, fin_abs, abs_zero, hr, hs, hm, sub_back, leaf_back]
  have : g * pinf * fin 0 = (nan : XF) := by
    cases g with
    | nan => rfl
    | ninf => simp [mul_def, XF.mul, infMul]
    | pinf => simp [mul_def, XF.mul, infMul]
    | fin a =>
      rcases lt_trichotomy a 0 with h | h | h
      · simp [mul_def, XF.mul, infMul, h, h.not_gt]
      · simp [mul_def, XF.mul, infMul, h]
      · simp [mul_def, XF.mul, infMul, h, h.not_gt]
  rw [this, nan_add]

end Verif
