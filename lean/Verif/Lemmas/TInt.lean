import Verif.Lemmas.BetaCrps
import Mathlib.Analysis.SpecialFunctions.JapaneseBracket

/-!
# The kernel of the t distribution and its primitive
-/

noncomputable section

open scoped Classical Topology
open MeasureTheory Filter Set

namespace Verif

open Spec XF

/-- The kernel of the t distribution. -/
def tK (s x : ℝ) : ℝ := (1 + x ^ 2) ^ (-s)

theorem one_add_sq_pos (x : ℝ) : 0 < 1 + x ^ 2 := by positivity

theorem tK_pos (s x : ℝ) : 0 < tK s x := Real.rpow_pos_of_pos (one_add_sq_pos x) _

theorem tK_cont (s : ℝ) : Continuous (tK s) := by
  unfold tK
  exact (by fun_prop : Continuous fun x : ℝ => 1 + x ^ 2).rpow_const fun x => Or.inl (one_add_sq_pos x).ne'

theorem tK_integrable {s : ℝ} (hs : 1 / 2 < s) : Integrable (tK s) := by
  have h := integrable_rpow_neg_one_add_norm_sq (E := ℝ) (μ := volume) (r := 2 * s)
    (by simp only [Module.finrank_self, Nat.cast_one]; linarith)
  refine h.congr (ae_of_all _ fun x => ?_)
  dsimp only [tK]
  rw [Real.norm_eq_abs, sq_abs]
  congr 1; ring

/-- One minus the distribution function at positive arguments, not normalised. -/
def tA (s x : ℝ) : ℝ := prim (bK (s - 1 / 2) (1 / 2)) (1 / (1 + x ^ 2)) / 2

theorem tA_cont {s : ℝ} (hs : 1 / 2 < s) : Continuous (tA s) := by
  unfold tA
  have h : Continuous fun x : ℝ => 1 / (1 + x ^ 2) :=
    continuous_const.div (by fun_prop) fun x => (one_add_sq_pos x).ne'
  exact ((prim_cont (bK_integrable (by linarith) (by norm_num))).comp h).div_const 2

theorem tA_zero {s : ℝ} (hs : 1 / 2 < s) : tA s 0 = betaF (s - 1 / 2) (1 / 2) / 2 := by
  unfold tA
  rw [prim_bK_one (by linarith) (by norm_num) (by norm_num)]

theorem tA_deriv {s x : ℝ} (hs : 1 / 2 < s) (hx : x ≠ 0) :
    HasDerivAt (tA s) (-(x / |x|) * tK s x) x := by
  have hp := one_add_sq_pos x
  have hx2 : 0 < x ^ 2 := by positivity
  have w0 : 0 < 1 / (1 + x ^ 2) := by positivity
  have w1 : 1 / (1 + x ^ 2) < 1 := by rw [div_lt_one hp]; linarith
  have hw : HasDerivAt (fun x : ℝ => 1 / (1 + x ^ 2)) (-(2 * x) / (1 + x ^ 2) ^ 2) x := by
    have h1 : HasDerivAt (fun x : ℝ => 1 + x ^ 2) (2 * x) x := by
      simpa using (hasDerivAt_pow 2 x).const_add 1
    refine ((hasDerivAt_const x (1:ℝ)).div h1 hp.ne').congr_deriv ?_
    ring
  have h := ((prim_deriv (bK_integrable (a := s - 1 / 2) (b := 1 / 2) (by linarith) (by norm_num))
    (bK_cont w0.ne' w1.ne)).comp x hw).div_const 2
  refine h.congr_deriv ?_
  rw [bK_of_mem w0 w1]
  have e1 : 1 - 1 / (1 + x ^ 2) = x ^ 2 / (1 + x ^ 2) := by field_simp; ring
  have e2 : (x ^ 2 / (1 + x ^ 2)) ^ ((1:ℝ) / 2 - 1) = (1 + x ^ 2) ^ ((1:ℝ) / 2) / |x| := by
    rw [show (1:ℝ) / 2 - 1 = -(1 / 2) by norm_num, Real.rpow_neg (by positivity),
      Real.div_rpow hx2.le hp.le, inv_div, ← Real.sqrt_eq_rpow (x ^ 2), Real.sqrt_sq_eq_abs]
  have e3 : (1 / (1 + x ^ 2)) ^ (s - 1 / 2 - 1) = (1 + x ^ 2) ^ (-s) * (1 + x ^ 2) ^ ((1:ℝ) / 2) * (1 + x ^ 2) := by
    rw [one_div, Real.inv_rpow hp.le, ← Real.rpow_neg hp.le, ← Real.rpow_add hp, ← Real.rpow_add_one hp.ne']
    congr 1; ring
  have e4 : (1 + x ^ 2) ^ ((1:ℝ) / 2) * (1 + x ^ 2) ^ ((1:ℝ) / 2) = 1 + x ^ 2 := by
    rw [← Real.rpow_add hp]; norm_num
  have ha : |x| ≠ 0 := abs_ne_zero.2 hx
  rw [e1, e2, e3]
  unfold tK
  have e5 : (1 + x ^ 2) ^ (-s) * (1 + x ^ 2) ^ ((1:ℝ) / 2) * (1 + x ^ 2)
      * ((1 + x ^ 2) ^ ((1:ℝ) / 2) / |x|) * (-(2 * x) / (1 + x ^ 2) ^ 2) / 2
      = (1 + x ^ 2) ^ (-s) * ((1 + x ^ 2) ^ ((1:ℝ) / 2) * (1 + x ^ 2) ^ ((1:ℝ) / 2))
        * (1 + x ^ 2) * (-(x / |x|) / (1 + x ^ 2) ^ 2) := by ring
  rw [e5, e4]
  field_simp

theorem tA_atBot {s : ℝ} (hs : 1 / 2 < s) : Tendsto (tA s) atBot (𝓝 0) := by
  have h1 : Tendsto (fun x : ℝ => 1 / (1 + x ^ 2)) atBot (𝓝 0) := by
    refine Tendsto.div_atTop tendsto_const_nhds (tendsto_atTop_add_const_left _ _ ?_)
    have := (tendsto_pow_atTop (α := ℝ) two_ne_zero).comp tendsto_neg_atBot_atTop
    refine this.congr fun x => ?_
    simp
  have h2 := (((prim_cont (bK_integrable (a := s - 1 / 2) (b := 1 / 2) (by linarith)
    (by norm_num))).tendsto 0).comp h1).div_const 2
  rw [prim_bK_neg le_rfl, zero_div] at h2
  exact h2

theorem tA_even (s x : ℝ) : tA s (-x) = tA s x := by unfold tA; rw [neg_sq]

theorem tA_atTop {s : ℝ} (hs : 1 / 2 < s) : Tendsto (tA s) atTop (𝓝 0) :=
  ((tA_atBot hs).comp tendsto_neg_atTop_atBot).congr fun x => tA_even s x

/-- The integral of the kernel up to `x`. -/
theorem prim_tK {s : ℝ} (hs : 1 / 2 < s) (x : ℝ) :
    prim (tK s) x = if 0 ≤ x then betaF (1 / 2) (s - 1 / 2) - tA s x else tA s x := by
  have hz := tA_zero hs
  have hsy : betaF (s - 1 / 2) (1 / 2) = betaF (1 / 2) (s - 1 / 2) := betaF_symm _ _
  refine prim_unique (P := fun x => if 0 ≤ x then betaF (1 / 2) (s - 1 / 2) - tA s x else tA s x)
    (countable_singleton 0) (tK_integrable hs) ?_ (fun x hx => ?_) ?_ x
  · refine Continuous.if_le (continuous_const.sub (tA_cont hs)) (tA_cont hs) continuous_const continuous_id ?_
    intro x hx
    have hx : x = 0 := hx.symm
    rw [hx, hz, hsy]; ring
  · have hx : x ≠ 0 := hx
    have hd := tA_deriv hs hx
    rcases lt_or_gt_of_ne hx with h | h
    · rw [abs_of_neg h, div_neg, div_self hx, neg_neg, one_mul] at hd
      refine hd.congr_of_eventuallyEq ?_
      filter_upwards [gt_mem_nhds h] with z hz
      exact if_neg (not_le.2 hz)
    · rw [abs_of_pos h, div_self hx, neg_one_mul] at hd
      have := hd.const_sub (betaF (1 / 2) (s - 1 / 2))
      rw [neg_neg] at this
      refine this.congr_of_eventuallyEq ?_
      filter_upwards [lt_mem_nhds h] with z hz
      exact if_pos (le_of_lt hz)
  · refine (tA_atBot hs).congr' ?_
    filter_upwards [eventually_lt_atBot 0] with z hz
    exact (if_neg (not_le.2 hz)).symm

theorem tK_integral {s : ℝ} (hs : 1 / 2 < s) : ∫ x, tK s x = betaF (1 / 2) (s - 1 / 2) := by
  refine tendsto_nhds_unique (prim_atTop (tK_integrable hs)) ?_
  have := (tA_atTop hs).const_sub (betaF (1 / 2) (s - 1 / 2))
  rw [sub_zero] at this
  refine this.congr' ?_
  filter_upwards [eventually_ge_atTop 0] with z hz
  rw [prim_tK hs, if_pos hz]

/-- Primitive of the kernel times the identity. -/
theorem tK_mean {s : ℝ} (hs : 1 < s) :
    Integrable (fun x => x * tK s x) ∧ (∫ x, x * tK s x = 0) ∧
    ∀ x, prim (fun x => x * tK s x) x = -(tK (s - 1) x / (2 * (s - 1))) := by
  have hi : Integrable fun x => x * tK s x := by
    have h := tK_integrable (s := s - 1 / 2) (by linarith)
    refine Integrable.mono h (continuous_id.mul (tK_cont s)).aestronglyMeasurable (ae_of_all _ fun x => ?_)
    have hp := one_add_sq_pos x
    rw [norm_mul, Real.norm_of_nonneg (tK_pos _ _).le, Real.norm_of_nonneg (tK_pos _ _).le]
    unfold tK
    rw [show -(s - 1 / 2) = 1 / 2 + -s by ring, Real.rpow_add hp, ← Real.sqrt_eq_rpow]
    refine mul_le_mul_of_nonneg_right ?_ (Real.rpow_nonneg hp.le _)
    rw [Real.norm_eq_abs]
    refine Real.le_sqrt_of_sq_le ?_
    rw [sq_abs]; linarith
  have hd : ∀ x, HasDerivAt (fun x => -(tK (s - 1) x / (2 * (s - 1)))) (x * tK s x) x := by
    intro x
    have hp := one_add_sq_pos x
    have h1 : HasDerivAt (fun x : ℝ => 1 + x ^ 2) (2 * x) x := by
      simpa using (hasDerivAt_pow 2 x).const_add 1
    have h2 := ((h1.rpow_const (p := -(s - 1)) (Or.inl hp.ne')).div_const (2 * (s - 1))).neg
    refine h2.congr_deriv ?_
    unfold tK
    rw [show -(s - 1) - 1 = -s by ring]
    have : s - 1 ≠ 0 := by linarith
    field_simp
  have hinf : Tendsto (fun x : ℝ => 1 + x ^ 2) atTop atTop :=
    tendsto_atTop_add_const_left _ _ (tendsto_pow_atTop two_ne_zero)
  have ht : Tendsto (fun x => -(tK (s - 1) x / (2 * (s - 1)))) atTop (𝓝 0) := by
    have := (((tendsto_rpow_neg_atTop (show 0 < s - 1 by linarith)).comp hinf).div_const (2 * (s - 1))).neg
    rw [zero_div, neg_zero] at this
    exact this
  have hb : Tendsto (fun x => -(tK (s - 1) x / (2 * (s - 1)))) atBot (𝓝 0) := by
    refine (ht.comp tendsto_neg_atBot_atTop).congr fun x => ?_
    simp [tK]
  have hc : Continuous fun x => -(tK (s - 1) x / (2 * (s - 1))) := ((tK_cont (s - 1)).div_const _).neg
  have hpr := prim_unique countable_empty hi hc (fun x _ => hd x) hb
  refine ⟨hi, ?_, hpr⟩
  refine tendsto_nhds_unique (prim_atTop hi) ?_
  rw [funext hpr]
  exact ht

theorem tK_mul (s s' x : ℝ) : tK s x * tK s' x = tK (s + s') x := by
  unfold tK
  rw [← Real.rpow_add (one_add_sq_pos x), neg_add]

/-- The partial integrals needed for the CRPS. -/
theorem prim_tK_cross {s : ℝ} (hs : 1 < s) :
    Integrable (fun x => x * tK s x * prim (tK s) x) ∧
    ∀ x, prim (fun x => x * tK s x * prim (tK s) x) x
      = (prim (tK (2 * s - 1)) x - tK (s - 1) x * prim (tK s) x) / (2 * (s - 1)) := by
  have hs' : 1 / 2 < s := by linarith
  have hs2 : 1 / 2 < 2 * s - 1 := by linarith
  obtain ⟨i1, -, p1⟩ := tK_mean hs
  have h0 : ∀ x, 0 ≤ tK s x := fun x => (tK_pos s x).le
  have hi : Integrable fun x => x * tK s x * prim (tK s) x := by
    refine Integrable.mono (i1.mul_const (∫ t, tK s t)) (i1.aestronglyMeasurable.mul
      (prim_cont (tK_integrable hs')).aestronglyMeasurable) (ae_of_all _ fun x => ?_)
    rw [norm_mul, norm_mul (x * tK s x)]
    refine mul_le_mul_of_nonneg_left ?_ (norm_nonneg _)
    rw [Real.norm_of_nonneg (prim_nonneg h0 x), Real.norm_of_nonneg (integral_nonneg h0)]
    exact prim_le (tK_integrable hs') h0 x
  refine ⟨hi, fun x => ?_⟩
  have hc1 := prim_cont (tK_integrable hs2)
  have hc2 := prim_cont (tK_integrable hs')
  have hP : (fun x => (prim (tK (2 * s - 1)) x - tK (s - 1) x * prim (tK s) x) / (2 * (s - 1)))
      = fun x => prim (tK (2 * s - 1)) x / (2 * (s - 1)) + prim (fun x => x * tK s x) x * prim (tK s) x := by
    funext x; rw [p1]; ring
  have key := prim_unique (P := fun x => (prim (tK (2 * s - 1)) x - tK (s - 1) x * prim (tK s) x) / (2 * (s - 1)))
    countable_empty hi ((hc1.sub ((tK_cont (s - 1)).mul hc2)).div_const _) (fun x _ => ?_) ?_ x
  · exact key
  · rw [hP]
    have d1 := prim_deriv (tK_integrable hs2) (tK_cont (2 * s - 1)).continuousAt (x := x)
    have d2 := prim_deriv (tK_integrable hs') (tK_cont s).continuousAt (x := x)
    have d3 := prim_deriv i1 (continuous_id.mul (tK_cont s)).continuousAt (x := x)
    refine ((d1.div_const (2 * (s - 1))).add (d3.mul d2)).congr_deriv ?_
    rw [p1, show 2 * s - 1 = (s - 1) + s by ring, ← tK_mul]
    ring
  · rw [hP]
    have := ((prim_atBot (tK_integrable hs2)).div_const (2 * (s - 1))).add
      ((prim_atBot i1).mul (prim_atBot (tK_integrable hs')))
    rw [zero_div, zero_mul, add_zero] at this
    exact this

theorem tK_cross {s : ℝ} (hs : 1 < s) :
    ∫ x, x * tK s x * prim (tK s) x = betaF (1 / 2) (2 * s - 3 / 2) / (2 * (s - 1)) := by
  have hs' : 1 / 2 < s := by linarith
  have hs2 : 1 / 2 < 2 * s - 1 := by linarith
  obtain ⟨i1, z1, p1⟩ := tK_mean hs
  obtain ⟨i, e⟩ := prim_tK_cross hs
  refine tendsto_nhds_unique (prim_atTop i) ?_
  have := ((prim_atTop (tK_integrable hs2)).div_const (2 * (s - 1))).add
      ((prim_atTop i1).mul (prim_atTop (tK_integrable hs')))
  rw [z1, zero_mul, add_zero, tK_integral hs2, show 2 * s - 1 - 1 / 2 = 2 * s - 3 / 2 by ring] at this
  refine this.congr fun x => ?_
  rw [e, p1]; ring

end Verif
