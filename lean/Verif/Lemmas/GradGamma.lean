import Verif.Model.GradGamma
import Verif.Lemmas.GradBeta
import Verif.Lemmas.Csg0
import Verif.Lemmas.ClosedInf
import Verif.Lemmas.CrpsInf
import Verif.Lemmas.Scale
import Verif.Props.Poisson

/-!
# Backpropagation through incomplete gamma functions
-/

noncomputable section

open scoped Classical Topology

namespace Verif

open XF Py Mv Node Filter Spec MeasureTheory Set

theorem gradGammainc_val (a : XF) (x : Node) : (Node.gammainc a x).val = XF.gammainc a x.val := rfl

theorem gF_deriv {a x : ℝ} (ha : 0 < a) (h0 : 0 < x) :
    HasDerivAt (gF a) (x ^ (a - 1) * Real.exp (-x) / Real.Gamma a) x := by
  have := (prim_deriv (gK_integrable ha) (gK_cont a x (by simpa using h0.ne'))).div_const (Real.Gamma a)
  rwa [gK_pos a h0] at this

theorem gammainc_gF {a x : ℝ} (ha : 0 < a) (h0 : 0 ≤ x) : XF.gammainc (fin a) (fin x) = fin (gF a x) := by
  simp only [XF.gammainc]
  rw [if_pos ⟨ha, h0⟩, gF, prim_gK ha h0]

theorem lgamma_fin_pos {a : ℝ} (ha : 0 < a) : XF.lgamma (fin a) = fin (Real.log (Real.Gamma a)) := by
  have h : ¬ ∃ n : ℕ, a = -(n : ℝ) := by
    rintro ⟨n, hn⟩
    have : (0:ℝ) ≤ n := n.cast_nonneg
    linarith
  simp only [XF.lgamma]
  rw [if_neg h, abs_of_pos (Real.Gamma_pos_of_pos ha)]

theorem expi_deriv {x : ℝ} (hx : x < 0) :
    HasDerivAt (fun x : ℝ => -∫ t in Set.Ioi (-x), Real.exp (-t) / t) (Real.exp x / x) x := by
  obtain ⟨c, hc⟩ : ∃ c, c = -x / 2 := ⟨_, rfl⟩
  have hc0 : 0 < c := by rw [hc]; linarith
  have hcx : c < -x := by rw [hc]; linarith
  let K : ℝ → ℝ := (Ioi c).indicator fun t => Real.exp (-t) / t
  have hK : Integrable K := by
    rw [integrable_indicator_iff measurableSet_Ioi]
    have h1 : IntegrableOn (fun t : ℝ => Real.exp (-t) / c) (Ioi c) := (integrableOn_exp_neg_Ioi c).div_const c
    refine Integrable.mono' h1 ?_ ?_
    · refine ContinuousOn.aestronglyMeasurable ?_ measurableSet_Ioi
      intro t ht
      have ht : c < t := ht
      have : t ≠ 0 := (hc0.trans ht).ne'
      fun_prop (disch := assumption)
    · filter_upwards [ae_restrict_mem measurableSet_Ioi] with t ht
      have ht : c < t := ht
      rw [Real.norm_eq_abs, abs_of_pos (div_pos (Real.exp_pos _) (hc0.trans ht))]
      exact div_le_div_of_nonneg_left (Real.exp_pos _).le hc0 ht.le
  have hcont : ContinuousAt K (-x) := by
    have h1 : ContinuousAt (fun t : ℝ => Real.exp (-t) / t) (-x) := by
      have : -x ≠ 0 := by linarith
      fun_prop (disch := assumption)
    refine h1.congr ?_
    filter_upwards [lt_mem_nhds hcx] with t ht
    exact (indicator_of_mem (show t ∈ Ioi c from ht) _).symm
  have hd := (prim_deriv hK hcont).comp x (hasDerivAt_neg x)
  have hd2 := hd.sub_const (∫ t, K t)
  refine (hd2.congr_deriv ?_).congr_of_eventuallyEq ?_
  · rw [show K (-x) = Real.exp (- -x) / -x from indicator_of_mem (show -x ∈ Ioi c from hcx) _, neg_neg]
    rw [div_neg, neg_mul_neg, mul_one]
  · have : ∀ᶠ z in 𝓝 x, c < -z := (continuous_neg.continuousAt).eventually_const_lt hcx
    filter_upwards [this] with z hz
    have e1 : ∫ t in Ioi (-z), Real.exp (-t) / t = ∫ t in Ioi (-z), K t := by
      refine setIntegral_congr_fun measurableSet_Ioi fun t ht => ?_
      have ht : -z < t := ht
      exact (indicator_of_mem (show t ∈ Ioi c from hz.trans ht) _).symm
    have e2 := integral_add_compl (measurableSet_Iic (a := -z)) hK
    rw [compl_Iic] at e2
    show -∫ t in Ioi (-z), Real.exp (-t) / t = prim K (-z) - ∫ t, K t
    rw [e1, ← e2]
    unfold prim
    ring

namespace Tr

variable {N N' : ℝ → Node} {f f' : ℝ → ℝ} {θ : ℝ}

/-- `B.expi` below zero -/
theorem expi (h : Tr N f θ) (h0 : f θ < 0) :
    Tr (fun t => Node.expi (N t)) (fun t => -∫ s in Set.Ioi (-f t), Real.exp (-s) / s) θ := by
  have e := h.val
  have c0 := h.cont.eventually_lt_const h0
  obtain ⟨hv, d, hd, hback⟩ := h
  refine ⟨?_, _, (expi_deriv h0).comp θ hd, fun g => ?_⟩
  · filter_upwards [hv, c0] with t ht l0
    rw [expi_val, ht]
    simp only [XF.expi]
    rw [if_pos l0]
  · show (N θ).back (fin g * (XF.exp (N θ).val / (N θ).val)) = _
    rw [e]
    simp only [XF.exp]
    rw [fin_div h0.ne, fin_mul, hback]
    congr 1; ring

/-- `B.gammauinc` above zero -/
theorem gammauinc {a : ℝ} (ha : 0 < a) (h : Tr N f θ) (h0 : 0 < f θ) :
    Tr (fun t => Node.gammauinc (fin a) (N t)) (fun t => (1 - gF a (f t)) * Real.Gamma a) θ := by
  have e := h.val
  have c0 := h.cont.eventually_const_lt h0
  obtain ⟨hv, d, hd, hback⟩ := h
  refine ⟨?_, _, (((gF_deriv ha h0).comp θ hd).const_sub 1).mul_const (Real.Gamma a), fun g => ?_⟩
  · filter_upwards [hv, c0] with t ht l0
    rw [gammauinc_val, ht]
    unfold XF.gammauinc
    rw [gammainc_gF ha l0.le, gamma_fin_pos ha, one_def, fin_sub, fin_mul]
  · show (N θ).back (fin g * (-(XF.pow (N θ).val (fin a - 1) * XF.exp (-(N θ).val)))) = _
    rw [e, one_def, fin_sub, pow_fin_pos h0, fin_neg]
    simp only [XF.exp]
    rw [fin_mul, fin_neg, fin_mul, hback]
    have hG := (Real.Gamma_pos_of_pos ha).ne'
    congr 1
    field_simp

/-- `B.gammainc` above zero -/
theorem gammainc {a : ℝ} (ha : 0 < a) (h : Tr N f θ) (h0 : 0 < f θ) :
    Tr (fun t => Node.gammainc (fin a) (N t)) (fun t => gF a (f t)) θ := by
  have e := h.val
  have c0 := h.cont.eventually_const_lt h0
  obtain ⟨hv, d, hd, hback⟩ := h
  refine ⟨?_, _, (gF_deriv ha h0).comp θ hd, fun g => ?_⟩
  · filter_upwards [hv, c0] with t ht l0
    rw [gradGammainc_val, ht, gammainc_gF ha l0.le]
  · show (N θ).back (fin g * XF.exp ((fin a - 1) * XF.log (N θ).val - (N θ).val - XF.lgamma (fin a))) = _
    rw [e, lgamma_fin_pos ha, one_def, fin_sub, show XF.log (fin (f θ)) = fin (Real.log (f θ)) by simp [XF.log, h0], fin_mul, fin_sub, fin_sub]
    simp only [XF.exp]
    rw [fin_mul, hback]
    have hG := Real.Gamma_pos_of_pos ha
    have e1 : Real.exp ((a - 1) * Real.log (f θ) - f θ - Real.log (Real.Gamma a))
        = (f θ) ^ (a - 1) * Real.exp (-f θ) / Real.Gamma a := by
      rw [Real.exp_sub, Real.exp_log hG, sub_eq_add_neg, Real.exp_add, Real.rpow_def_of_pos h0, mul_comm (a - 1)]
    rw [e1]
    congr 1; ring

/-- `B.gammainc` at zero, if the shape is above one -/
theorem gammainc_zero {a : ℝ} (ha : 1 < a) (h : Tr N f θ) (h0 : ∀ᶠ t in 𝓝 θ, f t = 0) :
    Tr (fun t => Node.gammainc (fin a) (N t)) (fun _ => 0) θ := by
  have e := h.val
  have z := h0.self_of_nhds
  obtain ⟨hv, d, hd, hback⟩ := h
  have ha0 : 0 < a := by linarith
  refine ⟨?_, 0, hasDerivAt_const _ _, fun g => ?_⟩
  · filter_upwards [hv, h0] with t ht l0
    rw [gradGammainc_val, ht, l0, gammainc_gF ha0 le_rfl, gF_neg le_rfl]
  · show (N θ).back (fin g * XF.exp ((fin a - 1) * XF.log (N θ).val - (N θ).val - XF.lgamma (fin a))) = _
    have e1 : XF.exp ((fin a - 1) * XF.log (fin 0) - fin 0 - XF.lgamma (fin a)) = fin 0 := by
      rw [lgamma_fin_pos ha0, one_def, fin_sub, show XF.log (fin 0) = ninf by simp [XF.log]]
      rw [mul_ninf_pos (by linarith)]
      rfl
    rw [e, z, e1, fin_mul, mul_zero, hback, zero_mul]

/-- a number that stays zero, and zero -/
theorem max_zero (h : Tr N (fun _ => 0) θ) : Tr (fun t => Node.max (N t) (Node.const 0)) (fun _ => 0) θ := by
  have e := h.val
  obtain ⟨hv, d, hd, hback⟩ := h
  have hd0 : d = 0 := hd.unique (hasDerivAt_const _ _)
  subst hd0
  refine ⟨?_, 0, hasDerivAt_const _ _, fun g => ?_⟩
  · filter_upwards [hv] with t ht
    show XF.max (N t).val 0 = _
    rw [ht, zero_def, fin_max, max_self]
  · show (N θ).back (if (N θ).val < 0 then 0 else if XF.feq (N θ).val 0 then fin g / 2 else fin g) + 0 = _
    rw [e, zero_def, if_neg (by simp), if_pos (by simp [XF.feq]), ofNat_def, fin_div (by norm_num), hback, fin_add]
    congr 1; ring

/-- `_gamma_cdf` above zero -/
theorem gammaCdf {a : ℝ} (ha : 0 < a) (h : Tr N f θ) (h' : Tr N' f' θ) (h0 : 0 < f θ) (hr : 0 < f' θ) :
    Tr (fun t => Grad.gammaCdf (N t) (fin a) (N' t)) (fun t => gF a (f' t * f t)) θ := by
  have h1 := h.max_left (Tr.const 0) h0
  have h2 := (Tr.gammainc ha (h'.mul h1) (mul_pos hr h0))
  exact h2.max_left (Tr.const 0) (gF_pos ha (mul_pos hr h0))

/-- `_gamma_cdf` below zero, if the shape is above one -/
theorem gammaCdf_neg {a : ℝ} (ha : 1 < a) (h : Tr N f θ) (h' : Tr N' f' θ) (h0 : f θ < 0) :
    Tr (fun t => Grad.gammaCdf (N t) (fin a) (N' t)) (fun _ => 0) θ := by
  have h1 := h.max_right (Tr.const 0) h0
  exact max_zero (gammainc_zero ha (h'.mul h1) (Eventually.of_forall fun t => mul_zero _))

end Tr

/-- `_gamma_cdf` below zero, if the shape is at most one: the infinite slope of the incomplete gamma function at zero
is multiplied by zero. -/
theorem bad_gammaCdf {a x r : ℝ} (ha : a ≤ 1) (ha0 : 0 < a) (hx : x ≤ 0) :
    Bad (Grad.gammaCdf (Node.const (fin x)) (fin a) (Node.leaf (fin r))) := by
  have hm : XF.max (fin x) (fin 0) = fin 0 := by rw [fin_max, max_eq_right hx]
  have hb : Bad (Node.gammainc (fin a) (Node.leaf (fin r) * Node.max (Node.const (fin x)) (Node.const 0))) := by
    intro g
    have hs : XF.exp ((fin a - 1) * XF.log (fin 0) - fin 0 - XF.lgamma (fin a)) = pinf ∨
        XF.exp ((fin a - 1) * XF.log (fin 0) - fin 0 - XF.lgamma (fin a)) = nan := by
      rw [lgamma_fin_pos ha0, one_def, fin_sub, show XF.log (fin 0) = ninf by simp [XF.log]]
      rcases ha.lt_or_eq with h | h
      · rw [neg_mul_ninf (by linarith)]
        exact Or.inl rfl
      · rw [h, sub_self, mul_comm', ninf_mul_zero]
        exact Or.inr rfl
    have ev : (Node.leaf (fin r) * Node.max (Node.const (fin x)) (Node.const 0)).val = fin 0 := by
      show fin r * XF.max (fin x) 0 = _
      rw [zero_def, hm, fin_mul, mul_zero]
    show (g * XF.exp ((fin a - 1) * XF.log (Node.leaf (fin r) * Node.max (Node.const (fin x)) (Node.const 0)).val
        - (Node.leaf (fin r) * Node.max (Node.const (fin x)) (Node.const 0)).val - XF.lgamma (fin a)))
        * XF.max (fin x) 0 + _ = nan
    rw [ev, zero_def, hm]
    have hn : ∀ z : XF, z = nan → z * fin 0 = nan := by rintro z rfl; rfl
    rcases hs with hs | hs
    · rw [hs]
      have : g * pinf * fin 0 = nan := by
        cases g with
        | fin c =>
          rcases lt_trichotomy c 0 with h | h | h
          · rw [neg_mul_pinf h, ninf_mul_zero]
          · rw [h, zero_mul_pinf]; rfl
          · rw [mul_pinf_pos h, mul_comm', zero_mul_pinf]
        | nan => rfl
        | pinf => show pinf * fin 0 = nan; rw [mul_comm', zero_mul_pinf]
        | ninf => show ninf * fin 0 = nan; exact ninf_mul_zero
      rw [this, nan_add]
    · rw [hs, hn _ (by cases g <;> rfl), nan_add]
  intro g
  show _ + _ = nan
  rw [hb, nan_add]

end Verif
