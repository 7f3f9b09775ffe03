import Verif.Lemmas.GradTailStd
import Verif.Lemmas.GradEns

/-!
# Backpropagation through Student's t
-/

noncomputable section

open scoped Classical Topology

namespace Verif

open XF Py Mv Node Filter Spec

theorem bF_deriv {a b x : ℝ} (ha : 0 < a) (hb : 0 < b) (h0 : 0 < x) (h1 : x < 1) :
    HasDerivAt (bF a b) (x ^ (a - 1) * (1 - x) ^ (b - 1) / betaF a b) x := by
  have hc : ContinuousAt (bK a b) x := by
    have h : ContinuousAt (fun x : ℝ => x ^ (a - 1) * (1 - x) ^ (b - 1)) x :=
      (Real.continuousAt_rpow_const _ _ (Or.inl h0.ne')).mul
        (((continuousAt_const.sub continuousAt_id)).rpow_const (Or.inl (sub_pos.2 h1).ne'))
    refine h.congr ?_
    filter_upwards [lt_mem_nhds h0, gt_mem_nhds h1] with t ht0 ht1
    rw [bK, if_pos ⟨ht0, ht1⟩]
  have := (prim_deriv (bK_integrable ha hb) hc).div_const (betaF a b)
  rwa [bK, if_pos ⟨h0, h1⟩] at this

namespace Tr

variable {N : ℝ → Node} {f : ℝ → ℝ} {θ : ℝ}

/-- `B.betainc` inside its domain -/
theorem betainc {a b : ℝ} (h : Tr N f θ) (ha : 0 < a) (hb : 0 < b) (h0 : 0 < f θ) (h1 : f θ < 1) :
    Tr (fun t => Node.betainc (fin a) (fin b) (N t)) (fun t => bF a b (f t)) θ := by
  have e := h.val
  have c0 := h.cont.eventually_const_lt h0
  have c1 := h.cont.eventually_lt_const h1
  obtain ⟨hv, d, hd, hback⟩ := h
  refine ⟨?_, _, (bF_deriv ha hb h0 h1).comp θ hd, fun g => ?_⟩
  · filter_upwards [hv, c0, c1] with t ht l0 l1
    rw [betainc_val, ht, betainc_fin ha hb l0.le l1.le]
  · show (N θ).back (fin g * (XF.pow (N θ).val (fin a - 1) * XF.pow (1 - (N θ).val) (fin b - 1) /
      XF.beta (fin a) (fin b))) = _
    rw [e, one_def, fin_sub, fin_sub, fin_sub, pow_fin_pos h0, pow_fin_pos (sub_pos.2 h1), beta_fin ha hb, fin_mul,
      fin_div (betaF_pos ha hb).ne', fin_mul, hback]
    congr 1; ring

/-- `_t_cdf` away from the centre -/
theorem tCdf {ν : ℝ} (h : Tr N f θ) (hν : 0 < ν) (hx : f θ ≠ 0) :
    ∃ F, Tr (fun t => Grad.tCdf (N t) (fin ν)) F θ := by
  have hd : 0 < f θ ^ 2 + ν := by positivity
  have ht := (Tr.const ν).div ((h.pow 2).add (Tr.const ν)) hd.ne'
  have hb := ht.betainc (show 0 < ν / 2 by linarith) (show (0:ℝ) < 1 / 2 by norm_num) (div_pos hν hd)
    (by rw [div_lt_one hd]; have := sq_pos_of_ne_zero hx; linarith)
  have hhalf := (Tr.const (θ := θ) (1 / 2)).mul hb
  have e2 : (fin ν / 2 : XF) = fin (ν / 2) := by rw [XF.ofNat_def, fin_div (two_ne_zero' ℝ)]
  rcases lt_or_gt_of_ne hx with hn | hp
  · have hc : ∀ᶠ t in 𝓝 θ, ¬ 0 ≤ (N t).val := by
      filter_upwards [h.1, h.cont.eventually_lt_const hn] with t ht h
      rw [ht, zero_def, fin_le]; exact not_le.2 h
    exact ⟨_, (hhalf.sel_neg hc (M := fun t => Node.const 1 - Node.const (fin (1 / 2)) * Node.betainc (fin (ν / 2)) (fin (1 / 2))
      (Node.const (fin ν) / (Node.pow (N t) 2 + Node.const (fin ν))))
      (Tr.one.sub hhalf).back_zero).congrN fun t => by unfold Grad.tCdf; rw [e2]⟩
  · have hc : ∀ᶠ t in 𝓝 θ, 0 ≤ (N t).val := by
      filter_upwards [h.1, h.cont.eventually_const_lt hp] with t ht h
      rw [ht, zero_def, fin_le]; exact h.le
    exact ⟨_, ((Tr.one.sub hhalf).sel_pos hc (M := fun t => Node.const (fin (1 / 2)) * Node.betainc (fin (ν / 2)) (fin (1 / 2))
      (Node.const (fin ν) / (Node.pow (N t) 2 + Node.const (fin ν))))
      hhalf.back_zero).congrN fun t => by unfold Grad.tCdf; rw [e2]⟩

/-- `_t_pdf` -/
theorem tPdf {ν : ℝ} (h : Tr N f θ) (hν : 0 < ν) : ∃ F, Tr (fun t => Grad.tPdf (N t) (fin ν)) F θ := by
  have hinf : ∀ᶠ t in 𝓝 θ, ¬ XF.feq (Node.abs (N t)).val pinf := by
    filter_upwards [h.1] with t ht
    rw [abs_val, ht, fin_abs]; simp [XF.feq]
  have hx := h.sel_false hinf nan
  have hs : 0 < Real.sqrt ν * betaF (1 / 2) (ν / 2) :=
    mul_pos (Real.sqrt_pos.2 hν) (betaF_pos (by norm_num) (by linarith))
  have e1 : (-(fin ν + 1) / 2 : XF) = fin (-(ν + 1) / 2) := by
    rw [XF.ofNat_def, XF.one_def, fin_add, fin_neg, fin_div (two_ne_zero' ℝ)]
  have e2 : (XF.sqrt (fin ν) * XF.beta (1 / 2) (fin ν / 2) : XF) = fin (Real.sqrt ν * betaF (1 / 2) (ν / 2)) := by
    rw [XF.ofNat_def, XF.one_def, fin_div (two_ne_zero' ℝ), fin_div (two_ne_zero' ℝ), fin_sqrt hν.le,
      beta_fin (by norm_num) (by linarith), fin_mul]
  have hp := ((Tr.one.add ((hx.pow 2).div (Tr.const ν) hν.ne')).tpow (Tr.const (-(ν + 1) / 2))
    (by positivity)).div (Tr.const (Real.sqrt ν * betaF (1 / 2) (ν / 2))) hs.ne'
  exact ⟨_, (hp.sel_false hinf 0).congrN fun t => by unfold Grad.tPdf; rw [e1, e2]⟩

/-- `t` away from the location -/
theorem t {y m s : ℝ → Node} {fy fm fs : ℝ → ℝ} {ν : ℝ} (hy : Tr y fy θ) (hm : Tr m fm θ) (hs : Tr s fs θ)
    (hν : 1 < ν) (h0 : 0 < fs θ) (hne : fy θ ≠ fm θ) :
    ∃ F, Tr (fun t => Grad.t (y t) (fin ν) (m t) (s t)) F θ := by
  have hw := (hy.sub hm).div hs h0.ne'
  have hν0 : 0 < ν := by linarith
  obtain ⟨F, hF⟩ := hw.tCdf hν0 (div_ne_zero (sub_ne_zero.2 hne) h0.ne')
  obtain ⟨p, hp⟩ := hw.tPdf hν0
  have hm1 : 0 < ν - 1 := by linarith
  have hG := ((Tr.const ν).add (hw.pow 2)).div (Tr.const (ν - 1)) hm1.ne'
  have e1 : (fin ν - 1 : XF) = fin (ν - 1) := by rw [XF.one_def, fin_sub]
  have hB := betaF_pos (show (0:ℝ) < 1 / 2 by norm_num) (show 0 < ν / 2 by linarith)
  have e3 : ((2 * XF.sqrt (fin ν) / fin (ν - 1)) * XF.beta (fin (1 / 2)) (fin ν - fin (1 / 2))
      / (XF.beta (fin (1 / 2)) (fin ν / 2) ^ 2) : XF) =
      fin (2 * Real.sqrt ν / (ν - 1) * betaF (1 / 2) (ν - 1 / 2) / betaF (1 / 2) (ν / 2) ^ 2) := by
    rw [XF.ofNat_def, fin_div (two_ne_zero' ℝ), fin_sqrt hν0.le, fin_sub, beta_fin (by norm_num) (by linarith),
      beta_fin (by norm_num) (by linarith), fin_mul, fin_div hm1.ne', fin_mul, fin_pow, fin_div (by positivity)]
  exact ⟨_, (hs.mul (((hw.mul ((Tr.two.mul hF).sub Tr.one)).add ((Tr.two.mul hp).mul hG)).sub (Tr.const _))).congrN
    fun t => by unfold Grad.t; simp only [e1]; rw [e3]⟩

end Tr

/-- `t` at the location -/
theorem t_bad {obs mu sigma : Node} {ν : ℝ} (hν : 0 < ν) (hx : ((obs - mu) / sigma).val = fin 0)
    (hb : ((obs - mu) / sigma).back nan = nan) : Bad (Grad.t obs (fin ν) mu sigma) := by
  unfold Grad.t
  refine Bad.mul_right (Bad.sub_left (Bad.add_left fun g => ?_))
  set z := (obs - mu) / sigma
  have hF : ∀ g, (g = fin 0 ∨ g = nan) → (Grad.tCdf z (fin ν)).back g = nan := by
    intro g hg
    unfold Grad.tCdf
    have e2 : (fin ν / 2 : XF) = fin (ν / 2) := by rw [XF.ofNat_def, fin_div (two_ne_zero' ℝ)]
    have hT : (const (fin ν) / (Node.pow z 2 + const (fin ν))).val = fin 1 := by
      rw [div_val, add_val, pow_val, hx, const_val, fin_pow, fin_add, zero_pow two_ne_zero, zero_add, fin_div hν.ne',
        div_self hν.ne']
    have hTb : (const (fin ν) / (Node.pow z 2 + const (fin ν))).back nan = nan := by
      have hp : (Node.pow z 2).back nan = nan := by
        show z.back (nan * _) = nan
        rw [nan_mul, hb]
      rw [div_back, add_back, neg_nan, nan_mul, hp, nan_add, add_nan]
    have hI : ∀ g, (g = fin 0 ∨ g = nan) → (Node.betainc (fin ν / 2) (fin (1 / 2))
        (const (fin ν) / (Node.pow z 2 + const (fin ν)))).back g = nan := by
      intro g hg
      generalize const (fin ν) / (Node.pow z 2 + const (fin ν)) = n at hT hTb
      show n.back (g * (XF.pow n.val (fin ν / 2 - 1) * XF.pow (1 - n.val) (fin (1 / 2) - 1) /
        XF.beta (fin ν / 2) (fin (1 / 2)))) = nan
      rw [hT, e2, one_def, fin_sub, fin_sub, fin_sub, pow_fin_pos one_pos, Real.one_rpow, sub_self,
        pow_fin_zero_neg (by norm_num), beta_fin (by linarith) (by norm_num)]
      have hB := betaF_pos (show 0 < ν / 2 by linarith) (show (0:ℝ) < 1 / 2 by norm_num)
      have e : (fin 1 * pinf / fin (betaF (ν / 2) (1 / 2)) : XF) = pinf := by
        rw [mul_pinf_pos one_pos]
        exact if_pos hB.le
      rw [e]
      have : g * pinf = nan := by
        rcases hg with rfl | rfl
        · simp [mul_def, XF.mul, infMul]
        · rw [nan_mul]
      rw [this, hTb]
    have hH : ∀ g, (g = fin 0 ∨ g = nan) → (const (fin (1 / 2)) * Node.betainc (fin ν / 2) (fin (1 / 2))
        (const (fin ν) / (Node.pow z 2 + const (fin ν)))).back g = nan := by
      intro g hg
      rw [mul_back, hI, add_nan]
      rcases hg with rfl | rfl
      · left; rw [const_val, fin_mul, zero_mul]
      · right; rw [nan_mul]
    show (const 1 - _).back _ + (const (fin (1 / 2)) * _).back (if 0 ≤ z.val then 0 else g) = nan
    rw [hH, add_nan]
    split_ifs
    · exact Or.inl rfl
    · exact hg
  have hz : g * z.val = fin 0 ∨ g * z.val = nan := by
    rw [hx]
    cases g <;> simp [mul_def, XF.mul, infMul]
  rw [mul_back, sub_back, mul_back, hF, add_nan, nan_add, add_nan]
  rcases hz with h | h
  · left; rw [h, const_val, XF.ofNat_def, fin_mul, zero_mul]
  · right; rw [h, nan_mul]

end Verif
