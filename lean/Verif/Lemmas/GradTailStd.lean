import Verif.Lemmas.GradTail
import Verif.Props.CrpsShape
import Verif.Props.Families

/-!
# The generalised Pareto, extreme value and t scores are differentiable
-/

noncomputable section

open scoped Classical Topology

namespace Verif

open XF Py Mv Node Filter Spec

/-- a score of location and scale is differentiable if its standard form is -/
theorem locscale_gradient {S : XF → XF → XF → XF} {k : ℝ → ℝ} {k' y m s : ℝ} (hs : 0 < s)
    (hS : ∀ y m s : ℝ, 0 < s → S (fin y) (fin m) (fin s) = fin (s * k ((y - m) / s)))
    (hk : HasDerivAt k k' ((y - m) / s)) :
    HasGradient (fun t => S t (fin m) (fin s)) y ∧ HasGradient (fun t => S (fin y) t (fin s)) m ∧
      HasGradient (fun t => S (fin y) (fin m) t) s := by
  refine ⟨?_, ?_, ?_⟩
  · refine hasGradient_of (f := fun t => s * k ((t - m) / s)) (Eventually.of_forall fun t => hS _ _ _ hs) ?_
    have h1 : HasDerivAt (fun t : ℝ => (t - m) / s) (1 / s) y := ((hasDerivAt_id y).sub_const m).div_const s
    exact ((hk.comp y h1).const_mul s).differentiableAt
  · refine hasGradient_of (f := fun t => s * k ((y - t) / s)) (Eventually.of_forall fun t => hS _ _ _ hs) ?_
    have h1 : HasDerivAt (fun t : ℝ => (y - t) / s) (-1 / s) m := ((hasDerivAt_id m).const_sub y).div_const s
    exact ((HasDerivAt.comp m hk h1).const_mul s).differentiableAt
  · refine hasGradient_of (f := fun t => t * k ((y - m) / t)) ?_ ?_
    · filter_upwards [lt_mem_nhds hs] with t ht
      exact hS _ _ _ ht
    · have h1 := (hasDerivAt_const s (y - m)).div (hasDerivAt_id s) hs.ne'
      exact ((hasDerivAt_id s).mul (HasDerivAt.comp s hk h1)).differentiableAt

/-- the standard form of the scores below -/
theorem gev_standard {ξ : ℝ} (h1 : ξ < 1) : ∃ k : ℝ → ℝ, Differentiable ℝ k ∧ ∀ y m s : ℝ, 0 < s →
    Closed.gev (fin y) (fin ξ) (fin m) (fin s) = fin (s * k ((y - m) / s)) := by
  have hshape : CrpsShape Set.univ (fun y => Closed.gev (fin y) (fin ξ) (fin 0) (fin 1)) (cdfGev ξ 0 1) := by
    by_cases h : ξ = 0
    · subst h; exact C119_gumbel 0 one_pos
    · exact C119_gev 0 h h1 one_pos
  have hc := isDensity_continuous (C57_gev ξ 0 one_pos).1
  obtain ⟨k, hv, hk⟩ := hshape
  have hv' : ∀ z, Closed.gev (fin z) (fin ξ) (fin 0) (fin 1) = fin (k z) := fun z => hv z trivial
  refine ⟨k, fun x => (crpsShape_deriv hk univ_mem hc.continuousAt).differentiableAt, fun y m s hs => ?_⟩
  have := C51_gev m 0 hs one_pos (fin ((y - m) / s)) (fin ξ)
  rw [hv', fin_mul, fin_mul, fin_add, mul_zero, add_zero, mul_one, mul_div_cancel₀ _ hs.ne',
    add_sub_cancel] at this
  exact this


theorem gpd_standard {ξ M : ℝ} (h1 : ξ < 1) (hM0 : 0 ≤ M) (hM1 : M ≤ 1) : ∃ k : ℝ → ℝ,
    (∀ x, ContinuousAt (cdfGpd M ξ 0 1) x → DifferentiableAt ℝ k x) ∧ ∀ y m s : ℝ, 0 < s →
    Closed.gpd (fin y) (fin ξ) (fin m) (fin s) (fin M) = fin (s * k ((y - m) / s)) := by
  obtain ⟨k, hv, hk⟩ := C119_gpd one_pos h1 hM0 hM1 0
  have hv' : ∀ z, Closed.gpd (fin z) (fin ξ) (fin 0) (fin 1) (fin M) = fin (k z) := fun z => hv z trivial
  refine ⟨k, fun x hc => (crpsShape_deriv hk univ_mem hc).differentiableAt, fun y m s hs => ?_⟩
  have := C51_gpd m 0 hs one_pos (fin ((y - m) / s)) (fin ξ) (fin M)
  rw [hv', fin_mul, fin_mul, fin_add, mul_zero, add_zero, mul_one, mul_div_cancel₀ _ hs.ne',
    add_sub_cancel] at this
  exact this

theorem cdfGpd_continuousAt {ξ M x : ℝ} (h : (ξ = 0 ∧ 0 < x) ∨ (ξ < 0 ∧ -1 / ξ < x)) :
    ContinuousAt (cdfGpd M ξ 0 1) x := by
  rcases h with ⟨rfl, hx⟩ | ⟨h0, hx⟩
  · have hc : ContinuousAt (fun z : ℝ => M + (1 - M) * (1 - Real.exp (-z))) x := by fun_prop
    refine hc.congr ?_
    filter_upwards [lt_mem_nhds hx] with z hz
    rw [cdfGpd, sub_zero, div_one, cdfGpd0, if_neg (not_lt.2 hz.le), if_pos rfl]
  · refine (continuousAt_const (y := (1:ℝ))).congr ?_
    have hp : 0 < -1 / ξ := div_pos_of_neg_of_neg (by norm_num) h0
    filter_upwards [lt_mem_nhds hx] with z hz
    rw [cdfGpd, sub_zero, div_one, cdfGpd0, if_neg (not_lt.2 (hp.trans hz).le), if_neg h0.ne, if_pos ⟨h0, hz⟩]

theorem t_standard {ν : ℝ} (h1 : 1 < ν) : ∃ k : ℝ → ℝ, Differentiable ℝ k ∧ ∀ y m s : ℝ, 0 < s →
    Closed.t (fin y) (fin ν) (fin m) (fin s) = fin (s * k ((y - m) / s)) := by
  have hc := isDensity_continuous (C57_t (by linarith : (0:ℝ) < ν) one_pos 0).1
  obtain ⟨k, hv, hk⟩ := C119_t h1 one_pos 0
  have hv' : ∀ z, Closed.t (fin z) (fin ν) (fin 0) (fin 1) = fin (k z) := fun z => hv z trivial
  refine ⟨k, fun x => (crpsShape_deriv hk univ_mem hc.continuousAt).differentiableAt, fun y m s hs => ?_⟩
  have := C51_t m 0 hs one_pos (fin ((y - m) / s)) (fin ν)
  rw [hv', fin_mul, fin_mul, fin_add, mul_zero, add_zero, mul_one, mul_div_cancel₀ _ hs.ne',
    add_sub_cancel] at this
  exact this

/-- the nodes of a standardised observation -/
theorem std_fin {y m s : ℝ} (hs : 0 < s) : (fin y - fin m) / fin s = fin ((y - m) / s) := by
  rw [fin_sub, fin_div hs.ne']

/-- `_gpd_cdf` has no gradient with respect to a shape 0 -/
theorem gpdCdf_dead {x shape : Node} (hx : NoGrad x) (hs : shape.val = fin 0) (h0 : shape.back (fin 0) = fin 0) :
    NoGrad (Grad.gpdCdf x shape) := by
  unfold Grad.gpdCdf
  have hz : XF.feq shape.val 0 := by rw [hs]; exact rfl
  have hS := NoGrad.const_sel hz h0 nan
  have hX := NoGrad.sel (0 ≤ x.val) hx (NoGrad.const nan)
  have hS2 := NoGrad.sel (¬(XF.feq shape.val 0 ∨ 0 < (sel (XF.feq shape.val 0) (const nan) shape).val) ∧
      (const (-1) / sel (XF.feq shape.val 0) (const nan) shape).val < x.val) (NoGrad.const nan) hS
  exact NoGrad.sel _ (NoGrad.const _) (NoGrad.sel _ (NoGrad.sub (NoGrad.const _) (NoGrad.tpow (NoGrad.add (NoGrad.const _)
    (NoGrad.mul hS2 hX)) (NoGrad.div (NoGrad.const _) hS2))) (NoGrad.sel _ (NoGrad.sub (NoGrad.const _) (NoGrad.exp (NoGrad.neg hX)))
    (NoGrad.const _)))

theorem logsGpd_dead {x m s shape : Node} (hx : NoGrad x) (hm : NoGrad m) (hs' : NoGrad s) (hs : shape.val = fin 0)
    (h0 : shape.back (fin 0) = fin 0) : NoGrad (Grad.logsGpd x shape m s) := by
  have hz : XF.feq shape.val 0 := by rw [hs]; exact rfl
  have hS := NoGrad.const_sel hz h0 nan
  have hX := fun c => NoGrad.sel c (NoGrad.div (NoGrad.sub hx hm) hs') (NoGrad.const nan)
  have hP : NoGrad (Grad.gpdPdf ((x - m) / s) shape) := by
    unfold Grad.gpdPdf
    exact NoGrad.sel _ (NoGrad.sel _ (NoGrad.exp (NoGrad.neg (hX _))) (NoGrad.tpow (NoGrad.add (NoGrad.const _) (NoGrad.mul hS (hX _)))
      (NoGrad.div (NoGrad.neg (NoGrad.add hS (NoGrad.const _))) hS))) (NoGrad.const _)
  unfold Grad.logsGpd
  exact NoGrad.sel _ (NoGrad.const _) (NoGrad.neg (NoGrad.log (NoGrad.sel _ (NoGrad.const _) (NoGrad.div hP hs'))))

theorem logsGev_dead {x m s shape : Node} (hx : NoGrad x) (hm : NoGrad m) (hs' : NoGrad s) (hs : shape.val = fin 0)
    (h0 : shape.back (fin 0) = fin 0) : NoGrad (Grad.logsGev x shape m s) := by
  have hz : XF.feq shape.val 0 := by rw [hs]; exact rfl
  have hS := NoGrad.const_sel hz h0 nan
  have hX := fun c => NoGrad.sel c (NoGrad.div (NoGrad.sub hx hm) hs') (NoGrad.const nan)
  have hP : NoGrad (Grad.gevPdf ((x - m) / s) shape) := by
    unfold Grad.gevPdf
    have hb := fun c => NoGrad.add (NoGrad.const 1) (NoGrad.mul (hX c) hS)
    exact NoGrad.sel _ (NoGrad.sel _ (NoGrad.mul (NoGrad.exp (NoGrad.neg (hX _))) (NoGrad.exp (NoGrad.neg (NoGrad.exp (NoGrad.neg (hX _))))))
      (NoGrad.mul (NoGrad.tpow (hb _) (NoGrad.div (NoGrad.neg (NoGrad.add hS (NoGrad.const _))) hS))
        (NoGrad.exp (NoGrad.neg (NoGrad.tpow (hb _) (NoGrad.div (NoGrad.const _) hS)))))) (NoGrad.const _)
  unfold Grad.logsGev
  exact NoGrad.sel _ (NoGrad.const _) (NoGrad.neg (NoGrad.log (NoGrad.sel _ (NoGrad.const _) (NoGrad.div hP hs'))))

/-! ### the shape near 0 -/

theorem crps_gpd_formula {ξ M μ σ : ℝ} (hσ : 0 < σ) (h1 : ξ < 1) (h0 : 0 ≤ M) (hM1 : M ≤ 1) (y : ℝ) :
    Closed.gpd (fin y) (fin ξ) (fin μ) (fin σ) (fin M) = fin (σ * (|(y - μ) / σ|
      - 2 * (1 - M) * (1 - gpdV ξ ((y - μ) / σ)) / (1 - ξ) + (1 - M) ^ 2 / (2 - ξ))) := by
  have e : Spec.cdfGpd M ξ μ σ = fun z => Spec.cdfGpd0 M ξ ((z - μ) / σ) := rfl
  rw [(C49_gpd hσ h1 h0 hM1 μ y).2, e, Spec.crps_scale _ _ hσ, (crps_gpd0 h0 hM1 h1 _).2]

theorem near_zero (x : ℝ) : ∀ᶠ ξ in 𝓝 (0:ℝ), 0 < 1 + ξ * x := by
  have : ContinuousAt (fun ξ : ℝ => 1 + ξ * x) 0 := by fun_prop
  exact this.eventually_const_lt (by norm_num)

theorem gpdV_near {x ξ : ℝ} (hx : 0 < x) (h : 0 < 1 + ξ * x) :
    gpdV ξ x = Real.exp (-((1 - ξ) * lrat x ξ)) := by
  unfold gpdV
  rw [max_eq_left hx.le]
  split_ifs with h0
  · rw [h0, lrat_zero]; simp
  · have hB : gpdB ξ x = 1 + ξ * x := max_eq_left h.le
    rw [hB, Real.rpow_def_of_pos h, lrat, if_neg h0]
    congr 1; field_simp; ring

theorem gpdV_below {x : ℝ} (hx : x < 0) (ξ : ℝ) : gpdV ξ x = 1 := by
  unfold gpdV
  rw [max_eq_right hx.le]
  split_ifs <;> simp [gpdB]

/-- the derivative of `crps_gpd` with respect to a shape 0 -/
theorem crps_gpd_shape_deriv {M μ σ y : ℝ} (hσ : 0 < σ) (h0 : 0 ≤ M) (hM1 : M ≤ 1) {x : ℝ} (hx : 0 < x)
    (ex : (y - μ) / σ = x) :
    IsGradient (fun t => Closed.gpd (fin y) t (fin μ) (fin σ) (fin M)) 0
      (fin (σ * ((1 - M) ^ 2 / 4 - 2 * (1 - M) * (1 - Real.exp (-x) * (1 + x + x ^ 2 / 2))))) := by
  refine ⟨fun ξ => σ * (|x| - 2 * (1 - M) * (1 - Real.exp (-((1 - ξ) * lrat x ξ))) / (1 - ξ) + (1 - M) ^ 2 / (2 - ξ)),
    _, ?_, ?_, rfl⟩
  · filter_upwards [near_zero x, gt_mem_nhds (zero_lt_one (α := ℝ))] with ξ hp h1
    rw [crps_gpd_formula hσ h1 h0 hM1, ex, gpdV_near hx hp]
  · have hd1 : HasDerivAt (fun ξ : ℝ => 1 - ξ) (-1) 0 := by simpa using (hasDerivAt_id (0:ℝ)).const_sub 1
    have hd2 : HasDerivAt (fun ξ : ℝ => 2 - ξ) (-1) 0 := by simpa using (hasDerivAt_id (0:ℝ)).const_sub 2
    have he := (hd1.mul (lrat_deriv x)).neg.exp
    have h := ((((he.const_sub 1).const_mul (2 * (1 - M))).div hd1 (by norm_num)).const_sub |x|).add
      ((hasDerivAt_const (0:ℝ) ((1 - M) ^ 2)).div hd2 (by norm_num))
    have h' := h.const_mul σ
    refine h'.congr_deriv ?_
    simp only [Pi.neg_apply, Pi.mul_apply, lrat_zero, sub_zero, one_mul]
    ring

/-- what backpropagation returns -/
theorem crps_gpd_shape_grad {M μ σ y : ℝ} (hσ : 0 < σ) (h0 : 0 ≤ M) (hM1 : M ≤ 1) {x : ℝ} (hx : 0 < x)
    (ex : (y - μ) / σ = x) :
    (Grad.gpd (const (fin y)) (leaf (fin 0)) (const (fin μ)) (const (fin σ)) (const (fin M))).grad =
      fin (σ * ((1 - M) ^ 2 / 4 - 2 * (1 - M) * (1 - Real.exp (-x) * (1 + x)))) := by
  set F := Grad.gpdCdf ((const (fin y) - const (fin μ)) / const (fin σ))
    (sel ((leaf (fin 0)).val < 1) (leaf (fin 0)) (const nan)) with hF
  have hdead : NoGrad F := by
    refine gpdCdf_dead (NoGrad.div (NoGrad.sub (NoGrad.const _) (NoGrad.const _)) (NoGrad.const _)) ?_ ?_
    · rw [sel_val, if_pos (by rw [leaf_val, one_def, fin_lt]; exact one_pos)]; rfl
    · show (leaf (fin 0)).back _ + (const nan).back _ = _
      rw [leaf_back, const_back]
      split_ifs <;> simp [zero_def, fin_add]
  have hval : F.val = fin (1 - Real.exp (-x)) := by
    rw [hF, gpdCdf_val, sel_val, if_pos (by rw [leaf_val, one_def, fin_lt]; exact one_pos), div_val, sub_val,
      const_val, const_val, const_val, leaf_val, std_fin hσ, ex, gpdCdf_fin, gpdG, if_neg (not_lt.2 hx.le), if_pos rfl]
  have tF : Tr (fun _ => F) (fun _ => 1 - Real.exp (-x)) 0 := Tr.of_dead hdead (Eventually.of_forall fun _ => hval)
  have hξ : Tr (fun t => leaf (fin t)) (fun t => t) 0 := Tr.leaf
  have e1 : ∀ᶠ t in 𝓝 (0:ℝ), (leaf (fin t)).val < 1 := by
    filter_upwards [gt_mem_nhds (zero_lt_one (α := ℝ))] with t ht
    rw [leaf_val, one_def, fin_lt]; exact ht
  have hξ' := hξ.sel_pos e1 (M := fun _ => Node.const nan) rfl
  have hM' := (Tr.const (θ := 0) M).sel_pos (c := fun _ => 0 ≤ (const (fin M)).val ∧ (const (fin M)).val ≤ 1)
    (Eventually.of_forall fun _ => by
      rw [const_val, one_def, zero_def, fin_le, fin_le]; exact ⟨h0, hM1⟩) (M := fun _ => Node.const nan) rfl
  have hp := (Tr.one.sub tF).tpow (Tr.one.sub hξ') (by simpa using Real.exp_pos _)
  have ha := (((Tr.const (θ := 0) y).sub (Tr.const μ)).div (Tr.const σ) hσ.ne').abs (by rw [ex]; exact hx.ne')
  have key := (Tr.const σ).mul ((ha.sub (((Tr.two.mul (Tr.one.sub hM')).mul (Tr.one.sub hp)).div (Tr.one.sub hξ')
    (by norm_num))).add (((Tr.one.sub hM').pow 2).div (Tr.two.sub hξ') (by norm_num)))
  obtain ⟨_, d, hd, hb⟩ := key
  have hg : (Grad.gpd (const (fin y)) (leaf (fin 0)) (const (fin μ)) (const (fin σ)) (const (fin M))).grad = fin d := by
    have := hb 1
    rw [one_mul] at this
    exact this
  rw [hg]
  congr 1
  refine hd.unique ?_
  have hd1 : HasDerivAt (fun ξ : ℝ => 1 - ξ) (-1) 0 := by simpa using (hasDerivAt_id (0:ℝ)).const_sub 1
  have hd2 : HasDerivAt (fun ξ : ℝ => 2 - ξ) (-1) 0 := by simpa using (hasDerivAt_id (0:ℝ)).const_sub 2
  have he := (hasDerivAt_const (0:ℝ) (1 - (1 - Real.exp (-x)))).rpow hd1 (by simpa using Real.exp_pos _)
  have h := ((((he.const_sub 1).const_mul (2 * (1 - M))).div hd1 (by norm_num)).const_sub |(y - μ) / σ|).add
      ((hasDerivAt_const (0:ℝ) ((1 - M) ^ 2)).div hd2 (by norm_num))
  have h' := h.const_mul σ
  refine h'.congr_deriv ?_
  simp only [sub_zero, sub_sub_cancel, Real.rpow_one, Real.log_exp]
  ring

theorem sel_back_nan_right {c : Prop} (hc : ¬ c) {b : Node} (hb : b.back nan = nan) (x : XF) :
    (Node.sel c (const x) b).back nan = nan := by
  show (const x).back _ + b.back (if c then 0 else nan) = nan
  rw [if_neg (c := c) hc, if_neg hc, hb, add_nan]

/-- `_gpd_cdf` below the support, with respect to a shape that is not 0 -/
theorem gpdCdf_shape_bad {x shape : Node} {a ξ : ℝ} (hx : x.val = fin a) (hs : shape.val = fin ξ) (h0 : a < 0)
    (hξ : ξ ≠ 0) (hb : shape.back nan = nan) : Bad (Grad.gpdCdf x shape) := by
  unfold Grad.gpdCdf
  have hz : ¬ XF.feq shape.val 0 := by rw [hs]; exact fun h => hξ (fin_inj.1 h)
  have hS : (sel (XF.feq shape.val 0) (const nan) shape).val = fin ξ := by rw [sel_val, if_neg hz, hs]
  have hSb : (sel (XF.feq shape.val 0) (const nan) shape).back nan = nan := by
    exact sel_back_nan_right hz hb _
  have hX : (sel (0 ≤ x.val) x (const nan)).val = nan := by
    rw [sel_val, if_neg (by rw [hx, zero_def, fin_le]; exact not_le.2 h0)]; rfl
  have hc : ¬ (¬(XF.feq shape.val 0 ∨ 0 < (sel (XF.feq shape.val 0) (const nan) shape).val) ∧
      (const (-1) / sel (XF.feq shape.val 0) (const nan) shape).val < x.val) := by
    rw [div_val, hS, hx, const_val, one_def, zero_def, fin_neg, fin_lt, fin_div hξ, fin_lt]
    rintro ⟨h1, h2⟩
    have hn : ξ < 0 := lt_of_le_of_ne (not_lt.1 fun h => h1 (Or.inr h)) hξ
    have : 0 < -1 / ξ := div_pos_of_neg_of_neg (by norm_num) hn
    linarith
  refine Bad.sel_right (Bad.sel_left (Bad.sub_right fun g => ?_))
  set S2 := sel (¬(XF.feq shape.val 0 ∨ 0 < (sel (XF.feq shape.val 0) (const nan) shape).val) ∧
      (const (-1) / sel (XF.feq shape.val 0) (const nan) shape).val < x.val) (const nan)
      (sel (XF.feq shape.val 0) (const nan) shape) with hS2
  have hS2v : S2.val = fin ξ := by rw [hS2, sel_val, if_neg hc, hS]
  have hS2b : S2.back nan = nan := by
    exact sel_back_nan_right hc hSb _
  show (const 1 + S2 * sel (0 ≤ x.val) x (const nan)).back _ + _ = nan
  rw [add_back, mul_back, hX, XF.mul_nan, hS2b, nan_add, add_nan, nan_add]

theorem gpd_shape_bad {obs mu sigma mass : Node} {a ξ : ℝ} (hx : ((obs - mu) / sigma).val = fin a) (h1 : ξ < 1)
    (h0 : a < 0) (hξ : ξ ≠ 0) : Bad (Grad.gpd obs (leaf (fin ξ)) mu sigma mass) := by
  unfold Grad.gpd
  have hc : (leaf (fin ξ)).val < 1 := by rw [leaf_val, one_def, fin_lt]; exact h1
  have hs' : (sel ((leaf (fin ξ)).val < 1) (leaf (fin ξ)) (const nan)).val = fin ξ := by
    rw [sel_val, if_pos hc]; rfl
  exact Bad.mul_right (Bad.add_left (Bad.sub_right (Bad.div_left (Bad.mul_right (Bad.sub_right (Bad.tpow_left
    (Bad.sub_right (gpdCdf_shape_bad hx hs' h0 hξ (sel_back_nan hc rfl _)))))))))

/-! ### the logarithmic scores near shape 0 -/

theorem logs_gpd_near {y ξ μ σ x : ℝ} (hσ : 0 < σ) (ex : (y - μ) / σ = x) (hx : 0 < x) (h : 0 < 1 + ξ * x) :
    Logs.gpd (fin y) (fin ξ) (fin μ) (fin σ) = fin ((ξ + 1) * lrat x ξ + Real.log σ) := by
  have hne : ¬ (ξ < 0 ∧ -1 / ξ < x) := by
    rintro ⟨h1, h2⟩
    rw [div_lt_iff_of_neg h1] at h2
    linarith
  rw [(C57_gpd ξ μ hσ).2 y (by
    rintro ⟨h1, h2⟩
    rw [ex] at h2
    have h0 : ξ ≠ 0 := by linarith
    rw [h2, mul_div_cancel₀ _ h0] at h
    linarith)]
  have hd : densGpd ξ μ σ y = Real.exp (-((ξ + 1) * lrat x ξ)) / σ := by
    simp only [densGpd, ex]
    rw [if_neg (not_lt.2 hx.le)]
    split_ifs with h0
    · rw [h0, lrat_zero, zero_add, one_mul]
    · rw [Real.rpow_def_of_pos h, lrat, if_neg h0]
      congr 2; field_simp
  rw [hd, negLog, if_neg (div_pos (Real.exp_pos _) hσ).ne', Real.log_div (Real.exp_ne_zero _) hσ.ne', Real.log_exp]
  congr 1; ring

theorem logs_gev_near {y ξ μ σ x : ℝ} (hσ : 0 < σ) (ex : (y - μ) / σ = x) (h : 0 < 1 + ξ * x) :
    Logs.gev (fin y) (fin ξ) (fin μ) (fin σ) =
      fin ((ξ + 1) * lrat x ξ + Real.exp (-lrat x ξ) + Real.log σ) := by
  rw [(C57_gev ξ μ hσ).2 y]
  have hd : densGev ξ μ σ y = Real.exp (-((ξ + 1) * lrat x ξ) - Real.exp (-lrat x ξ)) / σ := by
    rw [densGev, ex, densGev0]
    split_ifs with h0
    · rw [h0, lrat_zero, zero_add, one_mul, ← Real.exp_add, sub_eq_add_neg]
    · rw [Real.rpow_def_of_pos h, lrat_exp h0 h, ← Real.exp_add, lrat, if_neg h0]
      congr 2
      rw [sub_eq_add_neg]; congr 1; field_simp; ring
  rw [hd, negLog, if_neg (div_pos (Real.exp_pos _) hσ).ne', Real.log_div (Real.exp_ne_zero _) hσ.ne', Real.log_exp]
  congr 1; ring

theorem logs_locscale {S : XF → XF → XF → XF} {k : ℝ → ℝ} {k' y m s : ℝ} (hs : 0 < s) (U : ℝ → Prop)
    (hU : ∀ᶠ x in 𝓝 ((y - m) / s), U x)
    (hS : ∀ y m s : ℝ, 0 < s → U ((y - m) / s) → S (fin y) (fin m) (fin s) = fin (k ((y - m) / s) + Real.log s))
    (hk : HasDerivAt k k' ((y - m) / s)) :
    HasGradient (fun t => S t (fin m) (fin s)) y ∧ HasGradient (fun t => S (fin y) t (fin s)) m ∧
      HasGradient (fun t => S (fin y) (fin m) t) s := by
  refine ⟨?_, ?_, ?_⟩
  · have h1 : HasDerivAt (fun t : ℝ => (t - m) / s) (1 / s) y := ((hasDerivAt_id y).sub_const m).div_const s
    refine hasGradient_of (f := fun t => k ((t - m) / s) + Real.log s) ?_ ?_
    · filter_upwards [h1.continuousAt.eventually hU] with t ht
      exact hS _ _ _ hs ht
    · exact ((hk.comp y h1).add_const _).differentiableAt
  · have h1 : HasDerivAt (fun t : ℝ => (y - t) / s) (-1 / s) m := ((hasDerivAt_id m).const_sub y).div_const s
    refine hasGradient_of (f := fun t => k ((y - t) / s) + Real.log s) ?_ ?_
    · filter_upwards [h1.continuousAt.eventually hU] with t ht
      exact hS _ _ _ hs ht
    · exact ((HasDerivAt.comp m hk h1).add_const _).differentiableAt
  · have h1 := (hasDerivAt_const s (y - m)).div (hasDerivAt_id s) hs.ne'
    refine hasGradient_of (f := fun t => k ((y - m) / t) + Real.log t) ?_ ?_
    · filter_upwards [lt_mem_nhds hs, h1.continuousAt.eventually hU] with t ht hu
      exact hS _ _ _ ht hu
    · exact ((HasDerivAt.comp s hk h1).add (Real.hasDerivAt_log hs.ne')).differentiableAt

end Verif
