import Verif.Lemmas.LogsFin

/-!
# C57: logarithmic scores are negative logarithms of probability densities

Each theorem names the distribution function (documented parameters), says that the given function is a
density of it (`Spec.IsDensity`: non-negative, integrates to one, and its integral up to `y` is the
distribution function), and that the code's score is its negative logarithm, `+inf` where it is zero.
-/

noncomputable section

open scoped Classical

namespace Verif

open XF Spec

/-- `logs_exponential`. -/
theorem C57_exponential {r : ℝ} (hr : 0 < r) :
    IsDensity (densExp r) (cdfExp r) ∧ ∀ y, Logs.exponential (fin y) (fin r) = negLog (densExp r y) := by
  refine ⟨(dist_exp hr).isDensity, fun y => ?_⟩
  unfold Logs.exponential
  simp only [XF.zero_def, fin_lt]
  split_ifs with h
  · simp [densExp, h, negLog]
  · rw [expPdf_fin, log_fin_nonneg ((dist_exp hr).nonneg y)]

example : Logs.exponential (fin (-1)) (fin 2) = pinf ∧ Logs.exponential (fin 0) (fin 1) = fin 0 := by
  rw [(C57_exponential two_pos).2, (C57_exponential one_pos).2]
  norm_num [densExp, negLog]

/-- `logs_exponential2`. -/
theorem C57_exponential2 (μ : ℝ) {σ : ℝ} (hσ : 0 < σ) :
    IsDensity (densExp2 μ σ) (cdfExpM 0 μ σ) ∧
    ∀ y, Logs.exponential2 (fin y) (fin μ) (fin σ) = negLog (densExp2 μ σ y) := by
  refine ⟨(dist_exp2 μ hσ).isDensity, fun y => ?_⟩
  unfold Logs.exponential2
  simp only [XF.zero_def, XF.one_def, fin_sub, fin_lt, fin_div hσ.ne', sub_neg]
  split_ifs with h
  · simp [densExp2, h, negLog]
  · rw [expPdf_fin]
    have e : densExp (1 / σ) (y - μ) = densExp2 μ σ y := by
      rw [densExp, densExp2, if_neg (by linarith), if_neg h]; ring_nf
    rw [e, log_fin_nonneg ((dist_exp2 μ hσ).nonneg y)]

example : Logs.exponential2 (fin 2) (fin 2) (fin 1) = fin 0
    ∧ Logs.exponential2 (fin 1) (fin 2) (fin 1) = pinf := by
  rw [(C57_exponential2 2 one_pos).2, (C57_exponential2 2 one_pos).2]
  norm_num [densExp2, negLog]

/-- `logs_2pexponential`. -/
theorem C57_2pexponential {a b : ℝ} (μ : ℝ) (ha : 0 < a) (hb : 0 < b) :
    IsDensity (dens2pexp a b μ) (cdf2pexp a b μ) ∧
    ∀ y, Logs.twopexponential (fin y) (fin a) (fin b) (fin μ) = negLog (dens2pexp a b μ y) := by
  refine ⟨(dist_2pexp μ ha hb).isDensity, fun y => ?_⟩
  unfold Logs.twopexponential
  have hab : 0 < a + b := by positivity
  simp only [XF.zero_def, XF.one_def, fin_sub, fin_lt, sub_neg, fin_abs, fin_add]
  rw [← log_fin_nonneg ((dist_2pexp μ ha hb).nonneg y)]
  congr 2
  unfold dens2pexp
  split_ifs with h
  · simp only [fin_div ha.ne', fin_div hab.ne', expPdf_fin, fin_mul]
    rw [densExp, if_neg (not_lt.2 (abs_nonneg _)), abs_of_neg (by linarith)]
    congr 1
    rw [show -(1 / a * -(y - μ)) = (y - μ) / a by ring]
    field_simp
  · simp only [fin_div hb.ne', fin_div hab.ne', expPdf_fin, fin_mul]
    rw [densExp, if_neg (not_lt.2 (abs_nonneg _)), abs_of_nonneg (by linarith)]
    congr 1
    rw [show -(1 / b * (y - μ)) = -((y - μ) / b) by ring]
    field_simp

example : Logs.twopexponential (fin 0) (fin 1) (fin 3) (fin 0) = fin (Real.log 4) := by
  rw [(C57_2pexponential 0 one_pos (by norm_num : (0:ℝ) < 3)).2]
  norm_num [dens2pexp, negLog]
  rw [one_div, Real.log_inv, neg_neg]

/-- `logs_laplace`. -/
theorem C57_laplace (μ : ℝ) {σ : ℝ} (hσ : 0 < σ) :
    IsDensity (densLaplace μ σ) (cdfLaplace μ σ) ∧
    ∀ y, Logs.laplace (fin y) (fin μ) (fin σ) = negLog (densLaplace μ σ y) := by
  refine ⟨(dist_laplace μ hσ).isDensity, fun y => ?_⟩
  unfold Logs.laplace
  simp only [fin_sub, fin_div hσ.ne', laplacePdf_fin]
  rw [← log_fin_nonneg ((dist_laplace μ hσ).nonneg y), densLaplace, div_div]

example : Logs.laplace (fin 3) (fin 3) (fin 2) = fin (Real.log 4) := by
  rw [(C57_laplace 3 two_pos).2]
  norm_num [densLaplace, negLog]
  rw [one_div, Real.log_inv, neg_neg]

/-- `logs_logistic`. -/
theorem C57_logistic (μ : ℝ) {σ : ℝ} (hσ : 0 < σ) :
    IsDensity (densLogistic μ σ) (cdfLogistic μ σ) ∧
    ∀ y, Logs.logistic (fin y) (fin μ) (fin σ) = negLog (densLogistic μ σ y) := by
  refine ⟨(dist_logistic μ hσ).isDensity, fun y => ?_⟩
  unfold Logs.logistic
  simp only [fin_sub, fin_div hσ.ne', logisPdf_fin]
  rw [← log_fin_nonneg ((dist_logistic μ hσ).nonneg y), densLogistic, div_div, mul_comm]

example : Logs.logistic (fin 3) (fin 3) (fin 2) = fin (Real.log 8) := by
  rw [(C57_logistic 3 two_pos).2]
  norm_num [densLogistic, negLog]
  rw [one_div, Real.log_inv, neg_neg]

/-- `logs_uniform`. -/
theorem C57_uniform {l u : ℝ} (h : l < u) :
    IsDensity (densUniform l u) (cdfUniform l u 0 0) ∧
    ∀ y, Logs.uniform (fin y) (fin l) (fin u) = negLog (densUniform l u y) := by
  refine ⟨(diff_uniform h).isDensity, fun y => ?_⟩
  unfold Logs.uniform
  rw [← log_fin_nonneg ((diff_uniform h).nonneg y)]
  simp only [fin_lt, XF.zero_def, XF.one_def, fin_sub, fin_div (sub_pos.2 h).ne']
  congr 2
  unfold densUniform
  by_cases h1 : u < y ∨ y < l
  · rw [if_pos h1, if_neg]
    rintro ⟨h2, h3⟩
    rcases h1 with h1 | h1 <;> linarith
  · rw [if_neg h1, if_pos]
    exact ⟨not_lt.1 fun hh => h1 (Or.inr hh), not_lt.1 fun hh => h1 (Or.inl hh)⟩

example : Logs.uniform (fin 1) (fin 0) (fin 4) = fin (Real.log 4)
    ∧ Logs.uniform (fin 5) (fin 0) (fin 4) = pinf := by
  rw [(C57_uniform (by norm_num : (0:ℝ) < 4)).2, (C57_uniform (by norm_num : (0:ℝ) < 4)).2]
  norm_num [densUniform, negLog]
  rw [one_div, Real.log_inv, neg_neg]

theorem gpdPdf_fin {ξ z : ℝ} (h : ¬ (ξ < -1 ∧ z = -1 / ξ)) :
    Stats.gpdPdf (fin z) (fin ξ) = fin (densGpd ξ 0 1 z) := by
  unfold Stats.gpdPdf densGpd
  simp only [XF.zero_def, XF.one_def, fin_feq, fin_le, sub_zero, div_one]
  by_cases h0 : ξ = 0
  · have e1 : ¬ (nan < fin 0) := fun h => h
    subst h0
    simp only [if_true, e1, false_and, or_false, le_refl, true_and]
    rcases le_or_gt 0 z with hz | hz
    · simp [hz, not_lt.2 hz]
    · simp [hz, not_le.2 hz]
  · simp only [h0, if_false, fin_lt, fin_neg, fin_div h0, fin_add]
    rcases lt_or_ge z 0 with hz | hz
    · simp [hz, not_le.2 hz]
    · simp only [hz, and_true, true_and, not_lt.2 hz, if_false]
      rcases lt_or_gt_of_ne h0 with hn | hp
      · simp only [not_le.2 hn, false_or, hn, true_and]
        rcases lt_or_ge (-1 / ξ) z with h2 | h2
        · simp [h2, not_le.2 h2]
        · simp only [fin_le, h2, if_true, not_lt.2 h2, if_false, fin_mul, fin_add]
          have hx : 0 ≤ 1 + ξ * z := by
            have := mul_le_mul_of_nonpos_left h2 hn.le
            rw [mul_div_cancel₀ _ h0] at this
            linarith
          rcases hx.lt_or_eq with hx | hx
          · rw [pow_fin_pos hx]
          · have hz' : z = -1 / ξ := by field_simp; linarith
            have h1 : -1 ≤ ξ := not_lt.1 fun hh => h ⟨hh, hz'⟩
            rw [← hx]
            rcases h1.lt_or_eq with h1 | h1
            · have hp : 0 < -(ξ + 1) / ξ := div_pos_of_neg_of_neg (by linarith) hn
              rw [pow_fin_zero hp, Real.zero_rpow hp.ne']
            · rw [← h1]; norm_num [XF.pow, XF.one_def]
              simp [XF.zero_def, XF.one_def]
      · have hn' : ¬ ξ < 0 := not_lt.2 hp.le
        simp only [fin_le, hn', hp.le, false_and, true_or, if_true, if_false, fin_mul, fin_add]
        rw [pow_fin_pos (by positivity)]

/-- `logs_gpd`.  The density of a shape below `-1` is unbounded at the upper end point of its support;
`C57_gpd_endpoint` gives the score there. -/
theorem C57_gpd (ξ μ : ℝ) {σ : ℝ} (hσ : 0 < σ) :
    IsDensity (densGpd ξ μ σ) (cdfGpd 0 ξ μ σ) ∧
    ∀ y, ¬ (ξ < -1 ∧ (y - μ) / σ = -1 / ξ) →
      Logs.gpd (fin y) (fin ξ) (fin μ) (fin σ) = negLog (densGpd ξ μ σ y) := by
  refine ⟨(dist_gpd ξ μ hσ).isDensity, fun y hy => ?_⟩
  have e : densGpd ξ μ σ y = densGpd ξ 0 1 ((y - μ) / σ) / σ := by
    simp only [densGpd, sub_zero, div_one]
    split_ifs <;> simp
  have hn := (dist_gpd ξ 0 one_pos).nonneg ((y - μ) / σ)
  unfold Logs.gpd
  simp only [fin_sub, fin_div hσ.ne', gpdPdf_fin hy, XF.zero_def, fin_feq]
  rw [e]
  split_ifs with h0
  · rw [h0, zero_div, negLog, if_pos rfl]
  · rw [log_fin_nonneg (div_nonneg hn hσ.le)]

example : Logs.gpd (fin 1) (fin (-1)) (fin 0) (fin 2) = fin (Real.log 2)
    ∧ Logs.gpd (fin 3) (fin (-1)) (fin 0) (fin 2) = pinf
    ∧ Logs.gpd (fin 1) (fin 1) (fin 0) (fin 1) = fin (Real.log 4) := by
  rw [(C57_gpd (-1) 0 two_pos).2 _ (by norm_num), (C57_gpd (-1) 0 two_pos).2 _ (by norm_num),
    (C57_gpd 1 0 one_pos).2 _ (by norm_num)]
  refine ⟨?_, ?_, ?_⟩
  · norm_num [densGpd, negLog]
    rw [one_div, Real.log_inv, neg_neg]
  · norm_num [densGpd, negLog]
  · norm_num [densGpd, negLog]
    rw [one_div, Real.log_inv, neg_neg]

/-- At the upper end point of the support of a shape below `-1` the density and the score are infinite. -/
theorem C57_gpd_endpoint {ξ σ : ℝ} (μ : ℝ) (hξ : ξ < -1) (hσ : 0 < σ) {y : ℝ} (hy : (y - μ) / σ = -1 / ξ) :
    Logs.gpd (fin y) (fin ξ) (fin μ) (fin σ) = ninf := by
  have h0 : ξ ≠ 0 := by linarith
  have hn : ξ < 0 := by linarith
  have hz : 0 ≤ -1 / ξ := (div_pos_of_neg_of_neg (by norm_num) hn).le
  have hp : -(ξ + 1) / ξ < 0 := div_neg_of_pos_of_neg (by linarith) hn
  have e : Stats.gpdPdf (fin (-1 / ξ)) (fin ξ) = pinf := by
    unfold Stats.gpdPdf
    simp only [XF.zero_def, XF.one_def, fin_feq, fin_le, h0, if_false, fin_lt, fin_neg, fin_div h0, fin_add,
      hz, hn, le_refl, and_self, or_true, if_true, fin_mul, mul_div_cancel₀ _ h0]
    rw [show (1:ℝ) + -1 = 0 by norm_num, pow_fin_zero_neg hp]
  unfold Logs.gpd
  simp only [fin_sub, fin_div hσ.ne', hy, e]
  have e2 : ¬ XF.feq pinf 0 := by simp [XF.feq, XF.zero_def]
  have e3 : (pinf : XF) / fin σ = pinf := by
    show XF.div pinf (fin σ) = pinf
    simp [XF.div, not_lt.2 hσ.le, hσ.ne', hσ]
  simp only [e2, if_false, e3]
  rfl

example : Logs.gpd (fin (1 / 2)) (fin (-2)) (fin 0) (fin 1) = ninf :=
  C57_gpd_endpoint 0 (by norm_num) one_pos (by norm_num)

/-- `logs_normal`; with `negative=False` the sign is flipped. -/
theorem C57_normal (μ : ℝ) {σ : ℝ} (hσ : 0 < σ) :
    IsDensity (densNormal μ σ) (cdfNormal μ σ) ∧
    ∀ y, Logs.normal (fin y) (fin μ) (fin σ) true = negLog (densNormal μ σ y) ∧
      Logs.normal (fin y) (fin μ) (fin σ) false = -negLog (densNormal μ σ y) := by
  refine ⟨(dist_normal μ hσ).isDensity, fun y => ?_⟩
  have hp : 0 < φ ((y - μ) / σ) / σ := div_pos (φ_pos _) hσ
  unfold Logs.normal densNormal
  simp only [fin_sub, fin_div hσ.ne', normPdf_fin, fin_log hp, negLog, if_neg hp.ne', if_true, XF.one_def,
    fin_neg, fin_mul, if_false]
  exact ⟨by congr 1; ring, by simp⟩

example : Logs.normal (fin 3) (fin 3) (fin 1) true = fin (Real.log (Real.sqrt (2 * Real.pi))) := by
  rw [((C57_normal 3 one_pos).2 _).1]
  have : (0:ℝ) < Real.sqrt (2 * Real.pi) := Real.sqrt_pos.2 (by positivity)
  have e : densNormal 3 1 3 = (Real.sqrt (2 * Real.pi))⁻¹ := by
    unfold densNormal φ; norm_num
  rw [e, negLog, if_neg (inv_ne_zero this.ne'), Real.log_inv, neg_neg]

/-- `logs_lognormal`. -/
theorem C57_lognormal (μ : ℝ) {σ : ℝ} (hσ : 0 < σ) :
    IsDensity (densLog (densNormal μ σ)) (cdfLog (cdfNormal μ σ)) ∧
    ∀ y, Logs.lognormal (fin y) (fin μ) (fin σ) = negLog (densLog (densNormal μ σ) y) := by
  refine ⟨(dist_normal μ hσ).log.isDensity, fun y => ?_⟩
  unfold Logs.lognormal
  simp only [XF.zero_def, fin_le]
  split_ifs with h
  · simp [densLog, h, negLog]
  · rw [← log_fin_nonneg ((dist_normal μ hσ).log.nonneg y), fin_log (not_le.1 h)]
    simp only [fin_sub, fin_div hσ.ne', normPdf_fin, fin_div (not_le.1 h).ne', densLog, h, if_false, densNormal]

example : Logs.lognormal (fin (-1)) (fin 3) (fin 1) = pinf := by
  rw [(C57_lognormal 3 one_pos).2]
  norm_num [densLog, negLog]

/-- `logs_loglogistic`. -/
theorem C57_loglogistic (μ : ℝ) {σ : ℝ} (hσ : 0 < σ) :
    IsDensity (densLog (densLogistic μ σ)) (cdfLog (cdfLogistic μ σ)) ∧
    ∀ y, Logs.loglogistic (fin y) (fin μ) (fin σ) = negLog (densLog (densLogistic μ σ) y) := by
  refine ⟨(dist_logistic μ hσ).log.isDensity, fun y => ?_⟩
  unfold Logs.loglogistic
  simp only [XF.zero_def, fin_le]
  split_ifs with h
  · simp [densLog, h, negLog]
  · rw [← log_fin_nonneg ((dist_logistic μ hσ).log.nonneg y), fin_log (not_le.1 h)]
    simp only [fin_sub, fin_div hσ.ne', logisPdf_fin, fin_div (not_le.1 h).ne', densLog, h, if_false,
      densLogistic]
    rw [div_div _ _ σ, mul_comm _ σ]

example : Logs.loglogistic (fin 1) (fin 0) (fin 1) = fin (Real.log 4) := by
  rw [(C57_loglogistic 0 one_pos).2]
  norm_num [densLog, negLog, densLogistic]
  rw [one_div, Real.log_inv, neg_neg]

/-- `logs_loglaplace`. -/
theorem C57_loglaplace (μ : ℝ) {σ : ℝ} (hσ : 0 < σ) :
    IsDensity (densLog (densLaplace μ σ)) (cdfLog (cdfLaplace μ σ)) ∧
    ∀ y, Logs.loglaplace (fin y) (fin μ) (fin σ) = negLog (densLog (densLaplace μ σ) y) := by
  refine ⟨(dist_laplace μ hσ).log.isDensity, fun y => ?_⟩
  unfold Logs.loglaplace
  simp only [XF.zero_def, fin_le]
  split_ifs with h
  · simp [densLog, h, negLog]
  · rw [← log_fin_nonneg ((dist_laplace μ hσ).log.nonneg y), fin_log (not_le.1 h)]
    simp only [fin_sub, fin_div hσ.ne', laplacePdf_fin, fin_div (not_le.1 h).ne', densLog, h, if_false,
      densLaplace]
    rw [div_div _ _ σ]

example : Logs.loglaplace (fin 1) (fin 0) (fin 1) = fin (Real.log 2) := by
  rw [(C57_loglaplace 0 one_pos).2]
  norm_num [densLog, negLog, densLaplace]
  rw [one_div, Real.log_inv, neg_neg]

/-- `logs_2pnormal`. -/
theorem C57_2pnormal {a b : ℝ} (μ : ℝ) (ha : 0 < a) (hb : 0 < b) :
    IsDensity (dens2pnormal a b μ) (cdf2pnormal a b μ) ∧
    ∀ y, Logs.twopnormal (fin y) (fin a) (fin b) (fin μ) = negLog (dens2pnormal a b μ y) := by
  refine ⟨(dist_2pnormal μ ha hb).isDensity, fun y => ?_⟩
  have hab : 0 < a + b := by positivity
  unfold Logs.twopnormal
  rw [← log_fin_nonneg ((dist_2pnormal μ ha hb).nonneg y)]
  simp only [XF.zero_def, fin_sub, fin_lt, sub_neg, fin_add, XF.ofNat_def]
  congr 2
  unfold dens2pnormal
  split_ifs with h
  · simp only [fin_div ha.ne', fin_div hab.ne', normPdf_fin, fin_mul]
    congr 1; field_simp
  · simp only [fin_div hb.ne', fin_div hab.ne', normPdf_fin, fin_mul]
    congr 1; field_simp

example : Logs.twopnormal (fin 0) (fin 1) (fin 3) (fin 0)
    = fin (-Real.log (2 / (1 + 3) * φ 0)) := by
  have := φ_pos 0
  rw [(C57_2pnormal 0 one_pos (by norm_num : (0:ℝ) < 3)).2, negLog, if_neg] <;>
    simp [dens2pnormal, this.ne'] <;> norm_num

theorem dist_mix (l : List (ℝ × ℝ × ℝ)) (hs : ∀ p ∈ l, 0 < p.2.1) (hw : ∀ p ∈ l, 0 ≤ p.2.2)
    (h1 : (l.map fun p => p.2.2).sum = 1) : DiffDist (densMix l) (cdfMix l) :=
  DiffDist.mix l (fun p => densNormal p.1 p.2.1) (fun p => cdfNormal p.1 p.2.1) (fun p => p.2.2)
    (fun p hp => dist_normal p.1 (hs p hp)) hw h1

/-- The model's mixture density is the mixture density. -/
theorem mixnorm_prob (l : List (ℝ × ℝ × ℝ)) (y : ℝ) (hs : ∀ p ∈ l, 0 < p.2.1) :
    Logs.mixnorm (fin y) (l.map fun p => fin p.1) (l.map fun p => fin p.2.1) (l.map fun p => fin p.2.2)
      = -XF.log (fin (densMix l y)) := by
  unfold Logs.mixnorm
  dsimp only
  congr 2
  induction l with
  | nil => simp [Py.zip2, densMix, XF.zero_def]
  | cons p t ih =>
    have hp := hs p List.mem_cons_self
    have ih := ih fun q hq => hs q (List.mem_cons_of_mem _ hq)
    simp only [Py.zip2, List.map_cons, List.zipWith_cons_cons, List.sum_cons, densMix] at ih ⊢
    rw [ih]
    simp only [fin_sub, fin_div hp.ne', normPdf_fin, fin_mul, fin_add, densNormal]

/-- `logs_mixnorm`, any number of components. -/
theorem C57_mixnorm (l : List (ℝ × ℝ × ℝ)) (hs : ∀ p ∈ l, 0 < p.2.1) (hw : ∀ p ∈ l, 0 ≤ p.2.2)
    (h1 : (l.map fun p => p.2.2).sum = 1) :
    IsDensity (densMix l) (cdfMix l) ∧
    ∀ y, Logs.mixnorm (fin y) (l.map fun p => fin p.1) (l.map fun p => fin p.2.1) (l.map fun p => fin p.2.2)
      = negLog (densMix l y) := by
  have h := dist_mix l hs hw h1
  refine ⟨h.isDensity, fun y => ?_⟩
  rw [mixnorm_prob l y hs, log_fin_nonneg (h.nonneg y)]

example : IsDensity (densMix [(0, 1, 1 / 4), (2, 3, 3 / 4)]) (cdfMix [(0, 1, 1 / 4), (2, 3, 3 / 4)]) :=
  (C57_mixnorm _ (by simp) (by simp; norm_num) (by norm_num)).1

/-- Truncation to finite bounds: `logs_tnormal`. -/
theorem C57_tnormal (μ : ℝ) {σ l u : ℝ} (hσ : 0 < σ) (hlu : l < u) :
    IsDensity (densTrunc (densNormal μ σ) (cdfNormal μ σ) l u) (cdfTrunc (cdfNormal μ σ) l u) ∧
    ∀ y, Logs.tnormal (fin y) (fin μ) (fin σ) (fin l) (fin u)
      = negLog (densTrunc (densNormal μ σ) (cdfNormal μ σ) l u y) := by
  have hF : cdfNormal μ σ l < cdfNormal μ σ u :=
    Φ_strictMono ((div_lt_div_iff_of_pos_right hσ).2 (by linarith))
  have h := (dist_normal μ hσ).trunc hlu hF
  refine ⟨h.isDensity, fun y => ?_⟩
  have hd : Φ ((u - μ) / σ) - Φ ((l - μ) / σ) ≠ 0 := (sub_pos.2 hF).ne'
  unfold Logs.tnormal
  simp only [fin_sub, fin_div hσ.ne', normPdf_fin, normCdf_fin, fin_lt, fin_div hd,
    div_lt_div_iff_of_pos_right hσ, sub_lt_sub_iff_right]
  by_cases hy : y < l ∨ u < y
  · rw [if_pos hy, densTrunc, if_neg, negLog, if_pos rfl]
    rintro ⟨h2, h3⟩
    rcases hy with h1 | h1 <;> linarith
  · have hy' : l ≤ y ∧ y ≤ u := ⟨not_lt.1 fun hh => hy (Or.inl hh), not_lt.1 fun hh => hy (Or.inr hh)⟩
    rw [if_neg hy, ← log_fin_nonneg (h.nonneg y), densTrunc, if_pos hy']
    rfl

/-- Truncation to finite bounds: `logs_tlogistic`. -/
theorem C57_tlogistic (μ : ℝ) {σ l u : ℝ} (hσ : 0 < σ) (hlu : l < u) :
    IsDensity (densTrunc (densLogistic μ σ) (cdfLogistic μ σ) l u) (cdfTrunc (cdfLogistic μ σ) l u) ∧
    ∀ y, Logs.tlogistic (fin y) (fin μ) (fin σ) (fin l) (fin u)
      = negLog (densTrunc (densLogistic μ σ) (cdfLogistic μ σ) l u y) := by
  have hF : cdfLogistic μ σ l < cdfLogistic μ σ u :=
    logis_strictMono ((div_lt_div_iff_of_pos_right hσ).2 (by linarith))
  have h := (dist_logistic μ hσ).trunc hlu hF
  refine ⟨h.isDensity, fun y => ?_⟩
  have hd : logis ((u - μ) / σ) - logis ((l - μ) / σ) ≠ 0 := (sub_pos.2 hF).ne'
  unfold Logs.tlogistic
  simp only [fin_sub, fin_div hσ.ne', logisPdf_fin, logisCdf_fin, fin_lt, fin_div hd,
    div_lt_div_iff_of_pos_right hσ, sub_lt_sub_iff_right]
  by_cases hy : y < l ∨ u < y
  · rw [if_pos hy, densTrunc, if_neg, negLog, if_pos rfl]
    rintro ⟨h2, h3⟩
    rcases hy with h1 | h1 <;> linarith
  · have hy' : l ≤ y ∧ y ≤ u := ⟨not_lt.1 fun hh => hy (Or.inl hh), not_lt.1 fun hh => hy (Or.inr hh)⟩
    rw [if_neg hy, ← log_fin_nonneg (h.nonneg y), densTrunc, if_pos hy', densLogistic, div_div _ _ σ,
      mul_comm _ σ]
    rfl

example : Logs.tnormal (fin 3) (fin 0) (fin 1) (fin (-1)) (fin 2) = pinf := by
  rw [(C57_tnormal 0 one_pos (by norm_num)).2]
  norm_num [densTrunc, negLog]

/-- Lower bound only: `logs_tnormal` with the default `upper = inf`. -/
theorem C57_tnormal_lower (μ : ℝ) {σ : ℝ} (l : ℝ) (hσ : 0 < σ) :
    IsDensity (densTruncLo (densNormal μ σ) (cdfNormal μ σ) l) (cdfTruncLo (cdfNormal μ σ) l) ∧
    ∀ y, Logs.tnormal (fin y) (fin μ) (fin σ) (fin l) pinf
      = negLog (densTruncLo (densNormal μ σ) (cdfNormal μ σ) l y) := by
  have hF : cdfNormal μ σ l < 1 := Φ_lt_one _
  have h := (dist_normal μ hσ).truncLo hF
  refine ⟨h.isDensity, fun y => ?_⟩
  have hd : 1 - Φ ((l - μ) / σ) ≠ 0 := (sub_pos.2 hF).ne'
  have e : ((pinf : XF) - fin μ) / fin σ = pinf := by rw [pinf_sub_fin, pinf_div_pos hσ]
  unfold Logs.tnormal
  simp only [e, normCdf_pinf, fin_sub, fin_div hσ.ne', normPdf_fin, normCdf_fin, fin_lt, fin_div hd, pinf_lt_fin, or_false,
    div_lt_div_iff_of_pos_right hσ, sub_lt_sub_iff_right]
  by_cases hy : y < l
  · rw [if_pos hy, densTruncLo, if_neg (not_le.2 hy), negLog, if_pos rfl]
  · rw [if_neg hy, ← log_fin_nonneg (h.nonneg y), densTruncLo, if_pos (not_lt.1 hy)]
    rfl

/-- Upper bound only: `logs_tnormal` with the default `lower = -inf`. -/
theorem C57_tnormal_upper (μ : ℝ) {σ : ℝ} (u : ℝ) (hσ : 0 < σ) :
    IsDensity (densTruncUp (densNormal μ σ) (cdfNormal μ σ) u) (cdfTruncUp (cdfNormal μ σ) u) ∧
    ∀ y, Logs.tnormal (fin y) (fin μ) (fin σ) ninf (fin u)
      = negLog (densTruncUp (densNormal μ σ) (cdfNormal μ σ) u y) := by
  have hF : 0 < cdfNormal μ σ u := Φ_pos _
  have h := (dist_normal μ hσ).truncUp hF
  refine ⟨h.isDensity, fun y => ?_⟩
  have hd : Φ ((u - μ) / σ) ≠ 0 := hF.ne'
  have e : ((ninf : XF) - fin μ) / fin σ = ninf := by rw [ninf_sub_fin, ninf_div_pos hσ]
  unfold Logs.tnormal
  simp only [e, normCdf_ninf, fin_sub, fin_div hσ.ne', normPdf_fin, normCdf_fin, fin_lt, sub_zero, fin_div hd, fin_lt_ninf,
    false_or, div_lt_div_iff_of_pos_right hσ, sub_lt_sub_iff_right]
  by_cases hy : u < y
  · rw [if_pos hy, densTruncUp, if_neg (not_le.2 hy), negLog, if_pos rfl]
  · rw [if_neg hy, ← log_fin_nonneg (h.nonneg y), densTruncUp, if_pos (not_lt.1 hy)]
    rfl

example : Logs.tnormal (fin (-3)) (fin 0) (fin 1) (fin (-1)) pinf = pinf
    ∧ Logs.tnormal (fin 3) (fin 0) (fin 1) ninf (fin 2) = pinf := by
  rw [(C57_tnormal_lower 0 (-1) one_pos).2, (C57_tnormal_upper 0 2 one_pos).2]
  norm_num [densTruncLo, densTruncUp, negLog]

example : Logs.tlogistic (fin 3) (fin 0) (fin 1) (fin (-1)) (fin 2) = pinf := by
  rw [(C57_tlogistic 0 one_pos (by norm_num)).2]
  norm_num [densTrunc, negLog]

/-- Lower bound only: `logs_tlogistic` with the default `upper = inf`. -/
theorem C57_tlogistic_lower (μ : ℝ) {σ : ℝ} (l : ℝ) (hσ : 0 < σ) :
    IsDensity (densTruncLo (densLogistic μ σ) (cdfLogistic μ σ) l) (cdfTruncLo (cdfLogistic μ σ) l) ∧
    ∀ y, Logs.tlogistic (fin y) (fin μ) (fin σ) (fin l) pinf
      = negLog (densTruncLo (densLogistic μ σ) (cdfLogistic μ σ) l y) := by
  have hF : cdfLogistic μ σ l < 1 := logis_lt_one _
  have h := (dist_logistic μ hσ).truncLo hF
  refine ⟨h.isDensity, fun y => ?_⟩
  have hd : 1 - logis ((l - μ) / σ) ≠ 0 := (sub_pos.2 hF).ne'
  have e : ((pinf : XF) - fin μ) / fin σ = pinf := by rw [pinf_sub_fin, pinf_div_pos hσ]
  unfold Logs.tlogistic
  simp only [e, logisCdf_pinf, fin_sub, fin_div hσ.ne', logisPdf_fin, logisCdf_fin, fin_lt, fin_div hd, pinf_lt_fin, or_false,
    div_lt_div_iff_of_pos_right hσ, sub_lt_sub_iff_right]
  by_cases hy : y < l
  · rw [if_pos hy, densTruncLo, if_neg (not_le.2 hy), negLog, if_pos rfl]
  · rw [if_neg hy, ← log_fin_nonneg (h.nonneg y), densTruncLo, if_pos (not_lt.1 hy), densLogistic, div_div _ _ σ,
      mul_comm _ σ]
    rfl

/-- Upper bound only: `logs_tlogistic` with the default `lower = -inf`. -/
theorem C57_tlogistic_upper (μ : ℝ) {σ : ℝ} (u : ℝ) (hσ : 0 < σ) :
    IsDensity (densTruncUp (densLogistic μ σ) (cdfLogistic μ σ) u) (cdfTruncUp (cdfLogistic μ σ) u) ∧
    ∀ y, Logs.tlogistic (fin y) (fin μ) (fin σ) ninf (fin u)
      = negLog (densTruncUp (densLogistic μ σ) (cdfLogistic μ σ) u y) := by
  have hF : 0 < cdfLogistic μ σ u := logis_pos _
  have h := (dist_logistic μ hσ).truncUp hF
  refine ⟨h.isDensity, fun y => ?_⟩
  have hd : logis ((u - μ) / σ) ≠ 0 := hF.ne'
  have e : ((ninf : XF) - fin μ) / fin σ = ninf := by rw [ninf_sub_fin, ninf_div_pos hσ]
  unfold Logs.tlogistic
  simp only [e, logisCdf_ninf, fin_sub, fin_div hσ.ne', logisPdf_fin, logisCdf_fin, fin_lt, sub_zero, fin_div hd, fin_lt_ninf,
    false_or, div_lt_div_iff_of_pos_right hσ, sub_lt_sub_iff_right]
  by_cases hy : u < y
  · rw [if_pos hy, densTruncUp, if_neg (not_le.2 hy), negLog, if_pos rfl]
  · rw [if_neg hy, ← log_fin_nonneg (h.nonneg y), densTruncUp, if_pos (not_lt.1 hy), densLogistic, div_div _ _ σ,
      mul_comm _ σ]
    rfl

example : Logs.tlogistic (fin (-3)) (fin 0) (fin 1) (fin (-1)) pinf = pinf
    ∧ Logs.tlogistic (fin 3) (fin 0) (fin 1) ninf (fin 2) = pinf := by
  rw [(C57_tlogistic_lower 0 (-1) one_pos).2, (C57_tlogistic_upper 0 2 one_pos).2]
  norm_num [densTruncLo, densTruncUp, negLog]

end Verif
