import Verif.Lemmas.Density2
import Verif.Lemmas.ClosedScale
import Verif.Model.Logs

/-!
# Values of the density functions of `core/stats.py` at finite arguments; families as scaled standards
-/

noncomputable section

open scoped Classical

namespace Verif

open XF Stats Spec

theorem expPdf_fin (x r : ℝ) : expPdf (fin x) (fin r) = fin (densExp r x) := by
  unfold expPdf densExp
  simp only [XF.zero_def, fin_lt, fin_neg, fin_mul, fin_exp]
  split_ifs
  · rfl
  · simp [neg_mul]

theorem laplacePdf_fin (x : ℝ) : laplacePdf (fin x) = fin (Real.exp (-|x|) / 2) := by
  unfold laplacePdf
  simp only [fin_abs, fin_neg, fin_exp, XF.ofNat_def]
  rw [fin_div (by norm_num)]

theorem logisPdf_fin (x : ℝ) : logisPdf (fin x) = fin (Real.exp (-x) / (1 + Real.exp (-x)) ^ 2) := by
  unfold logisPdf
  simp only [fin_neg, fin_exp, XF.one_def, fin_add, fin_pow]
  rw [fin_div (by positivity)]

theorem pow_fin_zero_neg {b : ℝ} (hb : b < 0) : XF.pow (fin 0) (fin b) = pinf := by
  unfold XF.pow
  simp [XF.zero_def, XF.one_def, hb.ne, not_lt.2 hb.le]

theorem log_fin_pos {p : ℝ} (h : 0 < p) : -XF.log (fin p) = negLog p := by
  rw [fin_log h, negLog, if_neg h.ne', fin_neg]

theorem log_fin_nonneg {p : ℝ} (h : 0 ≤ p) : -XF.log (fin p) = negLog p := by
  rcases h.lt_or_eq with h | h
  · exact log_fin_pos h
  · rw [← h, negLog, if_pos rfl]
    simp [XF.log]
    rfl

theorem log_mul_pos {c p : ℝ} (h : 0 < c * p) : XF.log (fin (c * p)) = fin (Real.log (c * p)) := fin_log h

theorem Φ_strictMono : StrictMono Φ :=
  strictMono_of_deriv_pos fun x => by rw [(Φ_deriv x).deriv]; exact φ_pos x

theorem logis_pos (x : ℝ) : 0 < logis x := by
  unfold logis; have := Real.exp_pos (-x); positivity

theorem logis_lt_one (x : ℝ) : logis x < 1 := by
  unfold logis
  have := Real.exp_pos (-x)
  rw [div_lt_one (by positivity)]
  linarith

theorem logis_strictMono : StrictMono logis :=
  strictMono_of_deriv_pos fun x => by
    rw [(logis_deriv x).deriv]
    exact mul_pos (logis_pos x) (sub_pos.2 (logis_lt_one x))

theorem Φ_pos (x : ℝ) : 0 < Φ x := lt_of_le_of_lt (Φ_nonneg (x - 1)) (Φ_strictMono (by linarith))

theorem Φ_lt_one (x : ℝ) : Φ x < 1 := lt_of_lt_of_le (Φ_strictMono (by linarith)) (Φ_le_one (x + 1))

theorem pinf_sub_fin (a : ℝ) : (pinf : XF) - fin a = pinf := rfl
theorem ninf_sub_fin (a : ℝ) : (ninf : XF) - fin a = ninf := rfl

theorem pinf_div_pos {a : ℝ} (h : 0 < a) : (pinf : XF) / fin a = pinf := by
  show XF.div pinf (fin a) = pinf
  simp [XF.div, not_lt.2 h.le, h.ne', h]

theorem ninf_div_pos {a : ℝ} (h : 0 < a) : (ninf : XF) / fin a = ninf := by
  show XF.div ninf (fin a) = ninf
  simp [XF.div, not_lt.2 h.le, h.ne', h]

theorem pinf_lt_fin (a : ℝ) : ((pinf : XF) < fin a) ↔ False := ⟨fun h => h, False.elim⟩
theorem fin_lt_ninf (a : ℝ) : (fin a < (ninf : XF)) ↔ False := ⟨fun h => h, False.elim⟩

theorem normCdf_pinf : normCdf pinf = fin 1 := by
  unfold normCdf
  rw [sqrt2_fin, pinf_div_pos (Real.sqrt_pos.2 two_pos)]
  simp only [XF.erf, XF.one_def, XF.ofNat_def, fin_add]
  rw [fin_div (by norm_num)]; norm_num

theorem normCdf_ninf : normCdf ninf = fin 0 := by
  unfold normCdf
  rw [sqrt2_fin, ninf_div_pos (Real.sqrt_pos.2 two_pos)]
  simp only [XF.erf, XF.one_def, XF.ofNat_def, fin_add]
  rw [fin_div (by norm_num)]; norm_num

theorem logisCdf_pinf : logisCdf pinf = fin 1 := by
  have e : XF.exp (-pinf) = fin 0 := rfl
  unfold logisCdf
  rw [e]
  simp only [XF.one_def, fin_add]
  rw [fin_div (by norm_num)]; norm_num

theorem logisCdf_ninf : logisCdf ninf = fin 0 := by
  have e : XF.exp (-ninf) = pinf := rfl
  have e2 : (1 : XF) + pinf = pinf := rfl
  unfold logisCdf
  rw [e, e2]
  rfl

theorem dist_exp2 (μ : ℝ) {σ : ℝ} (hσ : 0 < σ) : DiffDist (densExp2 μ σ) (cdfExpM 0 μ σ) := by
  have h := diff_exp.scale μ hσ
  have c : ∀ x, (x - μ) / σ < 0 ↔ x < μ := fun x => by rw [div_lt_iff₀ hσ, zero_mul, sub_neg]
  have e1 : densExp2 μ σ = fun x => (if (x - μ) / σ < 0 then 0 else Real.exp (-((x - μ) / σ))) / σ := by
    funext x
    unfold densExp2
    simp only [c]
    split_ifs <;> simp
  have e2 : cdfExpM 0 μ σ = fun x => expM 0 ((x - μ) / σ) := by
    funext x
    unfold cdfExpM expM
    simp only [c]
  rw [e1, e2]
  exact h

theorem dist_exp {r : ℝ} (hr : 0 < r) : DiffDist (densExp r) (cdfExp r) := by
  have h := dist_exp2 0 (one_div_pos.2 hr)
  have e1 : densExp r = densExp2 0 (1 / r) := by
    funext x
    unfold densExp densExp2
    split_ifs
    · rfl
    · rw [sub_zero, div_div_eq_mul_div, div_one, div_div_eq_mul_div, div_one]; ring_nf
  have e2 : cdfExp r = cdfExpM 0 0 (1 / r) := by
    funext x
    unfold cdfExp cdfExpM
    split_ifs
    · rfl
    · rw [sub_zero, div_div_eq_mul_div, div_one]; ring_nf
  rw [e1, e2]
  exact h

theorem dist_2pexp {a b : ℝ} (μ : ℝ) (ha : 0 < a) (hb : 0 < b) :
    DiffDist (dens2pexp a b μ) (cdf2pexp a b μ) := by
  have h := (diff_exp2p ha hb).scale μ one_pos
  have e1 : dens2pexp a b μ = fun x => (if (x - μ) / 1 < 0 then Real.exp ((x - μ) / 1 / a) / (a + b)
      else Real.exp (-((x - μ) / 1 / b)) / (a + b)) / 1 := by
    funext x
    unfold dens2pexp
    simp only [div_one, sub_neg]
  have e2 : cdf2pexp a b μ = fun x => exp2p a b ((x - μ) / 1) := by
    funext x
    unfold cdf2pexp exp2p
    simp only [div_one, sub_neg]
  rw [e1, e2]
  exact h

theorem dist_laplace (μ : ℝ) {σ : ℝ} (hσ : 0 < σ) : DiffDist (densLaplace μ σ) (cdfLaplace μ σ) := by
  have h := dist_2pexp μ hσ hσ
  have e1 : densLaplace μ σ = dens2pexp σ σ μ := by
    funext x
    unfold densLaplace dens2pexp
    split_ifs with hx
    · rw [abs_of_neg (div_neg_of_neg_of_pos (by linarith) hσ), neg_neg, two_mul]
    · rw [abs_of_nonneg (div_nonneg (by linarith) hσ.le), two_mul]
  have e2 : cdfLaplace μ σ = cdf2pexp σ σ μ := by
    funext x
    unfold cdfLaplace cdf2pexp
    split_ifs with hx <;> field_simp <;> ring
  rw [e1, e2]
  exact h

theorem densLogistic_eq (μ : ℝ) {σ : ℝ} (hσ : 0 < σ) :
    densLogistic μ σ = fun x => logis ((x - μ) / σ) * (1 - logis ((x - μ) / σ)) / σ := by
  funext x
  unfold densLogistic logis
  have := Real.exp_pos (-((x - μ) / σ))
  field_simp
  ring

theorem dist_logistic (μ : ℝ) {σ : ℝ} (hσ : 0 < σ) : DiffDist (densLogistic μ σ) (cdfLogistic μ σ) := by
  rw [densLogistic_eq μ hσ]
  exact diff_logis.scale μ hσ

theorem dist_normal (μ : ℝ) {σ : ℝ} (hσ : 0 < σ) : DiffDist (densNormal μ σ) (cdfNormal μ σ) :=
  diff_Φ.scale μ hσ

theorem dist_2pnormal {a b : ℝ} (μ : ℝ) (ha : 0 < a) (hb : 0 < b) :
    DiffDist (dens2pnormal a b μ) (cdf2pnormal a b μ) := by
  have h := (diff_2pnormal ha hb).scale μ one_pos
  have e1 : dens2pnormal a b μ = fun x => dens2pnormal a b 0 ((x - μ) / 1) / 1 := by
    funext x
    unfold dens2pnormal
    simp only [div_one, sub_neg, sub_zero]
  have e2 : cdf2pnormal a b μ = fun x => cdf2pnormal a b 0 ((x - μ) / 1) := by
    funext x
    unfold cdf2pnormal
    simp only [div_one, sub_neg, sub_zero]
  rw [e1, e2]
  exact h

theorem dist_gpd (ξ μ : ℝ) {σ : ℝ} (hσ : 0 < σ) : DiffDist (densGpd ξ μ σ) (cdfGpd 0 ξ μ σ) := by
  by_cases hz : ξ = 0
  · have h := diff_exp.scale μ hσ
    have e1 : densGpd ξ μ σ = fun x => (if (x - μ) / σ < 0 then 0 else Real.exp (-((x - μ) / σ))) / σ := by
      funext x
      unfold densGpd
      simp only [hz, if_true]
      split_ifs <;> simp
    have e2 : cdfGpd 0 ξ μ σ = fun x => expM 0 ((x - μ) / σ) := by
      funext x
      simp [cdfGpd, cdfGpd0, expM, hz]
    rw [e1, e2]
    exact h
  · have h := (diff_gpd hz).scale μ hσ
    have e1 : densGpd ξ μ σ = fun x => (if (x - μ) / σ < 0 then 0
        else if ξ < 0 ∧ -1 / ξ < (x - μ) / σ then 0 else (1 + ξ * ((x - μ) / σ)) ^ (-(ξ + 1) / ξ)) / σ := by
      funext x
      unfold densGpd
      simp only [hz, if_false]
      split_ifs <;> simp
    have e : cdfGpd0 0 ξ = gpdF 0 ξ := by
      funext x
      simp only [cdfGpd0, gpdF, hz, if_false]
      split_ifs with h h'
      · rfl
      · have hB : gpdB ξ x = 0 := by
          have := mul_lt_mul_of_neg_left h'.2 h'.1
          rw [mul_div_cancel₀ _ hz] at this
          exact max_eq_right (by linarith)
        rw [hB, Real.zero_rpow (div_pos_of_neg_of_neg (by norm_num) h'.1).ne']; ring
      · have hB : gpdB ξ x = 1 + ξ * x := by
          refine max_eq_left ?_
          rcases lt_or_gt_of_ne hz with hn | hp
          · have := mul_le_mul_of_nonpos_left (not_lt.1 fun h2 => h' ⟨hn, h2⟩) hn.le
            rw [mul_div_cancel₀ _ hz] at this
            linarith
          · have := not_lt.1 h
            positivity
        rw [hB]; ring
    have e2 : cdfGpd 0 ξ μ σ = fun x => gpdF 0 ξ ((x - μ) / σ) := by
      funext x
      rw [cdfGpd, e]
    rw [e1, e2]
    exact h

end Verif
