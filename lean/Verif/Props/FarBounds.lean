import Verif.Lemmas.FarBounds
import Verif.Props.TGtc
import Verif.Props.CrpsShape

/-!
# Property C161: bounds that are far away do not matter

As the bounds of a truncated or censored forecast go to minus and plus infinity, its scores approach the scores of the
unbounded forecast.  Censoring at bounds around the observation never makes the CRPS worse.
-/

noncomputable section

open scoped Classical Topology
open Filter

namespace Verif

open XF Spec

/-- bounds in the right order, away from a given point -/
theorem far_order (m : ℝ) : ∀ᶠ p : ℝ × ℝ in atBot ×ˢ atTop, p.1 < p.2 ∧ p.1 ≠ m ∧ p.2 ≠ m := by
  have e3 : ∀ᶠ p : ℝ × ℝ in atBot ×ˢ atTop, p.1 < m := tendsto_fst.eventually (eventually_lt_atBot m)
  have e4 : ∀ᶠ p : ℝ × ℝ in atBot ×ˢ atTop, m < p.2 := tendsto_snd.eventually (eventually_gt_atTop m)
  filter_upwards [e3, e4] with p h3 h4
  exact ⟨h3.trans h4, h3.ne, h4.ne'⟩

/-- C161: `crps_tnormal` and `crps_cnormal` approach `crps_normal`. -/
theorem C161_normal {σ : ℝ} (hσ : 0 < σ) (μ y : ℝ) :
    FarBounds (fun l u => Closed.tnormal (fin y) (fin μ) (fin σ) (fin l) (fin u)) (Closed.normal (fin y) (fin μ) (fin σ)) ∧
    FarBounds (fun l u => Closed.cnormal (fin y) (fin μ) (fin σ) (fin l) (fin u)) (Closed.normal (fin y) (fin μ) (fin σ)) := by
  obtain ⟨h1, h2⟩ := C50_normal hσ μ y
  have hm := isDensity_mono (C57_normal μ hσ).1
  exact ⟨far_of_tendsto (s := fun l u => crps (cdfTrunc (cdfNormal μ σ) l u) y) h2 ((far_order μ).mono fun p hp => (C69_tnormal hσ μ y).1 _ _ hp.1) (trunc_tendsto hm h1),
    far_of_tendsto (s := fun l u => crps (cdfCens (cdfNormal μ σ) l u) y) h2 ((far_order μ).mono fun p hp => (C69_cnormal hσ μ y).1 _ _ hp.1) (cens_tendsto hm h1)⟩

/-- a positive scale -/
example : (0:ℝ) < 1 / 2 := by norm_num

/-- C161: `crps_tlogistic` and `crps_clogistic` approach `crps_logistic`.  (With infinite bounds on one side the code returns
`nan`, C53.) -/
theorem C161_logistic {σ : ℝ} (hσ : 0 < σ) (μ y : ℝ) :
    FarBounds (fun l u => Closed.tlogistic (fin y) (fin μ) (fin σ) (fin l) (fin u)) (Closed.logistic (fin y) (fin μ) (fin σ)) ∧
    FarBounds (fun l u => Closed.clogistic (fin y) (fin μ) (fin σ) (fin l) (fin u)) (Closed.logistic (fin y) (fin μ) (fin σ)) := by
  obtain ⟨h1, h2⟩ := C48_logistic hσ μ y
  have hm := isDensity_mono (C57_logistic μ hσ).1
  exact ⟨far_of_tendsto (s := fun l u => crps (cdfTrunc (cdfLogistic μ σ) l u) y) h2 ((far_order μ).mono fun p hp => (C70_tlogistic_clogistic hσ hp.1 μ y).1) (trunc_tendsto hm h1),
    far_of_tendsto (s := fun l u => crps (cdfCens (cdfLogistic μ σ) l u) y) h2 ((far_order μ).mono fun p hp => (C70_tlogistic_clogistic hσ hp.1 μ y).2) (cens_tendsto hm h1)⟩

/-- a positive scale -/
example : (0:ℝ) < 1 / 2 := by norm_num

/-- C161: `crps_tt` and `crps_ct` approach `crps_t`. -/
theorem C161_t {ν σ : ℝ} (hν : 1 < ν) (hσ : 0 < σ) (μ y : ℝ) :
    FarBounds (fun l u => Closed.tt (fin y) (fin ν) (fin μ) (fin σ) (fin l) (fin u))
      (Closed.t (fin y) (fin ν) (fin μ) (fin σ)) ∧
    FarBounds (fun l u => Closed.ct (fin y) (fin ν) (fin μ) (fin σ) (fin l) (fin u))
      (Closed.t (fin y) (fin ν) (fin μ) (fin σ)) := by
  obtain ⟨h1, h2⟩ := C78_t hν hσ μ y
  have hν0 : 0 < ν := by linarith
  have hm := isDensity_mono (C57_t hν0 hσ μ).1
  exact ⟨far_of_tendsto (s := fun l u => crps (cdfTrunc (cdfT ν μ σ) l u) y) h2 ((far_order μ).mono fun p hp => (C83_tt_partial hν hσ μ y).1 _ _ hp.1 hp.2.1 hp.2.2)
      (trunc_tendsto hm h1),
    far_of_tendsto (s := fun l u => crps (cdfCens (cdfT ν μ σ) l u) y) h2 ((far_order μ).mono fun p hp => (C83_ct_partial hν hσ μ y).1 _ _ hp.1 hp.2.1 hp.2.2)
      (cens_tendsto hm h1)⟩

/-- infinite variance -/
example : (1:ℝ) < 3 / 2 ∧ (0:ℝ) < 1 := by norm_num

/-- C161: so do the log scores of the truncated distributions, for the t distribution with any degrees of freedom. -/
theorem C161_logs {σ : ℝ} (hσ : 0 < σ) (μ y : ℝ) :
    FarBounds (fun l u => Logs.tnormal (fin y) (fin μ) (fin σ) (fin l) (fin u)) (Logs.normal (fin y) (fin μ) (fin σ) true) ∧
    FarBounds (fun l u => Logs.tlogistic (fin y) (fin μ) (fin σ) (fin l) (fin u)) (Logs.logistic (fin y) (fin μ) (fin σ)) ∧
    ∀ ν : ℝ, 0 < ν → FarBounds (fun l u => Logs.tt (fin y) (fin ν) (fin μ) (fin σ) (fin l) (fin u))
      (Logs.t (fin y) (fin ν) (fin μ) (fin σ)) := by
  have far : ∀ {S : ℝ → ℝ → XF} {T : ℝ → ℝ → XF} {v : XF}, (∀ l u, l < u → S l u = T l u) → FarBounds T v → FarBounds S v := by
    rintro S T v h ⟨c, hc, h2⟩
    refine ⟨c, hc, fun ε hε => ?_⟩
    obtain ⟨R, hR⟩ := h2 ε hε
    refine ⟨max R 1, fun l u hl hu => ?_⟩
    have h3 := le_max_left R 1
    have h4 := le_max_right R 1
    obtain ⟨s, hs⟩ := hR l u (by linarith) (by linarith)
    exact ⟨s, by rw [h l u (by linarith)]; exact hs.1, hs.2⟩
  refine ⟨?_, ?_, fun ν hν => ?_⟩
  · rw [((C57_normal μ hσ).2 y).1]
    exact far (fun l u h => (C57_tnormal μ hσ h).2 y)
      (log_trunc_tendsto (dist_normal μ hσ).bot (dist_normal μ hσ).top (div_pos (φ_pos _) hσ))
  · rw [(C57_logistic μ hσ).2 y]
    exact far (fun l u h => (C57_tlogistic μ hσ h).2 y)
      (log_trunc_tendsto (dist_logistic μ hσ).bot (dist_logistic μ hσ).top (by unfold densLogistic; positivity))
  · rw [(C57_t hν hσ μ).2 y]
    exact far (fun l u h => (C57_tt hν hσ h μ).2 y)
      (log_trunc_tendsto (dist_t hν hσ μ).bot (dist_t hν hσ μ).top (densT_pos hν hσ μ y))

/-- the Cauchy distribution -/
example : (0:ℝ) < 1 := one_pos

/-- Knowing bounds of the quantity helps: censoring the forecast at bounds around the observation never makes the CRPS
worse. -/
theorem C161_censored {σ l u y : ℝ} (hσ : 0 < σ) (μ : ℝ) (hlu : l < u) (hl : l ≤ y) (hu : y ≤ u) :
    Closed.cnormal (fin y) (fin μ) (fin σ) (fin l) (fin u) ≤ Closed.normal (fin y) (fin μ) (fin σ) ∧
    Closed.clogistic (fin y) (fin μ) (fin σ) (fin l) (fin u) ≤ Closed.logistic (fin y) (fin μ) (fin σ) ∧
    ∀ ν : ℝ, 1 < ν → l ≠ μ → u ≠ μ → Closed.ct (fin y) (fin ν) (fin μ) (fin σ) (fin l) (fin u)
      ≤ Closed.t (fin y) (fin ν) (fin μ) (fin σ) := by
  refine ⟨?_, ?_, fun ν hν hlm hum => ?_⟩
  · obtain ⟨h1, h2⟩ := C50_normal hσ μ y
    rw [h2, (C69_cnormal hσ μ y).1 _ _ hlu, fin_le]
    exact cens_crps_le h1 hl hu
  · obtain ⟨h1, h2⟩ := C48_logistic hσ μ y
    rw [h2, (C70_tlogistic_clogistic hσ hlu μ y).2, fin_le]
    exact cens_crps_le h1 hl hu
  · obtain ⟨h1, h2⟩ := C78_t hν hσ μ y
    rw [h2, (C83_ct_partial hν hσ μ y).1 _ _ hlu hlm hum, fin_le]
    exact cens_crps_le h1 hl hu

/-- a non-negative quantity that was zero -/
example : (0:ℝ) < 10 ∧ (0:ℝ) ≤ 0 ∧ (0:ℝ) ≤ 10 := by norm_num

end Verif
