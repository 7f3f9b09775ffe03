import Verif.Lemmas.GradT

/-!
# C119 and C132: gradients of the generalised Pareto and extreme value scores and of Student's t
-/

noncomputable section

open scoped Classical Topology

namespace Verif

open XF Py Mv Node Filter Spec

/-- C119: where the distribution function `F` is continuous, the score is differentiable in the observation, with
derivative `2 F - 1`. -/
theorem C119_derivative {A : Set ℝ} {score : XF → XF} {F : ℝ → ℝ} (h : CrpsShape A (fun y => score (fin y)) F)
    {θ : ℝ} (hA : A ∈ 𝓝 θ) (hc : ContinuousAt F θ) : IsGradient score θ (fin (2 * F θ - 1)) :=
  crpsShape_gradient h hA hc fun _ => rfl

/-- a normal forecast -/
example : CrpsShape Set.univ (fun y => Closed.normal (fin y) (fin 2) (fin 3)) (cdfNormal 2 3) ∧
    ContinuousAt (cdfNormal 2 3) 0 :=
  ⟨C119_normal (by norm_num) 2, (isDensity_continuous (C57_normal 2 (by norm_num)).1).continuousAt⟩

/-- `crps_gev` (jax; torch cannot compute it) is differentiable in the observation, the location and the scale, but all
three gradients are NaN, for every observation and every forecast: `B.nan * s` is part of the computation
(`core/stats.py:138`, `core/crps/_closed.py:246`). -/
theorem C132_gev_false {ξ σ : ℝ} (h1 : ξ < 1) (hσ : 0 < σ) (y μ : ℝ) :
    (HasGradient (fun t => Closed.gev t (fin ξ) (fin μ) (fin σ)) y ∧
      (Grad.gev (leaf (fin y)) (fin ξ) (const (fin μ)) (const (fin σ))).grad = nan) ∧
    (HasGradient (fun t => Closed.gev (fin y) (fin ξ) t (fin σ)) μ ∧
      (Grad.gev (const (fin y)) (fin ξ) (leaf (fin μ)) (const (fin σ))).grad = nan) ∧
    (HasGradient (fun t => Closed.gev (fin y) (fin ξ) (fin μ) t) σ ∧
      (Grad.gev (const (fin y)) (fin ξ) (const (fin μ)) (leaf (fin σ))).grad = nan) := by
  obtain ⟨k, hk, hS⟩ := gev_standard h1
  obtain ⟨a, b, c⟩ := locscale_gradient (S := fun y m s => Closed.gev y (fin ξ) m s) hσ hS
    (hk ((y - μ) / σ)).hasDerivAt
  exact ⟨⟨a, (gev_bad (std_back_obs _) _).grad⟩, ⟨b, (gev_bad (std_back_loc _) _).grad⟩,
    ⟨c, (gev_bad (std_back_scale _) _).grad⟩⟩

/-- a Gumbel forecast -/
example : (0:ℝ) < 1 ∧ (0:ℝ) < 2 := by norm_num

/-- The scores modelled a second time, with gradients, have the same values. -/
theorem C132_tail_values (y ξ μ σ M : Node) (ν : XF) :
    (Grad.gev y ν μ σ).val = Closed.gev y.val ν μ.val σ.val ∧
    (Grad.gpd y ξ μ σ M).val = Closed.gpd y.val ξ.val μ.val σ.val M.val ∧
    (Grad.t y ν μ σ).val = Closed.t y.val ν μ.val σ.val ∧
    (Grad.logsGpd y ξ μ σ).val = Logs.gpd y.val ξ.val μ.val σ.val ∧
    (Grad.logsGev y ξ μ σ).val = Logs.gev y.val ξ.val μ.val σ.val :=
  ⟨gev_val .., gpd_val .., gradT_val .., logsGpd_val .., logsGev_val ..⟩

/-- the gradient with respect to the observation -/
example : (leaf (fin 3)).val = fin 3 := rfl

/-! ### generalised Pareto -/

/-- `crps_gpd`: inside the support and for a shape other than 0 the gradients with respect to the observation, the
shape, the location and the scale are the derivatives, and that with respect to the point mass if it is between 0
and 1. -/
theorem C132_gpd_partial {y ξ μ σ M : ℝ} (hσ : 0 < σ) (hξ : ξ ≠ 0) (h1 : ξ < 1) (hM0 : 0 ≤ M) (hM1 : M ≤ 1)
    (hy : μ < y) (hs : 0 < 1 + ξ * ((y - μ) / σ)) :
    IsGradient (fun t => Closed.gpd t (fin ξ) (fin μ) (fin σ) (fin M)) y
      (Grad.gpd (leaf (fin y)) (const (fin ξ)) (const (fin μ)) (const (fin σ)) (const (fin M))).grad ∧
    IsGradient (fun t => Closed.gpd (fin y) t (fin μ) (fin σ) (fin M)) ξ
      (Grad.gpd (const (fin y)) (leaf (fin ξ)) (const (fin μ)) (const (fin σ)) (const (fin M))).grad ∧
    IsGradient (fun t => Closed.gpd (fin y) (fin ξ) t (fin σ) (fin M)) μ
      (Grad.gpd (const (fin y)) (const (fin ξ)) (leaf (fin μ)) (const (fin σ)) (const (fin M))).grad ∧
    IsGradient (fun t => Closed.gpd (fin y) (fin ξ) (fin μ) t (fin M)) σ
      (Grad.gpd (const (fin y)) (const (fin ξ)) (const (fin μ)) (leaf (fin σ)) (const (fin M))).grad ∧
    (0 < M → M < 1 → IsGradient (fun t => Closed.gpd (fin y) (fin ξ) (fin μ) (fin σ) t) M
      (Grad.gpd (const (fin y)) (const (fin ξ)) (const (fin μ)) (const (fin σ)) (leaf (fin M))).grad) := by
  have hw : 0 < (y - μ) / σ := div_pos (sub_pos.2 hy) hσ
  have main : ∀ {θ : ℝ} {ny nξ nm ns nM : ℝ → Node} {fy fξ fm fs fM : ℝ → ℝ}, Tr ny fy θ → Tr nξ fξ θ → Tr nm fm θ →
      Tr ns fs θ → Tr nM fM θ → fy θ = y → fξ θ = ξ → fm θ = μ → fs θ = σ →
      (∀ᶠ t in 𝓝 θ, 0 ≤ fM t ∧ fM t ≤ 1) →
      ∃ f, Tr (fun t => Grad.gpd (ny t) (nξ t) (nm t) (ns t) (nM t)) f θ := by
    intro θ ny nξ nm ns nM fy fξ fm fs fM ty tξ tm ts tM ey eξ em es eM
    have e1 : ∀ᶠ t in 𝓝 θ, (nξ t).val < 1 := by
      filter_upwards [tξ.1, tξ.cont.eventually_lt_const (eξ ▸ h1)] with t ht h
      rw [ht, one_def, fin_lt]; exact h
    have tw := (ty.sub tm).div ts (es ▸ hσ.ne')
    have hF := tw.gpdCdf (tξ.sel_pos e1 (M := fun _ => const nan) rfl) (by rw [ey, em, es]; exact hw)
      (by rw [eξ]; exact hξ) (by rw [eξ, ey, em, es]; exact hs)
    refine Tr.gpd ty tm ts tξ tM (es ▸ hσ) (by rw [ey, em]; exact hy.ne') (eξ ▸ h1) eM hF ?_
    have : 0 < (1 + fξ θ * ((fy θ - fm θ) / fs θ)) ^ (-1 / fξ θ) :=
      Real.rpow_pos_of_pos (by rw [eξ, ey, em, es]; exact hs) _
    linarith
  have hMc : ∀ θ : ℝ, ∀ᶠ _ in 𝓝 θ, 0 ≤ M ∧ M ≤ 1 := fun θ => Eventually.of_forall fun _ => ⟨hM0, hM1⟩
  refine ⟨?_, ?_, ?_, ?_, fun m0 m1 => ?_⟩
  · obtain ⟨f, hf⟩ := main Tr.leaf (Tr.const ξ) (Tr.const μ) (Tr.const σ) (Tr.const M) rfl rfl rfl rfl (hMc y)
    exact hf.isGradient fun t => gpd_val ..
  · obtain ⟨f, hf⟩ := main (Tr.const y) Tr.leaf (Tr.const μ) (Tr.const σ) (Tr.const M) rfl rfl rfl rfl (hMc ξ)
    exact hf.isGradient fun t => gpd_val ..
  · obtain ⟨f, hf⟩ := main (Tr.const y) (Tr.const ξ) Tr.leaf (Tr.const σ) (Tr.const M) rfl rfl rfl rfl (hMc μ)
    exact hf.isGradient fun t => gpd_val ..
  · obtain ⟨f, hf⟩ := main (Tr.const y) (Tr.const ξ) (Tr.const μ) Tr.leaf (Tr.const M) rfl rfl rfl rfl (hMc σ)
    exact hf.isGradient fun t => gpd_val ..
  · obtain ⟨f, hf⟩ := main (θ := M) (Tr.const y) (Tr.const ξ) (Tr.const μ) (Tr.const σ) Tr.leaf rfl rfl rfl rfl (by
      filter_upwards [lt_mem_nhds m0, gt_mem_nhds m1] with t a b
      exact ⟨a.le, b.le⟩)
    exact hf.isGradient fun t => gpd_val ..

/-- a bounded tail and a point mass -/
example : (0:ℝ) < 2 ∧ (-1 / 2 : ℝ) ≠ 0 ∧ (-1 / 2 : ℝ) < 1 ∧ (0:ℝ) ≤ 1 / 5 ∧ (1 / 5 : ℝ) ≤ 1 ∧ (0:ℝ) < 1 ∧
    (0:ℝ) < 1 + -1 / 2 * ((1 - 0) / 2) := by norm_num

/-- ... and below the support for every shape, with respect to the observation, the location and the scale. -/
theorem C132_gpd_below_partial {y ξ μ σ M : ℝ} (hσ : 0 < σ) (h1 : ξ < 1) (hM0 : 0 ≤ M) (hM1 : M ≤ 1) (hy : y < μ) :
    IsGradient (fun t => Closed.gpd t (fin ξ) (fin μ) (fin σ) (fin M)) y
      (Grad.gpd (leaf (fin y)) (const (fin ξ)) (const (fin μ)) (const (fin σ)) (const (fin M))).grad ∧
    IsGradient (fun t => Closed.gpd (fin y) (fin ξ) t (fin σ) (fin M)) μ
      (Grad.gpd (const (fin y)) (const (fin ξ)) (leaf (fin μ)) (const (fin σ)) (const (fin M))).grad ∧
    IsGradient (fun t => Closed.gpd (fin y) (fin ξ) (fin μ) t (fin M)) σ
      (Grad.gpd (const (fin y)) (const (fin ξ)) (const (fin μ)) (leaf (fin σ)) (const (fin M))).grad := by
  have hw : (y - μ) / σ < 0 := div_neg_of_neg_of_pos (sub_neg.2 hy) hσ
  have main : ∀ {θ : ℝ} {ny nm ns : ℝ → Node} {fy fm fs : ℝ → ℝ}, Tr ny fy θ → Tr nm fm θ →
      Tr ns fs θ → fy θ = y → fm θ = μ → fs θ = σ →
      ∃ f, Tr (fun t => Grad.gpd (ny t) (const (fin ξ)) (nm t) (ns t) (const (fin M))) f θ := by
    intro θ ny nm ns fy fm fs ty tm ts ey em es
    have tw := (ty.sub tm).div ts (es ▸ hσ.ne')
    have hF := tw.gpdCdf_below (by rw [ey, em, es]; exact hw) (S := sel ((const (fin ξ)).val < 1) (const (fin ξ))
      (const nan)) (NoGrad.sel _ (NoGrad.const _) (NoGrad.const _)) (ξ := ξ) (by
        rw [sel_val, if_pos (by rw [const_val, one_def, fin_lt]; exact h1)]; rfl)
    exact Tr.gpd ty tm ts (Tr.const ξ) (Tr.const M) (es ▸ hσ) (by rw [ey, em]; exact hy.ne) h1
      (Eventually.of_forall fun _ => ⟨hM0, hM1⟩) hF one_pos
  refine ⟨?_, ?_, ?_⟩
  · obtain ⟨f, hf⟩ := main Tr.leaf (Tr.const μ) (Tr.const σ) rfl rfl rfl
    exact hf.isGradient fun t => gpd_val ..
  · obtain ⟨f, hf⟩ := main (Tr.const y) Tr.leaf (Tr.const σ) rfl rfl rfl
    exact hf.isGradient fun t => gpd_val ..
  · obtain ⟨f, hf⟩ := main (Tr.const y) (Tr.const μ) Tr.leaf rfl rfl rfl
    exact hf.isGradient fun t => gpd_val ..

/-- an exponential tail -/
example : (0:ℝ) < 2 ∧ (0:ℝ) < 1 ∧ (0:ℝ) ≤ 0 ∧ (0:ℝ) ≤ 1 ∧ (-1:ℝ) < 0 := by norm_num

/-- The score is differentiable in the observation, the location and the scale, but the gradients are NaN for shape 0 and
an observation above the location, and for a negative shape and an observation above the upper end of the support:
`shape` has been replaced by NaN in the formula that `B.where` does not select (`core/stats.py:173,182,187`). -/
theorem C132_gpd_false {y ξ μ σ M : ℝ} (hσ : 0 < σ) (hM0 : 0 ≤ M) (hM1 : M ≤ 1)
    (h : (ξ = 0 ∧ 0 < (y - μ) / σ) ∨ (ξ < 0 ∧ -1 / ξ < (y - μ) / σ)) :
    (HasGradient (fun t => Closed.gpd t (fin ξ) (fin μ) (fin σ) (fin M)) y ∧
      (Grad.gpd (leaf (fin y)) (const (fin ξ)) (const (fin μ)) (const (fin σ)) (const (fin M))).grad = nan) ∧
    (HasGradient (fun t => Closed.gpd (fin y) (fin ξ) t (fin σ) (fin M)) μ ∧
      (Grad.gpd (const (fin y)) (const (fin ξ)) (leaf (fin μ)) (const (fin σ)) (const (fin M))).grad = nan) ∧
    (HasGradient (fun t => Closed.gpd (fin y) (fin ξ) (fin μ) t (fin M)) σ ∧
      (Grad.gpd (const (fin y)) (const (fin ξ)) (const (fin μ)) (leaf (fin σ)) (const (fin M))).grad = nan) := by
  have h1 : ξ < 1 := by rcases h with ⟨h, _⟩ | ⟨h, _⟩ <;> linarith
  have h0 : 0 ≤ (y - μ) / σ := by
    rcases h with ⟨_, h⟩ | ⟨h, h'⟩
    · exact h.le
    · exact ((div_pos_of_neg_of_neg (by norm_num) h).trans h').le
  have h2 : ξ = 0 ∨ (ξ < 0 ∧ -1 / ξ < (y - μ) / σ) := h.imp And.left id
  obtain ⟨k, hk, hS⟩ := gpd_standard h1 hM0 hM1
  obtain ⟨a, b, c⟩ := locscale_gradient (S := fun y m s => Closed.gpd y (fin ξ) m s (fin M)) hσ hS
    (hk ((y - μ) / σ) (cdfGpd_continuousAt h)).hasDerivAt
  exact ⟨⟨a, (gpd_bad (std_fin hσ) (std_back_obs _) rfl h1 h0 h2).grad⟩,
    ⟨b, (gpd_bad (std_fin hσ) (std_back_loc _) rfl h1 h0 h2).grad⟩,
    ⟨c, (gpd_bad (std_fin hσ) (std_back_scale _) rfl h1 h0 h2).grad⟩⟩

/-- the default shape, and a bounded tail -/
example : ((0:ℝ) = 0 ∧ (0:ℝ) < (3 - 1) / 2) ∧ ((-1:ℝ) < 0 ∧ (-1:ℝ) / -1 < (5 - 1) / 2) := by norm_num

/-- The score is differentiable in the shape.  For a shape other than 0 and an observation below the location the gradient
is NaN. -/
theorem C132_gpd_shape_below_false {y ξ μ σ M : ℝ} (hσ : 0 < σ) (h1 : ξ < 1) (hξ : ξ ≠ 0) (hM0 : 0 ≤ M) (hM1 : M ≤ 1)
    (hy : y < μ) :
    HasGradient (fun t => Closed.gpd (fin y) t (fin μ) (fin σ) (fin M)) ξ ∧
    (Grad.gpd (const (fin y)) (leaf (fin ξ)) (const (fin μ)) (const (fin σ)) (const (fin M))).grad = nan := by
  have hx : (y - μ) / σ < 0 := div_neg_of_neg_of_pos (sub_neg.2 hy) hσ
  refine ⟨hasGradient_of (f := fun t => σ * (|(y - μ) / σ| + (1 - M) ^ 2 / (2 - t))) ?_ ?_,
    (gpd_shape_bad (std_fin hσ) h1 hx hξ).grad⟩
  · filter_upwards [gt_mem_nhds h1] with t ht
    rw [crps_gpd_formula hσ ht hM0 hM1, gpdV_below hx, sub_self, mul_zero, zero_div, sub_zero]
  · have hd : DifferentiableAt ℝ (fun t : ℝ => 2 - t) ξ := by fun_prop
    have : (2:ℝ) - ξ ≠ 0 := by linarith
    fun_prop (disch := assumption)

/-- a heavy tail -/
example : (0:ℝ) < 2 ∧ (1 / 2 : ℝ) < 1 ∧ (1 / 2 : ℝ) ≠ 0 ∧ (0:ℝ) ≤ 0 ∧ (0:ℝ) ≤ 1 ∧ (0:ℝ) < 1 := by norm_num

/-- For shape 0 and an observation above the location it is finite and wrong, by `σ (1 - M) x² exp(-x)` for
`x = (y - μ) / σ`: the formula selected for shape 0 does not depend on the shape (`core/stats.py:186`). -/
theorem C132_gpd_shape_zero_false {y μ σ M : ℝ} (hσ : 0 < σ) (hM0 : 0 ≤ M) (hM1 : M < 1) (hy : μ < y) :
    ∃ d x : ℝ, x = (y - μ) / σ ∧ IsGradient (fun t => Closed.gpd (fin y) t (fin μ) (fin σ) (fin M)) 0 (fin d) ∧
    (Grad.gpd (const (fin y)) (leaf (fin 0)) (const (fin μ)) (const (fin σ)) (const (fin M))).grad =
      fin (d - σ * (1 - M) * x ^ 2 * Real.exp (-x)) ∧ 0 < σ * (1 - M) * x ^ 2 * Real.exp (-x) := by
  have hx : 0 < (y - μ) / σ := div_pos (sub_pos.2 hy) hσ
  refine ⟨_, _, rfl, crps_gpd_shape_deriv hσ hM0 hM1.le hx rfl, ?_, ?_⟩
  · rw [crps_gpd_shape_grad hσ hM0 hM1.le hx rfl]
    congr 1; ring
  · have := sub_pos.2 hM1
    have := Real.exp_pos (-((y - μ) / σ))
    positivity

/-- the default shape -/
example : (0:ℝ) < 2 ∧ (0:ℝ) ≤ 0 ∧ (0:ℝ) < 1 ∧ (1:ℝ) < 3 := by norm_num

/-- `logs_gpd`: inside the support and for a shape other than 0 the gradients are the derivatives. -/
theorem C132_logs_gpd_partial {y ξ μ σ : ℝ} (hσ : 0 < σ) (hξ : ξ ≠ 0) (hy : μ < y)
    (hs : 0 < 1 + ξ * ((y - μ) / σ)) :
    IsGradient (fun t => Logs.gpd t (fin ξ) (fin μ) (fin σ)) y
      (Grad.logsGpd (leaf (fin y)) (const (fin ξ)) (const (fin μ)) (const (fin σ))).grad ∧
    IsGradient (fun t => Logs.gpd (fin y) t (fin μ) (fin σ)) ξ
      (Grad.logsGpd (const (fin y)) (leaf (fin ξ)) (const (fin μ)) (const (fin σ))).grad ∧
    IsGradient (fun t => Logs.gpd (fin y) (fin ξ) t (fin σ)) μ
      (Grad.logsGpd (const (fin y)) (const (fin ξ)) (leaf (fin μ)) (const (fin σ))).grad ∧
    IsGradient (fun t => Logs.gpd (fin y) (fin ξ) (fin μ) t) σ
      (Grad.logsGpd (const (fin y)) (const (fin ξ)) (const (fin μ)) (leaf (fin σ))).grad := by
  have hw : 0 < (y - μ) / σ := div_pos (sub_pos.2 hy) hσ
  have main : ∀ {θ : ℝ} {ny nξ nm ns : ℝ → Node} {fy fξ fm fs : ℝ → ℝ}, Tr ny fy θ → Tr nξ fξ θ → Tr nm fm θ →
      Tr ns fs θ → fy θ = y → fξ θ = ξ → fm θ = μ → fs θ = σ →
      ∃ f, Tr (fun t => Grad.logsGpd (ny t) (nξ t) (nm t) (ns t)) f θ := by
    intro θ ny nξ nm ns fy fξ fm fs ty tξ tm ts ey eξ em es
    have tw := (ty.sub tm).div ts (es ▸ hσ.ne')
    exact (tw.gpdPdf tξ (by rw [ey, em, es]; exact hw) (eξ ▸ hξ) (by rw [eξ, ey, em, es]; exact hs)).logsTail ts
      (Real.rpow_pos_of_pos (by rw [eξ, ey, em, es]; exact hs) _) (es ▸ hσ)
  refine ⟨?_, ?_, ?_, ?_⟩
  · obtain ⟨f, hf⟩ := main Tr.leaf (Tr.const ξ) (Tr.const μ) (Tr.const σ) rfl rfl rfl rfl
    exact hf.isGradient fun t => logsGpd_val ..
  · obtain ⟨f, hf⟩ := main (Tr.const y) Tr.leaf (Tr.const μ) (Tr.const σ) rfl rfl rfl rfl
    exact hf.isGradient fun t => logsGpd_val ..
  · obtain ⟨f, hf⟩ := main (Tr.const y) (Tr.const ξ) Tr.leaf (Tr.const σ) rfl rfl rfl rfl
    exact hf.isGradient fun t => logsGpd_val ..
  · obtain ⟨f, hf⟩ := main (Tr.const y) (Tr.const ξ) (Tr.const μ) Tr.leaf rfl rfl rfl rfl
    exact hf.isGradient fun t => logsGpd_val ..

/-- a heavy tail -/
example : (0:ℝ) < 2 ∧ (3:ℝ) ≠ 0 ∧ (1:ℝ) < 2 ∧ (0:ℝ) < 1 + 3 * ((2 - 1) / 2) := by norm_num

/-- For shape 0 the score is differentiable, but the gradients with respect to the observation, the location and the scale
are NaN, and that with respect to the shape is 0 where the derivative is `x - x² / 2`. -/
theorem C132_logs_gpd_false {y μ σ : ℝ} (hσ : 0 < σ) (hy : μ < y) :
    (HasGradient (fun t => Logs.gpd t (fin 0) (fin μ) (fin σ)) y ∧
      (Grad.logsGpd (leaf (fin y)) (const (fin 0)) (const (fin μ)) (const (fin σ))).grad = nan) ∧
    (HasGradient (fun t => Logs.gpd (fin y) (fin 0) t (fin σ)) μ ∧
      (Grad.logsGpd (const (fin y)) (const (fin 0)) (leaf (fin μ)) (const (fin σ))).grad = nan) ∧
    (HasGradient (fun t => Logs.gpd (fin y) (fin 0) (fin μ) t) σ ∧
      (Grad.logsGpd (const (fin y)) (const (fin 0)) (const (fin μ)) (leaf (fin σ))).grad = nan) ∧
    (IsGradient (fun t => Logs.gpd (fin y) t (fin μ) (fin σ)) 0 (fin ((y - μ) / σ - ((y - μ) / σ) ^ 2 / 2)) ∧
      (Grad.logsGpd (const (fin y)) (leaf (fin 0)) (const (fin μ)) (const (fin σ))).grad = fin 0) := by
  have hx : 0 < (y - μ) / σ := div_pos (sub_pos.2 hy) hσ
  obtain ⟨a, b, c⟩ := logs_locscale (S := fun y m s => Logs.gpd y (fin 0) m s) (k := fun x => x) hσ (fun x => 0 < x)
    (lt_mem_nhds hx) (fun y m s hs hu => by
      show Logs.gpd _ _ _ _ = _
      rw [logs_gpd_near hs rfl hu (by simp), lrat_zero]
      congr 1; ring) (hasDerivAt_id _)
  refine ⟨⟨a, (logsGpd_bad (std_fin hσ) (std_back_obs _) rfl hx.le).grad⟩,
    ⟨b, (logsGpd_bad (std_fin hσ) (std_back_loc _) rfl hx.le).grad⟩,
    ⟨c, (logsGpd_bad (std_fin hσ) (std_back_scale _) rfl hx.le).grad⟩, ?_,
    logsGpd_dead (NoGrad.const _) (NoGrad.const _) (NoGrad.const _) rfl rfl _⟩
  set x := (y - μ) / σ with ex
  refine ⟨fun ξ => (ξ + 1) * lrat x ξ + Real.log σ, _, ?_, ?_, rfl⟩
  · filter_upwards [near_zero x] with ξ h
    exact logs_gpd_near hσ ex.symm hx h
  · refine ((((hasDerivAt_id (0:ℝ)).add_const 1).mul (lrat_deriv x)).add_const (Real.log σ)).congr_deriv ?_
    simp only [id, lrat_zero]
    ring

/-- the derivative with respect to the shape is `-3 / 2` -/
example : (0:ℝ) < 1 ∧ (0:ℝ) < 3 ∧ ((3:ℝ) - 0) / 1 - ((3 - 0) / 1) ^ 2 / 2 = -3 / 2 := by norm_num

/-- `logs_gev`: inside the support and for a shape other than 0 the gradients are the derivatives. -/
theorem C132_logs_gev_partial {y ξ μ σ : ℝ} (hσ : 0 < σ) (hξ : ξ ≠ 0) (hs : 0 < 1 + ξ * ((y - μ) / σ)) :
    IsGradient (fun t => Logs.gev t (fin ξ) (fin μ) (fin σ)) y
      (Grad.logsGev (leaf (fin y)) (const (fin ξ)) (const (fin μ)) (const (fin σ))).grad ∧
    IsGradient (fun t => Logs.gev (fin y) t (fin μ) (fin σ)) ξ
      (Grad.logsGev (const (fin y)) (leaf (fin ξ)) (const (fin μ)) (const (fin σ))).grad ∧
    IsGradient (fun t => Logs.gev (fin y) (fin ξ) t (fin σ)) μ
      (Grad.logsGev (const (fin y)) (const (fin ξ)) (leaf (fin μ)) (const (fin σ))).grad ∧
    IsGradient (fun t => Logs.gev (fin y) (fin ξ) (fin μ) t) σ
      (Grad.logsGev (const (fin y)) (const (fin ξ)) (const (fin μ)) (leaf (fin σ))).grad := by
  rw [mul_comm] at hs
  have main : ∀ {θ : ℝ} {ny nξ nm ns : ℝ → Node} {fy fξ fm fs : ℝ → ℝ}, Tr ny fy θ → Tr nξ fξ θ → Tr nm fm θ →
      Tr ns fs θ → fy θ = y → fξ θ = ξ → fm θ = μ → fs θ = σ →
      ∃ f, Tr (fun t => Grad.logsGev (ny t) (nξ t) (nm t) (ns t)) f θ := by
    intro θ ny nξ nm ns fy fξ fm fs ty tξ tm ts ey eξ em es
    have tw := (ty.sub tm).div ts (es ▸ hσ.ne')
    exact (tw.gevPdf tξ (eξ ▸ hξ) (by rw [eξ, ey, em, es]; exact hs)).logsTail ts
      (mul_pos (Real.rpow_pos_of_pos (by rw [eξ, ey, em, es]; exact hs) _) (Real.exp_pos _)) (es ▸ hσ)
  refine ⟨?_, ?_, ?_, ?_⟩
  · obtain ⟨f, hf⟩ := main Tr.leaf (Tr.const ξ) (Tr.const μ) (Tr.const σ) rfl rfl rfl rfl
    exact hf.isGradient fun t => logsGev_val ..
  · obtain ⟨f, hf⟩ := main (Tr.const y) Tr.leaf (Tr.const μ) (Tr.const σ) rfl rfl rfl rfl
    exact hf.isGradient fun t => logsGev_val ..
  · obtain ⟨f, hf⟩ := main (Tr.const y) (Tr.const ξ) Tr.leaf (Tr.const σ) rfl rfl rfl rfl
    exact hf.isGradient fun t => logsGev_val ..
  · obtain ⟨f, hf⟩ := main (Tr.const y) (Tr.const ξ) (Tr.const μ) Tr.leaf rfl rfl rfl rfl
    exact hf.isGradient fun t => logsGev_val ..

/-- an observation below the location -/
example : (0:ℝ) < 2 ∧ (1 / 2 : ℝ) ≠ 0 ∧ (0:ℝ) < 1 + 1 / 2 * ((0 - 1) / 2) := by norm_num

/-- For shape 0 (a Gumbel distribution) the score is differentiable, but the gradients with respect to the observation, the
location and the scale are NaN, and that with respect to the shape is 0 where the derivative is
`x - x² / 2 + exp(-x) x² / 2`. -/
theorem C132_logs_gev_false {y μ σ : ℝ} (hσ : 0 < σ) :
    (HasGradient (fun t => Logs.gev t (fin 0) (fin μ) (fin σ)) y ∧
      (Grad.logsGev (leaf (fin y)) (const (fin 0)) (const (fin μ)) (const (fin σ))).grad = nan) ∧
    (HasGradient (fun t => Logs.gev (fin y) (fin 0) t (fin σ)) μ ∧
      (Grad.logsGev (const (fin y)) (const (fin 0)) (leaf (fin μ)) (const (fin σ))).grad = nan) ∧
    (HasGradient (fun t => Logs.gev (fin y) (fin 0) (fin μ) t) σ ∧
      (Grad.logsGev (const (fin y)) (const (fin 0)) (const (fin μ)) (leaf (fin σ))).grad = nan) ∧
    (IsGradient (fun t => Logs.gev (fin y) t (fin μ) (fin σ)) 0
        (fin ((y - μ) / σ - ((y - μ) / σ) ^ 2 / 2 + Real.exp (-((y - μ) / σ)) * (((y - μ) / σ) ^ 2 / 2))) ∧
      (Grad.logsGev (const (fin y)) (leaf (fin 0)) (const (fin μ)) (const (fin σ))).grad = fin 0) := by
  obtain ⟨a, b, c⟩ := logs_locscale (S := fun y m s => Logs.gev y (fin 0) m s) (k := fun x => x + Real.exp (-x)) hσ
    (y := y) (m := μ) (fun _ => True)
    (Eventually.of_forall fun _ => trivial) (fun y m s hs _ => by
      show Logs.gev _ _ _ _ = _
      rw [logs_gev_near hs rfl (by simp), lrat_zero]
      congr 1; ring) ((hasDerivAt_id _).add (hasDerivAt_neg _).exp)
  refine ⟨⟨a, (logsGev_bad (std_back_obs _) rfl).grad⟩,
    ⟨b, (logsGev_bad (std_back_loc _) rfl).grad⟩,
    ⟨c, (logsGev_bad (std_back_scale _) rfl).grad⟩, ?_,
    logsGev_dead (NoGrad.const _) (NoGrad.const _) (NoGrad.const _) rfl rfl _⟩
  set x := (y - μ) / σ with ex
  refine ⟨fun ξ => (ξ + 1) * lrat x ξ + Real.exp (-lrat x ξ) + Real.log σ, _, ?_, ?_, rfl⟩
  · filter_upwards [near_zero x] with ξ h
    exact logs_gev_near hσ ex.symm h
  · refine (((((hasDerivAt_id (0:ℝ)).add_const 1).mul (lrat_deriv x)).add (lrat_deriv x).neg.exp).add_const
      (Real.log σ)).congr_deriv ?_
    simp only [id, lrat_zero, Pi.neg_apply]
    ring

/-- a standard Gumbel forecast -/
example : (0:ℝ) < 1 := by norm_num

/-! ### Student's t -/

/-- `crps_t` (jax; torch cannot compute it): for an observation other than the location the gradients with respect to the
observation, the location and the scale are the derivatives. -/
theorem C132_t_partial {y ν μ σ : ℝ} (hν : 1 < ν) (hσ : 0 < σ) (hy : y ≠ μ) :
    IsGradient (fun t => Closed.t t (fin ν) (fin μ) (fin σ)) y
      (Grad.t (leaf (fin y)) (fin ν) (const (fin μ)) (const (fin σ))).grad ∧
    IsGradient (fun t => Closed.t (fin y) (fin ν) t (fin σ)) μ
      (Grad.t (const (fin y)) (fin ν) (leaf (fin μ)) (const (fin σ))).grad ∧
    IsGradient (fun t => Closed.t (fin y) (fin ν) (fin μ) t) σ
      (Grad.t (const (fin y)) (fin ν) (const (fin μ)) (leaf (fin σ))).grad := by
  refine ⟨?_, ?_, ?_⟩
  · obtain ⟨f, hf⟩ := Tr.leaf.t (Tr.const μ) (Tr.const σ) hν hσ hy
    exact hf.isGradient fun t => gradT_val ..
  · obtain ⟨f, hf⟩ := (Tr.const y).t Tr.leaf (Tr.const σ) hν hσ hy
    exact hf.isGradient fun t => gradT_val ..
  · obtain ⟨f, hf⟩ := (Tr.const y).t (Tr.const μ) Tr.leaf hν hσ hy
    exact hf.isGradient fun t => gradT_val ..

/-- infinite variance -/
example : (1:ℝ) < 3 / 2 ∧ (0:ℝ) < 2 ∧ (1:ℝ) ≠ 3 := by norm_num

/-- For an observation equal to the location the score is differentiable too, but the gradients are NaN: the derivative of
`B.betainc` at 1 is infinite (`core/stats.py:106-108`). -/
theorem C132_t_false {ν σ : ℝ} (hν : 1 < ν) (hσ : 0 < σ) (μ : ℝ) :
    (HasGradient (fun t => Closed.t t (fin ν) (fin μ) (fin σ)) μ ∧
      (Grad.t (leaf (fin μ)) (fin ν) (const (fin μ)) (const (fin σ))).grad = nan) ∧
    (HasGradient (fun t => Closed.t (fin μ) (fin ν) t (fin σ)) μ ∧
      (Grad.t (const (fin μ)) (fin ν) (leaf (fin μ)) (const (fin σ))).grad = nan) ∧
    (HasGradient (fun t => Closed.t (fin μ) (fin ν) (fin μ) t) σ ∧
      (Grad.t (const (fin μ)) (fin ν) (const (fin μ)) (leaf (fin σ))).grad = nan) := by
  obtain ⟨k, hk, hS⟩ := t_standard hν
  obtain ⟨a, b, c⟩ := locscale_gradient (S := fun y m s => Closed.t y (fin ν) m s) (y := μ) (m := μ) hσ hS
    (hk ((μ - μ) / σ)).hasDerivAt
  have hz : (fin μ - fin μ) / fin σ = fin 0 := by rw [std_fin hσ, sub_self, zero_div]
  have h0 : 0 < ν := by linarith
  exact ⟨⟨a, (t_bad h0 hz (std_back_obs _)).grad⟩, ⟨b, (t_bad h0 hz (std_back_loc _)).grad⟩,
    ⟨c, (t_bad h0 hz (std_back_scale _)).grad⟩⟩

/-- five degrees of freedom -/
example : (1:ℝ) < 5 ∧ (0:ℝ) < 2 := by norm_num

end Verif
