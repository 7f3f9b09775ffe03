import Verif.Lemmas.GradLogs
import Verif.Props.Nested

/-!
# C132: gradients of the logarithmic scores and of the truncated logistic CRPS

The gradient that backpropagation returns for an argument of a score is the derivative of the score with respect
to that argument (`Spec.IsGradient`).  True for the logarithmic score of the normal, logistic, Laplace and lognormal
distribution; false for the truncated normal and logistic distribution with an infinite bound (the default).
-/

noncomputable section

open scoped Classical Topology

namespace Verif

open XF Py Node Filter
open Spec (IsGradient HasGradient φ Φ)

/-- `logs_normal`, with either sign. -/
theorem C132_logs_normal (y m : ℝ) {s : ℝ} (hs : 0 < s) (b : Bool) :
    IsGradient (fun t => Logs.normal t (fin m) (fin s) b) y
      (Grad.logsNormal (leaf (fin y)) (const (fin m)) (const (fin s)) b).grad ∧
    IsGradient (fun t => Logs.normal (fin y) t (fin s) b) m
      (Grad.logsNormal (const (fin y)) (leaf (fin m)) (const (fin s)) b).grad ∧
    IsGradient (fun t => Logs.normal (fin y) (fin m) t b) s
      (Grad.logsNormal (const (fin y)) (const (fin m)) (leaf (fin s)) b).grad := by
  obtain ⟨_, h1⟩ := (Tr.leaf (θ := y)).logsNormal (Tr.const m) (Tr.const s) hs b
  obtain ⟨_, h2⟩ := (Tr.const (θ := m) y).logsNormal Tr.leaf (Tr.const s) hs b
  obtain ⟨_, h3⟩ := (Tr.const (θ := s) y).logsNormal (Tr.const m) Tr.leaf hs b
  exact ⟨h1.isGradient fun _ => rfl, h2.isGradient fun _ => rfl, h3.isGradient fun _ => rfl⟩

example : (0 : ℝ) < 2 := by norm_num

/-- `logs_normal`: the gradients in closed form. -/
theorem C132_logs_normal_formula (y m : ℝ) {s : ℝ} (hs : 0 < s) :
    (Grad.logsNormal (leaf (fin y)) (const (fin m)) (const (fin s)) true).grad = fin ((y - m) / s ^ 2) ∧
    (Grad.logsNormal (const (fin y)) (leaf (fin m)) (const (fin s)) true).grad = fin (-((y - m) / s ^ 2)) ∧
    (Grad.logsNormal (const (fin y)) (const (fin m)) (leaf (fin s)) true).grad
      = fin (1 / s - (y - m) ^ 2 / s ^ 3) := by
  have hval : ∀ {y m s : ℝ}, 0 < s → Logs.normal (fin y) (fin m) (fin s) true
      = fin (Real.log s + (y - m) ^ 2 / (2 * s ^ 2) + Real.log (Real.sqrt (2 * Real.pi))) := by
    intro y m s hs
    have hpi : (0 : ℝ) < Real.sqrt (2 * Real.pi) := Real.sqrt_pos.2 (by positivity)
    unfold Logs.normal
    simp only [fin_sub, fin_div hs.ne', normPdf_fin, if_true]
    rw [fin_log (div_pos (φ_pos _) hs), one_def, fin_neg, fin_mul]
    congr 1
    rw [Real.log_div (φ_pos _).ne' hs.ne']
    unfold Spec.φ
    rw [Real.log_div (Real.exp_pos _).ne' hpi.ne', Real.log_exp]
    field_simp; ring
  have key : ∀ {score : XF → XF} {θ d : ℝ} {g : XF} {f : ℝ → ℝ}, IsGradient score θ g →
      (∀ᶠ t in 𝓝 θ, score (fin t) = fin (f t)) → HasDerivAt f d θ → g = fin d := by
    intro score θ d g f h hv hd
    exact h.unique ⟨f, d, hv, hd, rfl⟩
  obtain ⟨h1, h2, h3⟩ := C132_logs_normal y m hs true
  refine ⟨?_, ?_, ?_⟩
  · refine key h1 (Eventually.of_forall fun t => hval hs) ?_
    have := (((((hasDerivAt_id y).sub_const m).pow 2).div_const (2 * s ^ 2)).const_add (Real.log s)).add_const
      (Real.log (Real.sqrt (2 * Real.pi)))
    refine this.congr_deriv ?_
    simp only [id, Nat.cast_ofNat, pow_one, Nat.add_one_sub_one]
    field_simp
  · refine key h2 (Eventually.of_forall fun t => hval hs) ?_
    have := (((((hasDerivAt_id m).const_sub y).pow 2).div_const (2 * s ^ 2)).const_add (Real.log s)).add_const
      (Real.log (Real.sqrt (2 * Real.pi)))
    refine this.congr_deriv ?_
    simp only [id, Nat.cast_ofNat, pow_one, Nat.add_one_sub_one]
    field_simp
  · refine key h3 (f := fun t => Real.log t + (y - m) ^ 2 / (2 * t ^ 2) + Real.log (Real.sqrt (2 * Real.pi)))
      ?_ ?_
    · filter_upwards [lt_mem_nhds hs] with t ht
      exact hval ht
    · have := ((Real.hasDerivAt_log hs.ne').add ((hasDerivAt_const s ((y - m) ^ 2)).div
        (((hasDerivAt_id s).pow 2).const_mul 2) (by simp only [id, Pi.pow_apply]; positivity))).add_const
        (Real.log (Real.sqrt (2 * Real.pi)))
      refine this.congr_deriv ?_
      simp only [id, Pi.pow_apply]; field_simp; norm_num; ring

example : (0 : ℝ) < 2 := by norm_num

/-- `logs_logistic`. -/
theorem C132_logs_logistic (y m : ℝ) {s : ℝ} (hs : 0 < s) :
    IsGradient (fun t => Logs.logistic t (fin m) (fin s)) y
      (Grad.logsLogistic (leaf (fin y)) (const (fin m)) (const (fin s))).grad ∧
    IsGradient (fun t => Logs.logistic (fin y) t (fin s)) m
      (Grad.logsLogistic (const (fin y)) (leaf (fin m)) (const (fin s))).grad ∧
    IsGradient (fun t => Logs.logistic (fin y) (fin m) t) s
      (Grad.logsLogistic (const (fin y)) (const (fin m)) (leaf (fin s))).grad := by
  obtain ⟨_, h1⟩ := (Tr.leaf (θ := y)).logsLogistic (Tr.const m) (Tr.const s) hs
  obtain ⟨_, h2⟩ := (Tr.const (θ := m) y).logsLogistic Tr.leaf (Tr.const s) hs
  obtain ⟨_, h3⟩ := (Tr.const (θ := s) y).logsLogistic (Tr.const m) Tr.leaf hs
  exact ⟨h1.isGradient fun _ => rfl, h2.isGradient fun _ => rfl, h3.isGradient fun _ => rfl⟩

example : (0 : ℝ) < 2 := by norm_num

/-- `logs_laplace`, for an observation different from the location. -/
theorem C132_logs_laplace {y m s : ℝ} (hs : 0 < s) (hne : y ≠ m) :
    IsGradient (fun t => Logs.laplace t (fin m) (fin s)) y
      (Grad.logsLaplace (leaf (fin y)) (const (fin m)) (const (fin s))).grad ∧
    IsGradient (fun t => Logs.laplace (fin y) t (fin s)) m
      (Grad.logsLaplace (const (fin y)) (leaf (fin m)) (const (fin s))).grad ∧
    IsGradient (fun t => Logs.laplace (fin y) (fin m) t) s
      (Grad.logsLaplace (const (fin y)) (const (fin m)) (leaf (fin s))).grad := by
  obtain ⟨_, h1⟩ := (Tr.leaf (θ := y)).logsLaplace (Tr.const m) (Tr.const s) hs hne
  obtain ⟨_, h2⟩ := (Tr.const (θ := m) y).logsLaplace Tr.leaf (Tr.const s) hs hne
  obtain ⟨_, h3⟩ := (Tr.const (θ := s) y).logsLaplace (Tr.const m) Tr.leaf hs hne
  exact ⟨h1.isGradient fun _ => rfl, h2.isGradient fun _ => rfl, h3.isGradient fun _ => rfl⟩

example : (0 : ℝ) < 2 ∧ (1 : ℝ) ≠ 0 := by norm_num

/-- `logs_lognormal`, for a positive observation. -/
theorem C132_logs_lognormal {y s : ℝ} (m : ℝ) (hs : 0 < s) (hy : 0 < y) :
    IsGradient (fun t => Logs.lognormal t (fin m) (fin s)) y
      (Grad.logsLognormal (leaf (fin y)) (const (fin m)) (const (fin s))).grad ∧
    IsGradient (fun t => Logs.lognormal (fin y) t (fin s)) m
      (Grad.logsLognormal (const (fin y)) (leaf (fin m)) (const (fin s))).grad ∧
    IsGradient (fun t => Logs.lognormal (fin y) (fin m) t) s
      (Grad.logsLognormal (const (fin y)) (const (fin m)) (leaf (fin s))).grad := by
  obtain ⟨_, h1⟩ := (Tr.leaf (θ := y)).logsLognormal (Tr.const m) (Tr.const s) hs hy
  obtain ⟨_, h2⟩ := (Tr.const (θ := m) y).logsLognormal Tr.leaf (Tr.const s) hs hy
  obtain ⟨_, h3⟩ := (Tr.const (θ := s) y).logsLognormal (Tr.const m) Tr.leaf hs hy
  have hv := logsLognormal_val
  exact ⟨h1.isGradient fun _ => hv _ _ _, h2.isGradient fun _ => hv _ _ _, h3.isGradient fun _ => hv _ _ _⟩

example : (0 : ℝ) < 2 ∧ (0 : ℝ) < 1 := by norm_num

/-! ### truncated normal -/

/-- `logs_tnormal` for an observation strictly between the bounds: with finite bounds all gradients are
derivatives, and the gradient with respect to the location is one with infinite bounds as well. -/
theorem C132_logs_tnormal_partial {y s : ℝ} (m : ℝ) (hs : 0 < s) :
    (∀ l u : ℝ, l < y → y < u →
      IsGradient (fun t => Logs.tnormal t (fin m) (fin s) (fin l) (fin u)) y
        (Grad.logsTnormal (leaf (fin y)) (const (fin m)) (const (fin s)) (const (fin l)) (const (fin u))).grad ∧
      IsGradient (fun t => Logs.tnormal (fin y) (fin m) t (fin l) (fin u)) s
        (Grad.logsTnormal (const (fin y)) (const (fin m)) (leaf (fin s)) (const (fin l)) (const (fin u))).grad ∧
      IsGradient (fun t => Logs.tnormal (fin y) (fin m) (fin s) t (fin u)) l
        (Grad.logsTnormal (const (fin y)) (const (fin m)) (const (fin s)) (leaf (fin l)) (const (fin u))).grad ∧
      IsGradient (fun t => Logs.tnormal (fin y) (fin m) (fin s) (fin l) t) u
        (Grad.logsTnormal (const (fin y)) (const (fin m)) (const (fin s)) (const (fin l)) (leaf (fin u))).grad) ∧
    ∀ l u : XF, l < fin y → fin y < u →
      IsGradient (fun t => Logs.tnormal (fin y) t (fin s) l u) m
        (Grad.logsTnormal (const (fin y)) (leaf (fin m)) (const (fin s)) (const l) (const u)).grad := by
  have hv := logsTnormal_val
  refine ⟨fun l u hl hu => ?_, fun l u hl hu => ?_⟩
  · obtain ⟨_, h1⟩ := Tr.logsTnormal (θ := y) Tr.leaf (Tr.const m) (Tr.const s) (Tr.const l) (Tr.const u) hs hl hu
    obtain ⟨_, h2⟩ := Tr.logsTnormal (θ := s) (Tr.const y) (Tr.const m) Tr.leaf (Tr.const l) (Tr.const u) hs hl hu
    obtain ⟨_, h3⟩ := Tr.logsTnormal (θ := l) (Tr.const y) (Tr.const m) (Tr.const s) Tr.leaf (Tr.const u) hs hl hu
    obtain ⟨_, h4⟩ := Tr.logsTnormal (θ := u) (Tr.const y) (Tr.const m) (Tr.const s) (Tr.const l) Tr.leaf hs hl hu
    exact ⟨h1.isGradient fun _ => hv _ _ _ _ _, h2.isGradient fun _ => hv _ _ _ _ _,
      h3.isGradient fun _ => hv _ _ _ _ _, h4.isGradient fun _ => hv _ _ _ _ _⟩
  · have hw := ((Tr.const (θ := m) y).sub Tr.leaf).div (Tr.const s) hs.ne'
    obtain ⟨_, h⟩ := Tr.trunc (W := fun t => (const (fin y) - leaf (fin t)) / const (fin s))
      (L := fun t => (const l - leaf (fin t)) / const (fin s))
      (U := fun t => (const u - leaf (fin t)) / const (fin s))
      (hw.normPdf.div (Tr.const s) hs.ne') (Tr.normCdf_loc (ne_nan_of_gt hu) hs)
      (Tr.normCdf_loc (ne_nan_of_lt hl) hs) (div_pos (φ_pos _) hs)
      (ext_lt Φ_strictMono Φ_pos Φ_lt_one hl hu m hs) (Eventually.of_forall fun t => inside hl hu t hs)
    exact h.isGradient (N := fun t => Grad.logsTnormal (const (fin y)) (leaf (fin t)) (const (fin s)) (const l)
      (const u)) fun _ => hv _ _ _ _ _

example : (0 : ℝ) < 1 ∧ (0 : ℝ) < 1 ∧ (1 : ℝ) < 2 ∧ (ninf : XF) < fin 1 ∧ (fin 1 : XF) < pinf :=
  ⟨one_pos, one_pos, by norm_num, trivial, trivial⟩

/-- `logs_tnormal` with an infinite bound, which is the default: the gradient with respect to the scale is NaN,
although the score has a derivative. -/
theorem C132_logs_tnormal_false {y s : ℝ} (m : ℝ) (hs : 0 < s) {l u : XF} (hl : l < fin y) (hu : fin y < u)
    (h : l = ninf ∨ u = pinf) :
    HasGradient (fun t => Logs.tnormal (fin y) (fin m) t l u) s ∧
    (Grad.logsTnormal (const (fin y)) (const (fin m)) (leaf (fin s)) (const l) (const u)).grad = nan ∧
    ¬ IsGradient (fun t => Logs.tnormal (fin y) (fin m) t l u) s
      (Grad.logsTnormal (const (fin y)) (const (fin m)) (leaf (fin s)) (const l) (const u)).grad := by
  have hbad : Bad (Grad.logsTnormal (const (fin y)) (const (fin m)) (leaf (fin s)) (const l) (const u)) := by
    refine Bad.sel_right (Bad.neg (Bad.log (Bad.div_right ?_)))
    rcases h with h | h
    · have hb := bound_bad (m := m) hs (x := l)
      exact Bad.sub_right (normCdf_bad (Or.inr (hb.2.2 h).2) (bound_zero hs (Or.inr h)) hb.1.2)
    · have hb := bound_bad (m := m) hs (x := u)
      exact Bad.sub_left (normCdf_bad (Or.inl (hb.2.1 h).2) (bound_zero hs (Or.inl h)) hb.1.2)
  refine ⟨?_, hbad.grad, by rw [hbad.grad]; exact not_isGradient_nan _ _⟩
  refine hasGradient_of (f := fun t => -Real.log (φ ((y - m) / t) / t / (ext Φ u m t - ext Φ l m t))) ?_ ?_
  · filter_upwards [lt_mem_nhds hs] with t ht
    have hd := ext_lt Φ_strictMono Φ_pos Φ_lt_one hl hu m ht
    unfold Logs.tnormal
    have hi := inside hl hu m ht
    rw [fin_sub, fin_div ht.ne'] at hi
    simp only [ext_val normCdf_fin normCdf_pinf normCdf_ninf (ne_nan_of_gt hu) m ht,
      ext_val normCdf_fin normCdf_pinf normCdf_ninf (ne_nan_of_lt hl) m ht, fin_sub, fin_div ht.ne', normPdf_fin]
    rw [if_neg hi, fin_div (sub_pos.2 hd).ne', fin_log (div_pos (div_pos (φ_pos _) ht) (sub_pos.2 hd)), fin_neg]
  · have hd := ext_lt Φ_strictMono Φ_pos Φ_lt_one hl hu m hs
    have h1 : DifferentiableAt ℝ (fun t => φ ((y - m) / t)) s :=
      (φ_differentiable _).comp s ((differentiableAt_const _).div differentiableAt_id hs.ne')
    have h2 := ext_diff Φ_differentiable u (differentiableAt_const (x := s) m) differentiableAt_id hs.ne'
    have h3 := ext_diff Φ_differentiable l (differentiableAt_const (x := s) m) differentiableAt_id hs.ne'
    exact (((h1.div differentiableAt_id hs.ne').div (h2.sub h3) (sub_pos.2 hd).ne').log
      (div_pos (div_pos (φ_pos _) hs) (sub_pos.2 hd)).ne').neg

example : (0 : ℝ) < 1 ∧ (fin 0 : XF) < fin 1 ∧ (fin 1 : XF) < pinf ∧ ((fin 0 : XF) = ninf ∨ (pinf : XF) = pinf) :=
  ⟨one_pos, by simp, trivial, Or.inr rfl⟩

/-! ### truncated logistic, logarithmic score -/

/-- `logs_tlogistic` for an observation strictly between the bounds: with finite bounds all gradients are
derivatives, and the gradient with respect to the location is one without an upper bound as well. -/
theorem C132_logs_tlogistic_partial {y s : ℝ} (m : ℝ) (hs : 0 < s) :
    (∀ l u : ℝ, l < y → y < u →
      IsGradient (fun t => Logs.tlogistic t (fin m) (fin s) (fin l) (fin u)) y
        (Grad.logsTlogistic (leaf (fin y)) (const (fin m)) (const (fin s)) (const (fin l)) (const (fin u))).grad ∧
      IsGradient (fun t => Logs.tlogistic (fin y) (fin m) t (fin l) (fin u)) s
        (Grad.logsTlogistic (const (fin y)) (const (fin m)) (leaf (fin s)) (const (fin l)) (const (fin u))).grad ∧
      IsGradient (fun t => Logs.tlogistic (fin y) (fin m) (fin s) t (fin u)) l
        (Grad.logsTlogistic (const (fin y)) (const (fin m)) (const (fin s)) (leaf (fin l)) (const (fin u))).grad ∧
      IsGradient (fun t => Logs.tlogistic (fin y) (fin m) (fin s) (fin l) t) u
        (Grad.logsTlogistic (const (fin y)) (const (fin m)) (const (fin s)) (const (fin l)) (leaf (fin u))).grad) ∧
    ∀ l u : XF, l < fin y → fin y < u → l ≠ ninf →
      IsGradient (fun t => Logs.tlogistic (fin y) t (fin s) l u) m
        (Grad.logsTlogistic (const (fin y)) (leaf (fin m)) (const (fin s)) (const l) (const u)).grad := by
  have hv := logsTlogistic_val
  refine ⟨fun l u hl hu => ?_, fun l u hl hu hl' => ?_⟩
  · obtain ⟨_, h1⟩ := Tr.logsTlogistic (θ := y) Tr.leaf (Tr.const m) (Tr.const s) (Tr.const l) (Tr.const u) hs hl hu
    obtain ⟨_, h2⟩ := Tr.logsTlogistic (θ := s) (Tr.const y) (Tr.const m) Tr.leaf (Tr.const l) (Tr.const u) hs hl hu
    obtain ⟨_, h3⟩ := Tr.logsTlogistic (θ := l) (Tr.const y) (Tr.const m) (Tr.const s) Tr.leaf (Tr.const u) hs hl hu
    obtain ⟨_, h4⟩ := Tr.logsTlogistic (θ := u) (Tr.const y) (Tr.const m) (Tr.const s) (Tr.const l) Tr.leaf hs hl hu
    exact ⟨h1.isGradient fun _ => hv _ _ _ _ _, h2.isGradient fun _ => hv _ _ _ _ _,
      h3.isGradient fun _ => hv _ _ _ _ _, h4.isGradient fun _ => hv _ _ _ _ _⟩
  · have hw := ((Tr.const (θ := m) y).sub Tr.leaf).div (Tr.const s) hs.ne'
    have hu' : u ≠ ninf := by rintro rfl; exact hu
    obtain ⟨_, h⟩ := Tr.trunc (W := fun t => (const (fin y) - leaf (fin t)) / const (fin s))
      (L := fun t => (const l - leaf (fin t)) / const (fin s))
      (U := fun t => (const u - leaf (fin t)) / const (fin s))
      (hw.logisPdf.div (Tr.const s) hs.ne') (Tr.logisCdf_loc (ne_nan_of_gt hu) hu' hs)
      (Tr.logisCdf_loc (ne_nan_of_lt hl) hl' hs) (by positivity)
      (ext_lt logis_strictMono logis_pos logis_lt_one hl hu m hs) (Eventually.of_forall fun t => inside hl hu t hs)
    exact h.isGradient (N := fun t => Grad.logsTlogistic (const (fin y)) (leaf (fin t)) (const (fin s)) (const l)
      (const u)) fun _ => hv _ _ _ _ _

example : (0 : ℝ) < 1 ∧ (0 : ℝ) < 1 ∧ (1 : ℝ) < 2 ∧ (fin 0 : XF) < fin 1 ∧ (fin 1 : XF) < pinf ∧
    (fin 0 : XF) ≠ ninf :=
  ⟨one_pos, one_pos, by norm_num, by simp, trivial, by simp⟩

/-- `logs_tlogistic` with an infinite bound, which is the default: the gradient with respect to the scale is NaN,
and without a lower bound so is the gradient with respect to the location, although the score has derivatives. -/
theorem C132_logs_tlogistic_false {y s : ℝ} (m : ℝ) (hs : 0 < s) {l u : XF} (hl : l < fin y) (hu : fin y < u)
    (h : l = ninf ∨ u = pinf) :
    (HasGradient (fun t => Logs.tlogistic (fin y) (fin m) t l u) s ∧
      (Grad.logsTlogistic (const (fin y)) (const (fin m)) (leaf (fin s)) (const l) (const u)).grad = nan ∧
      ¬ IsGradient (fun t => Logs.tlogistic (fin y) (fin m) t l u) s
        (Grad.logsTlogistic (const (fin y)) (const (fin m)) (leaf (fin s)) (const l) (const u)).grad) ∧
    (l = ninf →
      HasGradient (fun t => Logs.tlogistic (fin y) t (fin s) l u) m ∧
      (Grad.logsTlogistic (const (fin y)) (leaf (fin m)) (const (fin s)) (const l) (const u)).grad = nan ∧
      ¬ IsGradient (fun t => Logs.tlogistic (fin y) t (fin s) l u) m
        (Grad.logsTlogistic (const (fin y)) (leaf (fin m)) (const (fin s)) (const l) (const u)).grad) := by
  have hdl : Differentiable ℝ logis := fun x => (logis_deriv x).differentiableAt
  have hval : ∀ {m s : ℝ}, 0 < s → Logs.tlogistic (fin y) (fin m) (fin s) l u
      = fin (-Real.log (Real.exp (-((y - m) / s)) / (1 + Real.exp (-((y - m) / s))) ^ 2 / s
        / (ext logis u m s - ext logis l m s))) := by
    intro m s hs
    have hd := sub_pos.2 (ext_lt logis_strictMono logis_pos logis_lt_one hl hu m hs)
    unfold Logs.tlogistic
    have hi := inside hl hu m hs
    rw [fin_sub, fin_div hs.ne'] at hi
    simp only [ext_val logisCdf_fin logisCdf_pinf logisCdf_ninf (ne_nan_of_gt hu) m hs,
      ext_val logisCdf_fin logisCdf_pinf logisCdf_ninf (ne_nan_of_lt hl) m hs, fin_sub, fin_div hs.ne', logisPdf_fin]
    rw [if_neg hi, fin_div hd.ne', fin_log (by positivity), fin_neg]
  have hdiff : ∀ {a b : ℝ → ℝ} {θ : ℝ}, DifferentiableAt ℝ a θ → DifferentiableAt ℝ b θ → 0 < b θ →
      DifferentiableAt ℝ (fun t => -Real.log (Real.exp (-((y - a t) / b t))
        / (1 + Real.exp (-((y - a t) / b t))) ^ 2 / b t / (ext logis u (a t) (b t) - ext logis l (a t) (b t)))) θ := by
    intro a b θ ha hb h0
    have hd := sub_pos.2 (ext_lt logis_strictMono logis_pos logis_lt_one hl hu (a θ) h0)
    have h1 : DifferentiableAt ℝ (fun t => Real.exp (-((y - a t) / b t))) θ :=
      (((differentiableAt_const y).sub ha).div hb h0.ne').neg.exp
    have h2 := ext_diff hdl u ha hb h0.ne'
    have h3 := ext_diff hdl l ha hb h0.ne'
    refine ((((h1.div ((h1.const_add 1).pow 2) (ne_of_gt ?_)).div hb h0.ne').div (h2.sub h3) hd.ne').log
      (ne_of_gt ?_)).neg
    · show 0 < (1 + Real.exp (-((y - a θ) / b θ))) ^ 2
      positivity
    · show 0 < Real.exp (-((y - a θ) / b θ)) / (1 + Real.exp (-((y - a θ) / b θ))) ^ 2 / b θ
        / (ext logis u (a θ) (b θ) - ext logis l (a θ) (b θ))
      positivity
  have hbl := bound_bad (m := m) hs (x := l)
  have hbu := bound_bad (m := m) hs (x := u)
  refine ⟨?_, fun hl' => ?_⟩
  · have hbad : Bad (Grad.logsTlogistic (const (fin y)) (const (fin m)) (leaf (fin s)) (const l) (const u)) := by
      refine Bad.sel_right (Bad.neg (Bad.log (Bad.div_right ?_)))
      rcases h with h | h
      · exact Bad.sub_right (logisCdf_bad_ninf (hbl.2.2 h).2 hbl.1.2)
      · exact Bad.sub_left (logisCdf_bad_pinf (hbu.2.1 h).2 (bound_zero hs (Or.inl h)) hbu.1.2)
    refine ⟨hasGradient_of ?_ (hdiff (differentiableAt_const m) differentiableAt_id hs), hbad.grad, by
      rw [hbad.grad]; exact not_isGradient_nan _ _⟩
    filter_upwards [lt_mem_nhds hs] with t ht
    exact hval ht
  · have hbad : Bad (Grad.logsTlogistic (const (fin y)) (leaf (fin m)) (const (fin s)) (const l) (const u)) :=
      Bad.sel_right (Bad.neg (Bad.log (Bad.div_right
        (Bad.sub_right (logisCdf_bad_ninf (hbl.2.2 hl').1 hbl.1.1)))))
    refine ⟨hasGradient_of (Eventually.of_forall fun t => hval hs)
      (hdiff differentiableAt_id (differentiableAt_const s) hs), hbad.grad, by
      rw [hbad.grad]; exact not_isGradient_nan _ _⟩

example : (0 : ℝ) < 1 ∧ (ninf : XF) < fin 1 ∧ (fin 1 : XF) < pinf ∧ ((ninf : XF) = ninf ∨ (pinf : XF) = pinf) :=
  ⟨one_pos, trivial, trivial, Or.inr rfl⟩

/-! ### truncated and censored logistic, CRPS -/

/-- `crps_gtclogistic`, `crps_tlogistic` and `crps_clogistic` with an infinite bound: the gradients with respect to
the location and the scale are NaN, whatever the observation, the other bound and the point masses. -/
theorem C132_gtclogistic_false (y l u L U : XF) (m : ℝ) {s : ℝ} (hs : 0 < s) (h : l = ninf ∨ u = pinf) :
    (Grad.gtclogistic (const y) (leaf (fin m)) (const (fin s)) (const l) (const u) (const L) (const U)).grad
      = nan ∧
    (Grad.gtclogistic (const y) (const (fin m)) (leaf (fin s)) (const l) (const u) (const L) (const U)).grad
      = nan ∧
    (Grad.tlogistic (const y) (leaf (fin m)) (const (fin s)) (const l) (const u)).grad = nan ∧
    (Grad.tlogistic (const y) (const (fin m)) (leaf (fin s)) (const l) (const u)).grad = nan ∧
    (Grad.clogistic (const y) (leaf (fin m)) (const (fin s)) (const l) (const u)).grad = nan ∧
    (Grad.clogistic (const y) (const (fin m)) (leaf (fin s)) (const l) (const u)).grad = nan := by
  have hl := bound_bad (m := m) hs (x := l)
  have hu := bound_bad (m := m) hs (x := u)
  have h1 : ∀ a b c : Node, Bad (Grad.gtclogistic a (leaf (fin m)) (const (fin s)) (const l) (const u) b c) := by
    intro a b c
    rcases h with h | h
    · exact gtclogistic_bad (Or.inr ⟨(hl.2.2 h).1, hl.1.1⟩)
    · exact gtclogistic_bad (Or.inl ⟨(hu.2.1 h).1, hu.1.1⟩)
  have h2 : ∀ a b c : Node, Bad (Grad.gtclogistic a (const (fin m)) (leaf (fin s)) (const l) (const u) b c) := by
    intro a b c
    rcases h with h | h
    · exact gtclogistic_bad (Or.inr ⟨(hl.2.2 h).2, hl.1.2⟩)
    · exact gtclogistic_bad (Or.inl ⟨(hu.2.1 h).2, hu.1.2⟩)
  exact ⟨h1 _ _ _ _, h2 _ _ _ _, h1 _ _ _ _, h2 _ _ _ _, h1 _ _ _ _, h2 _ _ _ _⟩

example : (0 : ℝ) < 1 ∧ ((fin 0 : XF) = ninf ∨ (pinf : XF) = pinf) := ⟨one_pos, Or.inr rfl⟩

/-- ... although with the default bounds the score is the CRPS of the logistic distribution, which has
derivatives. -/
theorem C132_tlogistic_false (y m : ℝ) {s : ℝ} (hs : 0 < s) :
    (HasGradient (fun t => Closed.tlogistic (fin y) t (fin s) ninf pinf) m ∧
      ¬ IsGradient (fun t => Closed.tlogistic (fin y) t (fin s) ninf pinf) m
        (Grad.tlogistic (const (fin y)) (leaf (fin m)) (const (fin s)) (const ninf) (const pinf)).grad) ∧
    (HasGradient (fun t => Closed.tlogistic (fin y) (fin m) t ninf pinf) s ∧
      ¬ IsGradient (fun t => Closed.tlogistic (fin y) (fin m) t ninf pinf) s
        (Grad.tlogistic (const (fin y)) (const (fin m)) (leaf (fin s)) (const ninf) (const pinf)).grad) := by
  have hn := C132_gtclogistic_false (fin y) ninf pinf 0 0 m hs (Or.inl rfl)
  obtain ⟨f, d, hv, hd, e⟩ := ((Tr.const y).logistic (Tr.leaf (θ := m)) (Tr.const s) hs).isGradient
    (score := fun t => Closed.logistic (fin y) t (fin s)) fun _ => rfl
  obtain ⟨f', d', hv', hd', e'⟩ := ((Tr.const y).logistic (Tr.const m) (Tr.leaf (θ := s)) hs).isGradient
    (score := fun t => Closed.logistic (fin y) (fin m) t) fun _ => rfl
  refine ⟨⟨⟨_, f, d, ?_, hd, e⟩, ?_⟩, ⟨_, f', d', ?_, hd', e'⟩, ?_⟩
  · filter_upwards [hv] with t ht
    rw [(C52_gtclogistic_logistic hs t y).2.1, ht]
  · rw [hn.2.2.1]; exact not_isGradient_nan _ _
  · filter_upwards [hv', lt_mem_nhds hs] with t ht h0
    rw [(C52_gtclogistic_logistic h0 m y).2.1, ht]
  · rw [hn.2.2.2.1]; exact not_isGradient_nan _ _

example : (0 : ℝ) < 1 := one_pos

/-- `crps_gtclogistic` with finite bounds around the observation: all gradients are derivatives. -/
theorem C132_gtclogistic_partial {y m s l u L U : ℝ} (hs : 0 < s) (hl : l < y) (hu : y < u) (hLU : L + U ≠ 1) :
    IsGradient (fun t => Closed.gtclogistic t (fin m) (fin s) (fin l) (fin u) (fin L) (fin U)) y
      (Grad.gtclogistic (leaf (fin y)) (const (fin m)) (const (fin s)) (const (fin l)) (const (fin u))
        (const (fin L)) (const (fin U))).grad ∧
    IsGradient (fun t => Closed.gtclogistic (fin y) t (fin s) (fin l) (fin u) (fin L) (fin U)) m
      (Grad.gtclogistic (const (fin y)) (leaf (fin m)) (const (fin s)) (const (fin l)) (const (fin u))
        (const (fin L)) (const (fin U))).grad ∧
    IsGradient (fun t => Closed.gtclogistic (fin y) (fin m) t (fin l) (fin u) (fin L) (fin U)) s
      (Grad.gtclogistic (const (fin y)) (const (fin m)) (leaf (fin s)) (const (fin l)) (const (fin u))
        (const (fin L)) (const (fin U))).grad ∧
    IsGradient (fun t => Closed.gtclogistic (fin y) (fin m) (fin s) t (fin u) (fin L) (fin U)) l
      (Grad.gtclogistic (const (fin y)) (const (fin m)) (const (fin s)) (leaf (fin l)) (const (fin u))
        (const (fin L)) (const (fin U))).grad ∧
    IsGradient (fun t => Closed.gtclogistic (fin y) (fin m) (fin s) (fin l) t (fin L) (fin U)) u
      (Grad.gtclogistic (const (fin y)) (const (fin m)) (const (fin s)) (const (fin l)) (leaf (fin u))
        (const (fin L)) (const (fin U))).grad ∧
    IsGradient (fun t => Closed.gtclogistic (fin y) (fin m) (fin s) (fin l) (fin u) t (fin U)) L
      (Grad.gtclogistic (const (fin y)) (const (fin m)) (const (fin s)) (const (fin l)) (const (fin u))
        (leaf (fin L)) (const (fin U))).grad ∧
    IsGradient (fun t => Closed.gtclogistic (fin y) (fin m) (fin s) (fin l) (fin u) (fin L) t) U
      (Grad.gtclogistic (const (fin y)) (const (fin m)) (const (fin s)) (const (fin l)) (const (fin u))
        (const (fin L)) (leaf (fin U))).grad := by
  obtain ⟨_, h1⟩ := Tr.gtclogistic (θ := y) Tr.leaf (Tr.const m) (Tr.const s) (Tr.const l) (Tr.const u)
    (Tr.const L) (Tr.const U) hs hl hu hLU
  obtain ⟨_, h2⟩ := Tr.gtclogistic (θ := m) (Tr.const y) Tr.leaf (Tr.const s) (Tr.const l) (Tr.const u)
    (Tr.const L) (Tr.const U) hs hl hu hLU
  obtain ⟨_, h3⟩ := Tr.gtclogistic (θ := s) (Tr.const y) (Tr.const m) Tr.leaf (Tr.const l) (Tr.const u)
    (Tr.const L) (Tr.const U) hs hl hu hLU
  obtain ⟨_, h4⟩ := Tr.gtclogistic (θ := l) (Tr.const y) (Tr.const m) (Tr.const s) Tr.leaf (Tr.const u)
    (Tr.const L) (Tr.const U) hs hl hu hLU
  obtain ⟨_, h5⟩ := Tr.gtclogistic (θ := u) (Tr.const y) (Tr.const m) (Tr.const s) (Tr.const l) Tr.leaf
    (Tr.const L) (Tr.const U) hs hl hu hLU
  obtain ⟨_, h6⟩ := Tr.gtclogistic (θ := L) (Tr.const y) (Tr.const m) (Tr.const s) (Tr.const l) (Tr.const u)
    Tr.leaf (Tr.const U) hs hl hu hLU
  obtain ⟨_, h7⟩ := Tr.gtclogistic (θ := U) (Tr.const y) (Tr.const m) (Tr.const s) (Tr.const l) (Tr.const u)
    (Tr.const L) Tr.leaf hs hl hu hLU
  have hv := gtclogistic_val
  exact ⟨h1.isGradient fun _ => hv _ _ _ _ _ _ _, h2.isGradient fun _ => hv _ _ _ _ _ _ _,
    h3.isGradient fun _ => hv _ _ _ _ _ _ _, h4.isGradient fun _ => hv _ _ _ _ _ _ _,
    h5.isGradient fun _ => hv _ _ _ _ _ _ _, h6.isGradient fun _ => hv _ _ _ _ _ _ _,
    h7.isGradient fun _ => hv _ _ _ _ _ _ _⟩

example : (0 : ℝ) < 1 ∧ (0 : ℝ) < 1 ∧ (1 : ℝ) < 2 ∧ (1 / 4 + 1 / 4 : ℝ) ≠ 1 := by norm_num

/-- `crps_tlogistic` and `crps_clogistic` with finite bounds around the observation: the gradients with respect to the
observation, the location and the scale are derivatives. -/
theorem C132_tlogistic_clogistic_partial {y s l u : ℝ} (m : ℝ) (hs : 0 < s) (hl : l < y) (hu : y < u) :
    (IsGradient (fun t => Closed.tlogistic t (fin m) (fin s) (fin l) (fin u)) y
      (Grad.tlogistic (leaf (fin y)) (const (fin m)) (const (fin s)) (const (fin l)) (const (fin u))).grad ∧
    IsGradient (fun t => Closed.tlogistic (fin y) t (fin s) (fin l) (fin u)) m
      (Grad.tlogistic (const (fin y)) (leaf (fin m)) (const (fin s)) (const (fin l)) (const (fin u))).grad ∧
    IsGradient (fun t => Closed.tlogistic (fin y) (fin m) t (fin l) (fin u)) s
      (Grad.tlogistic (const (fin y)) (const (fin m)) (leaf (fin s)) (const (fin l)) (const (fin u))).grad) ∧
    (IsGradient (fun t => Closed.clogistic t (fin m) (fin s) (fin l) (fin u)) y
      (Grad.clogistic (leaf (fin y)) (const (fin m)) (const (fin s)) (const (fin l)) (const (fin u))).grad ∧
    IsGradient (fun t => Closed.clogistic (fin y) t (fin s) (fin l) (fin u)) m
      (Grad.clogistic (const (fin y)) (leaf (fin m)) (const (fin s)) (const (fin l)) (const (fin u))).grad ∧
    IsGradient (fun t => Closed.clogistic (fin y) (fin m) t (fin l) (fin u)) s
      (Grad.clogistic (const (fin y)) (const (fin m)) (leaf (fin s)) (const (fin l)) (const (fin u))).grad) := by
  have hv := gtclogistic_val
  have T : ∀ {Y M S : ℝ → Node} {fy fm fs : ℝ → ℝ} {θ : ℝ}, Tr Y fy θ → Tr M fm θ → Tr S fs θ → 0 < fs θ →
      l < fy θ → fy θ < u →
      ∃ f, Tr (fun t => Grad.tlogistic (Y t) (M t) (S t) (const (fin l)) (const (fin u))) f θ := by
    intro Y M S fy fm fs θ hY hM hS h0 h1 h2
    exact hY.gtclogistic hM hS (Tr.const l) (Tr.const u) (Tr.const 0) (Tr.const 0) h0 h1 h2 (by norm_num)
  have C : ∀ {Y M S : ℝ → Node} {fy fm fs : ℝ → ℝ} {θ : ℝ}, Tr Y fy θ → Tr M fm θ → Tr S fs θ → 0 < fs θ →
      l < fy θ → fy θ < u →
      ∃ f, Tr (fun t => Grad.clogistic (Y t) (M t) (S t) (const (fin l)) (const (fin u))) f θ := by
    intro Y M S fy fm fs θ hY hM hS h0 h1 h2
    have hL := (((Tr.const l).sub hM).div hS h0.ne').logisCdf
    have hU := Tr.one.sub (((Tr.const u).sub hM).div hS h0.ne').logisCdf
    have hlt : logis ((l - fm θ) / fs θ) < logis ((u - fm θ) / fs θ) :=
      logis_strictMono ((div_lt_div_iff_of_pos_right h0).2 (by linarith))
    refine hY.gtclogistic hM hS (Tr.const l) (Tr.const u) hL hU h0 h1 h2 ?_
    show logis ((l - fm θ) / fs θ) + (1 - logis ((u - fm θ) / fs θ)) ≠ 1
    exact fun h => hlt.ne (by linarith)
  obtain ⟨_, h1⟩ := T (Tr.leaf (θ := y)) (Tr.const m) (Tr.const s) hs hl hu
  obtain ⟨_, h2⟩ := T (Tr.const y) (Tr.leaf (θ := m)) (Tr.const s) hs hl hu
  obtain ⟨_, h3⟩ := T (Tr.const y) (Tr.const m) (Tr.leaf (θ := s)) hs hl hu
  obtain ⟨_, h4⟩ := C (Tr.leaf (θ := y)) (Tr.const m) (Tr.const s) hs hl hu
  obtain ⟨_, h5⟩ := C (Tr.const y) (Tr.leaf (θ := m)) (Tr.const s) hs hl hu
  obtain ⟨_, h6⟩ := C (Tr.const y) (Tr.const m) (Tr.leaf (θ := s)) hs hl hu
  exact ⟨⟨h1.isGradient fun _ => hv _ _ _ _ _ _ _, h2.isGradient fun _ => hv _ _ _ _ _ _ _,
    h3.isGradient fun _ => hv _ _ _ _ _ _ _⟩, h4.isGradient fun _ => hv _ _ _ _ _ _ _,
    h5.isGradient fun _ => hv _ _ _ _ _ _ _, h6.isGradient fun _ => hv _ _ _ _ _ _ _⟩

example : (0 : ℝ) < 1 ∧ (0 : ℝ) < 1 ∧ (1 : ℝ) < 2 := by norm_num

end Verif
