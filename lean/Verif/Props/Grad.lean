import Verif.Lemmas.GradClosed
import Verif.Lemmas.GtcFin
import Verif.Lemmas.ClosedInf
import Verif.Props.Nested

/-!
# C132: gradients of the closed-form scores

The gradient that backpropagation returns for an argument of a score is the derivative of the score with respect
to that argument (`Spec.IsGradient`).  True for the normal, logistic, Laplace and lognormal CRPS; false for the
truncated and censored normal with an infinite bound, where it is NaN.
-/

noncomputable section

open scoped Classical Topology

namespace Verif

open XF Py Node Filter
open Spec (IsGradient HasGradient φ Φ)

/-- `crps_normal`: the gradients with respect to the observation, the mean and the standard deviation. -/
theorem C132_normal (y m : ℝ) {s : ℝ} (hs : 0 < s) :
    IsGradient (fun t => Closed.normal t (fin m) (fin s)) y
      (Grad.normal (leaf (fin y)) (const (fin m)) (const (fin s))).grad ∧
    IsGradient (fun t => Closed.normal (fin y) t (fin s)) m
      (Grad.normal (const (fin y)) (leaf (fin m)) (const (fin s))).grad ∧
    IsGradient (fun t => Closed.normal (fin y) (fin m) t) s
      (Grad.normal (const (fin y)) (const (fin m)) (leaf (fin s))).grad :=
  ⟨(Tr.leaf.normal (Tr.const m) (Tr.const s) hs).isGradient fun _ => rfl,
    ((Tr.const y).normal Tr.leaf (Tr.const s) hs).isGradient fun _ => rfl,
    ((Tr.const y).normal (Tr.const m) Tr.leaf hs).isGradient fun _ => rfl⟩

example : (0 : ℝ) < 2 := by norm_num

/-- `crps_normal`: the gradients in closed form. -/
theorem C132_normal_formula (y m : ℝ) {s : ℝ} (hs : 0 < s) :
    (Grad.normal (leaf (fin y)) (const (fin m)) (const (fin s))).grad = fin (2 * Φ ((y - m) / s) - 1) ∧
    (Grad.normal (const (fin y)) (leaf (fin m)) (const (fin s))).grad = fin (1 - 2 * Φ ((y - m) / s)) ∧
    (Grad.normal (const (fin y)) (const (fin m)) (leaf (fin s))).grad
      = fin (2 * φ ((y - m) / s) - 1 / Real.sqrt Real.pi) := by
  have key : ∀ {fy fm fs : ℝ → ℝ} {θ d : ℝ} {N : ℝ → Node},
      Tr N (fun t => fs t * ((fy t - fm t) / fs t * (2 * Φ ((fy t - fm t) / fs t) - 1)
        + 2 * φ ((fy t - fm t) / fs t) - 1 / Real.sqrt Real.pi)) θ →
      HasDerivAt (fun t => fs t * ((fy t - fm t) / fs t * (2 * Φ ((fy t - fm t) / fs t) - 1)
        + 2 * φ ((fy t - fm t) / fs t) - 1 / Real.sqrt Real.pi)) d θ → (N θ).grad = fin d := by
    intro fy fm fs θ d N h hd
    obtain ⟨_, d', hd', hb⟩ := h
    show (N θ).back 1 = _
    rw [one_def, hb, one_mul, hd'.unique hd]
  have core : ∀ {ω fs : ℝ → ℝ} {θ dω ds : ℝ}, HasDerivAt ω dω θ → HasDerivAt fs ds θ →
      HasDerivAt (fun t => fs t * (ω t * (2 * Φ (ω t) - 1) + 2 * φ (ω t) - 1 / Real.sqrt Real.pi))
        (ds * (ω θ * (2 * Φ (ω θ) - 1) + 2 * φ (ω θ) - 1 / Real.sqrt Real.pi)
          + fs θ * (dω * (2 * Φ (ω θ) - 1))) θ := by
    intro ω fs θ dω ds hω hf
    have h1 := (Φ_deriv (ω θ)).comp θ hω
    have h2 := (φ_deriv (ω θ)).comp θ hω
    have := hf.mul (((hω.mul ((h1.const_mul 2).sub_const 1)).add (h2.const_mul 2)).sub_const
      (1 / Real.sqrt Real.pi))
    refine this.congr_deriv ?_
    simp only [Function.comp, Pi.add_apply, Pi.mul_apply]
    ring
  refine ⟨?_, ?_, ?_⟩
  · refine key (N := fun t => Grad.normal (leaf (fin t)) (const (fin m)) (const (fin s)))
      (Tr.leaf.normal (Tr.const m) (Tr.const s) hs) ((core (((hasDerivAt_id y).sub_const m).div_const s)
        (hasDerivAt_const y s)).congr_deriv ?_)
    simp only [id]; field_simp; ring
  · refine key (N := fun t => Grad.normal (const (fin y)) (leaf (fin t)) (const (fin s)))
      ((Tr.const y).normal Tr.leaf (Tr.const s) hs) ((core (((hasDerivAt_id m).const_sub y).div_const s)
        (hasDerivAt_const m s)).congr_deriv ?_)
    simp only [id]; field_simp; ring
  · refine key (N := fun t => Grad.normal (const (fin y)) (const (fin m)) (leaf (fin t)))
      ((Tr.const y).normal (Tr.const m) Tr.leaf hs) ((core (((hasDerivAt_const s (y - m)).div (hasDerivAt_id s)
        hs.ne')) (hasDerivAt_id s)).congr_deriv ?_)
    simp only [id, Pi.div_apply]
    generalize Φ ((y - m) / s) = a
    generalize φ ((y - m) / s) = b
    generalize 1 / Real.sqrt Real.pi = c
    field_simp; ring

example : (0 : ℝ) < 2 := by norm_num

/-- `crps_logistic`. -/
theorem C132_logistic (y m : ℝ) {s : ℝ} (hs : 0 < s) :
    IsGradient (fun t => Closed.logistic t (fin m) (fin s)) y
      (Grad.logistic (leaf (fin y)) (const (fin m)) (const (fin s))).grad ∧
    IsGradient (fun t => Closed.logistic (fin y) t (fin s)) m
      (Grad.logistic (const (fin y)) (leaf (fin m)) (const (fin s))).grad ∧
    IsGradient (fun t => Closed.logistic (fin y) (fin m) t) s
      (Grad.logistic (const (fin y)) (const (fin m)) (leaf (fin s))).grad :=
  ⟨(Tr.leaf.logistic (Tr.const m) (Tr.const s) hs).isGradient fun _ => rfl,
    ((Tr.const y).logistic Tr.leaf (Tr.const s) hs).isGradient fun _ => rfl,
    ((Tr.const y).logistic (Tr.const m) Tr.leaf hs).isGradient fun _ => rfl⟩

example : (0 : ℝ) < 2 := by norm_num

/-- `crps_laplace`, for an observation different from the location. -/
theorem C132_laplace {y m s : ℝ} (hs : 0 < s) (hne : y ≠ m) :
    IsGradient (fun t => Closed.laplace t (fin m) (fin s)) y
      (Grad.laplace (leaf (fin y)) (const (fin m)) (const (fin s))).grad ∧
    IsGradient (fun t => Closed.laplace (fin y) t (fin s)) m
      (Grad.laplace (const (fin y)) (leaf (fin m)) (const (fin s))).grad ∧
    IsGradient (fun t => Closed.laplace (fin y) (fin m) t) s
      (Grad.laplace (const (fin y)) (const (fin m)) (leaf (fin s))).grad :=
  ⟨(Tr.leaf.laplace (Tr.const m) (Tr.const s) hs hne).isGradient fun _ => rfl,
    ((Tr.const y).laplace Tr.leaf (Tr.const s) hs hne).isGradient fun _ => rfl,
    ((Tr.const y).laplace (Tr.const m) Tr.leaf hs hne).isGradient fun _ => rfl⟩

example : (0 : ℝ) < 2 ∧ (1 : ℝ) ≠ 0 := by norm_num

/-- `crps_lognormal`, for a positive observation. -/
theorem C132_lognormal {y s : ℝ} (m : ℝ) (hs : 0 < s) (hy : 0 < y) :
    IsGradient (fun t => Closed.lognormal t (fin m) (fin s)) y
      (Grad.lognormal (leaf (fin y)) (const (fin m)) (const (fin s))).grad ∧
    IsGradient (fun t => Closed.lognormal (fin y) t (fin s)) m
      (Grad.lognormal (const (fin y)) (leaf (fin m)) (const (fin s))).grad ∧
    IsGradient (fun t => Closed.lognormal (fin y) (fin m) t) s
      (Grad.lognormal (const (fin y)) (const (fin m)) (leaf (fin s))).grad := by
  obtain ⟨_, h1⟩ := (Tr.leaf (θ := y)).lognormal (Tr.const m) (Tr.const s) hs hy
  obtain ⟨_, h2⟩ := (Tr.const (θ := m) y).lognormal Tr.leaf (Tr.const s) hs hy
  obtain ⟨_, h3⟩ := (Tr.const (θ := s) y).lognormal (Tr.const m) Tr.leaf hs hy
  exact ⟨h1.isGradient fun _ => rfl, h2.isGradient fun _ => rfl, h3.isGradient fun _ => rfl⟩

example : (0 : ℝ) < 2 ∧ (0 : ℝ) < 1 := by norm_num

/-! ### truncated and censored normal -/

/-- `crps_gtcnormal` and `crps_tnormal` with an infinite bound, which is the default: the gradients with respect to
the location and the scale are NaN, whatever the observation, the other bound and the point masses. -/
theorem C132_gtcnormal_false (y l u L U : XF) (m : ℝ) {s : ℝ} (hs : 0 < s) (h : l = ninf ∨ u = pinf) :
    (Grad.gtcnormal (const y) (leaf (fin m)) (const (fin s)) (const l) (const u) (const L) (const U)).grad = nan ∧
    (Grad.gtcnormal (const y) (const (fin m)) (leaf (fin s)) (const l) (const u) (const L) (const U)).grad = nan ∧
    (Grad.tnormal (const y) (leaf (fin m)) (const (fin s)) (const l) (const u)).grad = nan ∧
    (Grad.tnormal (const y) (const (fin m)) (leaf (fin s)) (const l) (const u)).grad = nan ∧
    (Grad.cnormal (const y) (leaf (fin m)) (const (fin s)) (const l) (const u)).grad = nan ∧
    (Grad.cnormal (const y) (const (fin m)) (leaf (fin s)) (const l) (const u)).grad = nan := by
  have hl := bound_bad (m := m) hs (x := l)
  have hu := bound_bad (m := m) hs (x := u)
  have h1 : ∀ a b c : Node, Bad (Grad.gtcnormal a (leaf (fin m)) (const (fin s)) (const l) (const u) b c) := by
    intro a b c
    rcases h with h | h
    · exact gtc_bad (Or.inr ⟨(hl.2.2 h).1, hl.1.1⟩)
    · exact gtc_bad (Or.inl ⟨(hu.2.1 h).1, hu.1.1⟩)
  have h2 : ∀ a b c : Node, Bad (Grad.gtcnormal a (const (fin m)) (leaf (fin s)) (const l) (const u) b c) := by
    intro a b c
    rcases h with h | h
    · exact gtc_bad (Or.inr ⟨(hl.2.2 h).2, hl.1.2⟩)
    · exact gtc_bad (Or.inl ⟨(hu.2.1 h).2, hu.1.2⟩)
  exact ⟨h1 _ _ _ _, h2 _ _ _ _, h1 _ _ _ _, h2 _ _ _ _, h1 _ _ _ _, h2 _ _ _ _⟩

example : (0 : ℝ) < 1 ∧ ((fin 0 : XF) = ninf ∨ (pinf : XF) = pinf) := ⟨one_pos, Or.inr rfl⟩

/-- ... although the score has derivatives: without bounds it is the CRPS of the normal distribution. -/
theorem C132_tnormal_false (y m : ℝ) {s : ℝ} (hs : 0 < s) :
    (HasGradient (fun t => Closed.tnormal (fin y) t (fin s) ninf pinf) m ∧
      ¬ IsGradient (fun t => Closed.tnormal (fin y) t (fin s) ninf pinf) m
        (Grad.tnormal (const (fin y)) (leaf (fin m)) (const (fin s)) (const ninf) (const pinf)).grad) ∧
    (HasGradient (fun t => Closed.tnormal (fin y) (fin m) t ninf pinf) s ∧
      ¬ IsGradient (fun t => Closed.tnormal (fin y) (fin m) t ninf pinf) s
        (Grad.tnormal (const (fin y)) (const (fin m)) (leaf (fin s)) (const ninf) (const pinf)).grad) := by
  have hn := C132_gtcnormal_false (fin y) ninf pinf 0 0 m hs (Or.inl rfl)
  obtain ⟨_, ⟨f, d, hv, hd, e⟩, ⟨f', d', hv', hd', e'⟩⟩ := C132_normal y m hs
  refine ⟨⟨⟨_, f, d, ?_, hd, e⟩, ?_⟩, ⟨_, f', d', ?_, hd', e'⟩, ?_⟩
  · filter_upwards [hv] with t ht
    rw [(C52_gtcnormal_normal hs t y).2.1, ht]
  · rw [hn.2.2.1]; exact not_isGradient_nan _ _
  · filter_upwards [hv', lt_mem_nhds hs] with t ht h0
    rw [(C52_gtcnormal_normal h0 m y).2.1, ht]
  · rw [hn.2.2.2.1]; exact not_isGradient_nan _ _

example : (0 : ℝ) < 1 := one_pos

/-- ... and with a lower bound below the observation (the usual truncation at 0) it has derivatives as well. -/
theorem C132_tnormal_lower_false {y l s : ℝ} (m : ℝ) (hs : 0 < s) (hy : l < y) :
    (HasGradient (fun t => Closed.tnormal (fin y) t (fin s) (fin l) pinf) m ∧
      ¬ IsGradient (fun t => Closed.tnormal (fin y) t (fin s) (fin l) pinf) m
        (Grad.tnormal (const (fin y)) (leaf (fin m)) (const (fin s)) (const (fin l)) (const pinf)).grad) ∧
    (HasGradient (fun t => Closed.tnormal (fin y) (fin m) t (fin l) pinf) s ∧
      ¬ IsGradient (fun t => Closed.tnormal (fin y) (fin m) t (fin l) pinf) s
        (Grad.tnormal (const (fin y)) (const (fin m)) (leaf (fin s)) (const (fin l)) (const pinf)).grad) := by
  have hn := C132_gtcnormal_false (fin y) (fin l) pinf 0 0 m hs (Or.inr rfl)
  obtain ⟨F, hval, hd⟩ : ∃ F : ℝ → ℝ → ℝ,
      (∀ {a b : ℝ}, 0 < b → Closed.tnormal (fin y) (fin a) (fin b) (fin l) pinf = fin (F a b)) ∧
      ∀ {a b : ℝ → ℝ} {θ : ℝ}, DifferentiableAt ℝ a θ → DifferentiableAt ℝ b θ → b θ ≠ 0 →
        DifferentiableAt ℝ (fun t => F (a t) (b t)) θ := by
    refine ⟨fun a b => b * (1 / (1 - Φ ((l - a) / b)) * ((y - a) / b)
        * (2 * Φ ((y - a) / b) - (1 + Φ ((l - a) / b)))
        + 1 / (1 - Φ ((l - a) / b)) * (2 * φ ((y - a) / b))
        - (1 / (1 - Φ ((l - a) / b))) ^ 2 * (1 - Φ ((l - a) / b * Real.sqrt 2)) / Real.sqrt Real.pi), ?_, ?_⟩
    · intro a b hb
      have hz : max ((y - a) / b) ((l - a) / b) = (y - a) / b :=
        max_eq_left ((div_le_div_iff_of_pos_right hb).2 (by linarith))
      unfold Closed.tnormal
      rw [zero_def, gtcnormal_lo hb (by norm_num : (0:ℝ) ≠ 1)]
      simp only [hz, sub_self, abs_zero]
      congr 1; ring_nf
    · intro a b θ ha hb h0
      have hne : 1 - Φ ((l - a θ) / b θ) ≠ 0 := (sub_pos.2 (Φ_lt_one _)).ne'
      have hy' : DifferentiableAt ℝ (fun t => (y - a t) / b t) θ := by fun_prop (disch := assumption)
      have hl' : DifferentiableAt ℝ (fun t => (l - a t) / b t) θ := by fun_prop (disch := assumption)
      have h1 : DifferentiableAt ℝ (fun t => Φ ((y - a t) / b t)) θ := (Φ_differentiable _).comp θ hy'
      have h2 : DifferentiableAt ℝ (fun t => φ ((y - a t) / b t)) θ := (φ_differentiable _).comp θ hy'
      have h3 : DifferentiableAt ℝ (fun t => Φ ((l - a t) / b t)) θ := (Φ_differentiable _).comp θ hl'
      have h4 : DifferentiableAt ℝ (fun t => Φ ((l - a t) / b t * Real.sqrt 2)) θ :=
        (Φ_differentiable _).comp θ (hl'.mul_const _)
      have h5 : DifferentiableAt ℝ (fun t => 1 / (1 - Φ ((l - a t) / b t))) θ :=
        (differentiableAt_const _).div ((differentiableAt_const _).sub h3) hne
      exact hb.mul ((((h5.mul hy').mul ((h1.const_mul 2).sub (h3.const_add 1))).add (h5.mul (h2.const_mul 2))).sub
        (((h5.pow 2).mul (h4.const_sub 1)).div_const _))
  refine ⟨⟨hasGradient_of (Eventually.of_forall fun t => hval hs)
      (hd differentiableAt_id (differentiableAt_const s) hs.ne'), ?_⟩,
    hasGradient_of (f := fun t => F m t) ?_ (hd (differentiableAt_const m) differentiableAt_id hs.ne'), ?_⟩
  · rw [hn.2.2.1]; exact not_isGradient_nan _ _
  · filter_upwards [lt_mem_nhds hs] with t ht
    exact hval ht
  · rw [hn.2.2.2.1]; exact not_isGradient_nan _ _

example : (0 : ℝ) < 1 ∧ (0 : ℝ) < 2 := by norm_num

/-- `crps_gtcnormal` with finite bounds around the observation: all gradients are derivatives. -/
theorem C132_gtcnormal_partial {y m s l u L U : ℝ} (hs : 0 < s) (hl : l < y) (hu : y < u) (hLU : L + U ≠ 1) :
    IsGradient (fun t => Closed.gtcnormal t (fin m) (fin s) (fin l) (fin u) (fin L) (fin U)) y
      (Grad.gtcnormal (leaf (fin y)) (const (fin m)) (const (fin s)) (const (fin l)) (const (fin u))
        (const (fin L)) (const (fin U))).grad ∧
    IsGradient (fun t => Closed.gtcnormal (fin y) t (fin s) (fin l) (fin u) (fin L) (fin U)) m
      (Grad.gtcnormal (const (fin y)) (leaf (fin m)) (const (fin s)) (const (fin l)) (const (fin u))
        (const (fin L)) (const (fin U))).grad ∧
    IsGradient (fun t => Closed.gtcnormal (fin y) (fin m) t (fin l) (fin u) (fin L) (fin U)) s
      (Grad.gtcnormal (const (fin y)) (const (fin m)) (leaf (fin s)) (const (fin l)) (const (fin u))
        (const (fin L)) (const (fin U))).grad ∧
    IsGradient (fun t => Closed.gtcnormal (fin y) (fin m) (fin s) t (fin u) (fin L) (fin U)) l
      (Grad.gtcnormal (const (fin y)) (const (fin m)) (const (fin s)) (leaf (fin l)) (const (fin u))
        (const (fin L)) (const (fin U))).grad ∧
    IsGradient (fun t => Closed.gtcnormal (fin y) (fin m) (fin s) (fin l) (fin u) t (fin U)) L
      (Grad.gtcnormal (const (fin y)) (const (fin m)) (const (fin s)) (const (fin l)) (const (fin u))
        (leaf (fin L)) (const (fin U))).grad := by
  obtain ⟨_, h1⟩ := Tr.gtcnormal (θ := y) Tr.leaf (Tr.const m) (Tr.const s) (Tr.const l) (Tr.const u)
    (Tr.const L) (Tr.const U) hs hl hu hLU
  obtain ⟨_, h2⟩ := Tr.gtcnormal (θ := m) (Tr.const y) Tr.leaf (Tr.const s) (Tr.const l) (Tr.const u)
    (Tr.const L) (Tr.const U) hs hl hu hLU
  obtain ⟨_, h3⟩ := Tr.gtcnormal (θ := s) (Tr.const y) (Tr.const m) Tr.leaf (Tr.const l) (Tr.const u)
    (Tr.const L) (Tr.const U) hs hl hu hLU
  obtain ⟨_, h4⟩ := Tr.gtcnormal (θ := l) (Tr.const y) (Tr.const m) (Tr.const s) Tr.leaf (Tr.const u)
    (Tr.const L) (Tr.const U) hs hl hu hLU
  obtain ⟨_, h5⟩ := Tr.gtcnormal (θ := L) (Tr.const y) (Tr.const m) (Tr.const s) (Tr.const l) (Tr.const u)
    Tr.leaf (Tr.const U) hs hl hu hLU
  have hv := gtcnormal_val
  exact ⟨h1.isGradient fun _ => hv _ _ _ _ _ _ _, h2.isGradient fun _ => hv _ _ _ _ _ _ _,
    h3.isGradient fun _ => hv _ _ _ _ _ _ _, h4.isGradient fun _ => hv _ _ _ _ _ _ _,
    h5.isGradient fun _ => hv _ _ _ _ _ _ _⟩

example : (0 : ℝ) < 1 ∧ (0 : ℝ) < 1 ∧ (1 : ℝ) < 2 ∧ (1 / 4 + 1 / 4 : ℝ) ≠ 1 := by norm_num

/-- `crps_tnormal` and `crps_cnormal` with finite bounds around the observation: the gradients with respect to the
observation, the location and the scale are derivatives. -/
theorem C132_tnormal_cnormal_partial {y s l u : ℝ} (m : ℝ) (hs : 0 < s) (hl : l < y) (hu : y < u) :
    (IsGradient (fun t => Closed.tnormal t (fin m) (fin s) (fin l) (fin u)) y
      (Grad.tnormal (leaf (fin y)) (const (fin m)) (const (fin s)) (const (fin l)) (const (fin u))).grad ∧
    IsGradient (fun t => Closed.tnormal (fin y) t (fin s) (fin l) (fin u)) m
      (Grad.tnormal (const (fin y)) (leaf (fin m)) (const (fin s)) (const (fin l)) (const (fin u))).grad ∧
    IsGradient (fun t => Closed.tnormal (fin y) (fin m) t (fin l) (fin u)) s
      (Grad.tnormal (const (fin y)) (const (fin m)) (leaf (fin s)) (const (fin l)) (const (fin u))).grad) ∧
    (IsGradient (fun t => Closed.cnormal t (fin m) (fin s) (fin l) (fin u)) y
      (Grad.cnormal (leaf (fin y)) (const (fin m)) (const (fin s)) (const (fin l)) (const (fin u))).grad ∧
    IsGradient (fun t => Closed.cnormal (fin y) t (fin s) (fin l) (fin u)) m
      (Grad.cnormal (const (fin y)) (leaf (fin m)) (const (fin s)) (const (fin l)) (const (fin u))).grad ∧
    IsGradient (fun t => Closed.cnormal (fin y) (fin m) t (fin l) (fin u)) s
      (Grad.cnormal (const (fin y)) (const (fin m)) (leaf (fin s)) (const (fin l)) (const (fin u))).grad) := by
  have hv := gtcnormal_val
  have T : ∀ {Y M S : ℝ → Node} {fy fm fs : ℝ → ℝ} {θ : ℝ}, Tr Y fy θ → Tr M fm θ → Tr S fs θ → 0 < fs θ →
      l < fy θ → fy θ < u →
      ∃ f, Tr (fun t => Grad.tnormal (Y t) (M t) (S t) (const (fin l)) (const (fin u))) f θ := by
    intro Y M S fy fm fs θ hY hM hS h0 h1 h2
    exact hY.gtcnormal hM hS (Tr.const l) (Tr.const u) (Tr.const 0) (Tr.const 0) h0 h1 h2 (by norm_num)
  have C : ∀ {Y M S : ℝ → Node} {fy fm fs : ℝ → ℝ} {θ : ℝ}, Tr Y fy θ → Tr M fm θ → Tr S fs θ → 0 < fs θ →
      l < fy θ → fy θ < u →
      ∃ f, Tr (fun t => Grad.cnormal (Y t) (M t) (S t) (const (fin l)) (const (fin u))) f θ := by
    intro Y M S fy fm fs θ hY hM hS h0 h1 h2
    have hL := (((Tr.const l).sub hM).div hS h0.ne').normCdf
    have hU := Tr.one.sub (((Tr.const u).sub hM).div hS h0.ne').normCdf
    have hlt : Φ ((l - fm θ) / fs θ) < Φ ((u - fm θ) / fs θ) :=
      Φ_strictMono ((div_lt_div_iff_of_pos_right h0).2 (by linarith))
    refine hY.gtcnormal hM hS (Tr.const l) (Tr.const u) hL hU h0 h1 h2 ?_
    show Φ ((l - fm θ) / fs θ) + (1 - Φ ((u - fm θ) / fs θ)) ≠ 1
    exact fun h => hlt.ne (by linarith)
  obtain ⟨_, h1⟩ := T (Tr.leaf (θ := y)) (Tr.const m) (Tr.const s) hs hl hu
  obtain ⟨_, h2⟩ := T (Tr.const y) (Tr.leaf (θ := m)) (Tr.const s) hs hl hu
  obtain ⟨_, h3⟩ := T (Tr.const y) (Tr.const m) (Tr.leaf (θ := s)) hs hl hu
  obtain ⟨_, h4⟩ := C (Tr.leaf (θ := y)) (Tr.const m) (Tr.const s) hs hl hu
  obtain ⟨_, h5⟩ := C (Tr.const y) (Tr.leaf (θ := m)) (Tr.const s) hs hl hu
  obtain ⟨_, h6⟩ := C (Tr.const y) (Tr.const m) (Tr.leaf (θ := s)) hs hl hu
  exact ⟨⟨h1.isGradient fun _ => hv _ _ _ _ _ _ _, h2.isGradient fun _ => hv _ _ _ _ _ _ _,
    h3.isGradient fun _ => hv _ _ _ _ _ _ _⟩, h4.isGradient fun _ => hv _ _ _ _ _ _ _,
    h5.isGradient fun _ => hv _ _ _ _ _ _ _, h6.isGradient fun _ => hv _ _ _ _ _ _ _⟩

example : (0 : ℝ) < 1 ∧ (0 : ℝ) < 1 ∧ (1 : ℝ) < 2 := by norm_num

end Verif
