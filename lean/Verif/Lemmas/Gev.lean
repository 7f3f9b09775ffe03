import Verif.Spec.Gev
import Verif.Lemmas.GammaInt
import Verif.Lemmas.Density2
import Verif.Lemmas.DensCrps

/-!
# The CRPS of the generalised extreme value distribution, shape other than zero
-/

noncomputable section

open scoped Classical Topology
open MeasureTheory Filter Set

namespace Verif

open Spec

/-- Two pieces glued at zero. -/
def glue (φ ψ : ℝ → ℝ) (A : ℝ) : ℝ := if 0 < A then φ A else ψ A

theorem glue_pos {φ ψ : ℝ → ℝ} {A : ℝ} (h : 0 < A) : glue φ ψ A = φ A := if_pos h

theorem glue_neg {φ ψ : ℝ → ℝ} {A : ℝ} (h : A ≤ 0) : glue φ ψ A = ψ A := if_neg (not_lt.2 h)

theorem glue_eq_pos {φ ψ : ℝ → ℝ} {A : ℝ} (h : 0 < A) : glue φ ψ =ᶠ[𝓝 A] φ := by
  filter_upwards [lt_mem_nhds h] with z hz using glue_pos hz

theorem glue_eq_neg {φ ψ : ℝ → ℝ} {A : ℝ} (h : A < 0) : glue φ ψ =ᶠ[𝓝 A] ψ := by
  filter_upwards [gt_mem_nhds h] with z hz using glue_neg hz.le

theorem glue_cont {φ ψ : ℝ → ℝ} (hφ : ∀ A, 0 < A → ContinuousAt φ A) (hψ : Continuous ψ)
    (h0 : Tendsto φ (𝓝[>] 0) (𝓝 (ψ 0))) : Continuous (glue φ ψ) := by
  rw [continuous_iff_continuousAt]
  intro A
  rcases lt_trichotomy A 0 with h | h | h
  · exact hψ.continuousAt.congr (glue_eq_neg h).symm
  · subst h
    rw [continuousAt_iff_continuous_left'_right']
    constructor
    · have : Tendsto ψ (𝓝[<] 0) (𝓝 (ψ 0)) := hψ.continuousAt.tendsto.mono_left nhdsWithin_le_nhds
      unfold ContinuousWithinAt
      rw [glue_neg le_rfl]
      refine this.congr' ?_
      filter_upwards [self_mem_nhdsWithin] with z hz using (glue_neg (le_of_lt hz)).symm
    · unfold ContinuousWithinAt
      rw [glue_neg le_rfl]
      refine h0.congr' ?_
      filter_upwards [self_mem_nhdsWithin] with z hz using (glue_pos hz).symm
  · exact (hφ A h).congr (glue_eq_pos h).symm

theorem glue_atTop {φ ψ : ℝ → ℝ} {c : Filter ℝ} (h : Tendsto φ atTop c) : Tendsto (glue φ ψ) atTop c :=
  h.congr' (by filter_upwards [eventually_gt_atTop 0] with z hz using (glue_pos hz).symm)

theorem glue_atBot {φ ψ : ℝ → ℝ} {c : Filter ℝ} (h : Tendsto ψ atBot c) : Tendsto (glue φ ψ) atBot c :=
  h.congr' (by filter_upwards [eventually_le_atBot 0] with z hz using (glue_neg hz).symm)

/-- Upper incomplete gamma function with parameter `1 - ξ`. -/
def gevU (ξ w : ℝ) : ℝ := Real.Gamma (1 - ξ) - prim (gK (1 - ξ)) w

theorem gevU_zero (ξ : ℝ) : gevU ξ 0 = Real.Gamma (1 - ξ) := by rw [gevU, prim_gK_neg le_rfl, sub_zero]

section
variable {ξ : ℝ} (h1 : ξ < 1)
include h1

theorem gevU_cont : Continuous (gevU ξ) :=
  continuous_const.sub (prim_cont (gK_integrable (by linarith)))

theorem gevU_atTop : Tendsto (gevU ξ) atTop (𝓝 0) := by
  have := (prim_atTop (gK_integrable (a := 1 - ξ) (by linarith))).const_sub (Real.Gamma (1 - ξ))
  rwa [gK_integral (by linarith), sub_self] at this

theorem gevU_deriv {w : ℝ} (hw : 0 < w) : HasDerivAt (gevU ξ) (-(w ^ (-ξ) * Real.exp (-w))) w := by
  have := (prim_deriv (gK_integrable (a := 1 - ξ) (by linarith)) (gK_cont _ w hw.ne')).const_sub
    (Real.Gamma (1 - ξ))
  rwa [gK_pos _ hw, show 1 - ξ - 1 = -ξ by ring] at this

end

/-- Primitive of the `c`-th power of the distribution function, inside the support. -/
def gevφ (c ξ A : ℝ) : ℝ :=
  A / ξ * Real.exp (-(c * A ^ (-1 / ξ))) - c ^ ξ * gevU ξ (c * A ^ (-1 / ξ)) / ξ

/-- The same outside. -/
def gevψ (c ξ A : ℝ) : ℝ := if 0 < ξ then 0 else A / ξ - c ^ ξ * Real.Gamma (1 - ξ) / ξ

def gevP (c ξ : ℝ) : ℝ → ℝ := glue (gevφ c ξ) (gevψ c ξ)

def gevFA (ξ : ℝ) : ℝ → ℝ := glue (fun A => Real.exp (-A ^ (-1 / ξ))) (fun _ => if 0 < ξ then 0 else 1)

theorem cdfGev0_eq {ξ : ℝ} (hξ : ξ ≠ 0) (x : ℝ) : cdfGev0 ξ x = gevFA ξ (1 + ξ * x) := by
  rw [cdfGev0, if_neg hξ]; rfl

theorem gevw_deriv {ξ A : ℝ} (hA : 0 < A) :
    HasDerivAt (fun A : ℝ => A ^ (-1 / ξ)) (-(A ^ (-1 / ξ) / A) / ξ) A := by
  refine (Real.hasDerivAt_rpow_const (p := -1 / ξ) (Or.inl hA.ne')).congr_deriv ?_
  rw [Real.rpow_sub_one hA.ne']; ring

theorem gevφ_deriv {c ξ A : ℝ} (hc : 0 < c) (hξ : ξ ≠ 0) (h1 : ξ < 1) (hA : 0 < A) :
    HasDerivAt (gevφ c ξ) (Real.exp (-(c * A ^ (-1 / ξ))) / ξ) A := by
  have hw : 0 < A ^ (-1 / ξ) := Real.rpow_pos_of_pos hA _
  have dw := (gevw_deriv (ξ := ξ) hA).const_mul c
  have dU := (gevU_deriv h1 (mul_pos hc hw)).comp A dw
  have d := (((hasDerivAt_id A).div_const ξ).mul dw.neg.exp).sub ((dU.const_mul (c ^ ξ)).div_const ξ)
  refine d.congr_deriv ?_
  have e : c ^ ξ * (c * A ^ (-1 / ξ)) ^ (-ξ) = A := by
    rw [Real.mul_rpow hc.le hw.le, ← mul_assoc, ← Real.rpow_add hc, add_neg_cancel, Real.rpow_zero, one_mul,
      ← Real.rpow_mul hA.le, show -1 / ξ * -ξ = 1 by field_simp, Real.rpow_one]
  have hA' := hA.ne'
  simp only [id, Pi.neg_apply]
  have e2 : c ^ ξ * (-((c * A ^ (-1 / ξ)) ^ (-ξ) * Real.exp (-(c * A ^ (-1 / ξ))))
      * (c * (-(A ^ (-1 / ξ) / A) / ξ))) = A * Real.exp (-(c * A ^ (-1 / ξ))) * (c * (A ^ (-1 / ξ) / A) / ξ) := by
    linear_combination (Real.exp (-(c * A ^ (-1 / ξ))) * (c * (A ^ (-1 / ξ) / A) / ξ)) * e
  rw [e2]
  generalize Real.exp (-(c * A ^ (-1 / ξ))) = E
  generalize A ^ (-1 / ξ) = w
  field_simp
  ring

theorem gevψ_deriv {c ξ : ℝ} (hξ : ξ ≠ 0) (A : ℝ) :
    HasDerivAt (gevψ c ξ) ((if 0 < ξ then 0 else 1) / ξ) A := by
  unfold gevψ
  split_ifs with h
  · simpa using hasDerivAt_const A (0:ℝ)
  · exact ((hasDerivAt_id A).div_const ξ).sub_const _

theorem w_zero_pos {ξ : ℝ} (h : 0 < ξ) : Tendsto (fun A : ℝ => A ^ (-1 / ξ)) (𝓝[>] 0) atTop :=
  tendsto_rpow_neg_nhdsGT_zero (div_neg_of_neg_of_pos (by norm_num) h)

theorem w_zero_neg {ξ : ℝ} (h : ξ < 0) : Tendsto (fun A : ℝ => A ^ (-1 / ξ)) (𝓝[>] 0) (𝓝 0) := by
  have hp : 0 < -1 / ξ := div_pos_of_neg_of_neg (by norm_num) h
  have := (Real.continuousAt_rpow_const 0 (-1 / ξ) (Or.inr hp.le)).tendsto
  rw [Real.zero_rpow hp.ne'] at this
  exact this.mono_left nhdsWithin_le_nhds

theorem w_top_pos {ξ : ℝ} (h : 0 < ξ) : Tendsto (fun A : ℝ => A ^ (-1 / ξ)) atTop (𝓝 0) := by
  have := tendsto_rpow_neg_atTop (y := 1 / ξ) (by positivity)
  simpa only [neg_div] using this

theorem w_top_neg {ξ : ℝ} (h : ξ < 0) : Tendsto (fun A : ℝ => A ^ (-1 / ξ)) atTop atTop :=
  tendsto_rpow_atTop (div_pos_of_neg_of_neg (by norm_num) h)

theorem exp_neg_atTop {f : ℝ → ℝ} {l : Filter ℝ} {c : ℝ} (hc : 0 < c) (h : Tendsto f l atTop) :
    Tendsto (fun A => Real.exp (-(c * f A))) l (𝓝 0) :=
  Real.tendsto_exp_atBot.comp (tendsto_neg_atTop_atBot.comp (h.const_mul_atTop hc))

theorem exp_neg_zero {f : ℝ → ℝ} {l : Filter ℝ} (c : ℝ) (h : Tendsto f l (𝓝 0)) :
    Tendsto (fun A => Real.exp (-(c * f A))) l (𝓝 1) := by
  have := (h.const_mul c).neg.rexp
  simpa using this

theorem gevP_cont {c ξ : ℝ} (hc : 0 < c) (hξ : ξ ≠ 0) (h1 : ξ < 1) : Continuous (gevP c ξ) := by
  refine glue_cont (fun A hA => (gevφ_deriv hc hξ h1 hA).continuousAt)
    (continuous_iff_continuousAt.2 fun A => (gevψ_deriv hξ A).continuousAt) ?_
  have hid : Tendsto (fun A : ℝ => A / ξ) (𝓝[>] 0) (𝓝 0) := by
    have : Tendsto (fun A : ℝ => A / ξ) (𝓝 0) (𝓝 (0 / ξ)) := tendsto_id.div_const ξ
    rw [zero_div] at this
    exact this.mono_left nhdsWithin_le_nhds
  rcases lt_or_gt_of_ne hξ with h | h
  · have hw := w_zero_neg h
    have hU : Tendsto (fun A : ℝ => gevU ξ (c * A ^ (-1 / ξ))) (𝓝[>] 0) (𝓝 (Real.Gamma (1 - ξ))) := by
      have := ((gevU_cont h1).tendsto 0).comp (by simpa using hw.const_mul c)
      rwa [gevU_zero] at this
    have := (hid.mul (exp_neg_zero c hw)).sub ((hU.const_mul (c ^ ξ)).div_const ξ)
    rw [gevψ, if_neg (not_lt.2 h.le), zero_div]
    rwa [zero_mul] at this
  · have hw := w_zero_pos h
    have hU := (gevU_atTop h1).comp (hw.const_mul_atTop hc)
    have := (hid.mul (exp_neg_atTop hc hw)).sub ((hU.const_mul (c ^ ξ)).div_const ξ)
    rw [gevψ, if_pos h]
    rw [zero_mul, mul_zero, zero_div, sub_zero] at this
    exact this

theorem gevP_deriv {c ξ A : ℝ} (hc : 0 < c) (hξ : ξ ≠ 0) (h1 : ξ < 1) (hA : A ≠ 0) :
    HasDerivAt (gevP c ξ)
      (glue (fun A => Real.exp (-(c * A ^ (-1 / ξ)))) (fun _ => if 0 < ξ then 0 else 1) A / ξ) A := by
  rcases lt_or_gt_of_ne hA with h | h
  · rw [glue_neg h.le]; exact (gevψ_deriv hξ A).congr_of_eventuallyEq (glue_eq_neg h)
  · rw [glue_pos h]; exact (gevφ_deriv hc hξ h1 h).congr_of_eventuallyEq (glue_eq_pos h)

/-- The integrand of the second primitive is `1 - 2 F + F²`. -/
def gevQ (ξ A : ℝ) : ℝ := (A - 1) / ξ - 2 * gevP 1 ξ A + gevP 2 ξ A

/-- Value of `∫ F (1 - F)`-type constants: the limit of the second primitive. -/
def gevq (ξ : ℝ) : ℝ := -1 / ξ + (2 - (2:ℝ) ^ ξ) * Real.Gamma (1 - ξ) / ξ

theorem gevFA_sq (ξ A : ℝ) :
    glue (fun A => Real.exp (-(2 * A ^ (-1 / ξ)))) (fun _ => if 0 < ξ then 0 else 1) A = gevFA ξ A ^ 2 := by
  unfold gevFA glue
  split_ifs
  · rw [← Real.exp_nat_mul]; push_cast; ring_nf
  · norm_num
  · norm_num

theorem gevFA_one (ξ A : ℝ) :
    glue (fun A => Real.exp (-(1 * A ^ (-1 / ξ)))) (fun _ => if 0 < ξ then 0 else 1) A = gevFA ξ A := by
  simp only [gevFA, one_mul]

theorem gevP_out {c ξ A : ℝ} (h : 0 < ξ) (hA : A ≤ 0) : gevP c ξ A = 0 := by
  rw [gevP, glue_neg hA, gevψ, if_pos h]

theorem gevP_atTop_neg {c ξ : ℝ} (hc : 0 < c) (h : ξ < 0) : Tendsto (gevP c ξ) atTop (𝓝 0) := by
  refine glue_atTop ?_
  have hw := w_top_neg h
  have hU := (gevU_atTop (by linarith)).comp (hw.const_mul_atTop hc)
  have h2 : Tendsto (fun A : ℝ => A / ξ * Real.exp (-(c * A ^ (-1 / ξ)))) atTop (𝓝 0) := by
    have := ((tendsto_rpow_mul_exp_neg_mul_atTop_nhds_zero (-ξ) c hc).comp hw).div_const ξ
    rw [zero_div] at this
    refine this.congr' ?_
    filter_upwards [eventually_gt_atTop 0] with A hA
    have hne : ξ ≠ 0 := h.ne
    simp only [Function.comp]
    rw [← Real.rpow_mul hA.le, show -1 / ξ * -ξ = 1 by field_simp, Real.rpow_one]
    ring_nf
  have := h2.sub ((hU.const_mul (c ^ ξ)).div_const ξ)
  rw [mul_zero, zero_div, sub_zero] at this
  exact this

theorem gevQ_atTop_pos {ξ : ℝ} (h : 0 < ξ) (h1 : ξ < 1) : Tendsto (gevQ ξ) atTop (𝓝 (gevq ξ)) := by
  have hw := w_top_pos h
  have hU : ∀ c : ℝ, Tendsto (fun A : ℝ => gevU ξ (c * A ^ (-1 / ξ))) atTop (𝓝 (Real.Gamma (1 - ξ))) := by
    intro c
    have := ((gevU_cont h1).tendsto 0).comp (by simpa using hw.const_mul c)
    rwa [gevU_zero] at this
  have h2 : Tendsto (fun A : ℝ => A * (1 - Real.exp (-A ^ (-1 / ξ))) ^ 2) atTop (𝓝 0) := by
    have h3 : Tendsto (fun A : ℝ => A ^ (-(2 / ξ - 1))) atTop (𝓝 0) := by
      refine tendsto_rpow_neg_atTop ?_
      rw [sub_pos, lt_div_iff₀ h]; linarith
    refine squeeze_zero' ?_ ?_ h3
    · filter_upwards [eventually_gt_atTop 0] with A hA
      positivity
    · filter_upwards [eventually_gt_atTop 0] with A hA
      have hp : 0 < A ^ (-1 / ξ) := Real.rpow_pos_of_pos hA _
      have b1 := Real.add_one_le_exp (-A ^ (-1 / ξ))
      have b0 : Real.exp (-A ^ (-1 / ξ)) ≤ 1 := Real.exp_le_one_iff.2 (by linarith)
      calc A * (1 - Real.exp (-A ^ (-1 / ξ))) ^ 2 ≤ A * (A ^ (-1 / ξ)) ^ 2 := by
            refine mul_le_mul_of_nonneg_left ?_ hA.le
            exact pow_le_pow_left₀ (by linarith) (by linarith) 2
        _ = A ^ (-(2 / ξ - 1)) := by
            rw [← Real.rpow_natCast, ← Real.rpow_mul hA.le]
            nth_rw 1 [← Real.rpow_one A]
            rw [← Real.rpow_add hA]
            congr 1
            push_cast; ring
  have h3 := ((h2.div_const ξ).add_const (-1 / ξ)).add
    ((((hU 1).const_mul 2).sub ((hU 2).const_mul ((2:ℝ) ^ ξ))).div_const ξ)
  have e : 0 / ξ + -1 / ξ + (2 * Real.Gamma (1 - ξ) - (2:ℝ) ^ ξ * Real.Gamma (1 - ξ)) / ξ = gevq ξ := by
    rw [gevq]; ring
  rw [e] at h3
  refine h3.congr' ?_
  filter_upwards [eventually_gt_atTop 0] with A hA
  have e2 : Real.exp (-(2 * A ^ (-1 / ξ))) = Real.exp (-A ^ (-1 / ξ)) ^ 2 := by
    rw [← Real.exp_nat_mul]; push_cast; ring_nf
  rw [gevQ, gevP, gevP, glue_pos hA, glue_pos hA, gevφ, gevφ, e2, one_mul, Real.one_rpow]
  ring

theorem gevQ_neg {ξ A : ℝ} (h : ξ < 0) (hA : A ≤ 0) : gevQ ξ A = gevq ξ := by
  rw [gevQ, gevP, gevP, glue_neg hA, glue_neg hA, gevψ, gevψ, if_neg (not_lt.2 h.le), if_neg (not_lt.2 h.le),
    gevq, Real.one_rpow]
  ring

theorem gevFA_cont {ξ : ℝ} (hξ : ξ ≠ 0) : Continuous (gevFA ξ) := by
  refine glue_cont (fun A hA => ?_) continuous_const ?_
  · exact ((gevw_deriv hA).neg.exp).continuousAt
  · rcases lt_or_gt_of_ne hξ with h | h
    · have := exp_neg_zero 1 (w_zero_neg h)
      simp only [one_mul] at this
      rwa [if_neg (not_lt.2 h.le)]
    · have := exp_neg_atTop one_pos (w_zero_pos h)
      simp only [one_mul] at this
      rwa [if_pos h]

theorem gevFA_nonneg (ξ A : ℝ) : 0 ≤ gevFA ξ A := by
  unfold gevFA glue
  split_ifs <;> positivity

theorem gevFA_le (ξ A : ℝ) : gevFA ξ A ≤ 1 := by
  unfold gevFA glue
  split_ifs with h
  · exact Real.exp_le_one_iff.2 (neg_nonpos.2 (Real.rpow_nonneg h.le _))
  · norm_num
  · norm_num

/-- The CRPS of the standard distribution, shape other than zero and below one. -/
theorem crps_gev0 {ξ : ℝ} (hξ : ξ ≠ 0) (h1 : ξ < 1) (y : ℝ) :
    HasCrps (cdfGev0 ξ) y ∧ Spec.crps (cdfGev0 ξ) y = gevq ξ - y + 2 * gevP 1 ξ (1 + ξ * y) := by
  have hlin : ∀ x, HasDerivAt (fun x : ℝ => 1 + ξ * x) ξ x := fun x => by
    simpa using ((hasDerivAt_id x).const_mul ξ).const_add 1
  have hne : ∀ x, x ∉ ({-1 / ξ} : Set ℝ) → 1 + ξ * x ≠ 0 := by
    intro x hx h
    refine hx ?_
    rw [mem_singleton_iff, eq_div_iff hξ]; linarith
  have hF : cdfGev0 ξ = fun x => gevFA ξ (1 + ξ * x) := funext (cdfGev0_eq hξ)
  have hcl : Continuous fun x : ℝ => 1 + ξ * x := by fun_prop
  have dP : ∀ c : ℝ, 0 < c → ∀ x, x ∉ ({-1 / ξ} : Set ℝ) → HasDerivAt (fun x => gevP c ξ (1 + ξ * x))
      (glue (fun A => Real.exp (-(c * A ^ (-1 / ξ)))) (fun _ => if 0 < ξ then 0 else 1) (1 + ξ * x)) x := by
    intro c hc x hx
    refine ((gevP_deriv hc hξ h1 (hne x hx)).comp x (hlin x)).congr_deriv ?_
    field_simp
  have cP : ∀ c : ℝ, 0 < c → Continuous fun x => gevP c ξ (1 + ξ * x) :=
    fun c hc => (gevP_cont hc hξ h1).comp hcl
  have eQ : ∀ x, gevQ ξ (1 + ξ * x) = x - 2 * gevP 1 ξ (1 + ξ * x) + gevP 2 ξ (1 + ξ * x) := by
    intro x; rw [gevQ]; field_simp; ring
  have key := crps_of_antideriv (F := cdfGev0 ξ) (P := fun x => gevP 2 ξ (1 + ξ * x))
    (Q := fun x => gevQ ξ (1 + ξ * x)) (p := 0) (q := gevq ξ) (s := {-1 / ξ}) (countable_singleton _)
    (by rw [hF]; exact ((gevFA_cont hξ).comp hcl).measurable)
    (fun x => by rw [cdfGev0_eq hξ]; exact gevFA_nonneg _ _)
    (fun x => by rw [cdfGev0_eq hξ]; exact gevFA_le _ _)
    (cP 2 two_pos)
    (fun x hx => by rw [cdfGev0_eq hξ, ← gevFA_sq]; exact dP 2 two_pos x hx)
    (by simp only [eQ]; exact (continuous_id.sub (continuous_const.mul (cP 1 one_pos))).add (cP 2 two_pos))
    (fun x hx => by
      simp only [eQ]
      refine (((hasDerivAt_id x).sub ((dP 1 one_pos x hx).const_mul 2)).add (dP 2 two_pos x hx)).congr_deriv ?_
      rw [gevFA_sq, gevFA_one, cdfGev0_eq hξ]; ring)
    (by
      rcases lt_or_gt_of_ne hξ with h | h
      · refine (gevP_atTop_neg two_pos h).comp ?_
        exact tendsto_atTop_add_const_left _ _ (tendsto_id.const_mul_atBot_of_neg h)
      · refine tendsto_of_eventually_bot (-1 / ξ) fun x hx => gevP_out h ?_
        rw [lt_div_iff₀ h] at hx; linarith)
    (by
      rcases lt_or_gt_of_ne hξ with h | h
      · refine tendsto_const_nhds.congr' ?_
        filter_upwards [eventually_gt_atTop (-1 / ξ)] with x hx
        refine (gevQ_neg h ?_).symm
        have := mul_lt_mul_of_neg_left hx h
        rw [mul_div_cancel₀ _ hξ] at this; linarith
      · exact (gevQ_atTop_pos h h1).comp
          (tendsto_atTop_add_const_left _ _ (tendsto_id.const_mul_atTop h))) y
  refine ⟨key.1, key.2.trans ?_⟩
  rw [eQ]; ring

/-- The density, shape other than zero. -/
theorem diff_gev0 {ξ : ℝ} (hξ : ξ ≠ 0) : DiffDist (densGev0 ξ) (cdfGev0 ξ) := by
  have hF : cdfGev0 ξ = fun x => gevFA ξ (1 + ξ * x) := funext (cdfGev0_eq hξ)
  have hcl : Continuous fun x : ℝ => 1 + ξ * x := by fun_prop
  refine ⟨fun x => ?_, ?_, ⟨{-1 / ξ}, finite_singleton _, fun x hx => ?_⟩, ?_, ?_⟩
  · unfold densGev0
    split_ifs <;> positivity
  · rw [hF]; exact (gevFA_cont hξ).comp hcl
  · have hlin : HasDerivAt (fun x : ℝ => 1 + ξ * x) ξ x := by
      simpa using ((hasDerivAt_id x).const_mul ξ).const_add 1
    have hne : 1 + ξ * x ≠ 0 := by
      intro h
      refine hx ?_
      rw [mem_singleton_iff, eq_div_iff hξ]; linarith
    rw [hF, densGev0, if_neg hξ]
    rcases lt_or_gt_of_ne hne with h | h
    · rw [if_neg (not_lt.2 h.le)]
      have := ((hasDerivAt_const (1 + ξ * x) (if 0 < ξ then (0:ℝ) else 1)).congr_of_eventuallyEq
        (glue_eq_neg (φ := fun A => Real.exp (-A ^ (-1 / ξ))) (ψ := fun _ => if 0 < ξ then (0:ℝ) else 1) h)).comp x hlin
      exact this.congr_deriv (zero_mul _)
    · rw [if_pos h]
      have := (((gevw_deriv (ξ := ξ) h).neg.exp).congr_of_eventuallyEq
        (glue_eq_pos (φ := fun A => Real.exp (-A ^ (-1 / ξ))) (ψ := fun _ => if 0 < ξ then (0:ℝ) else 1) h)).comp x hlin
      refine this.congr_deriv ?_
      simp only [Pi.neg_apply]
      rw [Real.rpow_sub_one h.ne']
      field_simp
  · rw [hF]
    rcases lt_or_gt_of_ne hξ with h | h
    · have h2 : Tendsto (gevFA ξ) atTop (𝓝 0) := glue_atTop (by
        have := exp_neg_atTop one_pos (w_top_neg h)
        simpa only [one_mul] using this)
      exact h2.comp (tendsto_atTop_add_const_left _ _ (tendsto_id.const_mul_atBot_of_neg h))
    · refine tendsto_of_eventually_bot (-1 / ξ) fun x hx => ?_
      rw [lt_div_iff₀ h] at hx
      rw [gevFA, glue_neg (by linarith), if_pos h]
  · rw [hF]
    rcases lt_or_gt_of_ne hξ with h | h
    · refine tendsto_const_nhds.congr' ?_
      filter_upwards [eventually_gt_atTop (-1 / ξ)] with x hx
      have := mul_lt_mul_of_neg_left hx h
      rw [mul_div_cancel₀ _ hξ] at this
      rw [gevFA, glue_neg (by linarith), if_neg (not_lt.2 h.le)]
    · have h2 : Tendsto (gevFA ξ) atTop (𝓝 1) := glue_atTop (by
        have := exp_neg_zero 1 (w_top_pos h)
        simpa only [one_mul] using this)
      exact h2.comp (tendsto_atTop_add_const_left _ _ (tendsto_id.const_mul_atTop h))

end Verif
