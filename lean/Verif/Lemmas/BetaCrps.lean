import Verif.Lemmas.GammaCrps

/-!
# CRPS of the beta distribution
-/

noncomputable section

open scoped Classical Topology
open MeasureTheory Filter Set

namespace Verif

open Spec XF

theorem bK_cont' (a b x : ℝ) (hx : x ∉ ({0, 1} : Set ℝ)) : ContinuousAt (bK a b) x := by
  simp only [mem_insert_iff, mem_singleton_iff, not_or] at hx
  exact bK_cont hx.1 hx.2

theorem bK_succ (a b x : ℝ) : x * bK a b x = bK (a + 1) b x := by
  unfold bK
  split_ifs with h
  · rw [show a + 1 - 1 = (a - 1) + 1 by ring, Real.rpow_add_one h.1.ne']; ring
  · rw [mul_zero]

/-- The boundary term of the recurrence. -/
def bT (a b x : ℝ) : ℝ := if 0 < x ∧ x < 1 then x ^ a * (1 - x) ^ b else 0

theorem bT_cont {a b : ℝ} (ha : 0 < a) (hb : 0 < b) : Continuous (bT a b) := by
  have : bT a b = fun x => (max x 0) ^ a * (max (1 - x) 0) ^ b := by
    funext x
    unfold bT
    split_ifs with h
    · rw [max_eq_left h.1.le, max_eq_left (by linarith [h.2])]
    · by_cases h0 : 0 < x
      · have h1 : 1 ≤ x := not_lt.1 fun h1 => h ⟨h0, h1⟩
        rw [max_eq_right (show 1 - x ≤ 0 by linarith), Real.zero_rpow hb.ne', mul_zero]
      · rw [max_eq_right (not_lt.1 h0), Real.zero_rpow ha.ne', zero_mul]
  rw [this]
  have h1 : Continuous fun x : ℝ => (max x 0) ^ a :=
    (continuous_id.max continuous_const).rpow_const fun x => Or.inr ha.le
  have h2 : Continuous fun x : ℝ => (max (1 - x) 0) ^ b :=
    ((continuous_const.sub continuous_id).max continuous_const).rpow_const fun x => Or.inr hb.le
  exact h1.mul h2

theorem bT_deriv {a b : ℝ} (x : ℝ) (hx : x ∉ ({0, 1} : Set ℝ)) :
    HasDerivAt (bT a b) (a * bK a b x - (a + b) * bK (a + 1) b x) x := by
  simp only [mem_insert_iff, mem_singleton_iff, not_or] at hx
  by_cases h : 0 < x ∧ x < 1
  · have h1' : 0 < 1 - x := by linarith [h.2]
    have h1 := (Real.hasDerivAt_rpow_const (x := x) (p := a) (Or.inl h.1.ne')).mul
      ((((hasDerivAt_id x).const_sub 1).rpow_const (p := b) (Or.inl h1'.ne')))
    rw [bK_of_mem h.1 h.2, bK_of_mem h.1 h.2]
    refine (h1.congr_deriv ?_).congr_of_eventuallyEq ?_
    · simp only [id]
      rw [add_sub_cancel_right]
      have e1 : x ^ a = x * x ^ (a - 1) := by
        rw [Real.rpow_sub_one h.1.ne', mul_div_cancel₀ _ h.1.ne']
      have e2 : (1 - x) ^ b = (1 - x) * (1 - x) ^ (b - 1) := by
        rw [Real.rpow_sub_one h1'.ne', mul_div_cancel₀ _ h1'.ne']
      rw [e1, e2]; ring
    · filter_upwards [lt_mem_nhds h.1, gt_mem_nhds h.2] with z hz hz1
      exact if_pos ⟨hz, hz1⟩
  · have e1 : bK a b x = 0 := if_neg h
    have e2 : bK (a + 1) b x = 0 := if_neg h
    rw [e1, e2, mul_zero, mul_zero, sub_zero]
    refine (hasDerivAt_const x (0:ℝ)).congr_of_eventuallyEq ?_
    rcases lt_or_gt_of_ne hx.1 with h0 | h0
    · filter_upwards [gt_mem_nhds h0] with z hz
      exact if_neg fun h => absurd h.1 (not_lt.2 (le_of_lt hz))
    · have h1 : 1 < x := lt_of_le_of_ne (not_lt.1 fun h1 => h ⟨h0, h1⟩) (Ne.symm hx.2)
      filter_upwards [lt_mem_nhds h1] with z hz
      exact if_neg fun h => absurd h.2 (not_lt.2 (le_of_lt hz))

theorem bT_atBot (a b : ℝ) : Tendsto (bT a b) atBot (𝓝 0) := by
  refine tendsto_const_nhds.congr' ?_
  filter_upwards [eventually_le_atBot 0] with x hx
  exact (if_neg fun h => absurd h.1 (not_lt.2 hx)).symm

theorem count01 : ({0, 1} : Set ℝ).Countable := (countable_singleton 1).insert 0

theorem prim_bK_succ {a b : ℝ} (ha : 0 < a) (hb : 0 < b) (x : ℝ) :
    prim (bK (a + 1) b) x = (a * prim (bK a b) x - bT a b x) / (a + b) := by
  have hab : 0 < a + b := by positivity
  refine prim_unique count01 (bK_integrable (by linarith) hb)
    (((continuous_const.mul (prim_cont (bK_integrable ha hb))).sub (bT_cont ha hb)).div_const _)
    (fun x hx => ?_) ?_ x
  · refine ((((prim_deriv (bK_integrable ha hb) (bK_cont' a b x hx)).const_mul a).sub
      (bT_deriv x hx)).div_const _).congr_deriv ?_
    field_simp
    ring
  · have h := (((prim_atBot (bK_integrable ha hb)).const_mul a).sub (bT_atBot a b)).div_const (a + b)
    rw [mul_zero, sub_zero, zero_div] at h
    exact h

theorem bT_mul (a b x : ℝ) : bK (a + 1) b x * bT a b x = bK (2 * a + 1) (2 * b) x := by
  unfold bK bT
  by_cases h : 0 < x ∧ x < 1
  · have h1' : 0 < 1 - x := by linarith [h.2]
    simp only [if_pos h]
    rw [add_sub_cancel_right, add_sub_cancel_right, two_mul, Real.rpow_add h.1,
      show 2 * b - 1 = (b - 1) + b by ring, Real.rpow_add h1']
    ring
  · simp only [if_neg h, mul_zero]

theorem bK_cross {a b : ℝ} (ha : 0 < a) (hb : 0 < b) :
    ∫ x, bK (a + 1) b x * prim (bK a b) x
      = ((a + b) * (betaF (a + 1) b ^ 2 / 2) + betaF (2 * a + 1) (2 * b)) / a := by
  have hab : 0 < a + b := by positivity
  have ha1 : 0 < a + 1 := by linarith
  have ha2 : 0 < 2 * a + 1 := by linarith
  have hb2 : 0 < 2 * b := by linarith
  obtain ⟨i1, e1⟩ := prim_self count01 (bK_nonneg (a + 1) b) (bK_integrable ha1 hb) (bK_cont' (a + 1) b)
  have e : ∀ x, bK (a + 1) b x * prim (bK a b) x
      = ((a + b) * (bK (a + 1) b x * prim (bK (a + 1) b) x) + bK (2 * a + 1) (2 * b) x) / a := by
    intro x
    rw [prim_bK_succ ha hb, ← bT_mul]
    field_simp
    ring
  simp only [e]
  rw [integral_div, integral_add (i1.const_mul _) (bK_integrable ha2 hb2), integral_const_mul,
    bK_integral ha2 hb2]
  have : ∫ x, bK (a + 1) b x * prim (bK (a + 1) b) x = betaF (a + 1) b ^ 2 / 2 := by
    refine tendsto_nhds_unique (prim_atTop i1) ?_
    rw [funext e1, ← bK_integral ha1 hb]
    exact ((prim_atTop (bK_integrable ha1 hb)).pow 2).div_const 2
  rw [this]

/-- Distribution function of the standard beta distribution. -/
def bF (a b x : ℝ) : ℝ := prim (bK a b) x / betaF a b

theorem bF_prim (a b : ℝ) : prim (fun x => bK a b x / betaF a b) = bF a b := by
  funext x
  unfold bF prim
  rw [integral_div]

theorem crps_bF {a b : ℝ} (ha : 0 < a) (hb : 0 < b) (y : ℝ) :
    HasCrps (bF a b) y ∧
    Spec.crps (bF a b) y = y * (2 * bF a b y - 1)
      + a / (a + b) * (1 - 2 * bF (a + 1) b y - 2 * betaF (2 * a) (2 * b) / (a * betaF a b ^ 2)) := by
  have hab : 0 < a + b := by positivity
  have hB := betaF_pos ha hb
  have e : (fun x => x * (bK a b x / betaF a b)) = fun x => bK (a + 1) b x / betaF a b := by
    funext x; rw [← bK_succ]; ring
  obtain ⟨h1, h2, h3⟩ := crps_dens (f := fun x => bK a b x / betaF a b) count01
    (fun x => div_nonneg (bK_nonneg a b x) hB.le) ((bK_integrable ha hb).div_const _)
    (by rw [integral_div, bK_integral ha hb, div_self hB.ne'])
    (by rw [e]; exact (bK_integrable (by linarith) hb).div_const _)
    (fun x hx => (bK_cont' a b x hx).div_const _) y
  rw [bF_prim] at h1 h2 h3
  refine ⟨h1, h3.trans ?_⟩
  have m1 : ∫ x, x * (bK a b x / betaF a b) = a / (a + b) := by
    rw [e, integral_div, bK_integral (by linarith) hb, betaF_succ ha hb]; field_simp
  have m2 : prim (fun x => x * (bK a b x / betaF a b)) y = a / (a + b) * bF (a + 1) b y := by
    rw [e]
    unfold prim bF
    rw [integral_div, betaF_succ ha hb]
    unfold prim
    field_simp
  have m3 : ∫ x, x * (bK a b x / betaF a b) * bF a b x
      = a / (a + b) / 2 + betaF (2 * a) (2 * b) / ((a + b) * betaF a b ^ 2) := by
    have : (fun x => x * (bK a b x / betaF a b) * bF a b x)
        = fun x => (bK (a + 1) b x * prim (bK a b) x) / betaF a b ^ 2 := by
      funext x; rw [← bK_succ]; unfold bF; field_simp
    rw [this, integral_div, bK_cross ha hb, betaF_succ ha hb, betaF_succ (by linarith) (by linarith)]
    have : 2 * a + 2 * b ≠ 0 := by linarith
    field_simp
  rw [m1, m2, m3]
  field_simp
  ring

theorem bF_scale {a b l u : ℝ} (hlu : l < u) (x : ℝ) :
    densBeta a b l u x = (u - l)⁻¹ * (bK a b ((x - l) / (u - l)) / betaF a b) := by
  have h : 0 < u - l := sub_pos.2 hlu
  unfold densBeta bK betaF
  have e1 : 0 < (x - l) / (u - l) ↔ l < x := by rw [lt_div_iff₀ h, zero_mul, sub_pos]
  have e2 : (x - l) / (u - l) < 1 ↔ x < u := by
    rw [div_lt_one h]; constructor <;> intro h <;> linarith
  simp only [e1, e2]
  split_ifs
  · ring
  · ring

theorem prim_affine (f : ℝ → ℝ) {σ : ℝ} (hσ : 0 < σ) (μ x : ℝ) :
    prim (fun t => σ⁻¹ * f ((t - μ) / σ)) x = prim f ((x - μ) / σ) := by
  have h := prim_scale (fun t => f (t - μ / σ)) (inv_pos.2 hσ) x
  have e : (fun t => σ⁻¹ * f ((t - μ) / σ)) = fun t => σ⁻¹ * (fun t => f (t - μ / σ)) (σ⁻¹ * t) := by
    funext t; dsimp only; congr 2; field_simp
  have e2 : prim (fun t => σ⁻¹ * (fun t => f (t - μ / σ)) (σ⁻¹ * t)) x
      = σ⁻¹ * prim (fun t => (fun t => f (t - μ / σ)) (σ⁻¹ * t)) x := by
    unfold prim; rw [integral_const_mul]
  rw [e, e2, h, inv_inv, ← mul_assoc, inv_mul_cancel₀ hσ.ne', one_mul]
  unfold prim
  rw [← integral_indicator measurableSet_Iic, ← integral_indicator measurableSet_Iic,
    ← integral_sub_right_eq_self ((Iic ((x - μ) / σ)).indicator fun t => f t) (μ / σ)]
  refine integral_congr_ae (ae_of_all _ fun t => ?_)
  have : t - μ / σ ≤ (x - μ) / σ ↔ t ≤ σ⁻¹ * x := by
    rw [sub_div, sub_le_sub_iff_right, div_eq_inv_mul]
  simp only [indicator, mem_Iic, this]

theorem cdfBeta_eq {a b l u : ℝ} (hlu : l < u) : cdfBeta a b l u = fun y => bF a b ((y - l) / (u - l)) := by
  funext y
  rw [← bF_prim, ← prim_affine _ (sub_pos.2 hlu)]
  unfold cdfBeta cdfOf prim
  refine integral_congr_ae (ae_of_all _ fun t => bF_scale hlu t)

theorem crps_beta {a b l u : ℝ} (ha : 0 < a) (hb : 0 < b) (hlu : l < u) (y : ℝ) :
    HasCrps (cdfBeta a b l u) y ∧
    Spec.crps (cdfBeta a b l u) y = (u - l) * ((y - l) / (u - l) * (2 * bF a b ((y - l) / (u - l)) - 1)
      + a / (a + b) * (1 - 2 * bF (a + 1) b ((y - l) / (u - l))
        - 2 * betaF (2 * a) (2 * b) / (a * betaF a b ^ 2))) := by
  have h : 0 < u - l := sub_pos.2 hlu
  rw [cdfBeta_eq hlu]
  obtain ⟨h1, h2⟩ := crps_bF ha hb ((y - l) / (u - l))
  refine ⟨h1.scale h, ?_⟩
  rw [crps_scale _ _ h, h2]

/-! ### the code -/

theorem betainc_fin {a b x : ℝ} (ha : 0 < a) (hb : 0 < b) (h0 : 0 ≤ x) (h1 : x ≤ 1) :
    XF.betainc (fin a) (fin b) (fin x) = fin (bF a b x) := by
  simp only [XF.betainc]
  rw [if_pos ⟨ha, hb, h0, h1⟩, bF, prim_bK ha hb h0 h1]; rfl

theorem bF_nonneg {a b : ℝ} (ha : 0 < a) (hb : 0 < b) (x : ℝ) : 0 ≤ bF a b x :=
  div_nonneg (prim_bK_nonneg a b x) (betaF_pos ha hb).le

theorem bF_le {a b : ℝ} (ha : 0 < a) (hb : 0 < b) (x : ℝ) : bF a b x ≤ 1 := by
  rw [bF, div_le_one (betaF_pos ha hb)]; exact prim_bK_le ha hb x

end Verif
