import Verif.Lemmas.ParamLip
import Verif.Lemmas.ClosedInf
import Verif.Props.ClosedNan

/-!
# C152, C153: closed-form CRPS as functions of location and scale
-/

noncomputable section

open scoped Classical

namespace Verif

open XF Spec

/-! ### C152: small changes of observation, location and scale -/

/-- `crps_normal`. -/
theorem C152_normal :
    ParamLipschitz (fun y μ σ => Closed.normal (fin y) (fin μ) (fin σ)) (1 / Real.sqrt Real.pi) := locScale_normal.lip

example : ∃ s s' : ℝ, Closed.normal (fin 1) (fin 0) (fin 2) = fin s ∧ Closed.normal (fin 1) (fin 3) (fin 5) = fin s' ∧
    |s - s'| ≤ |(1:ℝ) - 1| + |(0:ℝ) - 3| + 1 / Real.sqrt Real.pi * |2 - 5| :=
  C152_normal 1 1 0 3 2 5 (by norm_num) (by norm_num)

/-- `crps_laplace`. -/
theorem C152_laplace :
    ParamLipschitz (fun y μ σ => Closed.laplace (fin y) (fin μ) (fin σ)) (3 / 4) := locScale_laplace.lip

example : ∃ s s' : ℝ, Closed.laplace (fin 1) (fin 0) (fin 2) = fin s ∧ Closed.laplace (fin 1) (fin 3) (fin 5) = fin s' ∧
    |s - s'| ≤ |(1:ℝ) - 1| + |(0:ℝ) - 3| + 3 / 4 * |2 - 5| :=
  C152_laplace 1 1 0 3 2 5 (by norm_num) (by norm_num)

/-- `crps_logistic`. -/
theorem C152_logistic :
    ParamLipschitz (fun y μ σ => Closed.logistic (fin y) (fin μ) (fin σ)) 1 := locScale_logistic.lip

example : ∃ s s' : ℝ, Closed.logistic (fin 1) (fin 0) (fin 2) = fin s ∧
    Closed.logistic (fin 1) (fin 3) (fin 5) = fin s' ∧ |s - s'| ≤ |(1:ℝ) - 1| + |(0:ℝ) - 3| + 1 * |2 - 5| :=
  C152_logistic 1 1 0 3 2 5 (by norm_num) (by norm_num)

/-- `crps_t`; the constant is the expected absolute value of the standard law. -/
theorem C152_t {ν : ℝ} (hν : 1 < ν) :
    ParamLipschitz (fun y μ σ => Closed.t (fin y) (fin ν) (fin μ) (fin σ)) (2 * densT ν 0 1 0 * (ν / (ν - 1))) :=
  (locScale_t hν).lip

/-- infinite variance -/
example : ∃ s s' : ℝ, Closed.t (fin 1) (fin (3 / 2)) (fin 0) (fin 2) = fin s ∧
    Closed.t (fin 1) (fin (3 / 2)) (fin 3) (fin 5) = fin s' ∧
    |s - s'| ≤ |(1:ℝ) - 1| + |(0:ℝ) - 3| + 2 * densT (3 / 2) 0 1 0 * (3 / 2 / (3 / 2 - 1)) * |2 - 5| :=
  C152_t (by norm_num) 1 1 0 3 2 5 (by norm_num) (by norm_num)

/-- `crps_gpd`. -/
theorem C152_gpd {ξ M : ℝ} (hξ : ξ < 1) (h0 : 0 ≤ M) (h1 : M ≤ 1) :
    ParamLipschitz (fun y μ σ => Closed.gpd (fin y) (fin ξ) (fin μ) (fin σ) (fin M)) (2 / (1 - ξ)) :=
  (locScale_gpd hξ h0 h1).lip

/-- infinite variance and a point mass -/
example : ∃ s s' : ℝ, Closed.gpd (fin 1) (fin (3 / 4)) (fin 0) (fin 2) (fin (1 / 5)) = fin s ∧
    Closed.gpd (fin 1) (fin (3 / 4)) (fin 3) (fin 5) (fin (1 / 5)) = fin s' ∧
    |s - s'| ≤ |(1:ℝ) - 1| + |(0:ℝ) - 3| + 2 / (1 - 3 / 4) * |2 - 5| :=
  C152_gpd (by norm_num) (by norm_num) (by norm_num) 1 1 0 3 2 5 (by norm_num) (by norm_num)

/-- `crps_exponentialM`. -/
theorem C152_exponentialM {M : ℝ} (h0 : 0 ≤ M) (h1 : M ≤ 1) :
    ParamLipschitz (fun y μ σ => Closed.exponentialM (fin y) (fin M) (fin μ) (fin σ)) 2 :=
  (locScale_exponentialM h0 h1).lip

example : ∃ s s' : ℝ, Closed.exponentialM (fin 1) (fin (1 / 5)) (fin 0) (fin 2) = fin s ∧
    Closed.exponentialM (fin 1) (fin (1 / 5)) (fin 3) (fin 5) = fin s' ∧
    |s - s'| ≤ |(1:ℝ) - 1| + |(0:ℝ) - 3| + 2 * |2 - 5| :=
  C152_exponentialM (by norm_num) (by norm_num) 1 1 0 3 2 5 (by norm_num) (by norm_num)

/-- `crps_uniform` on `[μ, μ + σ]`, with point masses at the ends. -/
theorem C152_uniform {L U : ℝ} (hL : 0 ≤ L) (hU : 0 ≤ U) (hLU : L + U < 1) :
    ParamLipschitz (fun y μ σ => Closed.uniform (fin y) (fin μ) (fin (μ + σ)) (fin L) (fin U)) 2 :=
  (locScale_uniform hL hU hLU).lip

example : ∃ s s' : ℝ, Closed.uniform (fin 1) (fin 0) (fin (0 + 2)) (fin (1 / 4)) (fin (1 / 4)) = fin s ∧
    Closed.uniform (fin 1) (fin 3) (fin (3 + 5)) (fin (1 / 4)) (fin (1 / 4)) = fin s' ∧
    |s - s'| ≤ |(1:ℝ) - 1| + |(0:ℝ) - 3| + 2 * |2 - 5| :=
  C152_uniform (by norm_num) (by norm_num) (by norm_num) 1 1 0 3 2 5 (by norm_num) (by norm_num)

/-! ### C153: forecasts without spread

Claim: with scale zero the law is a point mass at the location, and the score is the absolute error.
-/

/-- What is proved of C153: with a small positive scale the score is near the absolute error.  Missing: the scale zero
itself, where the code returns NaN (`C153_zero_false`). -/
theorem C153_partial :
    NearAbsError (fun y μ σ => Closed.normal (fin y) (fin μ) (fin σ)) (1 / Real.sqrt Real.pi) ∧
    NearAbsError (fun y μ σ => Closed.laplace (fin y) (fin μ) (fin σ)) (3 / 4) ∧
    NearAbsError (fun y μ σ => Closed.logistic (fin y) (fin μ) (fin σ)) 1 ∧
    (∀ ν : ℝ, 1 < ν →
      NearAbsError (fun y μ σ => Closed.t (fin y) (fin ν) (fin μ) (fin σ)) (2 * densT ν 0 1 0 * (ν / (ν - 1)))) ∧
    (∀ ξ M : ℝ, ξ < 1 → 0 ≤ M → M ≤ 1 →
      NearAbsError (fun y μ σ => Closed.gpd (fin y) (fin ξ) (fin μ) (fin σ) (fin M)) (2 / (1 - ξ))) ∧
    (∀ M : ℝ, 0 ≤ M → M ≤ 1 →
      NearAbsError (fun y μ σ => Closed.exponentialM (fin y) (fin M) (fin μ) (fin σ)) 2) ∧
    ∀ L U : ℝ, 0 ≤ L → 0 ≤ U → L + U < 1 →
      NearAbsError (fun y μ σ => Closed.uniform (fin y) (fin μ) (fin (μ + σ)) (fin L) (fin U)) 2 :=
  ⟨locScale_normal.near, locScale_laplace.near, locScale_logistic.near, fun _ h => (locScale_t h).near,
    fun _ _ h h0 h1 => (locScale_gpd h h0 h1).near, fun _ h0 h1 => (locScale_exponentialM h0 h1).near,
    fun _ _ hL hU h => (locScale_uniform hL hU h).near⟩

/-- a standard deviation of one thousandth -/
example : ∃ s : ℝ, Closed.normal (fin 3) (fin 1) (fin (1 / 1000)) = fin s ∧
    |s - (|3 - 1|)| ≤ 1 / Real.sqrt Real.pi * (1 / 1000) :=
  C153_partial.1 3 1 (1 / 1000) (by norm_num)

/-- dividing a number by zero -/
theorem div_zero_cases (a : ℝ) : fin a / fin 0 = nan ∨ fin a / fin 0 = pinf ∨ fin a / fin 0 = ninf := by
  rw [fin_div_zero]
  split_ifs <;> simp

/-- A score of the form `σ * g ((y - μ) / σ)` whose standard form is not a number at NaN and at the infinities. -/
theorem zero_scale {g : XF → XF} (h : ∀ ω : XF, ω = nan ∨ ω = pinf ∨ ω = ninf → ∀ v : ℝ, fin 1 * g ω ≠ fin v)
    (a : ℝ) : fin 0 * g (fin a / fin 0) = nan := by
  have := h _ (div_zero_cases a)
  cases hg : g (fin a / fin 0) with
  | nan => exact mul_nan _
  | pinf => exact zero_mul_pinf
  | ninf => rw [fin_mul_ninf, infMul_eq, if_pos rfl]
  | fin v => exact absurd (by rw [hg, fin_mul]) (this (1 * v))

theorem std_one {ω : XF} (h : ω = nan ∨ ω = pinf ∨ ω = ninf) : (ω - fin 0) / fin 1 = ω := by
  rcases h with rfl | rfl | rfl
  · rfl
  · exact std_pinf one_pos 0
  · exact std_ninf one_pos 0

/-- C153 is false of the code: with scale zero the scores are NaN at every observation. -/
theorem C153_zero_false (y μ : ℝ) :
    Closed.normal (fin y) (fin μ) (fin 0) = nan ∧
    Closed.laplace (fin y) (fin μ) (fin 0) = nan ∧
    Closed.logistic (fin y) (fin μ) (fin 0) = nan ∧
    (∀ ν : ℝ, 1 < ν → Closed.t (fin y) (fin ν) (fin μ) (fin 0) = nan) ∧
    (∀ ξ M : ℝ, ξ < 1 → 0 ≤ M → M ≤ 1 → Closed.gpd (fin y) (fin ξ) (fin μ) (fin 0) (fin M) = nan) ∧
    ∀ L U : ℝ, Closed.uniform (fin y) (fin μ) (fin μ) (fin L) (fin U) = nan := by
  refine ⟨?_, ?_, ?_, fun ν hν => ?_, fun ξ M hξ h0 h1 => ?_, fun L U => ?_⟩
  · refine zero_scale (g := fun ω => ω * (2 * Stats.normCdf ω - 1) + 2 * Stats.normPdf ω - 1 / XF.sqrt XF.pi)
      (fun ω hω v => ?_) (y - μ)
    have e : fin 1 * (ω * (2 * Stats.normCdf ω - 1) + 2 * Stats.normPdf ω - 1 / XF.sqrt XF.pi)
        = Closed.normal ω (fin 0) (fin 1) := by
      unfold Closed.normal; rw [std_one hω]
    rw [e]
    rcases hω with rfl | rfl | rfl
    · simp [Closed.normal]
    · simp [(inf_normal 0 one_pos).1]
    · simp [(inf_normal 0 one_pos).2]
  · refine zero_scale (g := fun ω => XF.abs ω + XF.exp (-XF.abs ω) - 3 / 4) (fun ω hω v => ?_) (y - μ)
    have e : fin 1 * (XF.abs ω + XF.exp (-XF.abs ω) - 3 / 4) = Closed.laplace ω (fin 0) (fin 1) := by
      unfold Closed.laplace; rw [std_one hω]
    rw [e]
    rcases hω with rfl | rfl | rfl
    · simp [Closed.laplace]
    · simp [(inf_laplace 0 one_pos).1]
    · simp [(inf_laplace 0 one_pos).2]
  · refine zero_scale (g := fun ω => ω - 2 * XF.log (Stats.logisCdf ω) - 1) (fun ω hω v => ?_) (y - μ)
    have e : fin 1 * (ω - 2 * XF.log (Stats.logisCdf ω) - 1) = Closed.logistic ω (fin 0) (fin 1) := by
      unfold Closed.logistic; rw [std_one hω]
    rw [e]
    rcases hω with rfl | rfl | rfl
    · simp [Closed.logistic]
    · simp [(inf_logistic 0 one_pos).1]
    · simp [(inf_logistic 0 one_pos).2]
  · obtain ⟨g, hg⟩ : ∃ g : XF → XF, ∀ y μ σ, Closed.t y (fin ν) μ σ = σ * g ((y - μ) / σ) := ⟨fun z =>
      z * (2 * Stats.tCdf z (fin ν) - 1) + 2 * Stats.tPdf z (fin ν) * ((fin ν + z ^ 2) / (fin ν - 1))
        - (2 * XF.sqrt (fin ν) / (fin ν - 1)) * XF.beta (fin (1 / 2)) (fin ν - fin (1 / 2))
          / (XF.beta (fin (1 / 2)) (fin ν / 2) ^ 2), fun _ _ _ => rfl⟩
    rw [hg]
    refine zero_scale (fun ω hω v => ?_) (y - μ)
    have e : fin 1 * g ω = Closed.t ω (fin ν) (fin 0) (fin 1) := by rw [hg, std_one hω]
    rw [e]
    rcases hω with rfl | rfl | rfl
    · simp [Closed.t]
    · simp [(inf_t 0 hν one_pos).1]
    · simp [(inf_t 0 hν one_pos).2]
  · obtain ⟨g, hg⟩ : ∃ g : XF → XF, ∀ y μ σ, Closed.gpd y (fin ξ) μ σ (fin M) = σ * g ((y - μ) / σ) := ⟨fun ω =>
      let shape := if fin ξ < 1 then fin ξ else nan
      let mass := if 0 ≤ fin M ∧ fin M ≤ 1 then fin M else nan
      XF.abs ω - 2 * (1 - mass) * (1 - XF.pow (1 - Stats.gpdCdf ω shape) (1 - shape)) / (1 - shape)
        + ((1 - mass) ^ 2) / (2 - shape), fun _ _ _ => rfl⟩
    rw [hg]
    refine zero_scale (fun ω hω v => ?_) (y - μ)
    have e : fin 1 * g ω = Closed.gpd ω (fin ξ) (fin 0) (fin 1) (fin M) := by rw [hg, std_one hω]
    rw [e]
    rcases hω with rfl | rfl | rfl
    · simp [C106_crps_elementary]
    · simp [(inf_gpd 0 hξ one_pos h0 h1).1]
    · simp [(inf_gpd 0 hξ one_pos h0 h1).2]
  · obtain ⟨g, hg⟩ : ∃ g : XF → XF, ∀ y a b, Closed.uniform y a b (fin L) (fin U) = (b - a) * g ((y - a) / (b - a)) :=
      ⟨fun ω =>
        let Fω := XF.min (XF.max ω 0) 1
        XF.abs (ω - Fω) + (Fω ^ 2) * (1 - fin L - fin U) - Fω * (1 - 2 * fin L)
          + ((1 - fin L - fin U) ^ 2) / 3 + (1 - fin L) * fin U, fun _ _ _ => rfl⟩
    rw [hg, fin_sub μ μ, sub_self]
    refine zero_scale (fun ω hω v => ?_) (y - μ)
    have e : fin 1 * g ω = Closed.uniform ω (fin 0) (fin 1) (fin L) (fin U) := by
      rw [hg, fin_sub, sub_zero, std_one hω]
    rw [e]
    rcases hω with rfl | rfl | rfl
    · simp [C106_crps_elementary]
    · simp [(inf_uniform L U one_pos).1]
    · simp [(inf_uniform L U one_pos).2]

/-- the observation equals the only possible outcome -/
example : Closed.normal (fin 1) (fin 1) (fin 0) = nan := (C153_zero_false 1 1).1

/-- C153 holds of `crps_exponentialM` except at the location, where it returns NaN as well. -/
theorem C153_exponentialM_partial (y μ M : ℝ) :
    Closed.exponentialM (fin y) (fin M) (fin μ) (fin 0) = if y = μ then nan else fin |y - μ| := by
  have eo : (if ¬ XF.feq (fin μ) 0 then fin y - fin μ else fin y) = fin (y - μ) := by
    simp only [XF.zero_def, fin_feq, fin_sub]; split_ifs with h
    · rw [h, sub_zero]
    · rfl
  have ea : (if XF.feq (fin M) 0 then (1 : XF) else 1 - fin M) = fin (1 - M) := by
    simp only [XF.zero_def, XF.one_def, fin_feq, fin_sub]; split_ifs with h
    · rw [h, sub_zero]
    · rfl
  have e1 : (1 : XF) / fin 0 = pinf := by rw [one_def, fin_div_zero]; simp
  unfold Closed.exponentialM
  simp only [eo, ea]
  rw [if_neg (by rw [one_def, fin_feq]; norm_num), e1]
  unfold Stats.expCdf
  rcases lt_trichotomy (y - μ) 0 with h | h | h
  · rw [if_neg (by intro h'; rw [h', sub_self] at h; exact lt_irrefl _ h)]
    have e2 : -pinf * fin (y - μ) = pinf := ninf_mul_neg h
    rw [e2, exp_pinf, one_def, fin_sub_pinf, zero_def, max_ninf_fin]
    simp [ofNat_def]
  · rw [if_pos (by linarith), h]
    have e2 : -pinf * fin 0 = nan := by rw [neg_pinf, ninf_mul_fin, infMul_eq, if_pos rfl]
    rw [e2]
    simp [XF.exp, XF.max]
  · rw [if_neg (by intro h'; rw [h', sub_self] at h; exact lt_irrefl _ h)]
    have e2 : -pinf * fin (y - μ) = ninf := ninf_mul_pos h
    rw [e2, exp_ninf, one_def, fin_sub, sub_zero, zero_def, fin_max, max_eq_left zero_le_one]
    simp [ofNat_def]

example : Closed.exponentialM (fin 3) (fin (1 / 5)) (fin 1) (fin 0) = fin |3 - 1| := by
  rw [C153_exponentialM_partial, if_neg (by norm_num)]

end Verif
