import Verif.Spec.ParamLip
import Verif.Props.CrpsShape
import Verif.Props.Families
import Verif.Lemmas.TGtc

/-!
# Scores of location-scale families as functions of location and scale
-/

noncomputable section

open scoped Classical Topology
open Filter

namespace Verif

open XF Spec

/-- What is needed of a family: the score of the standard law has the shape of a CRPS, is at least `|z| - K`, and at
most `K` at zero; the other scores are obtained from it. -/
structure LocScale (S : ℝ → ℝ → ℝ → XF) (F : ℝ → ℝ) (K : ℝ) : Prop where
  shape : CrpsShape Set.univ (fun y => S y 0 1) F
  scale : ∀ y μ σ : ℝ, 0 < σ → S y μ σ = fin σ * S ((y - μ) / σ) 0 1
  lower : ∀ z s : ℝ, S z 0 1 = fin s → |z| - K ≤ s
  zero : ∀ s : ℝ, S 0 0 1 = fin s → s ≤ K

theorem LocScale.std {S : ℝ → ℝ → ℝ → XF} {F : ℝ → ℝ} {K : ℝ} (h : LocScale S F K) :
    ∃ c : ℝ → ℝ, (∀ y μ σ : ℝ, 0 < σ → S y μ σ = fin (σ * c ((y - μ) / σ))) ∧ ConvexOn ℝ Set.univ c ∧
      (∀ a b, |c a - c b| ≤ |a - b|) ∧ (∀ z, |z| - K ≤ c z) ∧ c 0 ≤ K := by
  obtain ⟨c, hc, hs⟩ := h.shape
  refine ⟨c, fun y μ σ hσ => ?_, ?_, fun a b => ?_, fun z => h.lower z _ (hc z trivial), h.zero _ (hc 0 trivial)⟩
  · rw [h.scale y μ σ hσ, show S ((y - μ) / σ) 0 1 = _ from hc _ trivial, fin_mul]
  · obtain ⟨c', hc', hv⟩ := C119_convex convex_univ h.shape
    have : c' = c := funext fun y => fin.inj ((hc' y trivial).symm.trans (hc y trivial))
    rwa [this] at hv
  · rcases le_total a b with hab | hab
    · have := (hs a trivial b trivial hab).2.2
      rw [abs_sub_comm, abs_sub_comm a, abs_of_nonneg (sub_nonneg.2 hab)]
      exact this
    · have := (hs b trivial a trivial hab).2.2
      rw [abs_of_nonneg (sub_nonneg.2 hab)]
      exact this

/-- the score at the scale `σ'` minus the score at a smaller scale `σ` -/
theorem scale_between {c : ℝ → ℝ} {K : ℝ} (hv : ConvexOn ℝ Set.univ c) (hl : ∀ a b, |c a - c b| ≤ |a - b|)
    (hK : ∀ z, |z| - K ≤ c z) (h0 : c 0 ≤ K) {u σ σ' : ℝ} (hσ : 0 < σ) (h : σ ≤ σ') :
    |σ' * c (u / σ') - σ * c (u / σ)| ≤ K * (σ' - σ) := by
  have hσ' : 0 < σ' := hσ.trans_le h
  rw [abs_le]
  constructor
  · have h1 := (abs_le.1 (hl (u / σ) (u / σ'))).2
    have h2 : |u / σ - u / σ'| = |u / σ'| * ((σ' - σ) / σ) := by
      rw [← abs_of_nonneg (div_nonneg (sub_nonneg.2 h) hσ.le), ← abs_mul]
      congr 1
      field_simp
    rw [h2] at h1
    have h3 := hK (u / σ')
    have h4 : σ * c (u / σ) ≤ σ * c (u / σ') + |u / σ'| * (σ' - σ) := by
      have := mul_le_mul_of_nonneg_left h1 hσ.le
      have e : σ * (|u / σ'| * ((σ' - σ) / σ)) = |u / σ'| * (σ' - σ) := by field_simp
      rw [e] at this
      linarith
    nlinarith [mul_le_mul_of_nonneg_right h3 (sub_nonneg.2 h)]
  · have hw : 0 ≤ 1 - σ / σ' := by rw [sub_nonneg, div_le_one hσ']; exact h
    have h1 := hv.2 (Set.mem_univ (u / σ)) (Set.mem_univ 0) (div_pos hσ hσ').le hw (by ring)
    simp only [smul_eq_mul, mul_zero, add_zero] at h1
    have e : σ / σ' * (u / σ) = u / σ' := by field_simp
    rw [e] at h1
    have h2 := mul_le_mul_of_nonneg_left h1 hσ'.le
    have e2 : σ' * (σ / σ' * c (u / σ) + (1 - σ / σ') * c 0) = σ * c (u / σ) + (σ' - σ) * c 0 := by
      field_simp
    rw [e2] at h2
    nlinarith [mul_le_mul_of_nonneg_left h0 (sub_nonneg.2 h)]

theorem LocScale.lip {S : ℝ → ℝ → ℝ → XF} {F : ℝ → ℝ} {K : ℝ} (h : LocScale S F K) : ParamLipschitz S K := by
  obtain ⟨c, hS, hv, hl, hK, h0⟩ := h.std
  intro y y' μ μ' σ σ' hσ hσ'
  refine ⟨_, _, hS y μ σ hσ, hS y' μ' σ' hσ', ?_⟩
  -- first the observation and the location, then the scale
  have h1 : |σ * c ((y - μ) / σ) - σ * c ((y' - μ') / σ)| ≤ |y - y'| + |μ - μ'| := by
    rw [← mul_sub, abs_mul, abs_of_pos hσ]
    refine (mul_le_mul_of_nonneg_left (hl _ _) hσ.le).trans ?_
    rw [← sub_div, abs_div, abs_of_pos hσ, mul_div_cancel₀ _ hσ.ne',
      show y - μ - (y' - μ') = (y - y') - (μ - μ') by ring]
    exact abs_sub _ _
  have h2 : |σ * c ((y' - μ') / σ) - σ' * c ((y' - μ') / σ')| ≤ K * |σ - σ'| := by
    rcases le_total σ σ' with hs | hs
    · rw [abs_sub_comm, abs_sub_comm σ, abs_of_nonneg (sub_nonneg.2 hs)]
      exact scale_between hv hl hK h0 hσ hs
    · rw [abs_of_nonneg (sub_nonneg.2 hs)]
      exact scale_between hv hl hK h0 hσ' hs
  calc _ = |(σ * c ((y - μ) / σ) - σ * c ((y' - μ') / σ)) + (σ * c ((y' - μ') / σ) - σ' * c ((y' - μ') / σ'))| := by
        congr 1; ring
    _ ≤ _ := (abs_add_le _ _).trans (add_le_add h1 h2)

theorem LocScale.near {S : ℝ → ℝ → ℝ → XF} {F : ℝ → ℝ} {K : ℝ} (h : LocScale S F K) : NearAbsError S K := by
  obtain ⟨c, hS, -, hl, hK, h0⟩ := h.std
  intro y μ σ hσ
  refine ⟨_, hS y μ σ hσ, ?_⟩
  obtain ⟨z, hz⟩ : ∃ z, z = (y - μ) / σ := ⟨_, rfl⟩
  have e : |y - μ| = σ * |z| := by rw [hz, abs_div, abs_of_pos hσ, mul_div_cancel₀ _ hσ.ne']
  rw [← hz, e, ← mul_sub, abs_mul, abs_of_pos hσ, mul_comm K]
  refine mul_le_mul_of_nonneg_left ?_ hσ.le
  have h1 := (abs_le.1 (hl z 0)).2
  rw [sub_zero] at h1
  rw [abs_le]
  constructor <;> linarith [hK z]

/-! ### the families -/

theorem locScale_normal :
    LocScale (fun y μ σ => Closed.normal (fin y) (fin μ) (fin σ)) (cdfNormal 0 1) (1 / Real.sqrt Real.pi) := by
  have hval : ∀ z s : ℝ, Closed.normal (fin z) (fin 0) (fin 1) = fin s →
      s = z * (2 * Φ z - 1) + 2 * φ z - 1 / Real.sqrt Real.pi := by
    intro z s hs
    rw [(C50_normal one_pos 0 z).2] at hs
    have e : cdfNormal 0 1 = Φ := by funext x; simp [cdfNormal]
    rw [← fin.inj hs, e, (crps_Φ z).2]
  refine ⟨C119_normal one_pos 0, fun y μ σ hσ => ?_, fun z s hs => ?_, fun s hs => ?_⟩
  · have := C51_normal μ 0 hσ one_pos (fin ((y - μ) / σ))
    rw [fin_mul, fin_add, mul_div_cancel₀ _ hσ.ne'] at this
    simpa using this
  · rw [hval z s hs]
    rcases lt_trichotomy z 0 with h | h | h
    · rw [abs_of_neg h]; linarith [Φ_tail h]
    · rw [h]; simp; exact (φ_pos 0).le
    · have h1 := Φ_tail (neg_neg_of_pos h)
      have h2 := Φ_add_neg z
      have h3 : φ (-z) = φ z := by simp [φ]
      rw [abs_of_pos h]
      rw [h3, show Φ (-z) = 1 - Φ z by linarith] at h1
      linarith
  · rw [hval 0 s hs]
    have : 2 * φ 0 ≤ 2 * (1 / Real.sqrt Real.pi) := by
      refine mul_le_mul_of_nonneg_left ?_ two_pos.le
      unfold φ
      simp only [ne_eq, OfNat.ofNat_ne_zero, not_false_eq_true, zero_pow, neg_zero, zero_div, Real.exp_zero]
      exact one_div_le_one_div_of_le (by positivity) (Real.sqrt_le_sqrt (by linarith [Real.pi_pos]))
    linarith

theorem locScale_laplace :
    LocScale (fun y μ σ => Closed.laplace (fin y) (fin μ) (fin σ)) (cdfLaplace 0 1) (3 / 4) := by
  have hval : ∀ z s : ℝ, Closed.laplace (fin z) (fin 0) (fin 1) = fin s → s = |z| + Real.exp (-|z|) - 3 / 4 := by
    intro z s hs
    unfold Closed.laplace at hs
    simp only [fin_sub, sub_zero, fin_div one_ne_zero, div_one, fin_abs, fin_neg, XF.exp, ofNat_def, fin_add, fin_mul,
      one_mul, fin_div (by norm_num : (4:ℝ) ≠ 0)] at hs
    exact (fin.inj hs).symm
  refine ⟨C119_laplace one_pos 0, fun y μ σ hσ => ?_, fun z s hs => ?_, fun s hs => ?_⟩
  · have := C51_laplace μ 0 hσ one_pos (fin ((y - μ) / σ))
    rw [fin_mul, fin_add, mul_div_cancel₀ _ hσ.ne'] at this
    simpa using this
  · rw [hval z s hs]; linarith [Real.exp_pos (-|z|)]
  · rw [hval 0 s hs]; norm_num

theorem locScale_logistic :
    LocScale (fun y μ σ => Closed.logistic (fin y) (fin μ) (fin σ)) (cdfLogistic 0 1) 1 := by
  have hval : ∀ z s : ℝ, Closed.logistic (fin z) (fin 0) (fin 1) = fin s →
      s = z + 2 * Real.log (1 + Real.exp (-z)) - 1 := by
    intro z s hs
    have hp : 0 < 1 + Real.exp (-z) := by positivity
    unfold Closed.logistic Stats.logisCdf at hs
    simp only [fin_sub, sub_zero, fin_div one_ne_zero, div_one, fin_neg, XF.exp, one_def, ofNat_def, fin_add,
      fin_div hp.ne', fin_log (one_div_pos.2 hp), fin_mul, one_mul] at hs
    rw [← fin.inj hs, one_div, Real.log_inv]; ring
  refine ⟨C119_logistic one_pos 0, fun y μ σ hσ => ?_, fun z s hs => ?_, fun s hs => ?_⟩
  · have := C51_logistic μ 0 hσ one_pos (fin ((y - μ) / σ))
    rw [fin_mul, fin_add, mul_div_cancel₀ _ hσ.ne'] at this
    simpa using this
  · rw [hval z s hs]
    have h1 : 0 ≤ Real.log (1 + Real.exp (-z)) := Real.log_nonneg (by linarith [Real.exp_pos (-z)])
    have h2 : -z ≤ Real.log (1 + Real.exp (-z)) := by
      rw [Real.le_log_iff_exp_le (by positivity)]; linarith
    rcases abs_cases z with ⟨h, -⟩ | ⟨h, -⟩ <;> rw [h] <;> linarith
  · rw [hval 0 s hs]
    norm_num
    linarith [Real.log_two_lt_d9]

/-- the score of the standard t law when its expected absolute value is `m` -/
theorem locScale_t {ν : ℝ} (hν : 1 < ν) :
    LocScale (fun y μ σ => Closed.t (fin y) (fin ν) (fin μ) (fin σ)) (cdfT ν 0 1)
      (2 * densT ν 0 1 0 * (ν / (ν - 1))) := by
  have hν0 : 0 < ν := by linarith
  have hsq : 0 < Real.sqrt ν := Real.sqrt_pos.2 hν0
  obtain ⟨κ, hκ⟩ : ∃ κ, κ = 2 * Real.sqrt ν / (ν - 1) * betaF (1 / 2) (ν - 1 / 2) / betaF (1 / 2) (ν / 2) ^ 2 := ⟨_, rfl⟩
  have hval : ∀ z s : ℝ, Closed.t (fin z) (fin ν) (fin 0) (fin 1) = fin s →
      s = z * (2 * tF ((ν + 1) / 2) (z / Real.sqrt ν) - 1) + 2 * densT ν 0 1 z * ((ν + z ^ 2) / (ν - 1)) - κ := by
    intro z s hs
    rw [(C78_t hν one_pos 0 z).2] at hs
    rw [← fin.inj hs, (crps_t hν one_pos 0 z).2, hκ]
    simp
  have hsh := C119_t hν one_pos 0
  obtain ⟨c, hc, hs'⟩ := id hsh
  have hcv : ∀ z, c z = z * (2 * tF ((ν + 1) / 2) (z / Real.sqrt ν) - 1)
      + 2 * densT ν 0 1 z * ((ν + z ^ 2) / (ν - 1)) - κ := fun z => hval z _ (hc z trivial)
  have hpos : ∀ z, 0 ≤ 2 * densT ν 0 1 z * ((ν + z ^ 2) / (ν - 1)) := fun z =>
    mul_nonneg (mul_nonneg two_pos.le (densT_pos hν0 one_pos 0 z).le)
      (div_nonneg (by positivity) (by linarith))
  -- `c z - |z|` grows towards zero and tends to `- κ` at least
  have hneg : ∀ z ≤ 0, -z - κ ≤ c z := by
    intro z hz
    have ht : Tendsto (fun x : ℝ => 2 * Real.sqrt ν * ((x / Real.sqrt ν) * tF ((ν + 1) / 2) (x / Real.sqrt ν)) - κ)
        atBot (𝓝 (2 * Real.sqrt ν * 0 - κ)) :=
      (((tF_mul_atBot (show 1 < (ν + 1) / 2 by linarith)).comp
        (tendsto_id.atBot_div_const hsq)).const_mul _).sub_const _
    have : -κ ≤ c z + z := by
      rw [mul_zero, zero_sub] at ht
      refine le_of_tendsto ht ?_
      filter_upwards [eventually_le_atBot z] with x hx
      have h1 := (abs_le.1 (hs' x trivial z trivial hx).2.2).1
      have h2 := hcv x
      have h3 := hpos x
      have e : 2 * Real.sqrt ν * (x / Real.sqrt ν * tF ((ν + 1) / 2) (x / Real.sqrt ν))
          = 2 * (x * tF ((ν + 1) / 2) (x / Real.sqrt ν)) := by field_simp
      rw [e]
      linarith
    linarith
  have heven : ∀ z, c (-z) = c z := by
    intro z
    rw [hcv, hcv, neg_div, tF_neg (show (1:ℝ) / 2 < (ν + 1) / 2 by linarith)]
    have : densT ν 0 1 (-z) = densT ν 0 1 z := by simp [densT]
    rw [this]; ring
  have hlow : ∀ z, |z| - κ ≤ c z := by
    intro z
    rcases le_total z 0 with h | h
    · rw [abs_of_nonpos h]; exact hneg z h
    · rw [abs_of_nonneg h, ← heven]; simpa using hneg (-z) (by linarith)
  have hm : c 0 = 2 * densT ν 0 1 0 * (ν / (ν - 1)) - κ := by rw [hcv]; simp
  have hc0 : 0 ≤ c 0 := by
    have := (C78_t hν one_pos 0 0).2
    rw [fin.inj ((hc 0 trivial).symm.trans this)]
    exact MeasureTheory.integral_nonneg fun _ => sq_nonneg _
  have hκ0 : 0 ≤ κ := by
    rw [hκ]
    have h1 := betaF_pos (show (0:ℝ) < 1 / 2 by norm_num) (show 0 < ν - 1 / 2 by linarith)
    have h2 := betaF_pos (show (0:ℝ) < 1 / 2 by norm_num) (show 0 < ν / 2 by linarith)
    have h3 : 0 < ν - 1 := by linarith
    positivity
  refine ⟨hsh, fun y μ σ hσ => ?_, fun z s hs => ?_, fun s hs => ?_⟩
  · have := C51_t μ 0 hσ one_pos (fin ((y - μ) / σ)) (fin ν)
    rw [fin_mul, fin_add, mul_div_cancel₀ _ hσ.ne'] at this
    simpa using this
  · have : s = c z := (fin.inj ((hc z trivial).symm.trans hs)).symm
    rw [this]
    linarith [hlow z]
  · have : s = c 0 := (fin.inj ((hc 0 trivial).symm.trans hs)).symm
    rw [this]
    linarith

theorem locScale_gpd {ξ M : ℝ} (hξ : ξ < 1) (h0 : 0 ≤ M) (h1 : M ≤ 1) :
    LocScale (fun y μ σ => Closed.gpd (fin y) (fin ξ) (fin μ) (fin σ) (fin M)) (cdfGpd M ξ 0 1) (2 / (1 - ξ)) := by
  have d1 : 0 < 1 - ξ := by linarith
  have d2 : 0 < 2 - ξ := by linarith
  have hval : ∀ z s : ℝ, Closed.gpd (fin z) (fin ξ) (fin 0) (fin 1) (fin M) = fin s →
      s = |z| - 2 * (1 - M) * (1 - gpdV ξ z) / (1 - ξ) + (1 - M) ^ 2 / (2 - ξ) := by
    intro z s hs
    rw [(C49_gpd one_pos hξ h0 h1 0 z).2] at hs
    have e : cdfGpd M ξ 0 1 = cdfGpd0 M ξ := by funext x; simp [cdfGpd]
    rw [← fin.inj hs, e, (crps_gpd0 h0 h1 hξ z).2]
  have hV : ∀ z, 0 ≤ gpdV ξ z := by
    intro z
    unfold gpdV
    split_ifs
    · positivity
    · exact Real.rpow_nonneg (le_max_right _ _) _
  refine ⟨C119_gpd one_pos hξ h0 h1 0, fun y μ σ hσ => ?_, fun z s hs => ?_, fun s hs => ?_⟩
  · have := C51_gpd μ 0 hσ one_pos (fin ((y - μ) / σ)) (fin ξ) (fin M)
    rw [fin_mul, fin_add, mul_div_cancel₀ _ hσ.ne'] at this
    simpa using this
  · rw [hval z s hs]
    have h2 : 2 * (1 - M) * (1 - gpdV ξ z) / (1 - ξ) ≤ 2 / (1 - ξ) := by
      refine div_le_div_of_nonneg_right ?_ d1.le
      nlinarith [mul_nonneg (sub_nonneg.2 h1) (hV z)]
    have h3 : 0 ≤ (1 - M) ^ 2 / (2 - ξ) := by positivity
    linarith
  · rw [hval 0 s hs]
    have hv0 : gpdV ξ 0 = 1 := by
      unfold gpdV gpdB
      simp
    rw [hv0, abs_zero, sub_self, mul_zero, zero_div, sub_zero, zero_add, div_le_div_iff₀ d2 d1]
    nlinarith [mul_nonneg h0 (sub_nonneg.2 h1)]

theorem locScale_exponentialM {M : ℝ} (h0 : 0 ≤ M) (h1 : M ≤ 1) :
    LocScale (fun y μ σ => Closed.exponentialM (fin y) (fin M) (fin μ) (fin σ)) (cdfExpM M 0 1) 2 := by
  have hval : ∀ z s : ℝ, Closed.exponentialM (fin z) (fin M) (fin 0) (fin 1) = fin s →
      s = |z| - (1 - M) * (2 * (1 - Real.exp (-max z 0)) - 1 / 2 * (1 - M)) := by
    intro z s hs
    rw [(C45_exponentialM one_pos h0 h1 z).2] at hs
    have e : cdfExpM M 0 1 = expM M := by funext x; simp [cdfExpM, expM]
    rw [← fin.inj hs, e, (crps_expM h0 h1 z).2]
  refine ⟨C119_exponentialM one_pos h0 h1, fun y μ σ hσ => ?_, fun z s hs => ?_, fun s hs => ?_⟩
  · have := C51_exponentialM μ 0 hσ one_pos h0 h1 ((y - μ) / σ)
    rw [mul_div_cancel₀ _ hσ.ne'] at this
    simpa using this
  · rw [hval z s hs]
    have := Real.exp_pos (-max z 0)
    nlinarith [mul_nonneg (sub_nonneg.2 h1) this.le, sq_nonneg (1 - M)]
  · rw [hval 0 s hs]
    simp
    nlinarith

theorem locScale_uniform {L U : ℝ} (hL : 0 ≤ L) (hU : 0 ≤ U) (hLU : L + U < 1) :
    LocScale (fun y μ σ => Closed.uniform (fin y) (fin μ) (fin (μ + σ)) (fin L) (fin U)) (cdfUniform 0 (0 + 1) L U) 2 := by
  have hval : ∀ z s : ℝ, Closed.uniform (fin z) (fin 0) (fin (0 + 1)) (fin L) (fin U) = fin s →
      ∃ F : ℝ, F = min (max z 0) 1 ∧ s = |z - F| + F ^ 2 * (1 - L - U) - F * (1 - 2 * L)
        + (1 - L - U) ^ 2 / 3 + (1 - L) * U := by
    intro z s hs
    refine ⟨_, rfl, ?_⟩
    unfold Closed.uniform at hs
    simp only [fin_sub, sub_zero, zero_add, fin_div one_ne_zero, div_one, zero_def, one_def, fin_max, fin_min, fin_abs,
      fin_mul, fin_pow, fin_add, ofNat_def, fin_div (by norm_num : (3:ℝ) ≠ 0), one_mul] at hs
    exact (fin.inj hs).symm
  refine ⟨C119_uniform (by norm_num) hL hU hLU, fun y μ σ hσ => ?_, fun z s hs => ?_, fun s hs => ?_⟩
  · have := C51_uniform μ hσ (show (0:ℝ) < 0 + 1 by norm_num) hL hU hLU ((y - μ) / σ)
    rw [mul_div_cancel₀ _ hσ.ne'] at this
    simpa using this
  · obtain ⟨F, hF, hs⟩ := hval z s hs
    have f0 : 0 ≤ F := by rw [hF]; exact le_min (le_max_right _ _) zero_le_one
    have f1 : F ≤ 1 := by rw [hF]; exact min_le_right _ _
    have h2 : |z| - F ≤ |z - F| := by
      have := abs_sub_abs_le_abs_sub z F
      rwa [abs_of_nonneg f0] at this
    have h3 : 0 ≤ F ^ 2 * (1 - L - U) := mul_nonneg (sq_nonneg _) (by linarith)
    have h4 : F * (1 - 2 * L) ≤ 1 := by nlinarith [mul_nonneg f0 hL]
    have h5 : 0 ≤ (1 - L) * U := mul_nonneg (by linarith) hU
    have h6 : 0 ≤ (1 - L - U) ^ 2 / 3 := by positivity
    linarith
  · obtain ⟨F, hF, hs⟩ := hval 0 s hs
    have : F = 0 := by rw [hF]; simp
    rw [hs, this]
    norm_num
    nlinarith

end Verif
