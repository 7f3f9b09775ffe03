import Verif.Spec.CrpsShape
import Verif.Lemmas.Proper
import Verif.Lemmas.DiscreteInf
import Verif.Spec.Gtc

/-!
# The CRPS of a fixed distribution as a function of the observation
-/

noncomputable section

open scoped Classical
open MeasureTheory

namespace Verif

open XF Spec

/-- A non-decreasing function with a CRPS takes values between zero and one. -/
theorem crps_bounds {F : ℝ → ℝ} (hF : Monotone F) {y : ℝ} (h : HasCrps F y) (z : ℝ) : 0 ≤ F z ∧ F z ≤ 1 := by
  unfold HasCrps at h
  constructor
  · by_contra hz
    rw [not_le] at hz
    have h1 := h.integrableOn (s := Set.Iio (min z y))
    have h2 : IntegrableOn (fun _ : ℝ => F z ^ 2) (Set.Iio (min z y)) := by
      refine Integrable.mono' h1 aestronglyMeasurable_const ?_
      rw [ae_restrict_iff' measurableSet_Iio]
      refine ae_of_all _ fun t ht => ?_
      have ht' : t < min z y := ht
      rw [lt_min_iff] at ht'
      rw [if_neg (not_le.2 ht'.2), sub_zero, Real.norm_eq_abs, abs_of_nonneg (sq_nonneg _)]
      have := hF ht'.1.le
      nlinarith
    rw [IntegrableOn, integrable_const_iff_isFiniteMeasure (pow_ne_zero 2 hz.ne)] at h2
    have := h2.measure_univ_lt_top
    simp at this
  · by_contra hz
    rw [not_le] at hz
    have h1 := h.integrableOn (s := Set.Ioi (max z y))
    have h2 : IntegrableOn (fun _ : ℝ => (F z - 1) ^ 2) (Set.Ioi (max z y)) := by
      refine Integrable.mono' h1 aestronglyMeasurable_const ?_
      rw [ae_restrict_iff' measurableSet_Ioi]
      refine ae_of_all _ fun t ht => ?_
      have ht' : max z y < t := ht
      rw [max_lt_iff] at ht'
      rw [if_pos ht'.2.le, Real.norm_eq_abs, abs_of_nonneg (sq_nonneg _)]
      have := hF ht'.1.le
      nlinarith
    rw [IntegrableOn, integrable_const_iff_isFiniteMeasure (pow_ne_zero 2 (sub_ne_zero.2 hz.ne'))] at h2
    have := h2.measure_univ_lt_top
    simp at this

theorem crps_diff {F : ℝ → ℝ} {y y' : ℝ} (h : HasCrps F y) (h' : HasCrps F y') (hy : y ≤ y') :
    IntegrableOn (fun z => 2 * F z - 1) (Set.Ico y y') ∧
      crps F y' - crps F y = ∫ z in Set.Ico y y', (2 * F z - 1) := by
  unfold HasCrps at h h'
  have e : (fun z => (F z - if y' ≤ z then 1 else 0) ^ 2 - (F z - if y ≤ z then 1 else 0) ^ 2)
      = (Set.Ico y y').indicator fun z => 2 * F z - 1 := by
    funext z
    by_cases h1 : y ≤ z
    · by_cases h2 : y' ≤ z
      · rw [Set.indicator_of_notMem (by simp [h2]), if_pos h1, if_pos h2, sub_self]
      · rw [Set.indicator_of_mem (by exact ⟨h1, not_le.1 h2⟩), if_pos h1, if_neg h2]; ring
    · have h2 : ¬ y' ≤ z := fun h3 => h1 (hy.trans h3)
      rw [Set.indicator_of_notMem (by simp [h1]), if_neg h1, if_neg h2, sub_self]
  have hi := h'.sub h
  have hi' : Integrable ((Set.Ico y y').indicator fun z => 2 * F z - 1) := by
    rw [← e]; exact hi
  refine ⟨(integrable_indicator_iff measurableSet_Ico).1 hi', ?_⟩
  unfold crps
  rw [← integral_sub h' h, e, integral_indicator measurableSet_Ico]

theorem crps_slope {F : ℝ → ℝ} (hF : Monotone F) {y y' : ℝ} (h : HasCrps F y) (h' : HasCrps F y') (hy : y ≤ y') :
    (2 * F y - 1) * (y' - y) ≤ crps F y' - crps F y ∧ crps F y' - crps F y ≤ (2 * F y' - 1) * (y' - y) := by
  obtain ⟨hi, hd⟩ := crps_diff h h' hy
  have hc : ∀ c : ℝ, ∫ _ in Set.Ico y y', c = c * (y' - y) := fun c => by
    rw [setIntegral_const, Real.volume_real_Ico_of_le hy, smul_eq_mul, mul_comm]
  rw [hd, ← hc, ← hc]
  have hk : ∀ c : ℝ, IntegrableOn (fun _ : ℝ => c) (Set.Ico y y') := fun c => by
    rw [integrableOn_const_iff]; right; simp
  exact ⟨setIntegral_mono_on (hk _) hi measurableSet_Ico fun z hz => by linarith [hF hz.1],
    setIntegral_mono_on hi (hk _) measurableSet_Ico fun z hz => by linarith [hF hz.2.le]⟩

theorem crpsShape_of {A : Set ℝ} {S : ℝ → XF} {F : ℝ → ℝ} (hF : Monotone F) (hc : ∀ y ∈ A, HasCrps F y)
    (h : ∀ y ∈ A, S y = fin (crps F y)) : CrpsShape A S F := by
  refine ⟨crps F, h, fun y hy y' hy' hyy => ?_⟩
  obtain ⟨h1, h2⟩ := crps_slope hF (hc y hy) (hc y' hy') hyy
  refine ⟨h1, h2, ?_⟩
  have b1 := crps_bounds hF (hc y hy) y
  have b2 := crps_bounds hF (hc y hy) y'
  rw [abs_le]
  constructor <;> nlinarith

/-! ### Distribution functions are non-decreasing -/

theorem isDensity_mono {f F : ℝ → ℝ} (h : IsDensity f F) : Monotone F := by
  intro a b hab
  rw [← h.cdf, ← h.cdf]
  exact setIntegral_mono_set h.integrable.integrableOn (ae_of_all _ h.nonneg) (Set.Iic_subset_Iic.2 hab).eventuallyLE

theorem isDensity_bounds {f F : ℝ → ℝ} (h : IsDensity f F) (z : ℝ) : 0 ≤ F z ∧ F z ≤ 1 := by
  rw [← h.cdf]
  refine ⟨setIntegral_nonneg measurableSet_Iic fun x _ => h.nonneg x, ?_⟩
  rw [← h.total]
  exact setIntegral_le_integral h.integrable (ae_of_all _ h.nonneg)

/-- a jump at `l`, then a non-decreasing function -/
theorem monotone_ite {G : ℝ → ℝ} {l : ℝ} {c : ℝ} (hG : ∀ x y, l ≤ x → x ≤ y → G x ≤ G y) (h0 : ∀ x, l ≤ x → c ≤ G x) :
    Monotone fun x => if x < l then c else G x := by
  intro x y hxy
  dsimp only
  split_ifs with h1 h2 h2
  · exact le_rfl
  · exact h0 y (not_lt.1 h2)
  · exact absurd (hxy.trans_lt h2) h1
  · exact hG x y (not_lt.1 h1) hxy

theorem monotone_ite2 {G : ℝ → ℝ} {l u : ℝ} (hG : ∀ x y, l ≤ x → x ≤ y → y < u → G x ≤ G y)
    (h0 : ∀ x, l ≤ x → x < u → 0 ≤ G x) (h1 : ∀ x, l ≤ x → x < u → G x ≤ 1) :
    Monotone fun x => if x < l then (0:ℝ) else if x < u then G x else 1 := by
  refine monotone_ite (G := fun x => if x < u then G x else 1) (fun x y hx hxy => ?_) fun x hx => ?_
  · split_ifs with a b b
    · exact hG x y hx hxy b
    · exact h1 x hx a
    · exact absurd (hxy.trans_lt b) a
    · exact le_rfl
  · split_ifs with a
    · exact h0 x hx a
    · exact zero_le_one

theorem cdfGtc_mono {F : ℝ → ℝ} (hF : Monotone F) {l u L U : ℝ} (hlu : l ≤ u) (hL : 0 ≤ L) (hU : 0 ≤ U)
    (hLU : L + U ≤ 1) : Monotone (cdfGtc F l u L U) := by
  have hd : 0 ≤ F u - F l := sub_nonneg.2 (hF hlu)
  have hc : 0 ≤ 1 - L - U := by linarith
  refine monotone_ite2 (fun x y hx hxy hy => ?_) (fun x hx hu => ?_) (fun x hx hu => ?_)
  · have := div_le_div_of_nonneg_right (sub_le_sub_right (hF hxy) (F l)) hd
    nlinarith
  · have := div_nonneg (sub_nonneg.2 (hF hx)) hd
    have := mul_nonneg hc this
    linarith
  · have : (F x - F l) / (F u - F l) ≤ 1 := div_le_one_of_le₀ (sub_le_sub_right (hF hu.le) _) hd
    nlinarith

theorem cdfGtcLo_mono {F : ℝ → ℝ} (hF : Monotone F) {l L : ℝ} (h1 : F l ≤ 1) (hL : 0 ≤ L) (hL1 : L ≤ 1) :
    Monotone (cdfGtcLo F l L) := by
  have hd : 0 ≤ 1 - F l := sub_nonneg.2 h1
  refine monotone_ite (fun x y hx hxy => ?_) fun x hx => ?_
  · have := div_le_div_of_nonneg_right (sub_le_sub_right (hF hxy) (F l)) hd
    nlinarith
  · have := div_nonneg (sub_nonneg.2 (hF hx)) hd
    have := mul_nonneg (sub_nonneg.2 hL1) this
    linarith

theorem cdfGtcUp_mono {F : ℝ → ℝ} (hF : Monotone F) {u U : ℝ} (h0 : 0 ≤ F u) (hU : 0 ≤ U) (hU1 : U ≤ 1) :
    Monotone (cdfGtcUp F u U) := by
  intro x y hxy
  unfold cdfGtcUp
  split_ifs with a b b
  · have := div_le_div_of_nonneg_right (hF hxy) h0
    nlinarith
  · have : F x / F u ≤ 1 := div_le_one_of_le₀ (hF a.le) h0
    nlinarith
  · exact absurd (hxy.trans_lt b) a
  · exact le_rfl

theorem cdfUniform_mono {l u L U : ℝ} (hlu : l ≤ u) (hL : 0 ≤ L) (hU : 0 ≤ U) (hLU : L + U ≤ 1) :
    Monotone (cdfUniform l u L U) := by
  have := cdfGtc_mono (F := id) monotone_id hlu hL hU hLU
  exact this

theorem cdfExpM_mono {M μ σ : ℝ} (hσ : 0 < σ) (h0 : 0 ≤ M) (h1 : M ≤ 1) : Monotone (cdfExpM M μ σ) := by
  refine monotone_ite (fun x y hx hxy => ?_) fun x hx => ?_
  · have h2 : Real.exp (-((y - μ) / σ)) ≤ Real.exp (-((x - μ) / σ)) :=
      Real.exp_le_exp.2 (neg_le_neg (div_le_div_of_nonneg_right (by linarith) hσ.le))
    nlinarith
  · have h2 : Real.exp (-((x - μ) / σ)) ≤ 1 :=
      Real.exp_le_one_iff.2 (neg_nonpos.2 (div_nonneg (sub_nonneg.2 hx) hσ.le))
    nlinarith

end Verif
