import Verif.Spec.Proper
import Mathlib.MeasureTheory.Integral.Prod
import Mathlib.MeasureTheory.Integral.IntegralEqImproper
import Mathlib.MeasureTheory.Integral.DominatedConvergence
import Mathlib.Probability.CDF
import Verif.Spec.Dens
import Verif.Spec.Pmf

/-!
# Expected CRPS: entropy plus Cramér distance
-/

noncomputable section

open scoped Classical
open MeasureTheory

namespace Verif

open Spec

/-- A function whose CRPS exists everywhere is almost everywhere measurable. -/
theorem aem_of_hasCrps {G : ℝ → ℝ} (hG : ∀ y, HasCrps G y) : AEMeasurable G := by
  have h0 := (hG 0).aestronglyMeasurable.aemeasurable
  have hn : ∀ n : ℕ, AEMeasurable G (volume.restrict (Set.Ioo (-(n:ℝ)) n)) := by
    intro n
    have h1 := ((hG n).aestronglyMeasurable.aemeasurable).restrict (s := Set.Ioo (-(n:ℝ)) n)
    have h2 := ((hG (-n)).aestronglyMeasurable.aemeasurable).restrict (s := Set.Ioo (-(n:ℝ)) n)
    have : AEMeasurable (fun z => ((G z - if (n:ℝ) ≤ z then 1 else 0) ^ 2
        - (G z - if (-n:ℝ) ≤ z then 1 else 0) ^ 2 + 1) / 2) (volume.restrict (Set.Ioo (-(n:ℝ)) n)) :=
      ((h1.sub h2).add_const 1).div_const 2
    refine this.congr ?_
    filter_upwards [ae_restrict_mem measurableSet_Ioo] with z hz
    rw [if_neg (not_le.2 hz.2), if_pos hz.1.le]
    ring
  have hu : (⋃ n : ℕ, Set.Ioo (-(n:ℝ)) n) = Set.univ := by
    refine Set.eq_univ_of_forall fun x => Set.mem_iUnion.2 ?_
    obtain ⟨n, hn⟩ := exists_nat_gt |x|
    exact ⟨n, (abs_lt.1 hn).1, (abs_lt.1 hn).2⟩
  have := aemeasurable_iUnion_iff.2 hn
  rwa [hu, Measure.restrict_univ] at this

theorem crps_kernel_integrable (y : ℝ) :
    Integrable fun z : ℝ => ((if (0:ℝ) ≤ z then (1:ℝ) else 0) - if y ≤ z then 1 else 0) ^ 2 := by
  have : (fun z : ℝ => ((if (0:ℝ) ≤ z then (1:ℝ) else 0) - if y ≤ z then 1 else 0) ^ 2)
      = Set.indicator (Set.Ico (min 0 y) (max 0 y)) fun _ => (1:ℝ) := by
    funext z
    rw [Set.indicator_apply]
    simp only [Set.mem_Ico, min_le_iff, lt_max_iff]
    by_cases h1 : (0:ℝ) ≤ z <;> by_cases h2 : y ≤ z <;> simp [h1, h2, not_le.1]
  rw [this]
  exact (integrable_indicator_iff measurableSet_Ico).2 (integrableOn_const (by simp))

theorem crps_kernel_integral (y : ℝ) :
    ∫ z : ℝ, ((if (0:ℝ) ≤ z then (1:ℝ) else 0) - if y ≤ z then 1 else 0) ^ 2 = |y| := by
  have : (fun z : ℝ => ((if (0:ℝ) ≤ z then (1:ℝ) else 0) - if y ≤ z then 1 else 0) ^ 2)
      = Set.indicator (Set.Ico (min 0 y) (max 0 y)) fun _ => (1:ℝ) := by
    funext z
    rw [Set.indicator_apply]
    simp only [Set.mem_Ico, min_le_iff, lt_max_iff]
    by_cases h1 : (0:ℝ) ≤ z <;> by_cases h2 : y ≤ z <;> simp [h1, h2, not_le.1]
  rw [this, integral_indicator measurableSet_Ico, setIntegral_const]
  simp only [smul_eq_mul, mul_one, Measure.real, Real.volume_Ico]
  rw [ENNReal.toReal_ofReal (by simp)]
  rw [max_sub_min_eq_abs]
  simp

/-- The CRPS grows at most linearly in the observation. -/
theorem crps_le_linear {G : ℝ → ℝ} (hG : ∀ y, HasCrps G y) (y : ℝ) : crps G y ≤ 2 * crps G 0 + 2 * |y| := by
  rw [← crps_kernel_integral y]
  unfold crps
  rw [← integral_const_mul, ← integral_const_mul,
    ← integral_add ((hG 0).const_mul 2) ((crps_kernel_integrable y).const_mul 2)]
  refine integral_mono (hG y) (((hG 0).const_mul 2).add ((crps_kernel_integrable y).const_mul 2)) fun z => ?_
  dsimp only
  have : ∀ a b c : ℝ, (a - c) ^ 2 ≤ 2 * (a - b) ^ 2 + 2 * (b - c) ^ 2 := fun a b c => by
    nlinarith [sq_nonneg (a - 2 * b + c)]
  exact this _ _ _

theorem crps_nonneg' (G : ℝ → ℝ) (y : ℝ) : 0 ≤ crps G y := integral_nonneg fun z => sq_nonneg _

variable {P : Measure ℝ}

theorem distr_mono (P : Measure ℝ) [IsFiniteMeasure P] : Monotone (distr P) := fun _ _ h =>
  measureReal_mono (Set.Iic_subset_Iic.2 h)

theorem distr_nonneg (P : Measure ℝ) (z : ℝ) : 0 ≤ distr P z := measureReal_nonneg

theorem distr_le_one (P : Measure ℝ) [IsProbabilityMeasure P] (z : ℝ) : distr P z ≤ 1 := measureReal_le_one

theorem measurable_le_pair : Measurable fun q : ℝ × ℝ => if q.1 ≤ q.2 then (1:ℝ) else 0 :=
  Measurable.ite (measurableSet_le measurable_fst measurable_snd) measurable_const measurable_const

/-- Expected CRPS of a forecast `G`: Cramér distance to the law of the observation, plus its entropy. -/
theorem expected_crps [IsProbabilityMeasure P] (hP : Integrable (fun y => y) P) {G : ℝ → ℝ}
    (hG : ∀ y, HasCrps G y) :
    Integrable (crps G) P ∧ (Integrable fun z => (G z - distr P z) ^ 2) ∧
    (Integrable fun z => distr P z * (1 - distr P z)) ∧
    ∫ y, crps G y ∂P = cramer G (distr P) + crpsEntropy (distr P) := by
  have hm := aem_of_hasCrps hG
  have hms : AEMeasurable (fun q : ℝ × ℝ => (G q.2 - if q.1 ≤ q.2 then (1:ℝ) else 0) ^ 2)
      (P.prod volume) :=
    ((hm.comp_quasiMeasurePreserving Measure.quasiMeasurePreserving_snd).sub
      measurable_le_pair.aemeasurable).pow_const 2
  have hnorm : ∀ y, ∫ z, ‖(G z - if y ≤ z then (1:ℝ) else 0) ^ 2‖ = crps G y := fun y =>
    integral_congr_ae (Filter.Eventually.of_forall fun z => by
      dsimp only
      rw [Real.norm_eq_abs, abs_of_nonneg (sq_nonneg _)])
  have hci : Integrable (crps G) P := by
    refine Integrable.mono' (((integrable_const (2 * crps G 0)).add ((hP.abs).const_mul 2)))
      (hms.aestronglyMeasurable.integral_prod_right') (Filter.Eventually.of_forall fun y => ?_)
    rw [Real.norm_eq_abs, abs_of_nonneg (crps_nonneg' G y)]
    exact crps_le_linear hG y
  have hI : Integrable (fun q : ℝ × ℝ => (G q.2 - if q.1 ≤ q.2 then (1:ℝ) else 0) ^ 2)
      (P.prod volume) := by
    refine (integrable_prod_iff hms.aestronglyMeasurable).2
      ⟨Filter.Eventually.of_forall fun y => hG y, ?_⟩
    simp only [hnorm]
    exact hci
  have hin : ∀ z, ∫ y, (G z - if y ≤ z then (1:ℝ) else 0) ^ 2 ∂P
      = (G z - distr P z) ^ 2 + distr P z * (1 - distr P z) := by
    intro z
    have e : ∀ y : ℝ, (G z - if y ≤ z then (1:ℝ) else 0) ^ 2
        = G z ^ 2 + (1 - 2 * G z) * (Set.indicator (Set.Iic z) (fun _ => (1:ℝ)) y) := by
      intro y
      by_cases h : y ≤ z
      · rw [if_pos h, Set.indicator_of_mem (show y ∈ Set.Iic z from h)]; ring
      · rw [if_neg h, Set.indicator_of_notMem (show y ∉ Set.Iic z from h)]; ring
    simp only [e]
    have hi : Integrable (Set.indicator (Set.Iic z) fun _ => (1:ℝ)) P :=
      (integrable_indicator_iff measurableSet_Iic).2 (integrableOn_const (measure_ne_top _ _))
    rw [integral_add (integrable_const _) (hi.const_mul _), integral_const_mul,
      integral_indicator measurableSet_Iic, setIntegral_const, integral_const]
    simp only [probReal_univ, smul_eq_mul, mul_one, one_mul]
    unfold distr
    ring
  have hsum : Integrable fun z => (G z - distr P z) ^ 2 + distr P z * (1 - distr P z) := by
    have := hI.integral_prod_right
    simpa only [hin] using this
  have hdm : Measurable (distr P) := (distr_mono P).measurable
  have h1 : Integrable fun z => (G z - distr P z) ^ 2 := by
    refine hsum.mono' ((hm.sub hdm.aemeasurable).pow_const 2).aestronglyMeasurable
      (Filter.Eventually.of_forall fun z => ?_)
    rw [Real.norm_eq_abs, abs_of_nonneg (sq_nonneg _)]
    nlinarith [distr_nonneg P z, distr_le_one P z]
  have h2 : Integrable fun z => distr P z * (1 - distr P z) := by
    have := hsum.sub h1
    refine this.congr (Filter.Eventually.of_forall fun z => ?_)
    simp
  refine ⟨hci, h1, h2, ?_⟩
  have hsw := integral_integral_swap (f := fun y z => (G z - if y ≤ z then (1:ℝ) else 0) ^ 2) hI
  unfold crps
  rw [hsw]
  simp only [hin]
  exact integral_add h1 h2

/-- The law of the observation has itself a CRPS, and its expectation is the entropy. -/
theorem cramer_nonneg (F G : ℝ → ℝ) : 0 ≤ cramer F G := integral_nonneg fun _ => sq_nonneg _

theorem cramer_eq_zero_iff {F G : ℝ → ℝ} (h : Integrable fun z => (F z - G z) ^ 2) :
    cramer F G = 0 ↔ F =ᵐ[volume] G := by
  unfold cramer
  rw [integral_eq_zero_iff_of_nonneg (fun _ => sq_nonneg _) h]
  constructor
  · intro h
    filter_upwards [h] with z hz
    have : (F z - G z) ^ 2 = 0 := hz
    linarith [pow_eq_zero_iff (two_ne_zero) |>.1 this]
  · intro h
    filter_upwards [h] with z hz
    simp [hz]

/-! ### Right-continuity -/

/-- Right-continuous functions. -/
def RightCont (G : ℝ → ℝ) : Prop := ∀ x, ContinuousWithinAt G (Set.Ici x) x

theorem Continuous.rightCont {G : ℝ → ℝ} (h : Continuous G) : RightCont G := fun x =>
  h.continuousWithinAt

theorem distr_rightCont (P : Measure ℝ) [IsProbabilityMeasure P] : RightCont (distr P) := fun x => by
  have e : distr P = ProbabilityTheory.cdf P := by
    funext z; exact (ProbabilityTheory.cdf_eq_real P z).symm
  rw [e]
  exact (ProbabilityTheory.cdf P).right_continuous x

theorem RightCont.ite {f g : ℝ → ℝ} (hf : RightCont f) (hg : RightCont g) (a : ℝ) :
    RightCont fun x => if x < a then f x else g x := by
  intro x
  by_cases h : x < a
  · refine (hf x).congr_of_eventuallyEq ?_ (if_pos h)
    filter_upwards [mem_nhdsWithin_of_mem_nhds (Iio_mem_nhds h)] with z hz
    exact if_pos hz
  · exact (hg x).congr (fun z hz => if_neg (not_lt.2 ((not_lt.1 h).trans hz))) (if_neg h)

theorem rightCont_const (c : ℝ) : RightCont fun _ => c := Continuous.rightCont continuous_const

theorem RightCont.comp {f : ℝ → ℝ} (h : ℝ → ℝ) (hh : Continuous h) (hf : RightCont f) :
    RightCont fun x => h (f x) := fun x => hh.continuousAt.comp_continuousWithinAt (hf x)

/-- Right-continuous functions that agree almost everywhere are equal. -/
theorem RightCont.eq_of_ae {F G : ℝ → ℝ} (hF : RightCont F) (hG : RightCont G)
    (h : F =ᵐ[volume] G) : F = G := by
  funext x
  have h1 : Filter.Tendsto (fun z => F z - G z) (nhdsWithin x (Set.Ioi x)) (nhds (F x - G x)) :=
    ((hF x).mono Set.Ioi_subset_Ici_self).sub ((hG x).mono Set.Ioi_subset_Ici_self)
  by_contra hne
  have h2 := h1.eventually_ne (sub_ne_zero.2 hne)
  obtain ⟨b, hb, hs⟩ := mem_nhdsGT_iff_exists_Ioo_subset.1 h2
  have h3 : volume (Set.Ioo x b) = 0 := by
    refine measure_mono_null (fun z hz => ?_) h
    intro he
    exact hs hz (sub_eq_zero.2 he)
  rw [Real.volume_Ioo, ENNReal.ofReal_eq_zero] at h3
  have : x < b := hb
  linarith

theorem isDensity_continuous {f F : ℝ → ℝ} (h : IsDensity f F) : Continuous F := by
  have e : F = fun y => (∫ x in Set.Iic (0:ℝ), f x) + ∫ x in (0:ℝ)..y, f x := by
    funext y
    rw [← h.cdf y, ← intervalIntegral.integral_Iic_sub_Iic h.integrable.integrableOn
      h.integrable.integrableOn]
    ring
  rw [e]
  exact continuous_const.add (h.integrable.continuous_primitive 0)

theorem HasMean.congr {P : Measure ℝ} {S : ℝ → XF} {e e' : ℝ} (h : HasMean P S e) (he : e = e') :
    HasMean P S e' := he ▸ h

/-- The score means are unique. -/
theorem HasMean.unique {α : Type*} [MeasurableSpace α] {P : Measure α} {S : α → XF} {e e' : ℝ}
    (h : HasMean P S e) (h' : HasMean P S e') : e = e' := by
  obtain ⟨s, h1, h2, rfl⟩ := h
  obtain ⟨t, g1, g2, rfl⟩ := h'
  refine integral_congr_ae ?_
  filter_upwards [h1, g1] with y a b
  exact XF.fin.inj (a.symm.trans b)

/-- A score that is the CRPS of a right-continuous `G` on `A` is strictly proper. -/
theorem crpsProper_of {A : Set ℝ} {S : ℝ → XF} {G : ℝ → ℝ} (hr : RightCont G)
    (hc : ∀ y, HasCrps G y) (h : ∀ y ∈ A, S y = XF.fin (crps G y)) : CrpsProper A S G := by
  intro P hP hi hA
  obtain ⟨h1, h2, _, h4⟩ := expected_crps hi hc
  refine ⟨⟨crps G, ?_, h1, by rw [h4, add_comm]⟩, ?_⟩
  · filter_upwards [hA] with y hy
    exact h y hy
  · rw [cramer_eq_zero_iff h2]
    constructor
    · intro he
      exact ((hr.eq_of_ae (distr_rightCont P)) he).symm
    · intro he
      rw [he]

/-- One point is enough for the CRPS to exist everywhere. -/
theorem hasCrps_all {G : ℝ → ℝ} (hm : AEMeasurable G) {y : ℝ} (h : HasCrps G y) (y' : ℝ) :
    HasCrps G y' := by
  have hk : Integrable fun z : ℝ => ((if y ≤ z then (1:ℝ) else 0) - if y' ≤ z then 1 else 0) ^ 2 := by
    have := (crps_kernel_integrable (y' - y)).comp_sub_right y
    refine this.congr (Filter.Eventually.of_forall fun z => ?_)
    simp [sub_nonneg]
  refine Integrable.mono' ((h.const_mul 2).add (hk.const_mul 2)) ?_
    (Filter.Eventually.of_forall fun z => ?_)
  · exact ((hm.sub (Measurable.ite measurableSet_Ici measurable_const
      measurable_const).aemeasurable).pow_const 2).aestronglyMeasurable
  · rw [Real.norm_eq_abs, abs_of_nonneg (sq_nonneg _)]
    have : ∀ a b c : ℝ, (a - c) ^ 2 ≤ 2 * (a - b) ^ 2 + 2 * (b - c) ^ 2 := fun a b c => by
      nlinarith [sq_nonneg (a - 2 * b + c)]
    exact this _ _ _

/-- Distribution functions of mass functions are right-continuous. -/
theorem cdfPmf_rightCont (f : ℕ → ℝ) : RightCont (cdfPmf f) := by
  intro x
  have hx : x < ⌊x⌋ + 1 := Int.lt_floor_add_one x
  refine (continuousWithinAt_const (b := cdfPmf f x)).congr_of_eventuallyEq ?_ rfl
  filter_upwards [mem_nhdsWithin_of_mem_nhds (Iio_mem_nhds hx), self_mem_nhdsWithin] with z hz hz'
  unfold cdfPmf
  refine tsum_congr fun k => ?_
  have : ((k:ℝ) ≤ z ↔ (k:ℝ) ≤ x) := by
    constructor
    · intro h
      have h1 : ((k:ℤ):ℝ) < ((⌊x⌋ + 1 : ℤ):ℝ) := by
        push_cast
        exact lt_of_le_of_lt h hz
      have h2 : (k:ℤ) ≤ ⌊x⌋ := Int.lt_add_one_iff.1 (by exact_mod_cast h1)
      exact_mod_cast Int.le_floor.1 h2
    · exact fun h => h.trans hz'
  simp only [this]

/-- Finite sums of steps are right-continuous. -/
theorem rightCont_steps (l : List (ℝ × ℝ)) :
    RightCont fun z => ((l.filter fun p => decide (p.1 ≤ z)).map Prod.snd).sum := by
  induction l with
  | nil => exact rightCont_const 0
  | cons p l ih =>
    have e : (fun z => (((p :: l).filter fun p => decide (p.1 ≤ z)).map Prod.snd).sum)
        = fun z => (if z < p.1 then 0 else p.2)
          + ((l.filter fun p => decide (p.1 ≤ z)).map Prod.snd).sum := by
      funext z
      by_cases h : p.1 ≤ z
      · rw [List.filter_cons_of_pos (by simpa using h), if_neg (not_lt.2 h)]; simp
      · rw [List.filter_cons_of_neg (by simpa using h), if_pos (not_le.1 h)]; simp
    rw [e]
    intro x
    exact (RightCont.ite (rightCont_const 0) (rightCont_const p.2) p.1 x).add (ih x)

/-! ### Laws with a density -/

theorem lawOf_prob {f F : ℝ → ℝ} (h : IsDensity f F) : IsProbabilityMeasure (lawOf f) := by
  refine ⟨?_⟩
  rw [lawOf, withDensity_apply _ MeasurableSet.univ, Measure.restrict_univ,
    ← ofReal_integral_eq_lintegral_ofReal h.integrable (Filter.Eventually.of_forall h.nonneg), h.total,
    ENNReal.ofReal_one]

theorem lawOf_distr {f F : ℝ → ℝ} (h : IsDensity f F) : distr (lawOf f) = F := by
  funext z
  unfold distr Measure.real
  rw [lawOf, withDensity_apply _ measurableSet_Iic,
    ← ofReal_integral_eq_lintegral_ofReal h.integrable.integrableOn
      (Filter.Eventually.of_forall h.nonneg), h.cdf,
    ENNReal.toReal_ofReal]
  rw [← h.cdf]
  exact integral_nonneg h.nonneg

theorem integrable_lawOf {f F : ℝ → ℝ} (h : IsDensity f F) {g : ℝ → ℝ} :
    Integrable g (lawOf f) ↔ Integrable fun x => f x * g x := by
  unfold lawOf
  rw [integrable_withDensity_iff_integrable_smul₀' h.integrable.aestronglyMeasurable.aemeasurable.ennreal_ofReal
    (Filter.Eventually.of_forall fun _ => ENNReal.ofReal_lt_top)]
  simp only [ENNReal.toReal_ofReal (h.nonneg _), smul_eq_mul]

end Verif
