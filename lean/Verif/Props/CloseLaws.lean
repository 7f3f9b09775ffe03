import Verif.Spec.CloseLaws
import Verif.Lemmas.CrpsShape
import Verif.Props.Proper
import Verif.Props.QuantileCrps

/-!
# Property C162: forecasts with close distribution functions have close scores

Stated for any two scores that are strictly proper in the sense of C101, which are all closed-form CRPS and the ensemble
CRPS, with or without weights; the two scores may come from different families.
-/

noncomputable section

open scoped Classical
open MeasureTheory

namespace Verif

open XF Spec

/-- A strictly proper score of this kind is the integral that defines the CRPS. -/
theorem crpsProper_value {A : Set ℝ} {S : ℝ → XF} {G : ℝ → ℝ} (h : CrpsProper A S G) {y : ℝ} (hy : y ∈ A) :
    HasCrps G y ∧ S y = fin (crps G y) := by
  have hd : distr (Measure.dirac y) = fun z => if y ≤ z then 1 else 0 := by
    funext z
    unfold distr
    rw [Measure.real, Measure.dirac_apply' _ measurableSet_Iic]
    by_cases hz : y ≤ z <;> simp [Set.indicator, hz]
  obtain ⟨⟨s, hs, hi, hm⟩, h2⟩ := h (Measure.dirac y) inferInstance (integrable_dirac (by simp))
    (by rw [ae_dirac_eq]; exact hy)
  rw [ae_dirac_eq] at hs
  have hs' : S y = fin (s y) := hs
  rw [integral_dirac] at hm
  have he : crpsEntropy (distr (Measure.dirac y)) = 0 := by
    rw [hd]
    unfold crpsEntropy
    have e : (fun z : ℝ => (if y ≤ z then (1:ℝ) else 0) * (1 - if y ≤ z then 1 else 0)) = fun _ => 0 := by
      funext z
      split_ifs <;> simp
    simp only [e, integral_zero]
  have hc : cramer G (distr (Measure.dirac y)) = crps G y := by
    rw [hd]; rfl
  refine ⟨?_, ?_⟩
  · by_contra hn
    have h0 : cramer G (distr (Measure.dirac y)) = 0 := by
      rw [hc]; exact integral_undef hn
    have h3 := h2.1 h0
    apply hn
    unfold HasCrps
    have : (fun z => (G z - if y ≤ z then 1 else 0) ^ 2) = fun _ : ℝ => (0:ℝ) := by
      funext z
      rw [← h3, hd]
      simp
    rw [this]
    exact integrable_zero _ _ _
  · rw [hs', hm, he, hc, zero_add]

/-- C162: two forecasts differ in score by at most twice the area between their distribution functions, whatever is
observed. -/
theorem C162_close {A B : Set ℝ} {S T : ℝ → XF} {F G : ℝ → ℝ} (hS : CrpsProper A S F) (hT : CrpsProper B T G)
    (hF : Monotone F) (hG : Monotone G) (hi : Integrable fun z => F z - G z) {y : ℝ} (hA : y ∈ A) (hB : y ∈ B) :
    ∃ s t : ℝ, S y = fin s ∧ T y = fin t ∧ |s - t| ≤ 2 * area F G := by
  obtain ⟨h1, h2⟩ := crpsProper_value hS hA
  obtain ⟨h3, h4⟩ := crpsProper_value hT hB
  refine ⟨_, _, h2, h4, ?_⟩
  unfold crps area
  rw [← integral_sub h1 h3, ← integral_const_mul]
  refine (abs_integral_le_integral_abs).trans (integral_mono (h1.sub h3).abs (hi.abs.const_mul 2) fun z => ?_)
  have b1 := crps_bounds hF h1 z
  have b2 := crps_bounds hG h3 z
  have e : ∀ c : ℝ, (F z - c) ^ 2 - (G z - c) ^ 2 = (F z - G z) * (F z + G z - 2 * c) := fun c => by ring
  dsimp only
  rw [e, abs_mul, mul_comm]
  refine mul_le_mul_of_nonneg_right ?_ (abs_nonneg _)
  rw [abs_le]
  split_ifs <;> constructor <;> linarith

/-- a normal and a logistic forecast -/
example : CrpsProper Set.univ (fun y => Closed.normal (fin y) (fin 0) (fin 1)) (cdfNormal 0 1) ∧
    CrpsProper Set.univ (fun y => Closed.logistic (fin y) (fin 0) (fin (1 / 2))) (cdfLogistic 0 (1 / 2)) :=
  ⟨C101_normal one_pos 0, C101_logistic (by norm_num) 0⟩

/-- C162 for forecasts that differ only between `a` and `b`, and there by at most `d`. -/
theorem C162_bounded {A B : Set ℝ} {S T : ℝ → XF} {F G : ℝ → ℝ} (hS : CrpsProper A S F) (hT : CrpsProper B T G)
    (hF : Monotone F) (hG : Monotone G) {a b d : ℝ} (hab : a ≤ b) (hd : ∀ z ∈ Set.Icc a b, |F z - G z| ≤ d)
    (ho : ∀ z ∉ Set.Icc a b, F z = G z) {y : ℝ} (hA : y ∈ A) (hB : y ∈ B) :
    ∃ s t : ℝ, S y = fin s ∧ T y = fin t ∧ |s - t| ≤ 2 * (d * (b - a)) := by
  have hb : ∀ z, |F z - G z| ≤ (Set.Icc a b).indicator (fun _ => d) z := fun z => by
    by_cases hz : z ∈ Set.Icc a b
    · rw [Set.indicator_of_mem hz]; exact hd z hz
    · rw [Set.indicator_of_notMem hz, ho z hz, sub_self, abs_zero]
  have hind : Integrable ((Set.Icc a b).indicator fun _ : ℝ => d) :=
    (integrable_indicator_iff measurableSet_Icc).2 (integrableOn_const (by simp))
  have hi : Integrable fun z => F z - G z :=
    hind.mono' (hF.measurable.sub hG.measurable).aestronglyMeasurable (ae_of_all _ hb)
  obtain ⟨s, t, h1, h2, h3⟩ := C162_close hS hT hF hG hi hA hB
  refine ⟨s, t, h1, h2, h3.trans ?_⟩
  refine mul_le_mul_of_nonneg_left ?_ zero_le_two
  refine (integral_mono hi.abs hind hb).trans (le_of_eq ?_)
  rw [integral_indicator measurableSet_Icc, setIntegral_const, Real.volume_real_Icc_of_le hab, smul_eq_mul, mul_comm]

/-- the uniform distribution and the ensemble with the members 0 and 1 -/
example : CrpsProper Set.univ (fun y => Closed.uniform (fin y) (fin 0) (fin 1) (fin 0) (fin 0)) (cdfUniform 0 1 0 0) ∧
    ∃ S : ℝ → XF, CrpsProper Set.univ S (ecdf [0, 1]) :=
  ⟨C101_uniform one_pos le_rfl le_rfl (by norm_num), (C101_ensemble .array false (xs := [0, 1]) (by simp)).imp fun _ h => h.2⟩

/-- the ensembles 0, 1 and 0, 0 differ by a half between 0 and 1, and nowhere else -/
example : (∃ S : ℝ → XF, CrpsProper Set.univ S (ecdf [0, 1])) ∧ (∃ S : ℝ → XF, CrpsProper Set.univ S (ecdf [0, 0])) ∧
    Monotone (ecdf [0, 1]) ∧ Monotone (ecdf [0, 0]) ∧ (∀ z ∈ Set.Icc (0:ℝ) 1, |ecdf [0, 1] z - ecdf [0, 0] z| ≤ 1 / 2) ∧
    ∀ z ∉ Set.Icc (0:ℝ) 1, ecdf [0, 1] z = ecdf [0, 0] z := by
  refine ⟨(C101_ensemble .array false (xs := [0, 1]) (by simp)).imp fun _ h => h.2,
    (C101_ensemble .array false (xs := [0, 0]) (by simp)).imp fun _ h => h.2, ecdf_mono _, ecdf_mono _, ?_, ?_⟩
  · intro z hz
    by_cases h : 1 ≤ z <;> simp [ecdf, hz.1, h] <;> norm_num
  · intro z hz
    rw [Set.mem_Icc, not_and_or, not_le, not_le] at hz
    rcases hz with h | h
    · simp [ecdf, not_le.2 h, not_le.2 (h.trans one_pos)]
    · simp [ecdf, (one_pos.trans h).le, h.le]

/-- C162: a forecast whose distribution function is everywhere closer to the step at the observation scores at least as
well. -/
theorem C162_closer {A B : Set ℝ} {S T : ℝ → XF} {F G : ℝ → ℝ} (hS : CrpsProper A S F) (hT : CrpsProper B T G) {y : ℝ}
    (hA : y ∈ A) (hB : y ∈ B) (h : CloserLaw y F G) : ∃ s t : ℝ, S y = fin s ∧ T y = fin t ∧ s ≤ t := by
  obtain ⟨h1, h2⟩ := crpsProper_value hS hA
  obtain ⟨h3, h4⟩ := crpsProper_value hT hB
  exact ⟨_, _, h2, h4, integral_mono h1 h3 fun z => sq_le_sq.2 (h z)⟩

/-- observation 0: an exponential forecast with a larger rate is closer -/
example : CloserLaw 0 (cdfExp 2) (cdfExp 1) := by
  intro z
  unfold cdfExp
  by_cases hz : z < 0
  · simp [hz]
  · have h0 : 0 ≤ z := not_lt.1 hz
    have h1 : Real.exp (-(2 * z)) ≤ Real.exp (-(1 * z)) := Real.exp_le_exp.2 (by linarith)
    simp only [hz, if_false, h0, if_true, sub_sub_cancel_left, abs_neg, Real.abs_exp]
    exact h1

/-- The factor two cannot be lowered: against all weight at 0, the weight `ε` moved from 0 to 1 has area `ε`, and for the
observation 1 the scores differ by `2 ε - ε ^ 2`. -/
theorem C162_sharp (path : Path) (sorted : Bool) {c : ℝ} (hc : c < 2) :
    ∃ (l l' : List (ℝ × ℝ)) (s t : ℝ), (∀ p ∈ l ++ l', 0 ≤ p.2) ∧
      Api.crps1 path "nrg" sorted "propagate" (fin 1) (l.map fun p => fin p.1) (some (l.map fun p => fin p.2)) = .ok (fin s) ∧
      Api.crps1 path "nrg" sorted "propagate" (fin 1) (l'.map fun p => fin p.1) (some (l'.map fun p => fin p.2))
        = .ok (fin t) ∧
      0 < area (wcdf l) (wcdf l') ∧ c * area (wcdf l) (wcdf l') < |s - t| := by
  obtain ⟨e, he0, he1, hec⟩ : ∃ e : ℝ, 0 < e ∧ e ≤ 1 ∧ c < 2 - e :=
    ⟨min 1 ((2 - c) / 2), by
      have : 0 < (2 - c) / 2 := by linarith
      positivity, min_le_left _ _, by linarith [min_le_right 1 ((2 - c) / 2)]⟩
  have hw1 : ∀ p ∈ [((0:ℝ), (1:ℝ)), (1, 0)], 0 ≤ p.2 := by simp
  have hw2 : ∀ p ∈ [((0:ℝ), 1 - e), (1, e)], 0 ≤ p.2 := by
    intro p hp
    simp only [List.mem_cons, List.not_mem_nil, or_false] at hp
    rcases hp with rfl | rfl
    · simp only; linarith
    · exact he0.le
  have hF : ∀ z, wcdf [((0:ℝ), (1:ℝ)), (1, 0)] z = if z < 0 then 0 else 1 := fun z => by
    unfold wcdf
    rcases lt_or_ge z 0 with h | h
    · have h1 : ¬ 0 ≤ z := not_le.2 h
      have h2 : ¬ 1 ≤ z := by linarith
      simp [h, h1, h2]
    · by_cases h2 : 1 ≤ z <;> simp [h, h2, not_lt.2 h]
  have hG : ∀ z, wcdf [((0:ℝ), 1 - e), (1, e)] z = if z < 0 then 0 else if z < 1 then 1 - e else 1 := fun z => by
    unfold wcdf
    rcases lt_or_ge z 0 with h | h
    · have h1 : ¬ 0 ≤ z := not_le.2 h
      have h2 : ¬ 1 ≤ z := by linarith
      simp [h, h1, h2]
    · rcases lt_or_ge z 1 with h2 | h2
      · simp [h, h2, not_lt.2 h, not_le.2 h2]
      · simp [h, h2, not_lt.2 h, not_lt.2 h2]
  have hI : ∀ k : ℝ, ∫ z, (Set.Ico (0:ℝ) 1).indicator (fun _ => k) z = k := fun k => by
    rw [integral_indicator measurableSet_Ico, setIntegral_const, Real.volume_real_Ico_of_le zero_le_one, smul_eq_mul]
    ring
  have harea : area (wcdf [((0:ℝ), (1:ℝ)), (1, 0)]) (wcdf [((0:ℝ), 1 - e), (1, e)]) = e := by
    unfold area
    refine Eq.trans ?_ (hI e)
    congr 1
    funext z
    rw [hF, hG]
    by_cases h : z < 0
    · rw [if_pos h, if_pos h, Set.indicator_of_notMem (by simp [h]), sub_self, abs_zero]
    · by_cases h2 : z < 1
      · rw [if_neg h, if_neg h, if_pos h2, Set.indicator_of_mem (by exact ⟨not_lt.1 h, h2⟩), sub_sub_cancel, abs_of_pos he0]
      · rw [if_neg h, if_neg h, if_neg h2, Set.indicator_of_notMem (by simp [not_lt.1 h2]), sub_self, abs_zero]
  have hs : crps (wcdf [((0:ℝ), (1:ℝ)), (1, 0)]) 1 = 1 := by
    unfold crps
    refine Eq.trans ?_ (hI 1)
    congr 1
    funext z
    rw [hF]
    by_cases h : z < 0
    · have : ¬ 1 ≤ z := by linarith
      rw [if_pos h, if_neg this, Set.indicator_of_notMem (by simp [h])]; norm_num
    · by_cases h2 : z < 1
      · rw [if_neg h, if_neg (not_le.2 h2), Set.indicator_of_mem (by exact ⟨not_lt.1 h, h2⟩)]; norm_num
      · rw [if_neg h, if_pos (not_lt.1 h2), Set.indicator_of_notMem (by simp [not_lt.1 h2])]; norm_num
  have ht : crps (wcdf [((0:ℝ), 1 - e), (1, e)]) 1 = (1 - e) ^ 2 := by
    unfold crps
    refine Eq.trans ?_ (hI ((1 - e) ^ 2))
    congr 1
    funext z
    rw [hG]
    by_cases h : z < 0
    · have : ¬ 1 ≤ z := by linarith
      rw [if_pos h, if_neg this, Set.indicator_of_notMem (by simp [h])]; norm_num
    · by_cases h2 : z < 1
      · rw [if_neg h, if_pos h2, if_neg (not_le.2 h2), Set.indicator_of_mem (by exact ⟨not_lt.1 h, h2⟩), sub_zero]
      · rw [if_neg h, if_neg h2, if_pos (not_lt.1 h2), Set.indicator_of_notMem (by simp [not_lt.1 h2])]; norm_num
  refine ⟨[(0, 1), (1, 0)], [(0, 1 - e), (1, e)], 1, (1 - e) ^ 2, ?_, ?_, ?_, ?_, ?_⟩
  · intro p hp
    rcases List.mem_append.1 hp with h | h
    · exact hw1 p h
    · exact hw2 p h
  · rw [C01_nrg_weighted_is_integral path sorted 1 _ hw1 (by simp), hs]
  · rw [C01_nrg_weighted_is_integral path sorted 1 _ hw2 (by simp), ht]
  · rw [harea]; exact he0
  · rw [harea, abs_of_nonneg (by nlinarith)]
    nlinarith

/-- a factor below two -/
example : (19 / 10 : ℝ) < 2 := by norm_num

end Verif
