import Verif.Lemmas.Mmd
import Mathlib.MeasureTheory.Integral.IntegralEqImproper
import Mathlib.Analysis.SpecialFunctions.Integrals.Basic
import Mathlib.Analysis.SpecialFunctions.ImproperIntegrals

/-!
# The energy distance separates measures of equal mass

The Euclidean distance is a mixture of Gaussian kernels, so the energy distance is a mixture of the Gaussian
kernel distances.
-/

noncomputable section

open scoped Classical
open MeasureTheory Set

namespace Verif

open Spec

/-! ### The distance as a mixture -/

/-- density of the mixture -/
def mixG (u : ℝ) : ℝ := (1 - Real.exp (-u)) * u ^ (-(3 / 2) : ℝ)

theorem mixG_nonneg {u : ℝ} (hu : 0 < u) : 0 ≤ mixG u := by
  unfold mixG
  have : Real.exp (-u) ≤ 1 := Real.exp_le_one_iff.2 (by linarith)
  exact mul_nonneg (by linarith) (Real.rpow_nonneg hu.le _)

theorem mixG_pos {u : ℝ} (hu : 0 < u) : 0 < mixG u := by
  unfold mixG
  have : Real.exp (-u) < 1 := by
    rw [← Real.exp_zero]; exact Real.exp_lt_exp.2 (by linarith)
  exact mul_pos (by linarith) (Real.rpow_pos_of_pos hu _)

theorem mixG_meas : Measurable mixG := by
  unfold mixG
  fun_prop

theorem integrable_mixG : IntegrableOn mixG (Ioi 0) := by
  have hU : Ioi (0:ℝ) = Ioc 0 1 ∪ Ioi 1 := (Ioc_union_Ioi_eq_Ioi zero_le_one).symm
  rw [hU]
  refine IntegrableOn.union ?_ ?_
  · have h : IntegrableOn (fun u : ℝ => u ^ (-(1 / 2) : ℝ)) (Ioc 0 1) := by
      rw [← intervalIntegrable_iff_integrableOn_Ioc_of_le zero_le_one]
      exact intervalIntegral.intervalIntegrable_rpow' (by norm_num)
    refine Integrable.mono' h mixG_meas.aestronglyMeasurable ?_
    filter_upwards [self_mem_ae_restrict measurableSet_Ioc] with u hu
    rw [Real.norm_of_nonneg (mixG_nonneg hu.1)]
    unfold mixG
    have e : u ^ (-(1 / 2) : ℝ) = u * u ^ (-(3 / 2) : ℝ) := by
      nth_rewrite 2 [← Real.rpow_one u]
      rw [← Real.rpow_add hu.1]
      norm_num
    rw [e]
    refine mul_le_mul_of_nonneg_right ?_ (Real.rpow_nonneg hu.1.le _)
    have := Real.add_one_le_exp (-u)
    linarith
  · have h : IntegrableOn (fun u : ℝ => u ^ (-(3 / 2) : ℝ)) (Ioi 1) :=
      integrableOn_Ioi_rpow_of_lt (by norm_num) one_pos
    refine Integrable.mono' h mixG_meas.aestronglyMeasurable ?_
    filter_upwards [self_mem_ae_restrict measurableSet_Ioi] with u hu
    have hu0 : 0 < u := lt_trans one_pos hu
    rw [Real.norm_of_nonneg (mixG_nonneg hu0)]
    unfold mixG
    have := Real.exp_pos (-u)
    exact mul_le_of_le_one_left (Real.rpow_nonneg hu0.le _) (by linarith)

/-- the constant of the mixture -/
def mixC : ℝ := ∫ u in Ioi (0:ℝ), mixG u

theorem mixC_pos : 0 < mixC := by
  unfold mixC
  refine lt_of_le_of_ne (setIntegral_nonneg measurableSet_Ioi fun u hu => mixG_nonneg hu) fun h => ?_
  rw [eq_comm, setIntegral_eq_zero_iff_of_nonneg_ae] at h
  · have h2 : ∀ᵐ u ∂(volume.restrict (Ioi (0:ℝ))), False := by
      filter_upwards [h, self_mem_ae_restrict measurableSet_Ioi] with u h1 h2
      exact (mixG_pos h2).ne' h1
    rw [Filter.eventually_false_iff_eq_bot, ae_eq_bot, Measure.restrict_eq_zero] at h2
    simp at h2
  · filter_upwards [self_mem_ae_restrict measurableSet_Ioi] with u hu
    exact mixG_nonneg hu
  · exact integrable_mixG

theorem mix_scale {r : ℝ} (hr : 0 < r) {s : ℝ} (hs : 0 < s) :
    (1 - Real.exp (-(s * r ^ 2))) * s ^ (-(3 / 2) : ℝ) = r ^ 3 * mixG (r ^ 2 * s) := by
  unfold mixG
  rw [Real.mul_rpow (by positivity) hs.le, mul_comm (r ^ 2) s]
  have : r ^ 3 * (r ^ 2) ^ (-(3 / 2) : ℝ) = 1 := by
    rw [← Real.rpow_natCast r 2, ← Real.rpow_mul hr.le, ← Real.rpow_natCast r 3, ← Real.rpow_add hr]
    norm_num
  linear_combination ((-1 + Real.exp (-(s * r ^ 2))) * s ^ (-(3 / 2) : ℝ)) * this

theorem mix_integrable {r : ℝ} (hr : 0 ≤ r) :
    IntegrableOn (fun s : ℝ => (1 - Real.exp (-(s * r ^ 2))) * s ^ (-(3 / 2) : ℝ)) (Ioi 0) := by
  rcases hr.eq_or_lt with rfl | hr
  · simp
  · have h : IntegrableOn (fun s => mixG (r ^ 2 * s)) (Ioi 0) := by
      rw [integrableOn_Ioi_comp_mul_left_iff _ _ (by positivity : 0 < r ^ 2), mul_zero]
      exact integrable_mixG
    refine IntegrableOn.congr_fun (h.const_mul (r ^ 3)) (fun s hs => (mix_scale hr hs).symm) measurableSet_Ioi

theorem mix_integral {r : ℝ} (hr : 0 ≤ r) :
    ∫ s in Ioi (0:ℝ), (1 - Real.exp (-(s * r ^ 2))) * s ^ (-(3 / 2) : ℝ) = mixC * r := by
  rcases hr.eq_or_lt with rfl | hr
  · simp
  · rw [setIntegral_congr_fun measurableSet_Ioi fun s hs => mix_scale hr hs, integral_const_mul,
      integral_comp_mul_left_Ioi _ _ (by positivity : 0 < r ^ 2), mul_zero, smul_eq_mul]
    unfold mixC
    field_simp

/-! ### The energy distance -/

variable {E : Type} [NormedAddCommGroup E] [InnerProductSpace ℝ E] [FiniteDimensional ℝ E]
  [MeasurableSpace E] [BorelSpace E]

theorem integrable_dist_pair {A B : Measure E} [IsFiniteMeasure A] [IsFiniteMeasure B]
    (hA : Integrable (fun x => ‖x‖) A) (hB : Integrable (fun x => ‖x‖) B) :
    Integrable (fun z : E × E => dist z.1 z.2) (A.prod B) := by
  refine Integrable.mono' ((hA.comp_fst B).add (hB.comp_snd A))
    (by fun_prop : Continuous fun z : E × E => dist z.1 z.2).aestronglyMeasurable
    (Filter.Eventually.of_forall fun z => ?_)
  rw [Real.norm_of_nonneg dist_nonneg, dist_eq_norm]
  exact norm_sub_le _ _

/-- the mixture on pairs -/
def mixPair (z : E × E) (s : ℝ) : ℝ := (1 - gk s z.1 z.2) * s ^ (-(3 / 2) : ℝ)

theorem mixPair_meas : Measurable (Function.uncurry (mixPair (E := E))) := by
  have h1 : Measurable fun p : (E × E) × ℝ => dist p.1.1 p.1.2 :=
    (by fun_prop : Continuous fun p : (E × E) × ℝ => dist p.1.1 p.1.2).measurable
  have h2 : Measurable fun p : (E × E) × ℝ => p.2 := measurable_snd
  exact (measurable_const.sub (Real.measurable_exp.comp (h2.mul (h1.pow_const 2)).neg)).mul (h2.pow_const _)

theorem mixPair_eq (z : E × E) (s : ℝ) :
    mixPair z s = (1 - Real.exp (-(s * dist z.1 z.2 ^ 2))) * s ^ (-(3 / 2) : ℝ) := rfl

theorem mixPair_nonneg (z : E × E) {s : ℝ} (hs : 0 < s) : 0 ≤ mixPair z s := by
  have := gk_le_one hs.le z.1 z.2
  exact mul_nonneg (by linarith) (Real.rpow_nonneg hs.le _)

theorem integrable_mixPair {A B : Measure E} [IsFiniteMeasure A] [IsFiniteMeasure B]
    (hA : Integrable (fun x => ‖x‖) A) (hB : Integrable (fun x => ‖x‖) B) :
    Integrable (Function.uncurry (mixPair (E := E))) ((A.prod B).prod (volume.restrict (Ioi 0))) := by
  rw [integrable_prod_iff mixPair_meas.aestronglyMeasurable]
  constructor
  · refine Filter.Eventually.of_forall fun z => ?_
    have h : Integrable (fun s : ℝ => mixPair z s) (volume.restrict (Ioi 0)) := by
      simp only [mixPair_eq]
      exact mix_integrable (dist_nonneg (x := z.1) (y := z.2))
    exact h
  · refine ((integrable_dist_pair hA hB).const_mul mixC).congr (Filter.Eventually.of_forall fun z => ?_)
    show mixC * dist z.1 z.2 = ∫ s in Ioi (0:ℝ), ‖mixPair z s‖
    rw [← mix_integral dist_nonneg]
    refine setIntegral_congr_fun measurableSet_Ioi fun s hs => ?_
    rw [Real.norm_of_nonneg (mixPair_nonneg z hs), mixPair_eq]

theorem gk_integrable {s : ℝ} (hs : 0 ≤ s) (A B : Measure E) [IsFiniteMeasure A] [IsFiniteMeasure B] :
    Integrable (fun z : E × E => gk s z.1 z.2) (A.prod B) :=
  integrable_bdd (gk_continuous s).aestronglyMeasurable 1 fun z => by
    rw [abs_of_pos (gk_pos _ _ _)]; exact gk_le_one hs _ _

theorem mixPair_mean {s : ℝ} (hs : 0 < s) (A B : Measure E) [IsFiniteMeasure A] [IsFiniteMeasure B] :
    ∫ z, mixPair z s ∂(A.prod B)
      = (A.real univ * B.real univ - pairMean (gk s) A B) * s ^ (-(3 / 2) : ℝ) := by
  unfold mixPair pairMean
  rw [integral_mul_const, integral_sub (integrable_const _) (gk_integrable hs.le A B), integral_const,
    smul_eq_mul, mul_one, ← univ_prod_univ, measureReal_prod_prod]

theorem pairMean_dist_mix {A B : Measure E} [IsFiniteMeasure A] [IsFiniteMeasure B]
    (hA : Integrable (fun x => ‖x‖) A) (hB : Integrable (fun x => ‖x‖) B) :
    IntegrableOn (fun s : ℝ => (A.real univ * B.real univ - pairMean (gk s) A B) * s ^ (-(3 / 2) : ℝ)) (Ioi 0) ∧
    mixC * pairMean dist A B
      = ∫ s in Ioi (0:ℝ), (A.real univ * B.real univ - pairMean (gk s) A B) * s ^ (-(3 / 2) : ℝ) := by
  have hI := integrable_mixPair hA hB
  constructor
  · refine IntegrableOn.congr_fun hI.integral_prod_right (fun s hs => mixPair_mean hs A B) measurableSet_Ioi
  · rw [← setIntegral_congr_fun measurableSet_Ioi fun s (hs : 0 < s) => mixPair_mean hs A B,
      ← integral_integral_swap hI]
    unfold pairMean
    rw [← integral_const_mul]
    refine integral_congr_ae (Filter.Eventually.of_forall fun z => ?_)
    exact (mix_integral dist_nonneg).symm

omit [NormedAddCommGroup E] [InnerProductSpace ℝ E] [FiniteDimensional ℝ E] [BorelSpace E] in
theorem pairMean_neg (K : E → E → ℝ) (A B : Measure E) :
    pairMean (fun x y => -K x y) A B = -pairMean K A B := by
  unfold pairMean
  rw [integral_neg]

/-- The energy distance is a mixture of Gaussian kernel distances. -/
theorem mmd2_negDist_mix {A B : Measure E} [IsFiniteMeasure A] [IsFiniteMeasure B]
    (hA : Integrable (fun x => ‖x‖) A) (hB : Integrable (fun x => ‖x‖) B) (hm : A.real univ = B.real univ) :
    IntegrableOn (fun s : ℝ => mmd2 (gk s) A B * s ^ (-(3 / 2) : ℝ)) (Ioi 0) ∧
    mixC * mmd2 negDist A B = ∫ s in Ioi (0:ℝ), mmd2 (gk s) A B * s ^ (-(3 / 2) : ℝ) := by
  obtain ⟨i1, e1⟩ := pairMean_dist_mix hA hA
  obtain ⟨i2, e2⟩ := pairMean_dist_mix hA hB
  obtain ⟨i3, e3⟩ := pairMean_dist_mix hB hB
  rw [hm] at i1 e1 i2 e2
  have e : (fun s : ℝ => mmd2 (gk s) A B * s ^ (-(3 / 2) : ℝ)) = fun s =>
      (2 * ((B.real univ * B.real univ - pairMean (gk s) A B) * s ^ (-(3 / 2) : ℝ))
        - (B.real univ * B.real univ - pairMean (gk s) A A) * s ^ (-(3 / 2) : ℝ))
        - (B.real univ * B.real univ - pairMean (gk s) B B) * s ^ (-(3 / 2) : ℝ) := by
    funext s
    unfold mmd2
    ring
  rw [e]
  refine ⟨((i2.const_mul 2).sub i1).sub i3, ?_⟩
  have h1 : IntegrableOn (fun s : ℝ => 2 * ((B.real univ * B.real univ - pairMean (gk s) A B) * s ^ (-(3 / 2) : ℝ))
        - (B.real univ * B.real univ - pairMean (gk s) A A) * s ^ (-(3 / 2) : ℝ)) (Ioi 0) :=
    (i2.const_mul 2).sub i1
  rw [integral_sub h1 i3, integral_sub (i2.const_mul 2) i1, integral_const_mul, ← e1, ← e2, ← e3]
  unfold mmd2 negDist
  simp only [pairMean_neg]
  ring

theorem mmd2_negDist_nonneg {A B : Measure E} [IsFiniteMeasure A] [IsFiniteMeasure B]
    (hA : Integrable (fun x => ‖x‖) A) (hB : Integrable (fun x => ‖x‖) B) (hm : A.real univ = B.real univ) :
    0 ≤ mmd2 negDist A B := by
  obtain ⟨-, e⟩ := mmd2_negDist_mix hA hB hm
  have h : 0 ≤ mixC * mmd2 negDist A B := by
    rw [e]
    exact setIntegral_nonneg measurableSet_Ioi fun s (hs : 0 < s) =>
      mul_nonneg (mmd2_gk_nonneg hs.le _ _) (Real.rpow_nonneg hs.le _)
  exact nonneg_of_mul_nonneg_right h mixC_pos

theorem mmd2_negDist_eq_zero_iff {A B : Measure E} [IsFiniteMeasure A] [IsFiniteMeasure B]
    (hA : Integrable (fun x => ‖x‖) A) (hB : Integrable (fun x => ‖x‖) B) (hm : A.real univ = B.real univ) :
    mmd2 negDist A B = 0 ↔ A = B := by
  constructor
  · intro h
    obtain ⟨i, e⟩ := mmd2_negDist_mix hA hB hm
    rw [h, mul_zero, eq_comm, setIntegral_eq_zero_iff_of_nonneg_ae _ i] at e
    · have h2 : ∀ᵐ s ∂(volume.restrict (Ioi (0:ℝ))), A = B := by
        filter_upwards [e, self_mem_ae_restrict measurableSet_Ioi] with s h1 (h2 : 0 < s)
        rcases mul_eq_zero.1 h1 with h3 | h3
        · exact (mmd2_gk_eq_zero_iff h2 _ _).1 h3
        · exact absurd h3 (Real.rpow_pos_of_pos h2 _).ne'
      by_contra hne
      rw [Filter.eventually_congr (Filter.Eventually.of_forall fun _ => iff_false_intro hne),
        Filter.eventually_false_iff_eq_bot, ae_eq_bot, Measure.restrict_eq_zero] at h2
      simp at h2
    · filter_upwards [self_mem_ae_restrict measurableSet_Ioi] with s (hs : 0 < s)
      exact mul_nonneg (mmd2_gk_nonneg hs.le _ _) (Real.rpow_nonneg hs.le _)
  · rintro rfl
    unfold mmd2
    ring

/-! ### Ensembles -/

theorem negDist_cont : Continuous fun z : E × E => negDist z.1 z.2 := by
  unfold negDist
  fun_prop

theorem integrable_negDist {P : Measure E} [IsFiniteMeasure P] (hP : Integrable (fun x => ‖x‖) P) (x : E) :
    Integrable (fun y => negDist y x) P := by
  refine Integrable.mono' (hP.add (integrable_const ‖x‖))
    (by unfold negDist; fun_prop : Continuous fun y : E => negDist y x).aestronglyMeasurable
    (Filter.Eventually.of_forall fun y => ?_)
  unfold negDist
  rw [norm_neg, Real.norm_of_nonneg dist_nonneg, dist_eq_norm]
  exact norm_sub_le _ _

omit [InnerProductSpace ℝ E] [FiniteDimensional ℝ E] [MeasurableSpace E] [BorelSpace E] in
theorem negDist_self (y : E) : negDist y y = 0 := by simp [negDist]

theorem kernelProper_negDist {l : List (E × ℝ)} (hw : ∀ p ∈ l, 0 ≤ p.2) (h1 : (l.map Prod.snd).sum = 1) :
    KernelProper (FinMean E) negDist (fun y => XF.fin (ks negDist y l)) (ensLaw l) := by
  intro P (hi : Integrable (fun x => ‖x‖) P) hP
  have hQ := ensLaw_prob hw h1
  have hiQ : Integrable (fun x => ‖x‖) (ensLaw l) := (integral_ensLaw hw _).1
  have hm : P.real univ = (ensLaw l).real univ := by simp
  refine ⟨?_, mmd2_negDist_nonneg hi hiQ hm, mmd2_negDist_eq_zero_iff hi hiQ hm⟩
  refine ks_mean (fun x y => by unfold negDist; rw [dist_comm]) negDist_cont.measurable hw P
    (integrable_negDist hi) ?_
  simp only [negDist_self]
  exact integrable_zero _ _ _

/-! ### Measures of different mass -/

/-- a measure with an additional point mass at zero -/
def addZero (A : Measure E) (c : ENNReal) : Measure E := A + c • Measure.dirac 0

omit [InnerProductSpace ℝ E] [FiniteDimensional ℝ E] in
theorem addZero_fin (A : Measure E) [IsFiniteMeasure A] {c : ENNReal} (hc : c ≠ ⊤) :
    IsFiniteMeasure (addZero A c) := by
  constructor
  unfold addZero
  simp [hc.lt_top]

omit [InnerProductSpace ℝ E] [FiniteDimensional ℝ E] in
theorem addZero_integrable {A : Measure E} {c : ENNReal} (hc : c ≠ ⊤)
    (hA : Integrable (fun x => ‖x‖) A) : Integrable (fun x => ‖x‖) (addZero A c) := by
  unfold addZero
  exact hA.add_measure ((integrable_dirac (by simp)).smul_measure hc)

theorem integral_addZero {A : Measure E} {c : ENNReal} (hc : c ≠ ⊤) {f : E → ℝ} (hf : Integrable f A) :
    ∫ x, f x ∂(addZero A c) = ∫ x, f x ∂A + c.toReal * f 0 := by
  unfold addZero
  rw [integral_add_measure hf ((integrable_dirac (by simp)).smul_measure hc), integral_smul_measure,
    integral_dirac, smul_eq_mul]

theorem integrable_distTo {P : Measure E} [IsFiniteMeasure P] (hP : Integrable (fun x => ‖x‖) P) (x : E) :
    Integrable (fun y => dist x y) P := by
  have := (integrable_negDist hP x).neg
  refine this.congr (Filter.Eventually.of_forall fun y => ?_)
  simp [negDist, dist_comm]

theorem pairMean_addZero {A B : Measure E} [IsFiniteMeasure A] [IsFiniteMeasure B]
    (hA : Integrable (fun x => ‖x‖) A) (hB : Integrable (fun x => ‖x‖) B) {c d : ENNReal} (hc : c ≠ ⊤) (hd : d ≠ ⊤) :
    pairMean dist (addZero A c) (addZero B d) = pairMean dist A B + d.toReal * (∫ x, ‖x‖ ∂A)
      + c.toReal * ∫ x, ‖x‖ ∂B := by
  have f1 := addZero_fin A hc
  have f2 := addZero_fin B hd
  unfold pairMean
  have hI := integrable_dist_pair hA hB
  rw [integral_prod _ (integrable_dist_pair (addZero_integrable hc hA) (addZero_integrable hd hB)),
    integral_prod _ hI]
  have e : ∀ x : E, ∫ y, dist x y ∂(addZero B d) = ∫ y, dist x y ∂B + d.toReal * ‖x‖ := fun x => by
    rw [integral_addZero hd (integrable_distTo hB x), dist_zero_right]
  simp only [e]
  have i1 : Integrable (fun x => ∫ y, dist x y ∂B) A := hI.integral_prod_left
  have i2 : Integrable (fun x => (∫ y, dist x y ∂B) + d.toReal * ‖x‖) A := i1.add (hA.const_mul _)
  rw [integral_addZero hc i2, integral_add i1 (hA.const_mul _), integral_const_mul]
  simp only [norm_zero, mul_zero, add_zero, dist_zero_left]

theorem pairMean_cdist {A B : Measure E} [IsFiniteMeasure A] [IsFiniteMeasure B]
    (hA : Integrable (fun x => ‖x‖) A) (hB : Integrable (fun x => ‖x‖) B) :
    pairMean cdist A B = B.real univ * (∫ x, ‖x‖ ∂A) + A.real univ * (∫ x, ‖x‖ ∂B) - pairMean dist A B := by
  unfold pairMean cdist
  have i1 := hA.comp_fst B
  have i2 := hB.comp_snd A
  have i3 : Integrable (fun z : E × E => ‖z.1‖ + ‖z.2‖) (A.prod B) := i1.add i2
  rw [integral_sub i3 (integrable_dist_pair hA hB), integral_add i1 i2,
    integral_fun_fst (fun x : E => ‖x‖), integral_fun_snd (fun x : E => ‖x‖), smul_eq_mul, smul_eq_mul]

/-- The centred distance compares the measures completed to equal mass at zero. -/
theorem mmd2_cdist {A B : Measure E} [IsFiniteMeasure A] [IsFiniteMeasure B]
    (hA : Integrable (fun x => ‖x‖) A) (hB : Integrable (fun x => ‖x‖) B) :
    mmd2 cdist A B = mmd2 negDist (addZero A (B univ)) (addZero B (A univ)) := by
  unfold mmd2 negDist
  simp only [pairMean_neg]
  rw [pairMean_cdist hA hA, pairMean_cdist hA hB, pairMean_cdist hB hB,
    pairMean_addZero hA hA (measure_ne_top B _) (measure_ne_top B _),
    pairMean_addZero hA hB (measure_ne_top B _) (measure_ne_top A _),
    pairMean_addZero hB hB (measure_ne_top A _) (measure_ne_top A _)]
  simp only [← measureReal_def]
  ring

theorem addZero_mass (A B : Measure E) [IsFiniteMeasure A] [IsFiniteMeasure B] :
    (addZero A (B univ)).real univ = (addZero B (A univ)).real univ := by
  unfold addZero
  simp [measureReal_def, add_comm]

theorem mmd2_cdist_nonneg {A B : Measure E} [IsFiniteMeasure A] [IsFiniteMeasure B]
    (hA : Integrable (fun x => ‖x‖) A) (hB : Integrable (fun x => ‖x‖) B) : 0 ≤ mmd2 cdist A B := by
  have f1 := addZero_fin A (measure_ne_top B univ)
  have f2 := addZero_fin B (measure_ne_top A univ)
  rw [mmd2_cdist hA hB]
  exact mmd2_negDist_nonneg (addZero_integrable (measure_ne_top B _) hA)
    (addZero_integrable (measure_ne_top A _) hB) (addZero_mass A B)

theorem addZero_eq_iff (A B : Measure E) [IsFiniteMeasure A] [IsFiniteMeasure B] :
    addZero A (B univ) = addZero B (A univ) ↔ A.restrict {0}ᶜ = B.restrict {0}ᶜ := by
  have m0 : MeasurableSet ({0} : Set E)ᶜ := (measurableSet_singleton 0).compl
  constructor
  · intro h
    have h1 := congrArg (fun M : Measure E => M.restrict {0}ᶜ) h
    unfold addZero at h1
    simpa [Measure.restrict_add, Measure.restrict_smul, restrict_dirac' m0] using h1
  · intro h
    have key : ∀ s, MeasurableSet s → A (s ∩ {0}ᶜ) = B (s ∩ {0}ᶜ) := fun s hs => by
      rw [← Measure.restrict_apply hs, ← Measure.restrict_apply hs, h]
    have split : ∀ (M : Measure E) (s : Set E), MeasurableSet s →
        M s = M (s ∩ {0}ᶜ) + M (s ∩ {0}) := fun M s hs => by
      rw [add_comm]; exact (measure_inter_add_diff s (measurableSet_singleton 0)).symm
    have hz : B univ + A {0} = A univ + B {0} := by
      rw [split A univ .univ, split B univ .univ, key univ .univ, univ_inter, univ_inter]
      ac_rfl
    ext s hs
    unfold addZero
    simp only [Measure.add_apply, Measure.smul_apply, smul_eq_mul, Measure.dirac_apply' _ hs]
    by_cases h0 : (0:E) ∈ s
    · have e : s ∩ {0} = {0} := inter_eq_self_of_subset_right (singleton_subset_iff.2 h0)
      rw [split A s hs, split B s hs, key s hs, e]
      simp only [indicator_of_mem h0, Pi.one_apply, mul_one]
      rw [add_assoc, add_comm (A {0}), hz, add_assoc, add_comm (B {0})]
    · have e : s ∩ {0} = ∅ := inter_singleton_eq_empty.2 h0
      rw [split A s hs, split B s hs, key s hs, e]
      simp [h0]

theorem mmd2_cdist_eq_zero_iff {A B : Measure E} [IsFiniteMeasure A] [IsFiniteMeasure B]
    (hA : Integrable (fun x => ‖x‖) A) (hB : Integrable (fun x => ‖x‖) B) :
    mmd2 cdist A B = 0 ↔ A.restrict {0}ᶜ = B.restrict {0}ᶜ := by
  have f1 := addZero_fin A (measure_ne_top B univ)
  have f2 := addZero_fin B (measure_ne_top A univ)
  rw [mmd2_cdist hA hB, mmd2_negDist_eq_zero_iff (addZero_integrable (measure_ne_top B _) hA)
    (addZero_integrable (measure_ne_top A _) hB) (addZero_mass A B), addZero_eq_iff]

theorem cdist_cont : Continuous fun z : E × E => cdist z.1 z.2 := by
  unfold cdist
  fun_prop

omit [InnerProductSpace ℝ E] [FiniteDimensional ℝ E] [MeasurableSpace E] [BorelSpace E] in
theorem cdist_abs (y x : E) : |cdist y x| ≤ 2 * ‖x‖ := by
  unfold cdist
  rw [abs_le, dist_eq_norm]
  have h1 := norm_sub_le y x
  have h2 := norm_sub_norm_le y x
  constructor <;> linarith [norm_nonneg x]

theorem vrProper_cdist {l : List (E × ℝ)} (hw : ∀ p ∈ l, 0 ≤ p.2)
    {w : E → ℝ} (h0 : ∀ x, 0 ≤ w x) (hwm : Measurable w) :
    VrEnergyProper w (fun y => XF.fin (vrks cdist (w y) y (l.map fun p => (p.1, w p.1 * p.2)))) (ensLaw l) := by
  intro P hP h1 h2 h3
  have := wLaw_finite h0 h1
  have hw' : ∀ p ∈ (l.map fun p : E × ℝ => (p.1, w p.1 * p.2)), 0 ≤ p.2 := by
    intro p hp
    obtain ⟨q, hq, rfl⟩ := List.mem_map.1 hp
    exact mul_nonneg (h0 _) (hw q hq)
  have i1 : Integrable (fun x => ‖x‖) (wLaw w P) := (integrable_wLaw h0 hwm P _).2 h2
  have i2 : Integrable (fun x => ‖x‖) (ensLaw (l.map fun p : E × ℝ => (p.1, w p.1 * p.2))) :=
    (integral_ensLaw hw' _).1
  rw [wLaw_ensLaw h0]
  refine ⟨?_, mmd2_cdist_nonneg i1 i2, mmd2_cdist_eq_zero_iff i1 i2⟩
  refine vrks_mean (fun x y => by unfold cdist; rw [dist_comm, add_comm ‖x‖]) cdist_cont.measurable hw' h0 hwm P h1
    (fun x => ?_) ?_
  · refine h1.mul_bdd (c := 2 * ‖x‖) (Continuous.aestronglyMeasurable ?_) (Filter.Eventually.of_forall fun y => ?_)
    · unfold cdist; fun_prop
    · rw [Real.norm_eq_abs]; exact cdist_abs y x
  · refine (h3.const_mul 2).congr (Filter.Eventually.of_forall fun y => ?_)
    simp only [cdist, dist_self, sub_zero]
    ring

theorem owProper_negDist {w : E → ℝ} (h0 : ∀ x, 0 ≤ w x) (hm : Measurable w)
    {l : List (E × ℝ)} (hw : ∀ p ∈ l, 0 ≤ p.2) (h : 0 < (l.map fun p => w p.1 * p.2).sum) :
    OwProper (FinMean E) negDist w
      (fun y => XF.fin (w y * ks negDist y (nrmW (l.map fun p => (p.1, w p.1 * p.2))))) (ensLaw l) := by
  refine owProper_of h0 hm ?_
  rw [condLaw_ensLaw h0 hw h]
  have e1 : ((l.map fun p => (p.1, w p.1 * p.2)).map Prod.snd).sum = (l.map fun p => w p.1 * p.2).sum := by
    rw [List.map_map]; rfl
  refine kernelProper_negDist (fun p hp => ?_) ?_
  · obtain ⟨x, hx, rfl⟩ := List.mem_map.1 hp
    rw [e1]
    obtain ⟨q, hq, rfl⟩ := List.mem_map.1 hx
    exact div_nonneg (mul_nonneg (h0 _) (hw q hq)) h.le
  · unfold nrmW
    rw [List.map_map, e1]
    have : (Prod.snd ∘ fun p : E × ℝ => (p.1, p.2 / (l.map fun p => w p.1 * p.2).sum))
        = fun p : E × ℝ => p.2 * ((l.map fun p => w p.1 * p.2).sum)⁻¹ := by
      funext p; simp only [Function.comp_apply, div_eq_mul_inv]
    rw [this, List.sum_map_mul_right]
    have e2 : ((l.map fun p => (p.1, w p.1 * p.2)).map fun p => p.2).sum = (l.map fun p => w p.1 * p.2).sum := e1
    rw [e2, mul_inv_cancel₀ h.ne']

end Verif
