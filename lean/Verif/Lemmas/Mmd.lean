import Verif.Spec.Mmd
import Mathlib.Probability.Distributions.Gaussian.Multivariate
import Mathlib.MeasureTheory.Measure.OpenPos

/-!
# The Gaussian kernel distance separates finite measures

The Gaussian kernel is the characteristic function of a normal law with full support, so the squared kernel
distance is the mean squared distance of the characteristic functions.
-/

noncomputable section

open scoped Classical RealInnerProductSpace
open MeasureTheory ProbabilityTheory

namespace Verif

open Spec

variable {E : Type} [NormedAddCommGroup E] [InnerProductSpace ℝ E] [FiniteDimensional ℝ E]
  [MeasurableSpace E] [BorelSpace E]

/-- Gaussian kernel with inverse scale `s` -/
def gk (s : ℝ) (x y : E) : ℝ := Real.exp (-(s * dist x y ^ 2))

theorem gk_continuous (s : ℝ) : Continuous fun z : E × E => gk s z.1 z.2 := by
  unfold gk
  fun_prop

theorem gk_pos (s : ℝ) (x y : E) : 0 < gk s x y := Real.exp_pos _

theorem gk_le_one {s : ℝ} (hs : 0 ≤ s) (x y : E) : gk s x y ≤ 1 := by
  unfold gk
  rw [Real.exp_le_one_iff]
  have := mul_nonneg hs (sq_nonneg (dist x y))
  linarith

theorem gk_self (s : ℝ) (x : E) : gk s x x = 1 := by simp [gk]

/-- real and imaginary part of the characteristic function -/
def cosT (A : Measure E) (t : E) : ℝ := ∫ x, Real.cos ⟪x, t⟫ ∂A
def sinT (A : Measure E) (t : E) : ℝ := ∫ x, Real.sin ⟪x, t⟫ ∂A

theorem integrable_bdd {α : Type*} [MeasurableSpace α] {μ : Measure α} [IsFiniteMeasure μ] {f : α → ℝ}
    (hf : AEStronglyMeasurable f μ) (c : ℝ) (h : ∀ x, |f x| ≤ c) : Integrable f μ :=
  (integrable_const c).mono' hf (Filter.Eventually.of_forall h)

theorem integrable_cos (A : Measure E) [IsFiniteMeasure A] (t : E) :
    Integrable (fun x => Real.cos ⟪x, t⟫) A :=
  integrable_bdd (by fun_prop : Continuous fun x : E => Real.cos ⟪x, t⟫).aestronglyMeasurable 1
    fun _ => Real.abs_cos_le_one _

theorem integrable_sin (A : Measure E) [IsFiniteMeasure A] (t : E) :
    Integrable (fun x => Real.sin ⟪x, t⟫) A :=
  integrable_bdd (by fun_prop : Continuous fun x : E => Real.sin ⟪x, t⟫).aestronglyMeasurable 1
    fun _ => Real.abs_sin_le_one _

theorem charFun_eq (A : Measure E) [IsFiniteMeasure A] (t : E) :
    charFun A t = (cosT A t : ℂ) + (sinT A t : ℂ) * Complex.I := by
  rw [charFun_apply]
  have e : ∀ x : E, Complex.exp ((⟪x, t⟫ : ℝ) * Complex.I)
      = ((Real.cos ⟪x, t⟫ : ℝ) : ℂ) + ((Real.sin ⟪x, t⟫ : ℝ) : ℂ) * Complex.I := fun x => by
    rw [Complex.exp_mul_I, Complex.ofReal_cos, Complex.ofReal_sin]
  simp only [e]
  rw [integral_add (integrable_cos A t).ofReal ((integrable_sin A t).ofReal.mul_const _),
    integral_mul_const, integral_complex_ofReal, integral_complex_ofReal]
  rfl

theorem cosT_continuous (A : Measure E) [IsFiniteMeasure A] : Continuous (cosT A) := by
  unfold cosT
  refine continuous_of_dominated (bound := fun _ => 1) (fun t => (integrable_cos A t).aestronglyMeasurable)
    (fun t => Filter.Eventually.of_forall fun x => Real.abs_cos_le_one _) (integrable_const _) ?_
  exact Filter.Eventually.of_forall fun x => by fun_prop

theorem sinT_continuous (A : Measure E) [IsFiniteMeasure A] : Continuous (sinT A) := by
  unfold sinT
  refine continuous_of_dominated (bound := fun _ => 1) (fun t => (integrable_sin A t).aestronglyMeasurable)
    (fun t => Filter.Eventually.of_forall fun x => Real.abs_sin_le_one _) (integrable_const _) ?_
  exact Filter.Eventually.of_forall fun x => by fun_prop

theorem abs_cosT_le (A : Measure E) [IsFiniteMeasure A] (t : E) : |cosT A t| ≤ A.real Set.univ := by
  have := norm_integral_le_of_norm_le_const (μ := A) (f := fun x => Real.cos ⟪x, t⟫) (C := 1)
    (Filter.Eventually.of_forall fun x => Real.abs_cos_le_one _)
  simpa [cosT] using this

theorem abs_sinT_le (A : Measure E) [IsFiniteMeasure A] (t : E) : |sinT A t| ≤ A.real Set.univ := by
  have := norm_integral_le_of_norm_le_const (μ := A) (f := fun x => Real.sin ⟪x, t⟫) (C := 1)
    (Filter.Eventually.of_forall fun x => Real.abs_sin_le_one _)
  simpa [sinT] using this

/-- Finite measures with the same real and imaginary parts are equal. -/
theorem eq_of_cosT_sinT {A B : Measure E} [IsFiniteMeasure A] [IsFiniteMeasure B]
    (h : ∀ t, cosT A t = cosT B t ∧ sinT A t = sinT B t) : A = B := by
  refine Measure.ext_of_charFun ?_
  funext t
  rw [charFun_eq, charFun_eq, (h t).1, (h t).2]

theorem gk_eq_cos {s : ℝ} (hs : 0 ≤ s) (x y : E) :
    gk s x y = ∫ t, Real.cos ⟪x - y, Real.sqrt (2 * s) • t⟫ ∂(stdGaussian E) := by
  have h := charFun_stdGaussian (Real.sqrt (2 * s) • (x - y))
  rw [charFun_eq] at h
  have h := congrArg Complex.re h
  rw [show (-(‖Real.sqrt (2 * s) • (x - y)‖ : ℂ) ^ 2 / 2)
    = ((-‖Real.sqrt (2 * s) • (x - y)‖ ^ 2 / 2 : ℝ) : ℂ) by push_cast; ring, ← Complex.ofReal_exp,
    Complex.ofReal_re] at h
  simp only [Complex.add_re, Complex.ofReal_re, Complex.re_ofReal_mul, Complex.I_re, mul_zero,
    add_zero] at h
  unfold gk
  rw [dist_eq_norm, show -(s * ‖x - y‖ ^ 2) = -‖Real.sqrt (2 * s) • (x - y)‖ ^ 2 / 2 by
    rw [norm_smul, mul_pow, Real.norm_eq_abs, sq_abs, Real.sq_sqrt (by positivity)]; ring, ← h]
  unfold cosT
  refine integral_congr_ae (Filter.Eventually.of_forall fun t => ?_)
  simp only
  rw [real_inner_comm, real_inner_smul_left, real_inner_smul_right]

theorem pairMean_gk {s : ℝ} (hs : 0 ≤ s) (A B : Measure E) [IsFiniteMeasure A] [IsFiniteMeasure B] :
    pairMean (gk s) A B = ∫ t, (cosT A (Real.sqrt (2 * s) • t) * cosT B (Real.sqrt (2 * s) • t)
      + sinT A (Real.sqrt (2 * s) • t) * sinT B (Real.sqrt (2 * s) • t)) ∂(stdGaussian E) := by
  unfold pairMean
  simp only [gk_eq_cos hs]
  rw [integral_integral_swap]
  · refine integral_congr_ae (Filter.Eventually.of_forall fun t => ?_)
    simp only [inner_sub_left, Real.cos_sub]
    have hc := (integrable_cos A (Real.sqrt (2 * s) • t)).mul_prod (integrable_cos B (Real.sqrt (2 * s) • t))
    have hn := (integrable_sin A (Real.sqrt (2 * s) • t)).mul_prod (integrable_sin B (Real.sqrt (2 * s) • t))
    rw [integral_add hc hn,
      integral_prod_mul (fun x : E => Real.cos ⟪x, Real.sqrt (2 * s) • t⟫)
        (fun x : E => Real.cos ⟪x, Real.sqrt (2 * s) • t⟫),
      integral_prod_mul (fun x : E => Real.sin ⟪x, Real.sqrt (2 * s) • t⟫)
        (fun x : E => Real.sin ⟪x, Real.sqrt (2 * s) • t⟫)]
    rfl
  · refine integrable_bdd (Continuous.aestronglyMeasurable ?_) 1 fun _ => Real.abs_cos_le_one _
    change Continuous fun z : (E × E) × E => Real.cos ⟪z.1.1 - z.1.2, Real.sqrt (2 * s) • z.2⟫
    fun_prop

theorem integrable_cross (r : ℝ) (A B : Measure E) [IsFiniteMeasure A] [IsFiniteMeasure B] :
    Integrable (fun t => cosT A (r • t) * cosT B (r • t) + sinT A (r • t) * sinT B (r • t))
      (stdGaussian E) := by
  have hr : Continuous fun t : E => r • t := by fun_prop
  refine integrable_bdd ?_ (A.real Set.univ * B.real Set.univ + A.real Set.univ * B.real Set.univ)
    fun t => ?_
  · exact ((((cosT_continuous A).comp hr).mul ((cosT_continuous B).comp hr)).add
      (((sinT_continuous A).comp hr).mul ((sinT_continuous B).comp hr))).aestronglyMeasurable
  · refine (abs_add_le _ _).trans (add_le_add ?_ ?_)
    · rw [abs_mul]
      exact mul_le_mul (abs_cosT_le _ _) (abs_cosT_le _ _) (abs_nonneg _) (by positivity)
    · rw [abs_mul]
      exact mul_le_mul (abs_sinT_le _ _) (abs_sinT_le _ _) (abs_nonneg _) (by positivity)

theorem integrable_gap (r : ℝ) (A B : Measure E) [IsFiniteMeasure A] [IsFiniteMeasure B] :
    Integrable (fun t => (cosT A (r • t) - cosT B (r • t)) ^ 2 + (sinT A (r • t) - sinT B (r • t)) ^ 2)
      (stdGaussian E) := by
  have h := ((integrable_cross r A A).sub ((integrable_cross r A B).const_mul 2)).add
    (integrable_cross r B B)
  refine h.congr (Filter.Eventually.of_forall fun t => ?_)
  simp only [Pi.add_apply, Pi.sub_apply]
  ring

theorem mmd2_gk {s : ℝ} (hs : 0 ≤ s) (A B : Measure E) [IsFiniteMeasure A] [IsFiniteMeasure B] :
    mmd2 (gk s) A B = ∫ t, ((cosT A (Real.sqrt (2 * s) • t) - cosT B (Real.sqrt (2 * s) • t)) ^ 2
      + (sinT A (Real.sqrt (2 * s) • t) - sinT B (Real.sqrt (2 * s) • t)) ^ 2) ∂(stdGaussian E) := by
  unfold mmd2
  rw [pairMean_gk hs, pairMean_gk hs, pairMean_gk hs]
  have h1 := integrable_cross (Real.sqrt (2 * s)) A A
  have h2 := (integrable_cross (Real.sqrt (2 * s)) A B).const_mul 2
  have h3 := integrable_cross (Real.sqrt (2 * s)) B B
  rw [← integral_const_mul, ← integral_sub h1 h2]
  have h4 := integral_add (h1.sub h2) h3
  simp only [Pi.sub_apply] at h4
  rw [← h4]
  refine integral_congr_ae (Filter.Eventually.of_forall fun t => ?_)
  simp only
  ring

theorem mmd2_gk_nonneg {s : ℝ} (hs : 0 ≤ s) (A B : Measure E) [IsFiniteMeasure A] [IsFiniteMeasure B] :
    0 ≤ mmd2 (gk s) A B := by
  rw [mmd2_gk hs]
  exact integral_nonneg fun t => by positivity

instance : (stdGaussian E).IsOpenPosMeasure := by
  have h1 : (gaussianReal 0 1).IsOpenPosMeasure :=
    (gaussianReal_absolutelyContinuous' 0 one_ne_zero).isOpenPosMeasure
  unfold stdGaussian
  refine Continuous.isOpenPosMeasure_map (by fun_prop) ?_
  intro v
  refine ⟨fun i => (stdOrthonormalBasis ℝ E).repr v i, ?_⟩
  exact (stdOrthonormalBasis ℝ E).sum_repr v

theorem mmd2_gk_eq_zero_iff {s : ℝ} (hs : 0 < s) (A B : Measure E) [IsFiniteMeasure A]
    [IsFiniteMeasure B] : mmd2 (gk s) A B = 0 ↔ A = B := by
  constructor
  · intro h
    rw [mmd2_gk hs.le, integral_eq_zero_iff_of_nonneg (fun t => by positivity) (integrable_gap _ A B)] at h
    have hr : Continuous fun t : E => Real.sqrt (2 * s) • t := by fun_prop
    have hc : Continuous fun t : E =>
        (cosT A (Real.sqrt (2 * s) • t) - cosT B (Real.sqrt (2 * s) • t)) ^ 2
        + (sinT A (Real.sqrt (2 * s) • t) - sinT B (Real.sqrt (2 * s) • t)) ^ 2 :=
      ((((cosT_continuous A).comp hr).sub ((cosT_continuous B).comp hr)).pow 2).add
        ((((sinT_continuous A).comp hr).sub ((sinT_continuous B).comp hr)).pow 2)
    have h0 := (hc.ae_eq_iff_eq (stdGaussian E) continuous_const).1 h
    have hp : Real.sqrt (2 * s) ≠ 0 := (Real.sqrt_pos.2 (by positivity)).ne'
    refine eq_of_cosT_sinT fun t => ?_
    have h1 := congrFun h0 ((Real.sqrt (2 * s))⁻¹ • t)
    have e : Real.sqrt (2 * s) • (Real.sqrt (2 * s))⁻¹ • t = t := by
      rw [smul_smul, mul_inv_cancel₀ hp, one_smul]
    have h1 : (cosT A (Real.sqrt (2 * s) • (Real.sqrt (2 * s))⁻¹ • t)
          - cosT B (Real.sqrt (2 * s) • (Real.sqrt (2 * s))⁻¹ • t)) ^ 2
        + (sinT A (Real.sqrt (2 * s) • (Real.sqrt (2 * s))⁻¹ • t)
          - sinT B (Real.sqrt (2 * s) • (Real.sqrt (2 * s))⁻¹ • t)) ^ 2 = 0 := h1
    rw [e] at h1
    have h2 := sq_nonneg (cosT A t - cosT B t)
    have h3 := sq_nonneg (sinT A t - sinT B t)
    have h4 : (cosT A t - cosT B t) ^ 2 = 0 := by linarith
    have h5 : (sinT A t - sinT B t) ^ 2 = 0 := by linarith
    exact ⟨sub_eq_zero.1 (pow_eq_zero_iff two_ne_zero |>.1 h4), sub_eq_zero.1 (pow_eq_zero_iff two_ne_zero |>.1 h5)⟩
  · rintro rfl
    unfold mmd2
    ring

/-! ### Ensembles -/

section ens

variable {E : Type} [MeasurableSpace E]

theorem ensLaw_nil : ensLaw ([] : List (E × ℝ)) = 0 := rfl

theorem ensLaw_cons (p : E × ℝ) (l : List (E × ℝ)) :
    ensLaw (p :: l) = ENNReal.ofReal p.2 • Measure.dirac p.1 + ensLaw l := rfl

instance ensLaw_finite (l : List (E × ℝ)) : IsFiniteMeasure (ensLaw l) := by
  induction l with
  | nil => rw [ensLaw_nil]; infer_instance
  | cons p l ih =>
    rw [ensLaw_cons]
    have : IsFiniteMeasure (ENNReal.ofReal p.2 • Measure.dirac p.1) :=
      Measure.smul_finite _ ENNReal.ofReal_ne_top
    infer_instance

theorem ensLaw_univ {l : List (E × ℝ)} (hw : ∀ p ∈ l, 0 ≤ p.2) :
    (ensLaw l) Set.univ = ENNReal.ofReal (l.map Prod.snd).sum := by
  induction l with
  | nil => simp [ensLaw_nil]
  | cons p l ih =>
    rw [ensLaw_cons, List.map_cons, List.sum_cons, ENNReal.ofReal_add (hw p (by simp))
      (List.sum_nonneg (by
        intro x hx
        obtain ⟨q, hq, rfl⟩ := List.mem_map.1 hx
        exact hw q (by simp [hq]))), ← ih fun q hq => hw q (by simp [hq])]
    simp

theorem ensLaw_prob {l : List (E × ℝ)} (hw : ∀ p ∈ l, 0 ≤ p.2) (h1 : (l.map Prod.snd).sum = 1) :
    IsProbabilityMeasure (ensLaw l) :=
  ⟨by rw [ensLaw_univ hw, h1, ENNReal.ofReal_one]⟩

theorem integral_ensLaw [MeasurableSingletonClass E] {l : List (E × ℝ)} (hw : ∀ p ∈ l, 0 ≤ p.2) (f : E → ℝ) :
    Integrable f (ensLaw l) ∧ ∫ x, f x ∂(ensLaw l) = (l.map fun p => p.2 * f p.1).sum := by
  induction l with
  | nil => simp [ensLaw_nil]
  | cons p l ih =>
    obtain ⟨i, e⟩ := ih fun q hq => hw q (by simp [hq])
    have hp : Integrable f (ENNReal.ofReal p.2 • Measure.dirac p.1) :=
      (integrable_dirac (by simp)).smul_measure ENNReal.ofReal_ne_top
    rw [ensLaw_cons, List.map_cons, List.sum_cons, ← e, integral_add_measure hp i, integral_smul_measure,
      integral_dirac, ENNReal.toReal_ofReal (hw p (by simp))]
    exact ⟨hp.add_measure i, rfl⟩

theorem pairMean_ensLaw [MeasurableSingletonClass E] {l : List (E × ℝ)} (hw : ∀ p ∈ l, 0 ≤ p.2) {K : E → E → ℝ}
    (P : Measure E) [SFinite P] (hm : Measurable fun z : E × E => K z.1 z.2)
    (hi : ∀ x, Integrable (fun y => K y x) P) :
    Integrable (fun z : E × E => K z.1 z.2) (P.prod (ensLaw l)) ∧
      pairMean K P (ensLaw l) = (l.map fun p => p.2 * ∫ y, K y p.1 ∂P).sum := by
  induction l with
  | nil => simp [ensLaw_nil, pairMean]
  | cons p l ih =>
    obtain ⟨i, e⟩ := ih fun q hq => hw q (by simp [hq])
    have hmap : P.prod (ENNReal.ofReal p.2 • Measure.dirac p.1)
        = ENNReal.ofReal p.2 • P.map fun y => (y, p.1) := by
      rw [Measure.prod_smul_right, Measure.prod_dirac]
    have hme : Measurable fun y : E => (y, p.1) := by fun_prop
    have hp : Integrable (fun z : E × E => K z.1 z.2) (ENNReal.ofReal p.2 • P.map fun y => (y, p.1)) := by
      refine Integrable.smul_measure ?_ ENNReal.ofReal_ne_top
      rw [integrable_map_measure hm.aestronglyMeasurable hme.aemeasurable]
      exact hi p.1
    unfold pairMean at e ⊢
    rw [ensLaw_cons, List.map_cons, List.sum_cons, ← e, Measure.prod_add, hmap, integral_add_measure hp i,
      integral_smul_measure, integral_map hme.aemeasurable hm.aestronglyMeasurable,
      ENNReal.toReal_ofReal (hw p (by simp))]
    exact ⟨hp.add_measure i, rfl⟩

theorem pairMean_symm {K : E → E → ℝ} (hK : ∀ x y, K x y = K y x) (P Q : Measure E) [SFinite P] [SFinite Q] :
    pairMean K P Q = pairMean K Q P := by
  unfold pairMean
  rw [← integral_prod_swap]
  exact integral_congr_ae (Filter.Eventually.of_forall fun z => hK _ _)

/-- Mean kernel score of a weighted ensemble. -/
theorem ks_mean [MeasurableSingletonClass E] {K : E → E → ℝ} (hs : ∀ x y, K x y = K y x)
    (hm : Measurable fun z : E × E => K z.1 z.2) {l : List (E × ℝ)} (hw : ∀ p ∈ l, 0 ≤ p.2)
    (P : Measure E) [IsProbabilityMeasure P] (hi : ∀ x, Integrable (fun y => K y x) P)
    (hd : Integrable (fun y => K y y) P) :
    HasMean P (fun y => XF.fin (ks K y l))
      (1 / 2 * (∫ y, K y y ∂P - pairMean K P P) + 1 / 2 * mmd2 K P (ensLaw l)) := by
  obtain ⟨-, e1⟩ := pairMean_ensLaw hw P hm hi
  have hx : ∀ (x : E), Integrable (fun y => K y x) (ensLaw l) := fun x => (integral_ensLaw hw _).1
  obtain ⟨-, e2⟩ := pairMean_ensLaw hw (ensLaw l) hm hx
  have e3 : ∀ q : E × ℝ, ∫ y, K y q.1 ∂(ensLaw l) = (l.map fun p => p.2 * K p.1 q.1).sum :=
    fun q => (integral_ensLaw hw _).2
  have e4 : (l.map fun p => (l.map fun q => p.2 * q.2 * K p.1 q.1).sum).sum
      = pairMean K (ensLaw l) (ensLaw l) := by
    rw [e2]
    congr 1
    refine List.map_congr_left fun p _ => ?_
    rw [e3, ← List.sum_map_mul_left]
    congr 1
    refine List.map_congr_left fun q _ => ?_
    rw [hs]; ring
  have h5 : ∀ l' : List (E × ℝ), Integrable (fun y => (l'.map fun p => p.2 * K p.1 y).sum) P ∧
      ∫ y, (l'.map fun p => p.2 * K p.1 y).sum ∂P = (l'.map fun p => p.2 * ∫ y, K y p.1 ∂P).sum := by
    intro l'
    induction l' with
    | nil => simp
    | cons p l' ih =>
      have h6 : Integrable (fun y => p.2 * K p.1 y) P := by
        simp only [hs p.1]
        exact (hi p.1).const_mul _
      simp only [List.map_cons, List.sum_cons]
      refine ⟨h6.add ih.1, ?_⟩
      rw [integral_add h6 ih.1, ih.2, integral_const_mul]
      simp only [hs p.1]
  unfold ks mmd2
  have hA : Integrable (fun y => 1 / 2 * (l.map fun p => (l.map fun q => p.2 * q.2 * K p.1 q.1).sum).sum
      + 1 / 2 * K y y) P := (integrable_const _).add (hd.const_mul _)
  refine ⟨_, Filter.Eventually.of_forall fun y => rfl, hA.sub (h5 l).1, ?_⟩
  rw [integral_sub hA (h5 l).1, integral_add (integrable_const _) (hd.const_mul _),
    integral_const_mul (1 / 2) (fun y => K y y), (h5 l).2, ← e1, e4, integral_const]
  simp only [probReal_univ, one_smul]
  ring

end ens

/-- The kernel score with a Gaussian kernel is strictly proper. -/
theorem kernelProper_gk {s : ℝ} (h0 : 0 < s) {l : List (E × ℝ)} (hw : ∀ p ∈ l, 0 ≤ p.2) :
    KernelProper Set.univ (gk s) (fun y => XF.fin (ks (gk s) y l)) (ensLaw l) := by
  intro P _ hP
  refine ⟨?_, mmd2_gk_nonneg h0.le _ _, mmd2_gk_eq_zero_iff h0 _ _⟩
  refine ks_mean (fun x y => by unfold gk; rw [dist_comm]) (gk_continuous s).measurable hw P (fun x => ?_) ?_
  · refine integrable_bdd (Continuous.aestronglyMeasurable ?_) 1 fun y => ?_
    · unfold gk; fun_prop
    · rw [abs_of_pos (gk_pos _ _ _)]
      exact gk_le_one h0.le _ _
  · simp only [gk_self]
    exact integrable_const _

theorem gauss1_eq : gauss1 = gk (1 / 2) := by
  funext a b
  unfold gauss1 gk
  rw [Real.dist_eq, sq_abs]
  congr 1
  ring

theorem gaussD_eq {D : ℕ} : gaussD (D := D) = gk (1 / 2) := by
  funext a b
  unfold gaussD gk
  congr 1
  ring

/-! ### Outcome weights -/

section weights

variable {E : Type} [MeasurableSpace E]

theorem wLaw_univ {w : E → ℝ} (h0 : ∀ x, 0 ≤ w x) {P : Measure E} (hi : Integrable w P) :
    (wLaw w P) Set.univ = ENNReal.ofReal (∫ y, w y ∂P) := by
  unfold wLaw
  rw [withDensity_apply _ MeasurableSet.univ, Measure.restrict_univ,
    ofReal_integral_eq_lintegral_ofReal hi (Filter.Eventually.of_forall h0)]

theorem wLaw_finite {w : E → ℝ} (h0 : ∀ x, 0 ≤ w x) {P : Measure E} (hi : Integrable w P) :
    IsFiniteMeasure (wLaw w P) :=
  ⟨by rw [wLaw_univ h0 hi]; exact ENNReal.ofReal_lt_top⟩

theorem integral_wLaw {w : E → ℝ} (h0 : ∀ x, 0 ≤ w x) (hm : Measurable w) (P : Measure E) (f : E → ℝ) :
    ∫ x, f x ∂(wLaw w P) = ∫ x, w x * f x ∂P := by
  unfold wLaw
  rw [integral_withDensity_eq_integral_toReal_smul₀ hm.ennreal_ofReal.aemeasurable
    (Filter.Eventually.of_forall fun _ => ENNReal.ofReal_lt_top)]
  simp only [ENNReal.toReal_ofReal (h0 _), smul_eq_mul]

theorem integrable_wLaw {w : E → ℝ} (h0 : ∀ x, 0 ≤ w x) (hm : Measurable w) (P : Measure E) (f : E → ℝ) :
    Integrable f (wLaw w P) ↔ Integrable (fun x => w x * f x) P := by
  unfold wLaw
  rw [integrable_withDensity_iff_integrable_smul₀' hm.ennreal_ofReal.aemeasurable
    (Filter.Eventually.of_forall fun _ => ENNReal.ofReal_lt_top)]
  simp only [ENNReal.toReal_ofReal (h0 _), smul_eq_mul]

theorem wLaw_ensLaw [MeasurableSingletonClass E] {w : E → ℝ} (h0 : ∀ x, 0 ≤ w x) {l : List (E × ℝ)} :
    wLaw w (ensLaw l) = ensLaw (l.map fun p => (p.1, w p.1 * p.2)) := by
  induction l with
  | nil => simp [ensLaw_nil, wLaw]
  | cons p l ih =>
    rw [List.map_cons, ensLaw_cons, ensLaw_cons, ← ih]
    unfold wLaw
    rw [withDensity_add_measure, withDensity_smul_measure]
    congr 1
    rw [ENNReal.ofReal_mul (h0 _), mul_comm, mul_smul]
    congr 1
    exact dirac_withDensity _ _

theorem ensLaw_scale {c : ℝ} (hc : 0 ≤ c) (l : List (E × ℝ)) :
    ensLaw (l.map fun p => (p.1, c * p.2)) = ENNReal.ofReal c • ensLaw l := by
  induction l with
  | nil => simp [ensLaw_nil]
  | cons p l ih =>
    rw [List.map_cons, ensLaw_cons, ensLaw_cons, ih, smul_add, ENNReal.ofReal_mul hc, mul_smul]

theorem condLaw_ensLaw [MeasurableSingletonClass E] {w : E → ℝ} (h0 : ∀ x, 0 ≤ w x) {l : List (E × ℝ)}
    (hw : ∀ p ∈ l, 0 ≤ p.2) (ht : 0 < (l.map fun p => w p.1 * p.2).sum) :
    condLaw w (ensLaw l) = ensLaw (nrmW (l.map fun p => (p.1, w p.1 * p.2))) := by
  unfold condLaw nrmW
  have e1 : ((l.map fun p => (p.1, w p.1 * p.2)).map Prod.snd).sum = (l.map fun p => w p.1 * p.2).sum := by
    rw [List.map_map]; rfl
  have e2 : ((l.map fun p => (p.1, w p.1 * p.2)).map fun p : E × ℝ =>
      (p.1, p.2 / ((l.map fun p => (p.1, w p.1 * p.2)).map Prod.snd).sum))
      = (l.map fun p => (p.1, w p.1 * p.2)).map fun p : E × ℝ => (p.1, ((l.map fun p => w p.1 * p.2).sum)⁻¹ * p.2) := by
    refine List.map_congr_left fun p _ => ?_
    rw [e1, div_eq_inv_mul]
  rw [wLaw_ensLaw h0, e2, ensLaw_scale (by positivity), ensLaw_univ, e1, ENNReal.ofReal_inv_of_pos ht]
  intro p hp
  obtain ⟨q, hq, rfl⟩ := List.mem_map.1 hp
  exact mul_nonneg (h0 _) (hw q hq)

theorem condLaw_prob {w : E → ℝ} (h0 : ∀ x, 0 ≤ w x) {P : Measure E} (hi : Integrable w P)
    (hp : 0 < ∫ y, w y ∂P) : IsProbabilityMeasure (condLaw w P) := by
  unfold condLaw
  refine ⟨?_⟩
  rw [Measure.smul_apply, smul_eq_mul, wLaw_univ h0 hi]
  exact ENNReal.inv_mul_cancel (by simpa using hp) ENNReal.ofReal_ne_top

theorem integral_condLaw {w : E → ℝ} (h0 : ∀ x, 0 ≤ w x) (hm : Measurable w) {P : Measure E}
    (hi : Integrable w P) (hp : 0 < ∫ y, w y ∂P) (f : E → ℝ) :
    (∫ y, w y ∂P) * ∫ x, f x ∂(condLaw w P) = ∫ x, w x * f x ∂P := by
  unfold condLaw
  rw [integral_smul_measure, integral_wLaw h0 hm, wLaw_univ h0 hi, ENNReal.toReal_inv,
    ENNReal.toReal_ofReal hp.le, smul_eq_mul, mul_inv_cancel_left₀ hp.ne']

theorem integrable_condLaw {w : E → ℝ} (h0 : ∀ x, 0 ≤ w x) (hm : Measurable w) {P : Measure E}
    (hi : Integrable w P) (hp : 0 < ∫ y, w y ∂P) (f : E → ℝ) :
    Integrable f (condLaw w P) ↔ Integrable (fun x => w x * f x) P := by
  unfold condLaw
  rw [wLaw_univ h0 hi, integrable_smul_measure, integrable_wLaw h0 hm]
  · exact ENNReal.inv_ne_zero.2 ENNReal.ofReal_ne_top
  · exact ENNReal.inv_ne_top.2 (by simpa using hp)

/-- An outcome-weighted score inherits propriety from the score of the re-weighted forecast. -/
theorem owProper_of {A : Set (Measure E)} {K : E → E → ℝ} {w : E → ℝ} (h0 : ∀ x, 0 ≤ w x)
    (hm : Measurable w) {s : E → ℝ} {Q : Measure E}
    (h : KernelProper A K (fun y => XF.fin (s y)) (condLaw w Q)) :
    OwProper A K w (fun y => XF.fin (w y * s y)) Q := by
  intro P hP hi hp hA
  obtain ⟨⟨s', e, i, hv⟩, h2, h3⟩ := h _ hA (condLaw_prob h0 hi hp)
  refine ⟨⟨fun y => w y * s y, Filter.Eventually.of_forall fun y => rfl, ?_, ?_⟩, h2, h3⟩
  · rw [← integrable_condLaw h0 hm hi hp]
    refine i.congr ?_
    filter_upwards [e] with y hy
    exact (XF.fin.inj hy).symm
  · rw [← integral_condLaw h0 hm hi hp, ← hv]
    congr 1
    refine integral_congr_ae ?_
    filter_upwards [e] with y hy
    exact XF.fin.inj hy

/-- Mean of the vertically re-scaled kernel score. -/
theorem vrks_mean [MeasurableSingletonClass E] {K : E → E → ℝ} (hs : ∀ x y, K x y = K y x)
    (hm : Measurable fun z : E × E => K z.1 z.2) {l : List (E × ℝ)} (hw : ∀ p ∈ l, 0 ≤ p.2)
    {w : E → ℝ} (h0 : ∀ x, 0 ≤ w x) (hwm : Measurable w)
    (P : Measure E) [IsProbabilityMeasure P] (hwi : Integrable w P)
    (hi : ∀ x, Integrable (fun y => w y * K y x) P)
    (hd : Integrable (fun y => w y * w y * K y y) P) :
    HasMean P (fun y => XF.fin (vrks K (w y) y l))
      (1 / 2 * (∫ y, w y * w y * K y y ∂P - pairMean K (wLaw w P) (wLaw w P))
        + 1 / 2 * mmd2 K (wLaw w P) (ensLaw l)) := by
  have := wLaw_finite h0 hwi
  obtain ⟨-, e1⟩ := pairMean_ensLaw hw (wLaw w P) hm fun x => (integrable_wLaw h0 hwm P _).2 (hi x)
  have hx : ∀ (x : E), Integrable (fun y => K y x) (ensLaw l) := fun x => (integral_ensLaw hw _).1
  obtain ⟨-, e2⟩ := pairMean_ensLaw hw (ensLaw l) hm hx
  have e3 : ∀ q : E × ℝ, ∫ y, K y q.1 ∂(ensLaw l) = (l.map fun p => p.2 * K p.1 q.1).sum :=
    fun q => (integral_ensLaw hw _).2
  have e4 : (l.map fun p => (l.map fun q => p.2 * q.2 * K p.1 q.1).sum).sum
      = pairMean K (ensLaw l) (ensLaw l) := by
    rw [e2]
    congr 1
    refine List.map_congr_left fun p _ => ?_
    rw [e3, ← List.sum_map_mul_left]
    congr 1
    refine List.map_congr_left fun q _ => ?_
    rw [hs]; ring
  have h5 : ∀ l' : List (E × ℝ), Integrable (fun y => w y * (l'.map fun p => p.2 * K p.1 y).sum) P ∧
      ∫ y, w y * (l'.map fun p => p.2 * K p.1 y).sum ∂P
        = (l'.map fun p => p.2 * ∫ y, K y p.1 ∂(wLaw w P)).sum := by
    intro l'
    induction l' with
    | nil => simp
    | cons p l' ih =>
      have h6 : Integrable (fun y => w y * (p.2 * K p.1 y)) P := by
        refine ((hi p.1).const_mul p.2).congr (Filter.Eventually.of_forall fun y => ?_)
        simp only
        rw [hs]; ring
      simp only [List.map_cons, List.sum_cons, mul_add]
      refine ⟨h6.add ih.1, ?_⟩
      rw [integral_add h6 ih.1, ih.2, integral_wLaw h0 hwm, ← integral_const_mul]
      congr 1
      refine integral_congr_ae (Filter.Eventually.of_forall fun y => ?_)
      simp only
      rw [hs]; ring
  unfold vrks mmd2
  have hA : Integrable (fun y => 1 / 2 * (l.map fun p => (l.map fun q => p.2 * q.2 * K p.1 q.1).sum).sum
      + 1 / 2 * (w y * w y * K y y)) P := (integrable_const _).add (hd.const_mul _)
  refine ⟨_, Filter.Eventually.of_forall fun y => rfl, hA.sub (h5 l).1, ?_⟩
  rw [integral_sub hA (h5 l).1, integral_add (integrable_const _) (hd.const_mul _),
    integral_const_mul (1 / 2) (fun y => w y * w y * K y y), (h5 l).2, ← e1, e4, integral_const]
  simp only [probReal_univ, one_smul]
  ring

end weights

/-- The vertically re-scaled score with a Gaussian kernel. -/
theorem vrProper_gk {s : ℝ} (hs : 0 < s) {l : List (E × ℝ)} (hw : ∀ p ∈ l, 0 ≤ p.2)
    {w : E → ℝ} (h0 : ∀ x, 0 ≤ w x) (hwm : Measurable w) :
    VrProper {P | Integrable (fun y => w y ^ 2) P} (gk s) w
      (fun y => XF.fin (vrks (gk s) (w y) y (l.map fun p => (p.1, w p.1 * p.2)))) (ensLaw l) := by
  intro P hP hP'
  have h2 : Integrable (fun y => w y ^ 2) P := hP
  have h1 : Integrable w P :=
    ((memLp_two_iff_integrable_sq hwm.aestronglyMeasurable).2 h2).integrable (by norm_num)
  have := wLaw_finite h0 h1
  rw [wLaw_ensLaw h0]
  refine ⟨?_, mmd2_gk_nonneg hs.le _ _, mmd2_gk_eq_zero_iff hs _ _⟩
  refine vrks_mean (fun x y => by unfold gk; rw [dist_comm]) (gk_continuous s).measurable ?_ h0 hwm P h1
    (fun x => ?_) ?_
  · intro p hp
    obtain ⟨q, hq, rfl⟩ := List.mem_map.1 hp
    exact mul_nonneg (h0 _) (hw q hq)
  · refine h1.mul_bdd (c := 1) (Continuous.aestronglyMeasurable ?_) (Filter.Eventually.of_forall fun y => ?_)
    · unfold gk; fun_prop
    · rw [Real.norm_eq_abs, abs_of_pos (gk_pos _ _ _)]
      exact gk_le_one hs.le _ _
  · simp only [gk_self, mul_one, ← sq]
    exact h2

end Verif
