import Verif.Props.Ess
import Verif.Props.VariogramProper

/-!
# Property C113: which ensembles have the smallest expected error-spread score
-/

noncomputable section

open scoped Classical
open MeasureTheory Filter Topology

namespace Verif

open XF Py Api

namespace Spec

/-- `Y` has finite fourth moment, mean `μ`, variance `v > 0`, third central moment `c` and fourth central moment
`m`. -/
structure FourMoments {Ω : Type*} [MeasurableSpace Ω] (P : Measure Ω) (Y : Ω → ℝ) (μ v c m : ℝ) : Prop where
  int1 : Integrable Y P
  int4 : Integrable (fun ω => (Y ω - μ) ^ 4) P
  mean : ∫ ω, Y ω ∂P = μ
  var : ∫ ω, (Y ω - μ) ^ 2 ∂P = v
  third : ∫ ω, (Y ω - μ) ^ 3 ∂P = c
  fourth : ∫ ω, (Y ω - μ) ^ 4 ∂P = m
  pos : 0 < v

/-- The smallest mean square of a quadratic with leading coefficient one under a law of these moments. -/
def essBest (v c m : ℝ) : ℝ := m - c ^ 2 / v - v ^ 2

/-- The sample skewness with the usual correction for the size (Christensen et al., 2015). -/
def sampleSkew (xs : List ℝ) : ℝ :=
  xs.length / (((xs.length : ℝ) - 1) * ((xs.length : ℝ) - 2)) * (xs.map fun x => ((x - avg xs) / sd xs) ^ 3).sum

end Spec

open Spec

/-- a law on 0, 1 and 5 with mean 1, variance 3 and third central moment 9 -/
def essLaw : Measure ℝ := ensLaw [(0, 12 / 20), (1, 5 / 20), (5, 3 / 20)]

theorem essLaw_nonneg : ∀ q ∈ ([(0, 12 / 20), (1, 5 / 20), (5, 3 / 20)] : List (ℝ × ℝ)), 0 ≤ q.2 := by
  intro q hq
  simp only [List.mem_cons, List.not_mem_nil, or_false] at hq
  rcases hq with rfl | rfl | rfl <;> norm_num

instance essLaw_prob : IsProbabilityMeasure essLaw := ensLaw_prob essLaw_nonneg (by norm_num)

theorem essLaw_moments : FourMoments essLaw id 1 3 9 39 := by
  have i := integral_ensLaw essLaw_nonneg
  refine ⟨(i _).1, (i _).1, ?_, ?_, ?_, ?_, by norm_num⟩ <;>
  · unfold essLaw
    rw [(i _).2]
    norm_num

section
variable {Ω : Type*} [MeasurableSpace Ω] {P : Measure Ω} [IsProbabilityMeasure P] {Y : Ω → ℝ} {μ v c m : ℝ}

theorem Spec.FourMoments.int (h : FourMoments P Y μ v c m) {k : ℕ} (hk : k ≤ 4) :
    Integrable (fun ω => (Y ω - μ) ^ k) P := by
  refine Integrable.mono' ((integrable_const 1).add h.int4)
    ((h.int1.aestronglyMeasurable.sub aestronglyMeasurable_const).pow k) (ae_of_all _ fun ω => ?_)
  show ‖(Y ω - μ) ^ k‖ ≤ 1 + (Y ω - μ) ^ 4
  rw [Real.norm_eq_abs, abs_pow, show (Y ω - μ) ^ 4 = |Y ω - μ| ^ 4 by rw [← abs_pow, abs_of_nonneg (by positivity)]]
  have hx := abs_nonneg (Y ω - μ)
  generalize |Y ω - μ| = x at *
  rcases le_total x 1 with h1 | h1
  · have h2 := pow_le_one₀ (n := k) hx h1
    have h3 : 0 ≤ x ^ 4 := by positivity
    linarith
  · have h2 := pow_le_pow_right₀ h1 hk
    linarith

theorem Spec.FourMoments.first (h : FourMoments P Y μ v c m) : ∫ ω, (Y ω - μ) ^ 1 ∂P = 0 := by
  simp only [pow_one]
  rw [integral_sub h.int1 (integrable_const _), h.mean]
  simp

/-- The mean of a polynomial of degree four. -/
theorem Spec.FourMoments.poly (h : FourMoments P Y μ v c m) (a0 a1 a2 a3 : ℝ) {f : Ω → ℝ}
    (hf : ∀ ω, f ω = (Y ω - μ) ^ 4 + a3 * (Y ω - μ) ^ 3 + a2 * (Y ω - μ) ^ 2 + a1 * (Y ω - μ) ^ 1 + a0) :
    Integrable f P ∧ ∫ ω, f ω ∂P = m + a3 * c + a2 * v + a0 := by
  have e : f = fun ω => (Y ω - μ) ^ 4 + a3 * (Y ω - μ) ^ 3 + a2 * (Y ω - μ) ^ 2 + a1 * (Y ω - μ) ^ 1 + a0 := funext hf
  have i4 := h.int (k := 4) le_rfl
  have i3 := (h.int (k := 3) (by norm_num)).const_mul a3
  have i2 := (h.int (k := 2) (by norm_num)).const_mul a2
  have i1 := (h.int (k := 1) (by norm_num)).const_mul a1
  have j3 : Integrable (fun ω => (Y ω - μ) ^ 4 + a3 * (Y ω - μ) ^ 3) P := i4.add i3
  have j2 : Integrable (fun ω => (Y ω - μ) ^ 4 + a3 * (Y ω - μ) ^ 3 + a2 * (Y ω - μ) ^ 2) P := j3.add i2
  have j1 : Integrable (fun ω => (Y ω - μ) ^ 4 + a3 * (Y ω - μ) ^ 3 + a2 * (Y ω - μ) ^ 2 + a1 * (Y ω - μ) ^ 1) P :=
    j2.add i1
  rw [e]
  refine ⟨j1.add (integrable_const _), ?_⟩
  rw [integral_add j1 (integrable_const _), integral_add j2 i1, integral_add j3 i2, integral_add i4 i3,
    integral_const_mul, integral_const_mul, integral_const_mul, h.var, h.third, h.fourth, h.first]
  simp

theorem es3_integral (h : FourMoments P Y μ v c m) (a s g : ℝ) :
    Integrable (fun ω => es3 a s g (Y ω)) P ∧
    ∫ ω, es3 a s g (Y ω) ∂P = essBest v c m + v * (2 * (a - μ) + s * g - c / v) ^ 2
      + ((a - μ) ^ 2 + s * g * (a - μ) - s ^ 2 + v) ^ 2 := by
  obtain ⟨i, e⟩ := h.poly ((s ^ 2 - (a - μ) ^ 2 - (a - μ) * s * g) ^ 2)
    (2 * (s ^ 2 - (a - μ) ^ 2 - (a - μ) * s * g) * (2 * (a - μ) + s * g))
    ((2 * (a - μ) + s * g) ^ 2 - 2 * (s ^ 2 - (a - μ) ^ 2 - (a - μ) * s * g))
    (-2 * (2 * (a - μ) + s * g)) (f := fun ω => es3 a s g (Y ω)) (fun ω => by unfold es3; ring)
  refine ⟨i, ?_⟩
  rw [e]
  have := h.pos.ne'
  unfold essBest
  field_simp
  ring

/-- C113: the expected score of every ensemble of at least three members, not all equal, is the smallest mean square
of a monic quadratic plus two squares, which say how far its mean, standard deviation and skewness are from describing
the law. -/
theorem C113_gap (h : FourMoments P Y μ v c m) (path : Path) (xs : List ℝ) (hM : 3 ≤ xs.length)
    (hx : ∃ a ∈ xs, ∃ b ∈ xs, a ≠ b) :
    ∃ s : ℝ → ℝ, (∀ y, ess1 path (fin y) (xs.map fin) = .ok (fin (s y))) ∧ Integrable (fun ω => s (Y ω)) P ∧
      ∫ ω, s (Y ω) ∂P = essBest v c m + v * (2 * (avg xs - μ) + sd xs * skew xs - c / v) ^ 2
        + ((avg xs - μ) ^ 2 + sd xs * skew xs * (avg xs - μ) - sd xs ^ 2 + v) ^ 2 :=
  ⟨fun y => es3 (avg xs) (sd xs) (skew xs) y, fun y => C39_value path y xs hM hx, es3_integral h _ _ _⟩

/-- a skewed law and a skewed ensemble -/
example : FourMoments essLaw id 1 3 9 39 ∧ 3 ≤ [(0:ℝ), 0, 3].length ∧ ∃ a ∈ [(0:ℝ), 0, 3], ∃ b ∈ [(0:ℝ), 0, 3], a ≠ b :=
  ⟨essLaw_moments, by simp, 0, by simp, 3, by simp, by norm_num⟩

/-- C113: no ensemble has a smaller expected score than `essBest`, and those that attain it are the ones whose mean,
standard deviation and skewness solve two equations. -/
theorem C113_proper (h : FourMoments P Y μ v c m) (path : Path) (xs : List ℝ) (hM : 3 ≤ xs.length)
    (hx : ∃ a ∈ xs, ∃ b ∈ xs, a ≠ b) :
    ∃ s : ℝ → ℝ, (∀ y, ess1 path (fin y) (xs.map fin) = .ok (fin (s y))) ∧ Integrable (fun ω => s (Y ω)) P ∧
      essBest v c m ≤ ∫ ω, s (Y ω) ∂P ∧
      (∫ ω, s (Y ω) ∂P = essBest v c m ↔ 2 * (avg xs - μ) + sd xs * skew xs = c / v ∧
        sd xs ^ 2 = v + (avg xs - μ) ^ 2 + sd xs * skew xs * (avg xs - μ)) := by
  obtain ⟨s, h1, h2, h3⟩ := C113_gap h path xs hM hx
  refine ⟨s, h1, h2, ?_⟩
  rw [h3]
  have hv := h.pos
  generalize 2 * (avg xs - μ) + sd xs * skew xs = A
  have n1 := mul_nonneg hv.le (sq_nonneg (A - c / v))
  have n2 := sq_nonneg ((avg xs - μ) ^ 2 + sd xs * skew xs * (avg xs - μ) - sd xs ^ 2 + v)
  refine ⟨by linarith, fun he => ?_, fun ⟨e1, e2⟩ => ?_⟩
  · have z1 : v * (A - c / v) ^ 2 = 0 := by linarith
    have z2 : ((avg xs - μ) ^ 2 + sd xs * skew xs * (avg xs - μ) - sd xs ^ 2 + v) ^ 2 = 0 := by linarith
    have y1 := pow_eq_zero_iff two_ne_zero |>.1 ((mul_eq_zero.1 z1).resolve_left hv.ne')
    have y2 := pow_eq_zero_iff two_ne_zero |>.1 z2
    exact ⟨by linarith, by linarith⟩
  · rw [e1, e2]; ring

/-- a skewed law and a skewed ensemble -/
example : FourMoments essLaw id 1 3 9 39 ∧ 3 ≤ [(0:ℝ), 0, 3].length ∧ ∃ a ∈ [(0:ℝ), 0, 3], ∃ b ∈ [(0:ℝ), 0, 3], a ≠ b :=
  ⟨essLaw_moments, by simp, 0, by simp, 3, by simp, by norm_num⟩

/-- C113: whatever the law, a symmetric ensemble of three members attains the smallest expected score; its mean is not
the mean of the law unless the third central moment is zero. -/
theorem C113_symmetric_best (h : FourMoments P Y μ v c m) (path : Path) :
    let a := μ + c / v / 2
    let r := Real.sqrt (v + (c / v / 2) ^ 2)
    ∃ s : ℝ → ℝ, (∀ y, ess1 path (fin y) ([a - r, a, a + r].map fin) = .ok (fin (s y))) ∧
      Integrable (fun ω => s (Y ω)) P ∧ ∫ ω, s (Y ω) ∂P = essBest v c m := by
  intro a r
  have hv := h.pos
  have hr : 0 < r := Real.sqrt_pos.2 (by positivity)
  have hr2 : r ^ 2 = v + (c / v / 2) ^ 2 := Real.sq_sqrt (by positivity)
  have hM : 3 ≤ [a - r, a, a + r].length := by simp
  have hx : ∃ p ∈ [a - r, a, a + r], ∃ q ∈ [a - r, a, a + r], p ≠ q := ⟨a, by simp, a + r, by simp, by simp [hr.ne']⟩
  obtain ⟨s, h1, h2, -, h3⟩ := C113_proper h path _ hM hx
  refine ⟨s, h1, h2, h3.2 ?_⟩
  have e1 : avg [a - r, a, a + r] = a := by simp [avg]; ring
  have e2 : svar false [a - r, a, a + r] = r ^ 2 := by simp [svar, csum, e1]; ring
  have e3 : sd [a - r, a, a + r] = r := by rw [sd, e2, Real.sqrt_sq hr.le]
  have e4 : skew [a - r, a, a + r] = 0 := by
    simp only [skew, e1, e3, List.map_cons, List.map_nil, List.sum_cons, List.sum_nil]
    ring
  rw [e1, e3, e4, hr2]
  constructor <;> simp only [a] <;> ring

/-- a skewed law -/
example : FourMoments essLaw id 1 3 9 39 := essLaw_moments

/-- C113: an ensemble with the mean and the variance of the law attains the smallest expected score only if spread times
the skewness of the code is the third central moment over the variance.  Partial: for the sample skewness with the usual
correction, which is as many times larger as there are members, this fails (`C113_moments_false`). -/
theorem C113_moments_partial (h : FourMoments P Y μ v c m) (path : Path) (xs : List ℝ) (hM : 3 ≤ xs.length)
    (hx : ∃ a ∈ xs, ∃ b ∈ xs, a ≠ b) (hm : avg xs = μ) (hv : svar false xs = v) :
    ∃ s : ℝ → ℝ, (∀ y, ess1 path (fin y) (xs.map fin) = .ok (fin (s y))) ∧ Integrable (fun ω => s (Y ω)) P ∧
      ∫ ω, s (Y ω) ∂P = essBest v c m + v ^ 2 * (sampleSkew xs / xs.length - c / (v * Real.sqrt v)) ^ 2 := by
  obtain ⟨s, h1, h2, h3⟩ := C113_gap h path xs hM hx
  refine ⟨s, h1, h2, ?_⟩
  have hl : (xs.length : ℝ) ≠ 0 := by
    have : xs ≠ [] := by rintro rfl; simp at hM
    exact_mod_cast (List.length_pos_iff.2 this).ne'
  have e1 : sd xs = Real.sqrt v := by rw [sd, hv]
  have e2 : Real.sqrt v ^ 2 = v := Real.sq_sqrt h.pos.le
  have e3 : sampleSkew xs / xs.length = skew xs := by
    rw [sampleSkew, skew]; field_simp
  rw [h3, e3, hm, e1, e2]
  have e4 : Real.sqrt v ≠ 0 := (Real.sqrt_pos.2 h.pos).ne'
  have e5 : v ≠ 0 := h.pos.ne'
  have e6 : Real.sqrt v * skew xs - c / v = Real.sqrt v * (skew xs - c / (v * Real.sqrt v)) := by field_simp
  rw [show 2 * (μ - μ) + Real.sqrt v * skew xs - c / v = Real.sqrt v * skew xs - c / v by ring, e6, mul_pow, e2]
  ring

theorem avg003 : avg [0, 0, 3] = 1 := by norm_num [avg]

theorem svar003 : svar false [0, 0, 3] = 3 := by norm_num [svar, csum, avg003]

/-- a skewed law, and an ensemble with its mean and variance -/
example : FourMoments essLaw id 1 3 9 39 ∧ 3 ≤ [(0:ℝ), 0, 3].length ∧
    (∃ a ∈ [(0:ℝ), 0, 3], ∃ b ∈ [(0:ℝ), 0, 3], a ≠ b) ∧ avg [0, 0, 3] = 1 ∧ svar false [0, 0, 3] = 3 :=
  ⟨essLaw_moments, by simp, ⟨0, by simp, 3, by simp, by norm_num⟩, avg003, svar003⟩

end

/-- C113 is false for the sample mean, variance and skewness: the ensemble 0, 0, 3 has exactly the mean 1, the variance
3 and the skewness (third central moment over the variance to the power 3/2) of a law on 0, 1 and 5, and its expected
score is 15, while a symmetric ensemble with another mean and another variance has 3. -/
theorem C113_moments_false (path : Path) :
    FourMoments essLaw id 1 3 9 39 ∧ avg [0, 0, 3] = 1 ∧ svar false [0, 0, 3] = 3 ∧
    sampleSkew [0, 0, 3] = 9 / (3 * Real.sqrt 3) ∧
    (∃ s : ℝ → ℝ, (∀ y, ess1 path (fin y) ([0, 0, 3].map fin) = .ok (fin (s y))) ∧ ∫ y, s y ∂essLaw = 15) ∧
    ∃ a r : ℝ, a ≠ 1 ∧ r ^ 2 ≠ 3 ∧ ∃ s : ℝ → ℝ,
      (∀ y, ess1 path (fin y) ([a - r, a, a + r].map fin) = .ok (fin (s y))) ∧ ∫ y, s y ∂essLaw = 3 := by
  have hr : Real.sqrt 3 ^ 2 = 3 := Real.sq_sqrt (by norm_num)
  have hr0 : Real.sqrt 3 ≠ 0 := (Real.sqrt_pos.2 (by norm_num)).ne'
  have hs : sd [0, 0, 3] = Real.sqrt 3 := by rw [sd, svar003]
  have hk : sampleSkew [0, 0, 3] = 9 / (3 * Real.sqrt 3) := by
    unfold sampleSkew
    rw [hs, avg003]
    simp only [List.map_cons, List.map_nil, List.sum_cons, List.sum_nil, List.length_cons, List.length_nil]
    have : Real.sqrt 3 ^ 3 = 3 * Real.sqrt 3 := by rw [pow_succ, hr]
    simp only [div_pow, this]
    norm_num
    field_simp
    norm_num
  refine ⟨essLaw_moments, avg003, svar003, hk, ?_, 1 + 9 / 3 / 2, Real.sqrt (3 + (9 / 3 / 2) ^ 2), by norm_num, ?_, ?_⟩
  · obtain ⟨s, h1, -, h2⟩ := C113_moments_partial essLaw_moments path [0, 0, 3] (by simp)
      ⟨0, by simp, 3, by simp, by norm_num⟩ avg003 svar003
    refine ⟨s, h1, h2.trans ?_⟩
    have : sampleSkew [0, 0, 3] / (([0, 0, 3] : List ℝ).length : ℝ) - 9 / (3 * Real.sqrt 3) = -2 / Real.sqrt 3 := by
      rw [hk]
      simp only [List.length_cons, List.length_nil]
      norm_num
      field_simp
      norm_num
    rw [this, div_pow, hr]
    norm_num [essBest]
  · rw [Real.sq_sqrt (by norm_num)]; norm_num
  · obtain ⟨s, h1, -, h2⟩ := C113_symmetric_best essLaw_moments path
    exact ⟨s, h1, h2.trans (by norm_num [essBest])⟩

/-! ### Copies of an ensemble -/

theorem sum_copies (k : ℕ) (f : ℝ → ℝ) (xs : List ℝ) :
    ((xs.flatMap fun x => List.replicate k x).map f).sum = k * (xs.map f).sum := by
  induction xs with
  | nil => simp
  | cons x xs ih => simp only [List.flatMap_cons, List.map_append, List.sum_append, ih]; simp; ring

theorem length_copies (k : ℕ) (xs : List ℝ) : (xs.flatMap fun x => List.replicate k x).length = k * xs.length := by
  induction xs with
  | nil => simp
  | cons x xs ih => simp only [List.flatMap_cons, List.length_append, ih]; simp; ring

theorem avg_copies {k : ℕ} (hk : k ≠ 0) (xs : List ℝ) : avg (xs.flatMap fun x => List.replicate k x) = avg xs := by
  have := sum_copies k id xs
  simp only [List.map_id] at this
  have hk' : (k:ℝ) ≠ 0 := by exact_mod_cast hk
  rw [avg, avg, this, length_copies]
  push_cast
  rw [mul_div_mul_left _ _ hk']

theorem csum_copies {k : ℕ} (hk : k ≠ 0) (p : ℕ) (xs : List ℝ) :
    csum p (xs.flatMap fun x => List.replicate k x) = k * csum p xs := by
  unfold csum
  rw [avg_copies hk, sum_copies]

/-- C113: with ever more copies of the same ensemble, whose mean and (population) variance and skewness do not change,
the skewness term of the code disappears: the scores tend to the squared difference of variance and squared error. -/
theorem C113_copies_limit (path : Path) (y : ℝ) (xs : List ℝ) (hM : 3 ≤ xs.length)
    (hx : ∃ a ∈ xs, ∃ b ∈ xs, a ≠ b) :
    ∃ s : ℕ → ℝ,
      (∀ k, k ≠ 0 → ess1 path (fin y) ((xs.flatMap fun x => List.replicate k x).map fin) = .ok (fin (s k))) ∧
      Tendsto s atTop (𝓝 ((svar true xs - (avg xs - y) ^ 2) ^ 2)) := by
  refine ⟨fun k => ess y (xs.flatMap fun x => List.replicate k x), fun k hk => ?_, ?_⟩
  · refine C39_value path y _ ?_ ?_
    · rw [length_copies]
      exact hM.trans (Nat.le_mul_of_pos_left _ (Nat.pos_of_ne_zero hk))
    · obtain ⟨a, ha, b, hb, hab⟩ := hx
      refine ⟨a, List.mem_flatMap.2 ⟨a, ha, ?_⟩, b, List.mem_flatMap.2 ⟨b, hb, ?_⟩, hab⟩ <;> simp [hk]
  have h3 : (3:ℝ) ≤ xs.length := by exact_mod_cast hM
  have hC := csum2_pos hx
  have key : ∀ k : ℕ, k ≠ 0 → ess y (xs.flatMap fun x => List.replicate k x)
      = (csum 2 xs / (xs.length - (k:ℝ)⁻¹) - (avg xs - y) ^ 2
        - (avg xs - y) * (csum 3 xs / csum 2 xs * ((k:ℝ)⁻¹ / (xs.length - 2 * (k:ℝ)⁻¹)))) ^ 2 := fun k hk => by
    have hk' : (1:ℝ) ≤ k := by exact_mod_cast Nat.one_le_iff_ne_zero.2 hk
    have hl : 3 ≤ (xs.flatMap fun x => List.replicate k x).length := by
      rw [length_copies]
      exact hM.trans (Nat.le_mul_of_pos_left _ (Nat.pos_of_ne_zero hk))
    have hs : 0 < sd (xs.flatMap fun x => List.replicate k x) := by
      refine sd_pos hl ?_
      obtain ⟨a, ha, b, hb, hab⟩ := hx
      refine ⟨a, List.mem_flatMap.2 ⟨a, ha, ?_⟩, b, List.mem_flatMap.2 ⟨b, hb, ?_⟩, hab⟩ <;> simp [hk]
    rw [ess_eq y hs, svar, avg_copies hk, csum_copies hk, csum_copies hk, length_copies]
    simp only [Bool.false_eq_true, if_false]
    push_cast
    have n0 : (k:ℝ) ≠ 0 := by positivity
    have n1 : (k:ℝ) * xs.length - 1 ≠ 0 := by nlinarith
    have n2 : (k:ℝ) * xs.length - 2 ≠ 0 := by nlinarith
    have e1 : (xs.length:ℝ) - (k:ℝ)⁻¹ = (k * xs.length - 1) / k := by field_simp
    have e2 : (xs.length:ℝ) - 2 * (k:ℝ)⁻¹ = (k * xs.length - 2) / k := by field_simp
    rw [e1, e2]
    have := hC.ne'
    congr 1
    congr 1
    · field_simp
    · field_simp
  have t0 : Tendsto (fun k : ℕ => (k:ℝ)⁻¹) atTop (𝓝 0) := tendsto_inv_atTop_nhds_zero_nat
  have n : (xs.length : ℝ) ≠ 0 := by positivity
  have lim : Tendsto (fun k : ℕ => (csum 2 xs / (xs.length - (k:ℝ)⁻¹) - (avg xs - y) ^ 2
        - (avg xs - y) * (csum 3 xs / csum 2 xs * ((k:ℝ)⁻¹ / (xs.length - 2 * (k:ℝ)⁻¹)))) ^ 2) atTop
      (𝓝 ((csum 2 xs / (xs.length - 0) - (avg xs - y) ^ 2
        - (avg xs - y) * (csum 3 xs / csum 2 xs * (0 / (xs.length - 2 * 0)))) ^ 2)) := by
    refine Tendsto.pow (((tendsto_const_nhds.div (tendsto_const_nhds.sub t0) (by simpa using n)).sub
      tendsto_const_nhds).sub (tendsto_const_nhds.mul (tendsto_const_nhds.mul
        (t0.div (tendsto_const_nhds.sub (tendsto_const_nhds.mul t0)) (by simpa using n))))) 2
  have e : (svar true xs - (avg xs - y) ^ 2) ^ 2 = (csum 2 xs / (xs.length - 0) - (avg xs - y) ^ 2
        - (avg xs - y) * (csum 3 xs / csum 2 xs * (0 / (xs.length - 2 * 0)))) ^ 2 := by
    simp [svar]
  rw [e]
  refine lim.congr' ?_
  filter_upwards [eventually_ne_atTop 0] with k hk
  exact (key k hk).symm

example : 3 ≤ [(0:ℝ), 0, 3].length ∧ ∃ a ∈ [(0:ℝ), 0, 3], ∃ b ∈ [(0:ℝ), 0, 3], a ≠ b :=
  ⟨by simp, 0, by simp, 3, by simp, by norm_num⟩

end Verif
