import Verif.Lemmas.CrpsShape
import Verif.Lemmas.DiscreteInf
import Verif.Lemmas.DiscreteRec
import Verif.Props.TDist
import Mathlib.Analysis.SpecialFunctions.ImproperIntegrals
import Mathlib.Analysis.SpecialFunctions.Complex.LogBounds
import Mathlib.Probability.Distributions.Poisson.PoissonLimitThm
import Mathlib.RingTheory.Polynomial.Bernstein
import Mathlib.Analysis.SpecialFunctions.Choose

/-!
# Convergence of the CRPS along a sequence of distributions
-/

noncomputable section

open scoped Classical Topology
open MeasureTheory Filter

namespace Verif

open XF Spec

/-- Distribution functions with tails below `C / |z|` that converge everywhere have convergent CRPS. -/
theorem crps_tails {ι : Type} {l : Filter ι} [l.IsCountablyGenerated] {F : ι → ℝ → ℝ} {G : ℝ → ℝ} {A C : ℝ}
    (hm : ∀ᶠ t in l, Monotone (F t)) (hb : ∀ᶠ t in l, ∀ z, 0 ≤ F t z ∧ F t z ≤ 1)
    (hlo : ∀ᶠ t in l, ∀ z < -A, F t z ≤ C / |z|) (hhi : ∀ᶠ t in l, ∀ z > A, 1 - F t z ≤ C / |z|)
    (hF : ∀ z, Tendsto (fun t => F t z) l (𝓝 (G z))) (y : ℝ) :
    Tendsto (fun t => crps (F t) y) l (𝓝 (crps G y)) := by
  obtain ⟨B, hB1, hBA, hBy⟩ : ∃ B : ℝ, 1 ≤ B ∧ A ≤ B ∧ |y| ≤ B :=
    ⟨max 1 (max A |y|), le_max_left _ _, (le_max_left _ _).trans (le_max_right _ _),
      (le_max_right _ _).trans (le_max_right _ _)⟩
  unfold crps
  refine tendsto_integral_filter_of_dominated_convergence (fun z => (1 + B ^ 2 + 2 * C ^ 2) * (1 + z ^ 2)⁻¹) ?_ ?_
    (integrable_inv_one_add_sq.const_mul _) (ae_of_all _ fun z => ?_)
  · filter_upwards [hm] with t ht
    refine ((ht.measurable.sub ?_).pow_const 2).aestronglyMeasurable
    exact Measurable.ite measurableSet_Ici measurable_const measurable_const
  · filter_upwards [hb, hlo, hhi] with t h1 h2 h3
    refine ae_of_all _ fun z => ?_
    rw [Real.norm_eq_abs, abs_of_nonneg (sq_nonneg _), ← div_eq_mul_inv, le_div_iff₀ (by positivity)]
    obtain ⟨b0, b1⟩ := h1 z
    have hq : (F t z - if y ≤ z then 1 else 0) ^ 2 ≤ 1 := by split_ifs <;> nlinarith
    have hq0 := sq_nonneg (F t z - if y ≤ z then 1 else 0)
    have hC := sq_nonneg C
    have far : ∀ a : ℝ, 0 ≤ a → a ≤ C / |z| → B < |z| → a ^ 2 * (1 + z ^ 2) ≤ 2 * C ^ 2 := by
      intro a ha hle hz
      have hz1 : 1 < |z| := by linarith
      rw [le_div_iff₀ (by linarith)] at hle
      have e1 : (a * |z|) ^ 2 ≤ C ^ 2 := by
        have := mul_nonneg ha (abs_nonneg z)
        nlinarith
      rw [mul_pow, sq_abs] at e1
      have e2 : 1 ≤ z ^ 2 := by rw [← sq_abs]; nlinarith
      nlinarith [sq_nonneg a]
    by_cases hz : |z| ≤ B
    · have : z ^ 2 ≤ B ^ 2 := by rw [← sq_abs z]; nlinarith [abs_nonneg z]
      nlinarith
    · push Not at hz
      rcases lt_abs.1 hz with h | h
      · have hy : y ≤ z := (le_abs_self y).trans (hBy.trans h.le)
        rw [if_pos hy]
        have := far (1 - F t z) (by linarith) (h3 z (by linarith)) hz
        nlinarith
      · have hy : ¬ y ≤ z := not_le.2 (by linarith [neg_abs_le y])
        rw [if_neg hy, sub_zero]
        have := far (F t z) b0 (h2 z (by linarith)) hz
        nlinarith
  · exact ((hF z).sub_const _).pow 2

theorem cdfPmf_bounds {f : ℕ → ℝ} (h : IsPmf f) (z : ℝ) : 0 ≤ cdfPmf f z ∧ cdfPmf f z ≤ 1 := by
  constructor
  · exact hasSum_le (fun k => mul_nonneg (h.nonneg k) (by unfold step; split_ifs <;> norm_num)) hasSum_zero
      (hasSum_cdfPmf h z)
  · refine hasSum_le (fun k => ?_) (hasSum_cdfPmf h z) h.total
    unfold step
    have := h.nonneg k
    split_ifs <;> simp [this]

/-- Markov's inequality. -/
theorem cdfPmf_tail {f : ℕ → ℝ} (h : IsPmf f) {m : ℝ} (hm : HasSum (fun k : ℕ => (k:ℝ) * f k) m) {z : ℝ} (hz : 0 < z) :
    1 - cdfPmf f z ≤ m / z := by
  refine hasSum_le (fun k => ?_) (h.total.sub (hasSum_cdfPmf h z)) (hm.div_const z)
  have := h.nonneg k
  unfold step
  split_ifs with hk
  · rw [mul_one, sub_self]; positivity
  · rw [mul_zero, sub_zero, le_div_iff₀ hz]
    push Not at hk
    nlinarith

/-- Probability functions with bounded means that converge everywhere have convergent CRPS. -/
theorem crps_pmf_tendsto {ι : Type} {l : Filter ι} [l.IsCountablyGenerated] {f : ι → ℕ → ℝ} {g : ℕ → ℝ} {m : ι → ℝ} {M : ℝ}
    (hP : ∀ᶠ t in l, IsPmf (f t)) (hm : ∀ᶠ t in l, HasSum (fun k : ℕ => (k:ℝ) * f t k) (m t))
    (hM : ∀ᶠ t in l, m t ≤ M) (hf : ∀ k, Tendsto (fun t => f t k) l (𝓝 (g k))) (y : ℝ) :
    Tendsto (fun t => crps (cdfPmf (f t)) y) l (𝓝 (crps (cdfPmf g) y)) := by
  refine crps_tails (A := 0) (C := |M|) (hP.mono fun t h => cdfPmf_mono h) (hP.mono fun t h => cdfPmf_bounds h) ?_ ?_ ?_ y
  · refine Eventually.of_forall fun t z hz => ?_
    rw [cdfPmf_neg (by linarith)]; positivity
  · filter_upwards [hP, hm, hM] with t h1 h2 h3 z hz
    refine (cdfPmf_tail h1 h2 hz).trans ?_
    rw [abs_of_pos hz]
    exact div_le_div_of_nonneg_right (h3.trans (le_abs_self M)) (le_of_lt hz)
  · intro z
    rcases lt_or_ge z 0 with hz | hz
    · simp only [cdfPmf_neg hz]; exact tendsto_const_nhds
    · simp only [cdfPmf_floor hz]
      exact tendsto_finsetSum _ fun k _ => hf k

/-! ### binomial -/

theorem pmfBinom_mean (n : ℕ) (p : ℝ) : HasSum (fun k : ℕ => (k:ℝ) * pmfBinom n p k) (n * p) := by
  have h := congrArg (Polynomial.eval p) (bernsteinPolynomial.sum_smul ℝ n)
  simp only [Polynomial.eval_finsetSum, bernsteinPolynomial, Polynomial.eval_mul,
    Polynomial.eval_natCast, Polynomial.eval_pow, Polynomial.eval_X, Polynomial.eval_sub, Polynomial.eval_one,
    nsmul_eq_mul] at h
  rw [← h]
  refine hasSum_sum_of_ne_finset_zero fun k hk => ?_
  rw [Finset.mem_range, not_lt] at hk
  unfold pmfBinom
  rw [Nat.choose_eq_zero_of_lt (by omega)]; simp

/-! ### negative binomial with growing size and fixed mean -/

theorem nb_factor_tendsto (μ c : ℝ) (hμ : 0 ≤ μ) : Tendsto (fun r : ℝ => (r + c) * μ / (r + μ)) atTop (𝓝 μ) := by
  have e : (fun r : ℝ => μ + (c - μ) * μ * (r + μ)⁻¹) =ᶠ[atTop] fun r : ℝ => (r + c) * μ / (r + μ) := by
    filter_upwards [eventually_gt_atTop (0:ℝ)] with r hr
    have : r + μ ≠ 0 := by positivity
    field_simp
    ring
  refine Tendsto.congr' e ?_
  have h3 : Tendsto (fun r : ℝ => (r + μ)⁻¹) atTop (𝓝 0) :=
    tendsto_inv_atTop_zero.comp (tendsto_atTop_add_const_right _ μ tendsto_id)
  have h4 := (h3.const_mul ((c - μ) * μ)).const_add μ
  rwa [mul_zero, add_zero] at h4

theorem pmfNegbinom_mean_form {r μ : ℝ} (hr : 0 < r) (hμ : 0 ≤ μ) (k : ℕ) :
    pmfNegbinom r (r / (r + μ)) k
      = ((1 + μ / r) ^ r)⁻¹ * (∏ i ∈ Finset.range k, (r + i) * μ / (r + μ)) / k.factorial := by
  have hs : r + μ ≠ 0 := by positivity
  have h1 : r / (r + μ) = (1 + μ / r)⁻¹ := by field_simp
  have h2 : 1 - r / (r + μ) = μ / (r + μ) := by field_simp; ring
  have h3 : (r / (r + μ)) ^ r = ((1 + μ / r) ^ r)⁻¹ := by rw [h1, Real.inv_rpow (by positivity)]
  unfold pmfNegbinom
  rw [h2, h3, Finset.prod_div_distrib, Finset.prod_mul_distrib, Finset.prod_const, Finset.prod_const, Finset.card_range,
    div_pow]
  ring

theorem pmfNegbinom_tendsto {μ : ℝ} (hμ : 0 ≤ μ) (k : ℕ) :
    Tendsto (fun r : ℝ => pmfNegbinom r (r / (r + μ)) k) atTop (𝓝 (pmfPois μ k)) := by
  have h1 : Tendsto (fun r : ℝ => ((1 + μ / r) ^ r)⁻¹) atTop (𝓝 (Real.exp μ)⁻¹) :=
    (Real.tendsto_one_add_div_rpow_exp μ).inv₀ (Real.exp_pos μ).ne'
  have h2 : Tendsto (fun r : ℝ => ∏ i ∈ Finset.range k, (r + i) * μ / (r + μ)) atTop (𝓝 (∏ _i ∈ Finset.range k, μ)) :=
    tendsto_finsetProd _ fun i _ => nb_factor_tendsto μ i hμ
  have h4 := (h1.mul h2).div_const (k.factorial : ℝ)
  have e2 : (Real.exp μ)⁻¹ * (∏ _i ∈ Finset.range k, μ) / k.factorial = pmfPois μ k := by
    rw [Finset.prod_const, Finset.card_range, ← Real.exp_neg]; unfold pmfPois; ring
  rw [e2] at h4
  refine h4.congr' ?_
  filter_upwards [eventually_gt_atTop (0:ℝ)] with r hr
  rw [pmfNegbinom_mean_form hr hμ]

/-! ### hypergeometric with a growing population -/

theorem choose_ratio (k : ℕ) : Tendsto (fun n : ℕ => (n.choose k : ℝ) / (n:ℝ) ^ k) atTop (𝓝 (1 / k.factorial)) := by
  have h := (isEquivalent_choose k).div (Asymptotics.IsEquivalent.refl (u := fun n : ℕ => (n:ℝ) ^ k) (l := atTop))
  refine (Asymptotics.IsEquivalent.tendsto_nhds_iff h).2 (tendsto_const_nhds.congr' ?_)
  filter_upwards [eventually_gt_atTop 0] with n hn
  have : (n:ℝ) ≠ 0 := by exact_mod_cast hn.ne'
  show _ = (n:ℝ) ^ k / k.factorial / (n:ℝ) ^ k
  field_simp

theorem pmfHypergeo_tendsto {m n : ℕ → ℕ} {p : ℝ} (hm : Tendsto m atTop atTop) (hn : Tendsto n atTop atTop)
    (hp : Tendsto (fun j => (m j : ℝ) / (m j + n j)) atTop (𝓝 p)) (K k : ℕ) :
    Tendsto (fun j => pmfHypergeo (m j) (n j) K k) atTop (𝓝 (pmfBinom K p k)) := by
  unfold pmfHypergeo
  by_cases hk : k ≤ K
  · simp only [hk, if_true]
    have h1 := (choose_ratio k).comp hm
    have h2 := (choose_ratio (K - k)).comp hn
    have h3 := (choose_ratio K).comp (hm.atTop_add_atTop hn)
    have hq : Tendsto (fun j => (n j : ℝ) / (m j + n j)) atTop (𝓝 (1 - p)) := by
      refine (hp.const_sub 1).congr' ?_
      filter_upwards [hm.eventually_gt_atTop 0] with j hj
      have : (0:ℝ) < m j := by exact_mod_cast hj
      have : (m j : ℝ) + n j ≠ 0 := by positivity
      field_simp
      ring
    have hK : (1:ℝ) / K.factorial ≠ 0 := by positivity
    have h4 := ((h1.mul h2).div h3 hK).mul ((hp.pow k).mul (hq.pow (K - k)))
    have e : 1 / (k.factorial : ℝ) * (1 / ((K - k).factorial : ℝ)) / (1 / (K.factorial : ℝ)) * (p ^ k * (1 - p) ^ (K - k))
        = pmfBinom K p k := by
      unfold pmfBinom
      rw [Nat.cast_choose ℝ hk]
      field_simp
    rw [e] at h4
    refine h4.congr' ?_
    filter_upwards [hm.eventually_gt_atTop 0, hn.eventually_gt_atTop 0, (hm.atTop_add_atTop hn).eventually_ge_atTop K]
      with j hj hj' hK'
    have a1 : (m j : ℝ) ≠ 0 := by exact_mod_cast hj.ne'
    have a2 : (n j : ℝ) ≠ 0 := by exact_mod_cast hj'.ne'
    have a3 : (m j : ℝ) + n j ≠ 0 := by positivity
    have a4 : ((m j + n j).choose K : ℝ) ≠ 0 := by exact_mod_cast (Nat.choose_pos hK').ne'
    obtain ⟨i, rfl⟩ := Nat.exists_eq_add_of_le hk
    simp only [Function.comp, Pi.div_apply, Nat.cast_add, add_tsub_cancel_left, div_pow, pow_add]
    field_simp
  · simp only [hk, if_false]
    unfold pmfBinom
    rw [Nat.choose_eq_zero_of_lt (by omega)]
    simp

theorem pmfHypergeo_mean {m n K : ℕ} (h : K ≤ m + n) :
    ∃ a : ℝ, HasSum (fun k : ℕ => (k:ℝ) * pmfHypergeo m n K k) a ∧ a ≤ K := by
  have hP := isPmf_hypergeo h
  have hz : ∀ k ∉ Finset.range (K + 1), pmfHypergeo m n K k = 0 := by
    intro k hk
    rw [Finset.mem_range, not_lt] at hk
    unfold pmfHypergeo
    rw [if_neg (by omega)]
  refine ⟨_, hasSum_sum_of_ne_finset_zero (s := Finset.range (K + 1)) fun k hk => by rw [hz k hk, mul_zero], ?_⟩
  have h1 : ∑ k ∈ Finset.range (K + 1), pmfHypergeo m n K k = 1 :=
    (hasSum_sum_of_ne_finset_zero hz).unique hP.total
  calc ∑ k ∈ Finset.range (K + 1), (k:ℝ) * pmfHypergeo m n K k ≤ ∑ k ∈ Finset.range (K + 1), (K:ℝ) * pmfHypergeo m n K k := by
        refine Finset.sum_le_sum fun k hk => mul_le_mul_of_nonneg_right ?_ (hP.nonneg k)
        have := Finset.mem_range.1 hk
        exact_mod_cast Nat.lt_succ_iff.1 this
    _ = K := by rw [← Finset.mul_sum, h1, mul_one]

/-! ### Student's t with growing degrees of freedom -/

/-- The t density without its constant. -/
def tShape (ν x : ℝ) : ℝ := (1 + x ^ 2 / ν) ^ (-((ν + 1) / 2))

theorem tShape_pos {ν : ℝ} (hν : 0 < ν) (x : ℝ) : 0 < tShape ν x := by
  unfold tShape; positivity

theorem tShape_le {ν : ℝ} (hν : 2 ≤ ν) (x : ℝ) : tShape ν x ≤ 2 * (1 + x ^ 2)⁻¹ := by
  have h0 : 0 < ν := by linarith
  have hb : 1 + x ^ 2 / 2 ≤ (1 + x ^ 2 / ν) ^ (ν / 2) := by
    have := one_add_mul_self_le_rpow_one_add (s := x ^ 2 / ν) (p := ν / 2) (by have : 0 ≤ x ^ 2 / ν := by positivity
                                                                               linarith) (by linarith)
    refine le_trans (le_of_eq ?_) this
    field_simp
  have hx : 1 ≤ 1 + x ^ 2 / ν := by
    have : 0 ≤ x ^ 2 / ν := by positivity
    linarith
  have hc : (1 + x ^ 2 / ν) ^ (ν / 2) ≤ (1 + x ^ 2 / ν) ^ ((ν + 1) / 2) :=
    Real.rpow_le_rpow_of_exponent_le hx (by linarith)
  unfold tShape
  rw [Real.rpow_neg (by linarith), ← div_eq_mul_inv, inv_eq_one_div, div_le_div_iff₀ (by positivity) (by positivity)]
  nlinarith [sq_nonneg x]

theorem tShape_tendsto (x : ℝ) : Tendsto (fun ν : ℝ => tShape ν x) atTop (𝓝 (Real.exp (-x ^ 2 / 2))) := by
  have h1 : Tendsto (fun ν : ℝ => (1 + x ^ 2 / ν) ^ ν) atTop (𝓝 (Real.exp (x ^ 2))) := Real.tendsto_one_add_div_rpow_exp _
  have h2 : Tendsto (fun ν : ℝ => 1 + x ^ 2 / ν) atTop (𝓝 1) := by
    simpa using (tendsto_const_nhds.div_atTop tendsto_id : Tendsto (fun ν : ℝ => x ^ 2 / ν) atTop (𝓝 0)).const_add 1
  have h3 := (h1.rpow_const (p := -(1 / 2)) (Or.inl (Real.exp_pos _).ne')).mul
    (h2.rpow_const (p := -(1 / 2)) (Or.inl one_ne_zero))
  rw [Real.one_rpow, mul_one, ← Real.exp_mul, show x ^ 2 * -(1 / 2) = -x ^ 2 / 2 by ring] at h3
  refine h3.congr' ?_
  filter_upwards [eventually_gt_atTop (0:ℝ)] with ν hν
  have hx : 0 < 1 + x ^ 2 / ν := by positivity
  unfold tShape
  rw [← Real.rpow_mul hx.le, ← Real.rpow_add hx]
  congr 1; ring

theorem tShape_meas (ν : ℝ) : Measurable (tShape ν) := by
  unfold tShape; fun_prop

theorem tShape_dom (s : Set ℝ) :
    Tendsto (fun ν : ℝ => ∫ x in s, tShape ν x) atTop (𝓝 (∫ x in s, Real.exp (-x ^ 2 / 2))) := by
  refine tendsto_integral_filter_of_dominated_convergence (fun x => 2 * (1 + x ^ 2)⁻¹)
    (Eventually.of_forall fun ν => (tShape_meas ν).aestronglyMeasurable) ?_
    (integrable_inv_one_add_sq.const_mul 2).integrableOn (ae_of_all _ tShape_tendsto)
  filter_upwards [eventually_ge_atTop (2:ℝ)] with ν hν
  refine ae_of_all _ fun x => ?_
  rw [Real.norm_eq_abs, abs_of_pos (tShape_pos (by linarith) x)]
  exact tShape_le hν x

/-- The constant in the t density. -/
def tFactor (ν : ℝ) : ℝ := Real.Gamma ((ν + 1) / 2) / (Real.sqrt (ν * Real.pi) * Real.Gamma (ν / 2))

theorem densT_shape (ν x : ℝ) : densT ν 0 1 x = tFactor ν * tShape ν x := by
  unfold densT tFactor tShape; simp

theorem tFactor_tendsto : Tendsto tFactor atTop (𝓝 (1 / Real.sqrt (2 * Real.pi))) := by
  have h1 := tShape_dom Set.univ
  simp only [setIntegral_univ] at h1
  have hg : ∫ x : ℝ, Real.exp (-x ^ 2 / 2) = Real.sqrt (2 * Real.pi) := by
    have := integral_gaussian (1 / 2)
    rw [show Real.pi / (1 / 2) = 2 * Real.pi by ring] at this
    rw [← this]
    congr 1; funext x; congr 1; ring
  rw [hg] at h1
  have hp : 0 < Real.sqrt (2 * Real.pi) := Real.sqrt_pos.2 (by positivity)
  refine (tendsto_const_nhds.div h1 hp.ne').congr' ?_
  filter_upwards [eventually_gt_atTop (0:ℝ)] with ν hν
  have ht := (dist_t hν one_pos 0).isDensity.total
  simp only [densT_shape] at ht
  rw [integral_const_mul] at ht
  show (1:ℝ) / _ = _
  rw [← ht]
  have : ∫ x, tShape ν x ≠ 0 := fun h => by rw [h, mul_zero] at ht; exact zero_ne_one ht
  field_simp

theorem densT_tendsto (μ σ x : ℝ) : Tendsto (fun ν : ℝ => densT ν μ σ x) atTop (𝓝 (densNormal μ σ x)) := by
  simp only [densT_std _ μ σ, densT_shape]
  unfold densNormal φ
  rw [div_eq_mul_one_div (Real.exp _), mul_comm (Real.exp _)]
  exact (tFactor_tendsto.mul (tShape_tendsto _)).div_const σ

theorem cdfT_tendsto (z : ℝ) : Tendsto (fun ν : ℝ => cdfT ν 0 1 z) atTop (𝓝 (Φ z)) := by
  unfold cdfT cdfOf Φ φ
  simp only [densT_shape, integral_const_mul, div_eq_mul_one_div (Real.exp _) (Real.sqrt _), integral_mul_const]
  rw [mul_comm]
  exact tFactor_tendsto.mul (tShape_dom _)

theorem arctan_tail {z : ℝ} (hz : z < 0) : ∫ x in Set.Iic z, (1 + x ^ 2)⁻¹ ≤ 1 / |z| := by
  rw [integral_Iic_inv_one_add_sq, abs_of_neg hz, ← inv_eq_one_div]
  have h := Real.arctan_inv_of_pos (x := -z) (by linarith)
  rw [Real.arctan_neg] at h
  have hi : 0 < (-z)⁻¹ := inv_pos.2 (by linarith)
  have : Real.arctan (-z)⁻¹ ≤ (-z)⁻¹ := by
    have h1 : 0 < Real.arctan (-z)⁻¹ := Real.arctan_pos.2 hi
    have h2 := Real.lt_tan h1 (Real.arctan_lt_pi_div_two _)
    rw [Real.tan_arctan] at h2
    exact h2.le
  linarith

theorem cdfT_tail {ν c : ℝ} (hν : 2 ≤ ν) (hc : tFactor ν ≤ c) {z : ℝ} (hz : z < 0) : cdfT ν 0 1 z ≤ 2 * c / |z| := by
  have h0 : 0 < ν := by linarith
  have hp : 0 ≤ tFactor ν := by
    have := densT_pos h0 one_pos 0 0
    rw [densT_shape] at this
    exact (pos_of_mul_pos_left this (tShape_pos h0 0).le).le
  have h1 : cdfT ν 0 1 z ≤ ∫ x in Set.Iic z, c * (2 * (1 + x ^ 2)⁻¹) := by
    unfold cdfT cdfOf
    refine setIntegral_mono_on (dist_t h0 one_pos 0).isDensity.integrable.integrableOn
      ((integrable_inv_one_add_sq.const_mul 2).const_mul c).integrableOn measurableSet_Iic fun x _ => ?_
    rw [densT_shape]
    exact mul_le_mul hc (tShape_le hν x) (tShape_pos h0 x).le (hp.trans hc)
  refine h1.trans ?_
  rw [integral_const_mul, integral_const_mul]
  have h2 := arctan_tail hz
  have h3 : 0 ≤ c := hp.trans hc
  calc c * (2 * ∫ x in Set.Iic z, (1 + x ^ 2)⁻¹) ≤ c * (2 * (1 / |z|)) := by gcongr
    _ = 2 * c / |z| := by ring

theorem cdfT_symm {ν : ℝ} (hν : 0 < ν) (z : ℝ) : 1 - cdfT ν 0 1 z = cdfT ν 0 1 (-z) := by
  have hd := (dist_t hν one_pos 0).isDensity
  have h1 : (∫ x in Set.Iic z, densT ν 0 1 x) + ∫ x in Set.Ioi z, densT ν 0 1 x = 1 := by
    have := integral_add_compl (measurableSet_Iic (a := z)) hd.integrable
    rwa [Set.compl_Iic, hd.total] at this
  have h2 : ∫ x in Set.Ioi z, densT ν 0 1 x = ∫ x in Set.Iic (-z), densT ν 0 1 x := by
    rw [← integral_comp_neg_Ioi]
    congr 1
    funext x
    rw [densT_shape, densT_shape]; unfold tShape; rw [neg_sq]
  unfold cdfT cdfOf
  linarith

theorem crps_t_tendsto (y : ℝ) : Tendsto (fun ν : ℝ => crps (cdfT ν 0 1) y) atTop (𝓝 (crps Φ y)) := by
  set c : ℝ := 1 / Real.sqrt (2 * Real.pi) + 1
  have hc : ∀ᶠ ν : ℝ in atTop, tFactor ν ≤ c := (tFactor_tendsto.eventually (gt_mem_nhds (by simp [c]))).mono fun ν h => le_of_lt h
  have h2 := eventually_ge_atTop (2:ℝ)
  refine crps_tails (A := 0) (C := 2 * c) ?_ ?_ ?_ ?_ cdfT_tendsto y
  · filter_upwards [h2] with ν hν
    exact isDensity_mono (dist_t (by linarith) one_pos 0).isDensity
  · filter_upwards [h2] with ν hν
    exact isDensity_bounds (dist_t (by linarith) one_pos 0).isDensity
  · filter_upwards [h2, hc] with ν hν h z hz
    exact cdfT_tail hν h (by linarith)
  · filter_upwards [h2, hc] with ν hν h z hz
    rw [cdfT_symm (by linarith), ← abs_neg]
    exact cdfT_tail hν h (neg_lt_zero.2 hz)

end Verif
