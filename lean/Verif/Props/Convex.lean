import Verif.Spec.Convex
import Verif.Lemmas.ParamLip
import Verif.Props.CloserProb

/-!
# Property C160: which scores are convex in the forecast

Parameters of a forecast are often found by minimising the mean score of past cases.  When the score is convex in the
parameters, every local minimum is a global one.  The closed-form CRPS of the location-scale families are convex in
location and scale together; the scores of probabilities, quantiles and intervals are convex in the forecast.  The log
scores and the ensemble scores (in the members) are not.
-/

noncomputable section

open scoped Classical

namespace Verif

open XF Py Api Brier Spec

/-! ### location and scale -/

/-- the perspective of a convex function is convex -/
theorem perspective {c : ℝ → ℝ} (hc : ConvexOn ℝ Set.univ c) {u u' σ σ' a b : ℝ} (hσ : 0 < σ) (hσ' : 0 < σ') (ha : 0 ≤ a)
    (hb : 0 ≤ b) (hab : a + b = 1) :
    (a * σ + b * σ') * c ((a * u + b * u') / (a * σ + b * σ')) ≤ a * (σ * c (u / σ)) + b * (σ' * c (u' / σ')) := by
  have hp : 0 < a * σ + b * σ' := by
    rcases ha.lt_or_eq with h | h
    · have := mul_pos h hσ
      have := mul_nonneg hb hσ'.le
      linarith
    · have hb1 : b = 1 := by linarith
      rw [← h, hb1]; linarith
  have h1 : 0 ≤ a * σ / (a * σ + b * σ') := by positivity
  have h2 : 0 ≤ b * σ' / (a * σ + b * σ') := by positivity
  have h := hc.2 (Set.mem_univ (u / σ)) (Set.mem_univ (u' / σ')) h1 h2 (by field_simp)
  simp only [smul_eq_mul] at h
  have e : a * σ / (a * σ + b * σ') * (u / σ) + b * σ' / (a * σ + b * σ') * (u' / σ') = (a * u + b * u') / (a * σ + b * σ') := by
    field_simp
  rw [e] at h
  calc _ ≤ (a * σ + b * σ') * (a * σ / (a * σ + b * σ') * c (u / σ) + b * σ' / (a * σ + b * σ') * c (u' / σ')) :=
        mul_le_mul_of_nonneg_left h hp.le
    _ = _ := by field_simp

theorem jointlyConvex_of {S : ℝ → ℝ → ℝ → XF} {F : ℝ → ℝ} (hsh : CrpsShape Set.univ (fun y => S y 0 1) F)
    (hsc : ∀ y μ σ : ℝ, 0 < σ → S y μ σ = fin σ * S ((y - μ) / σ) 0 1) : JointlyConvex S := by
  obtain ⟨c, hc, hv⟩ := C119_convex convex_univ hsh
  have hS : ∀ y μ σ : ℝ, 0 < σ → S y μ σ = fin (σ * c ((y - μ) / σ)) := fun y μ σ hσ => by
    rw [hsc y μ σ hσ, show S ((y - μ) / σ) 0 1 = _ from hc _ trivial, fin_mul]
  intro y y' μ μ' σ σ' a b hσ hσ' ha hb hab
  have hp : 0 < a * σ + b * σ' := by
    rcases ha.lt_or_eq with h | h
    · have := mul_pos h hσ
      have := mul_nonneg hb hσ'.le
      linarith
    · have hb1 : b = 1 := by linarith
      rw [← h, hb1]; linarith
  refine ⟨_, _, _, hS y μ σ hσ, hS y' μ' σ' hσ', hS _ _ _ hp, ?_⟩
  rw [show a * y + b * y' - (a * μ + b * μ') = a * (y - μ) + b * (y' - μ') by ring]
  exact perspective hv hσ hσ' ha hb hab

/-- C160: `crps_normal`. -/
theorem C160_normal : JointlyConvex fun y μ σ => Closed.normal (fin y) (fin μ) (fin σ) :=
  jointlyConvex_of locScale_normal.shape locScale_normal.scale

/-- the mixture of two forecasts -/
example : (0:ℝ) < 1 ∧ (0:ℝ) < 5 ∧ (0:ℝ) ≤ 1 / 3 ∧ (0:ℝ) ≤ 2 / 3 ∧ (1:ℝ) / 3 + 2 / 3 = 1 := by norm_num

/-- C160: `crps_laplace`. -/
theorem C160_laplace : JointlyConvex fun y μ σ => Closed.laplace (fin y) (fin μ) (fin σ) :=
  jointlyConvex_of locScale_laplace.shape locScale_laplace.scale

example : (0:ℝ) < 1 ∧ (0:ℝ) < 5 ∧ (0:ℝ) ≤ 1 / 3 ∧ (0:ℝ) ≤ 2 / 3 ∧ (1:ℝ) / 3 + 2 / 3 = 1 := by norm_num

/-- C160: `crps_logistic`. -/
theorem C160_logistic : JointlyConvex fun y μ σ => Closed.logistic (fin y) (fin μ) (fin σ) :=
  jointlyConvex_of locScale_logistic.shape locScale_logistic.scale

example : (0:ℝ) < 1 ∧ (0:ℝ) < 5 ∧ (0:ℝ) ≤ 1 / 3 ∧ (0:ℝ) ≤ 2 / 3 ∧ (1:ℝ) / 3 + 2 / 3 = 1 := by norm_num

/-- C160: `crps_t`. -/
theorem C160_t {ν : ℝ} (hν : 1 < ν) : JointlyConvex fun y μ σ => Closed.t (fin y) (fin ν) (fin μ) (fin σ) :=
  jointlyConvex_of (locScale_t hν).shape (locScale_t hν).scale

/-- degrees of freedom -/
example : (1:ℝ) < 3 / 2 := by norm_num

/-- C160: `crps_gpd`, with a point mass. -/
theorem C160_gpd {ξ M : ℝ} (hξ : ξ < 1) (h0 : 0 ≤ M) (h1 : M ≤ 1) :
    JointlyConvex fun y μ σ => Closed.gpd (fin y) (fin ξ) (fin μ) (fin σ) (fin M) :=
  jointlyConvex_of (locScale_gpd hξ h0 h1).shape (locScale_gpd hξ h0 h1).scale

/-- a bounded tail and a point mass -/
example : (-1 / 2 : ℝ) < 1 ∧ (0:ℝ) ≤ 1 / 5 ∧ (1 / 5 : ℝ) ≤ 1 := by norm_num

/-- C160: `crps_exponentialM`. -/
theorem C160_exponentialM {M : ℝ} (h0 : 0 ≤ M) (h1 : M ≤ 1) :
    JointlyConvex fun y μ σ => Closed.exponentialM (fin y) (fin M) (fin μ) (fin σ) :=
  jointlyConvex_of (locScale_exponentialM h0 h1).shape (locScale_exponentialM h0 h1).scale

/-- a point mass of one fifth -/
example : (0:ℝ) ≤ 1 / 5 ∧ (1 / 5 : ℝ) ≤ 1 := by norm_num

/-- C160: `crps_uniform`, in the lower end and the width. -/
theorem C160_uniform {L U : ℝ} (hL : 0 ≤ L) (hU : 0 ≤ U) (hLU : L + U < 1) :
    JointlyConvex fun y μ σ => Closed.uniform (fin y) (fin μ) (fin (μ + σ)) (fin L) (fin U) :=
  jointlyConvex_of (locScale_uniform hL hU hLU).shape (locScale_uniform hL hU hLU).scale

/-- point masses at both ends -/
example : (0:ℝ) ≤ 1 / 4 ∧ (0:ℝ) ≤ 1 / 2 ∧ (1 / 4 : ℝ) + 1 / 2 < 1 := by norm_num

/-- C160: `crps_gev`, for every shape below one. -/
theorem C160_gev {ξ : ℝ} (hξ : ξ < 1) : JointlyConvex fun y μ σ => Closed.gev (fin y) (fin ξ) (fin μ) (fin σ) := by
  have hsh : CrpsShape Set.univ (fun y => Closed.gev (fin y) (fin ξ) (fin 0) (fin 1)) (cdfGev ξ 0 1) := by
    by_cases h : ξ = 0
    · rw [h]; exact C119_gumbel 0 one_pos
    · exact C119_gev 0 h hξ one_pos
  refine jointlyConvex_of hsh fun y μ σ hσ => ?_
  have := C51_gev μ 0 hσ one_pos (fin ((y - μ) / σ)) (fin ξ)
  rw [fin_mul, fin_add, mul_div_cancel₀ _ hσ.ne'] at this
  simpa using this

/-- Gumbel, and a heavy tail -/
example : (0:ℝ) < 1 ∧ (1 / 2 : ℝ) < 1 := by norm_num

/-- C160: `crps_exponential` in the scale `1 / rate`. -/
theorem C160_exponential : ScaleConvex fun y σ => Closed.exponential (fin y) (fin (1 / σ)) := by
  refine jointlyConvex_of (F := cdfExp (1 / 1)) ?_ fun y μ σ hσ => ?_
  · simpa using C119_exponential (rate := 1 / 1) (by norm_num)
  · have e : cdfExp (1 / σ) = fun z => cdfExp (1 / 1) ((z - 0) / σ) := by
      funext z
      unfold cdfExp
      simp only [sub_zero, div_lt_iff₀ hσ, zero_mul]
      congr 4; field_simp
    show Closed.exponential (fin (y - μ)) (fin (1 / σ)) = fin σ * Closed.exponential (fin ((y - μ) / σ - 0)) (fin (1 / 1))
    rw [(C44_exponential (one_div_pos.2 hσ) (y - μ)).2, (C44_exponential (by norm_num : (0:ℝ) < 1 / 1) _).2, fin_mul, e]
    have := affine_crps 0 hσ (cdfExp (1 / 1)) ((y - μ) / σ)
    rw [zero_add, mul_div_cancel₀ _ hσ.ne'] at this
    rw [this, sub_zero]

example : (0:ℝ) < 1 ∧ (0:ℝ) < 5 ∧ (0:ℝ) ≤ 1 / 3 ∧ (0:ℝ) ≤ 2 / 3 ∧ (1:ℝ) / 3 + 2 / 3 = 1 := by norm_num

/-- C160: `crps_gamma` in the scale, for every shape. -/
theorem C160_gamma {α : ℝ} (hα : 0 < α) : ScaleConvex fun y σ => Closed.gamma (fin y) (fin α) (fin (1 / σ)) := by
  refine jointlyConvex_of (F := cdfGamma α (1 / 1)) ?_ fun y μ σ hσ => ?_
  · simpa using C119_gamma (β := 1 / 1) hα (by norm_num)
  · have e : cdfGamma α (1 / σ) = fun z => cdfGamma α (1 / 1) ((z - 0) / σ) := by
      funext z
      rw [cdfGamma_eq (one_div_pos.2 hσ), cdfGamma_eq (by norm_num)]
      congr 1; field_simp; ring
    show Closed.gamma (fin (y - μ)) (fin α) (fin (1 / σ)) = fin σ * Closed.gamma (fin ((y - μ) / σ - 0)) (fin α) (fin (1 / 1))
    rw [(C75_gamma hα (one_div_pos.2 hσ) (y - μ)).2, (C75_gamma hα (by norm_num : (0:ℝ) < 1 / 1) _).2, fin_mul, e]
    have := affine_crps 0 hσ (cdfGamma α (1 / 1)) ((y - μ) / σ)
    rw [zero_add, mul_div_cancel₀ _ hσ.ne'] at this
    rw [this, sub_zero]

/-- a shape below one -/
example : (0:ℝ) < 1 / 2 := by norm_num

/-- What convexity is good for: parameters that are locally best for a sample are best. -/
theorem C160_minimum {S : ℝ → ℝ → ℝ → XF} (h : JointlyConvex S) {f : ℝ → ℝ → ℝ → ℝ}
    (hf : ∀ y μ σ, 0 < σ → S y μ σ = fin (f y μ σ)) (ys : List ℝ) {μ σ : ℝ} (hσ : 0 < σ) (hl : LocalBest f ys μ σ) :
    ∀ μ' σ' : ℝ, 0 < σ' → (ys.map fun y => f y μ σ).sum ≤ (ys.map fun y => f y μ' σ').sum := by
  intro μ' σ' hσ'
  obtain ⟨ε, hε, hloc⟩ := hl
  obtain ⟨t, ht0, ht1, ht⟩ : ∃ t : ℝ, 0 < t ∧ t ≤ 1 ∧ t * (|μ' - μ| + |σ' - σ| + 1) ≤ ε / 2 := by
    have hd : 0 < |μ' - μ| + |σ' - σ| + 1 := by positivity
    refine ⟨min 1 (ε / 2 / (|μ' - μ| + |σ' - σ| + 1)), by positivity, min_le_left _ _, ?_⟩
    calc _ ≤ ε / 2 / (|μ' - μ| + |σ' - σ| + 1) * (|μ' - μ| + |σ' - σ| + 1) :=
          mul_le_mul_of_nonneg_right (min_le_right _ _) hd.le
      _ = _ := by field_simp
  have hpos : 0 < (1 - t) * σ + t * σ' := by
    have h1 : 0 ≤ (1 - t) * σ := mul_nonneg (by linarith) hσ.le
    have h2 : 0 < t * σ' := mul_pos ht0 hσ'
    linarith
  have h1 : (ys.map fun y => f y ((1 - t) * μ + t * μ') ((1 - t) * σ + t * σ')).sum
      ≤ (1 - t) * (ys.map fun y => f y μ σ).sum + t * (ys.map fun y => f y μ' σ').sum := by
    rw [← List.sum_map_mul_left, ← List.sum_map_mul_left, ← List.sum_map_add]
    refine List.sum_le_sum fun y _ => ?_
    obtain ⟨s, s', m, e1, e2, e3, e4⟩ := h y y μ μ' σ σ' (1 - t) t hσ hσ' (by linarith) ht0.le (by ring)
    rw [hf _ _ _ hσ] at e1
    rw [hf _ _ _ hσ'] at e2
    rw [show (1 - t) * y + t * y = y by ring, hf _ _ _ hpos] at e3
    rw [fin.inj e1, fin.inj e2, fin.inj e3]
    exact e4
  have h2 := hloc ((1 - t) * μ + t * μ') ((1 - t) * σ + t * σ')
    (by
      rw [show (1 - t) * μ + t * μ' - μ = t * (μ' - μ) by ring, abs_mul, abs_of_pos ht0]
      have := mul_nonneg ht0.le (abs_nonneg (σ' - σ))
      nlinarith)
    (by
      rw [show (1 - t) * σ + t * σ' - σ = t * (σ' - σ) by ring, abs_mul, abs_of_pos ht0]
      have := mul_nonneg ht0.le (abs_nonneg (μ' - μ))
      nlinarith) hpos
  have h3 : t * (ys.map fun y => f y μ σ).sum ≤ t * (ys.map fun y => f y μ' σ').sum := by linarith
  exact le_of_mul_le_mul_left h3 ht0

/-- no sample: every forecast is best -/
example (f : ℝ → ℝ → ℝ → ℝ) : LocalBest f [] 0 1 := ⟨1, one_pos, fun _ _ _ _ _ => by simp⟩

/-- A log score is not convex in the scale: `logs_normal` at the mean is `log σ` plus a constant. -/
theorem C160_logs_false :
    ¬ JointlyConvex fun y μ σ => Logs.normal (fin y) (fin μ) (fin σ) true := by
  intro h
  obtain ⟨s, s', m, h1, h2, h3, h4⟩ := h 0 0 0 0 1 3 (1 / 2) (1 / 2) one_pos (by norm_num) (by norm_num) (by norm_num)
    (by norm_num)
  have e : ∀ σ : ℝ, 0 < σ → Logs.normal (fin 0) (fin 0) (fin σ) true = fin (Real.log σ - Real.log (φ 0)) := fun σ hσ => by
    have hp : 0 < φ 0 := φ_pos 0
    have e1 : densNormal 0 σ 0 = φ 0 / σ := by
      unfold densNormal
      simp
    rw [((C57_normal 0 hσ).2 0).1, e1, negLog, if_neg (by positivity), Real.log_div hp.ne' hσ.ne', neg_sub]
  dsimp only at h1 h2 h3
  rw [show (1 / 2 : ℝ) * 0 + 1 / 2 * 0 = 0 by ring, show (1 / 2 : ℝ) * 1 + 1 / 2 * 3 = 2 by norm_num, e 2 two_pos] at h3
  rw [e 1 one_pos] at h1
  rw [e 3 (by norm_num)] at h2
  rw [← fin.inj h1, ← fin.inj h2, ← fin.inj h3, Real.log_one] at h4
  have h5 : Real.log 3 < 2 * Real.log 2 := by
    rw [show 2 * Real.log 2 = Real.log 4 by rw [show (4:ℝ) = 2 ^ 2 by norm_num, Real.log_pow]; norm_num]
    exact Real.log_lt_log (by norm_num) (by norm_num)
  linarith

/-- the scale 2 scores worse than the mean of the scales 1 and 3 -/
example : (1 / 2 : ℝ) * 1 + 1 / 2 * 3 = 2 := by norm_num

/-! ### members -/

/-- C160 for `crps_ensemble`, every estimator, both paths: convex in the observation and the members together, as long as
the members of the two ensembles are in increasing order (the weights need not add up to one).  Missing: ensembles in
different orders, where it is false (`C160_members_false`).  The mixture of the members averages the quantile functions. -/
theorem C160_members_partial (path : Path) {est : String} (he : est ∈ Spec.estimators) {M : ℕ} (hM : M ≠ 0)
    (h2 : est = "fair" ∨ est = "pwm" → 2 ≤ M) (sorted : Bool) {y y' a b : ℝ} {x x' : Fin M → ℝ} (hx : Monotone x)
    (hx' : Monotone x') (ha : 0 ≤ a) (hb : 0 ≤ b) :
    ∃ s s' m : ℝ, crps1 path est sorted "propagate" (fin y) ((List.ofFn x).map fin) none = .ok (fin s) ∧
      crps1 path est sorted "propagate" (fin y') ((List.ofFn x').map fin) none = .ok (fin s') ∧
      crps1 path est sorted "propagate" (fin (a * y + b * y')) ((List.ofFn fun i => a * x i + b * x' i).map fin) none
        = .ok (fin m) ∧ m ≤ a * s + b * s' := by
  obtain ⟨A, h0, -, hA⟩ := crps1_pairs path he hM h2
  have hm : Monotone fun i => a * x i + b * x' i := fun i j hij =>
    add_le_add (mul_le_mul_of_nonneg_left (hx hij) ha) (mul_le_mul_of_nonneg_left (hx' hij) hb)
  have hp : ∀ {z : Fin M → ℝ}, Monotone z → (List.ofFn z).Pairwise (· ≤ ·) := fun hz => by
    rw [List.pairwise_ofFn]
    exact fun i j hij => hz hij.le
  refine ⟨_, _, _, hA sorted y x fun _ => hp hx, hA sorted y' x' fun _ => hp hx', hA sorted _ _ fun _ => hp hm, ?_⟩
  unfold pairSum
  rw [Finset.mul_sum, Finset.mul_sum, ← Finset.sum_add_distrib]
  refine Finset.sum_le_sum fun i _ => ?_
  rw [Finset.mul_sum, Finset.mul_sum, ← Finset.sum_add_distrib]
  refine Finset.sum_le_sum fun j _ => ?_
  have key : detour (a * y + b * y') (a * x i + b * x' i) (a * x j + b * x' j)
      ≤ a * detour y (x i) (x j) + b * detour y' (x' i) (x' j) := by
    have h3 : ∀ i, |a * x i + b * x' i - (a * y + b * y')| ≤ a * |x i - y| + b * |x' i - y'| := fun i => by
      rw [show a * x i + b * x' i - (a * y + b * y') = a * (x i - y) + b * (x' i - y') by ring]
      refine (abs_add_le _ _).trans ?_
      rw [abs_mul, abs_mul, abs_of_nonneg ha, abs_of_nonneg hb]
    have h4 : |a * x i + b * x' i - (a * x j + b * x' j)| = a * |x i - x j| + b * |x' i - x' j| := by
      rcases le_total i j with h | h
      · rw [abs_of_nonpos (sub_nonpos.2 (hx h)), abs_of_nonpos (sub_nonpos.2 (hx' h)), abs_of_nonpos (sub_nonpos.2 (hm h))]
        ring
      · rw [abs_of_nonneg (sub_nonneg.2 (hx h)), abs_of_nonneg (sub_nonneg.2 (hx' h)), abs_of_nonneg (sub_nonneg.2 (hm h))]
        ring
    unfold detour
    simp only [Real.dist_eq]
    rw [h4]
    linarith [h3 i, h3 j]
  have := mul_le_mul_of_nonneg_left key (h0 i j)
  linarith

/-- two ensembles in order -/
example : Monotone (![0, 1, 5] : Fin 3 → ℝ) ∧ Monotone (![-3, 2, 2] : Fin 3 → ℝ) := by
  constructor <;> intro i j h <;> fin_cases i <;> fin_cases j <;> simp_all <;> norm_num

/-- Without the order it is false: the mean, member by member, of `1, 3` and `3, 1` is `2, 2`, which loses the spread. -/
theorem C160_members_false :
    Gufunc.nrg (fin 0) ([1, 3].map fin) = fin (3 / 2) ∧ Gufunc.nrg (fin 0) ([3, 1].map fin) = fin (3 / 2) ∧
    Gufunc.nrg (fin 0) ([1 / 2 * 1 + 1 / 2 * 3, 1 / 2 * 3 + 1 / 2 * 1].map fin) = fin 2 ∧
    Gufunc.fair (fin 0) ([1, 3].map fin) = fin 1 ∧ Gufunc.fair (fin 0) ([3, 1].map fin) = fin 1 ∧
    Gufunc.fair (fin 0) ([1 / 2 * 1 + 1 / 2 * 3, 1 / 2 * 3 + 1 / 2 * 1].map fin) = fin 2 := by
  rw [Gufunc.nrg_fin _ _ (by simp), Gufunc.nrg_fin _ _ (by simp), Gufunc.nrg_fin _ _ (by simp), Gufunc.fair_fin _ _ (by simp),
    Gufunc.fair_fin _ _ (by simp), Gufunc.fair_fin _ _ (by simp)]
  simp only [fin.injEq, energy, wabs_uw, wpair_uw]
  refine ⟨?_, ?_, ?_, ?_, ?_, ?_⟩ <;> norm_num [sabs, spair, pairsAll, abs_of_neg]

/-- the two ensembles are the same up to the order -/
example : [(1:ℝ), 3].Perm [3, 1] := List.Perm.swap 3 1 []

end Verif
