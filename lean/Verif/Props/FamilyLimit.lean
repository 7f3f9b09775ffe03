import Verif.Lemmas.FamilyLimit
import Verif.Props.LimitCase
import Verif.Props.Poisson
import Verif.Props.Binomial
import Verif.Props.Negbinom
import Verif.Props.Discrete
import Verif.Props.LogsDiscrete

/-!
# Property C163: families approach their limits

Where one family of distributions is the limit of another, the scores of the one approach those of the other, although
they are computed with unrelated formulas.
-/

noncomputable section

open scoped Classical Topology
open Filter

namespace Verif

open XF Spec

/-- C163: as the degrees of freedom grow, `crps_t` and `logs_t` approach `crps_normal` and `logs_normal`. -/
theorem C163_t {σ : ℝ} (hσ : 0 < σ) (μ y : ℝ) :
    Approaches (fun ν : ℝ => Closed.t (fin y) (fin ν) (fin μ) (fin σ)) atTop (Closed.normal (fin y) (fin μ) (fin σ)) ∧
    Approaches (fun ν : ℝ => Logs.t (fin y) (fin ν) (fin μ) (fin σ)) atTop (Logs.normal (fin y) (fin μ) (fin σ) true) := by
  constructor
  · refine .of_crps (f := fun ν => crps (cdfT ν μ σ) y) ?_ (C50_normal hσ μ y).2 ?_
    · filter_upwards [eventually_gt_atTop (1:ℝ)] with ν hν
      exact (C78_t hν hσ μ y).2
    · have e : ∀ ν : ℝ, 0 < ν → crps (cdfT ν μ σ) y = σ * crps (cdfT ν 0 1) ((y - μ) / σ) := fun ν hν => by
        have h1 : cdfT ν μ σ = fun z => cdfT ν 0 1 ((z - μ) / σ) := by
          funext z
          rw [← (isDensity_scale (dist_t hν one_pos 0).isDensity μ hσ).cdf z]
          unfold cdfT cdfOf
          simp only [densT_std ν μ σ]
        rw [h1]
        exact crps_scale _ μ hσ y
      have e2 : crps (cdfNormal μ σ) y = σ * crps Φ ((y - μ) / σ) := crps_scale _ μ hσ y
      rw [e2]
      refine ((crps_t_tendsto ((y - μ) / σ)).const_mul σ).congr' ?_
      filter_upwards [eventually_gt_atTop (0:ℝ)] with ν hν
      rw [e ν hν]
  · refine .negLog (d := fun ν => densT ν μ σ y) ?_ ((C57_normal μ hσ).2 y).1 ?_ (densT_tendsto μ σ y)
    · filter_upwards [eventually_gt_atTop (0:ℝ)] with ν hν
      exact (C57_t hν hσ μ).2 y
    · unfold densNormal φ
      have := Real.pi_pos
      positivity

/-- a positive scale -/
example : (0:ℝ) < 3 / 2 := by norm_num

/-- C163: as the size grows with the mean fixed, `crps_negbinom` and `logs_negbinom` approach `crps_poisson` and
`logs_poisson`. -/
theorem C163_negbinom {μ : ℝ} (hμ : 0 ≤ μ) :
    (∀ y : ℝ, ∃ S : ℝ → XF, (∀ r : ℝ, Api.crpsNegbinom (fin y) (fin r) none (some (fin μ)) = .ok (S r)) ∧
      Approaches S atTop (Closed.poisson (fin y) (fin μ))) ∧
    (0 < μ → ∀ k : ℕ, ∃ S : ℝ → XF,
      (∀ r : ℝ, Api.logsNegbinom (fin (k:ℝ)) (fin r) none (some (fin μ)) = .ok (S r)) ∧
      Approaches S atTop (Logs.poisson (fin (k:ℝ)) (fin μ))) := by
  constructor
  · intro y
    refine ⟨_, fun r => rfl, .of_crps (f := fun r => crps (cdfPmf (pmfNegbinom r (r / (r + μ)))) y) ?_
      (C80_poisson hμ y).2.2 ?_⟩
    · filter_upwards [eventually_gt_atTop (0:ℝ)] with r hr
      exact Except.ok.inj (C81_negbinom_mu hr hμ y).1
    · refine crps_pmf_tendsto (m := fun _ => μ) (M := μ) ?_ ?_ (Eventually.of_forall fun _ => le_rfl) (pmfNegbinom_tendsto hμ) y
      · filter_upwards [eventually_gt_atTop (0:ℝ)] with r hr
        exact isPmf_negbinom hr (by positivity) (by rw [div_le_one (by positivity)]; linarith)
      · filter_upwards [eventually_gt_atTop (0:ℝ)] with r hr
        exact (C81_negbinom_mu hr hμ y).2
  · intro h0 k
    refine ⟨_, fun r => rfl, .negLog (d := fun r => pmfNegbinom r (r / (r + μ)) k) ?_ ((C58_poisson hμ).2.1 k) ?_
      (pmfNegbinom_tendsto hμ k)⟩
    · filter_upwards [eventually_ge_atTop (1:ℝ)] with r hr
      have hs : r + μ ≠ 0 := by positivity
      simp only [fin_add, fin_div hs]
      exact (C58_negbinom_partial hr (by positivity) (by rw [div_le_one (by positivity)]; linarith)).2.1 k
    · unfold pmfPois; positivity

/-- a positive mean -/
example : (0:ℝ) < 7 / 2 := by norm_num

/-- C163: as the trials grow and the mean approaches `μ`, `crps_binomial` and `logs_binomial` approach `crps_poisson` and
`logs_poisson`. -/
theorem C163_binomial {p : ℕ → ℝ} {μ : ℝ} (hp : ∀ n, 0 ≤ p n) (hμ : Tendsto (fun n : ℕ => n * p n) atTop (𝓝 μ)) :
    (∀ y : ℝ, Approaches (fun n : ℕ => Closed.binomial (fin y) n (fin (p n))) atTop (Closed.poisson (fin y) (fin μ))) ∧
    (0 < μ → ∀ k : ℕ, Approaches (fun n : ℕ => Logs.binomial (fin (k:ℝ)) (fin (n:ℝ)) (fin (p n))) atTop
      (Logs.poisson (fin (k:ℝ)) (fin μ))) := by
  have h0 : 0 ≤ μ := ge_of_tendsto' hμ fun n => mul_nonneg (Nat.cast_nonneg n) (hp n)
  have hp0 := ProbabilityTheory.tendsto_zero_of_tendsto_mul_atTop hμ
  have hh : ∀ᶠ n in atTop, p n ≤ 1 / 2 := (hp0.eventually (gt_mem_nhds (by norm_num : (0:ℝ) < 1 / 2))).mono fun n h => le_of_lt h
  have hf : ∀ k, Tendsto (fun n : ℕ => pmfBinom n (p n) k) atTop (𝓝 (pmfPois μ k)) := fun k => by
    have := ProbabilityTheory.tendsto_choose_mul_pow_of_tendsto_mul_atTop k hμ
    unfold pmfBinom pmfPois
    rwa [mul_comm (Real.exp _)] at this
  constructor
  · intro y
    have hc : Tendsto (fun n : ℕ => crps (cdfPmf (pmfBinom n (p n))) y) atTop (𝓝 (crps (cdfPmf (pmfPois μ)) y)) := by
      refine crps_pmf_tendsto (m := fun n : ℕ => n * p n) (M := μ + 1) ?_ ?_ ?_ hf y
      · filter_upwards [hh] with n hn
        exact isPmf_binom n (hp n) (by linarith)
      · exact Eventually.of_forall fun n => pmfBinom_mean n (p n)
      · exact (hμ.eventually (gt_mem_nhds (by linarith : μ < μ + 1))).mono fun n h => le_of_lt h
    have ex : ∀ n : ℕ, ∃ e : ℝ, p n ≤ 1 / 2 →
        Closed.binomial (fin y) n (fin (p n)) = fin (crps (cdfPmf (pmfBinom n (p n))) y + e) ∧
        |e| ≤ (4 * (1 + |y|)) * (1 / 2) ^ n := by
      intro n
      by_cases hn : p n ≤ 1 / 2
      · obtain ⟨-, -, e, h1, h2⟩ := C79_binomial_partial n (hp n) (by linarith : p n < 1) y
        refine ⟨e, fun _ => ⟨h1, h2.trans ?_⟩⟩
        have hq : p n ^ n ≤ (1 / 2) ^ n := pow_le_pow_left₀ (hp n) hn n
        have hn0 : (0:ℝ) ≤ n := Nat.cast_nonneg n
        have hy := abs_nonneg y
        have ha : |(n:ℝ) - y| ≤ (n + 1) * (1 + |y|) := by
          have := abs_sub (n:ℝ) y
          rw [abs_of_nonneg hn0] at this
          nlinarith
        have hx : (0:ℝ) < 1 - p n := by linarith
        rw [div_le_iff₀ (by positivity)]
        have h5 : p n ^ n * |(n:ℝ) - y| ≤ (1 / 2) ^ n * ((n + 1) * (1 + |y|)) :=
          mul_le_mul hq ha (abs_nonneg _) (by positivity)
        have h6 : (1:ℝ) ≤ 2 * (10 ^ 36 * (1 - p n)) := by
          have : (1:ℝ) / 2 ≤ 1 - p n := by linarith
          nlinarith
        have h7 : (0:ℝ) ≤ (1 / 2) ^ n * ((n + 1) * (1 + |y|)) := by positivity
        nlinarith [mul_le_mul_of_nonneg_left h6 h7]
      · exact ⟨0, fun h => absurd h hn⟩
    choose e he using ex
    refine .of_crps (f := fun n => crps (cdfPmf (pmfBinom n (p n))) y + e n) (hh.mono fun n hn => (he n hn).1)
      (C80_poisson h0 y).2.2 ?_
    have he0 : Tendsto e atTop (𝓝 0) := by
      refine squeeze_zero_norm' (a := fun n : ℕ => (4 * (1 + |y|)) * (1 / 2) ^ n) (hh.mono fun n hn => (he n hn).2) ?_
      simpa using (tendsto_pow_atTop_nhds_zero_of_lt_one (by norm_num : (0:ℝ) ≤ 1 / 2) (by norm_num)).const_mul (4 * (1 + |y|))
    simpa using hc.add he0
  · intro hpos k
    refine .negLog (d := fun n => pmfBinom n (p n) k) ?_ ((C58_poisson h0).2.1 k) (by unfold pmfPois; positivity) (hf k)
    filter_upwards [hh] with n hn
    exact (C58_binomial_partial n (hp n) (by linarith)).2.1 k (Or.inl (by linarith))

/-- mean 2: probability `2 / n` -/
example : (∀ n : ℕ, (0:ℝ) ≤ 2 / n) ∧ Tendsto (fun n : ℕ => (n:ℝ) * (2 / n)) atTop (𝓝 2) := by
  refine ⟨fun n => by positivity, tendsto_const_nhds.congr' ?_⟩
  filter_upwards [eventually_gt_atTop 0] with n hn
  have : (n:ℝ) ≠ 0 := by exact_mod_cast hn.ne'
  field_simp

/-- C163: as the population grows and the share of successes approaches `p`, `crps_hypergeometric` approaches the CRPS of
the binomial distribution, from which `crps_binomial` differs by at most the bound given (C79), and `logs_hypergeometric`
approaches `logs_binomial`. -/
theorem C163_hypergeometric {m n : ℕ → ℕ} {p : ℝ} (hm : Tendsto m atTop atTop) (hn : Tendsto n atTop atTop)
    (hp : Tendsto (fun j => (m j : ℝ) / (m j + n j)) atTop (𝓝 p)) (h0 : 0 ≤ p) (h1 : p < 1) (K : ℕ) :
    (∀ y : ℝ, ∃ v e : ℝ, Approaches (fun j => Closed.hypergeometric (fin y) (m j) (n j) K) atTop (fin v) ∧
      Closed.binomial (fin y) K (fin p) = fin (v + e) ∧ |e| ≤ 2 * p ^ K * |K - y| / (10 ^ 36 * ((K + 1) * (1 - p)))) ∧
    (0 < p → ∀ k : ℕ, k ≤ K →
      Approaches (fun j => Logs.hypergeometric (fin (k:ℝ)) (fin (m j : ℝ)) (fin (n j : ℝ)) (fin (K:ℝ))) atTop
        (Logs.binomial (fin (k:ℝ)) (fin (K:ℝ)) (fin p))) := by
  have hK : ∀ᶠ j in atTop, K ≤ n j := hn.eventually_ge_atTop K
  constructor
  · intro y
    obtain ⟨-, -, e, h2, h3⟩ := C79_binomial_partial K h0 h1 y
    refine ⟨_, e, .of_crps (f := fun j => crps (cdfPmf (pmfHypergeo (m j) (n j) K)) y) ?_ rfl ?_, h2, h3⟩
    · filter_upwards [hK] with j hj
      exact (C55_partial (by omega) (by omega) y).2.2
    · have ex : ∀ j, ∃ a : ℝ, K ≤ n j → HasSum (fun k : ℕ => (k:ℝ) * pmfHypergeo (m j) (n j) K k) a ∧ a ≤ K := fun j => by
        by_cases hj : K ≤ n j
        · obtain ⟨a, ha⟩ := pmfHypergeo_mean (m := m j) (n := n j) (K := K) (by omega)
          exact ⟨a, fun _ => ha⟩
        · exact ⟨0, fun h => absurd h hj⟩
      choose a ha using ex
      refine crps_pmf_tendsto (m := a) (M := K) ?_ (hK.mono fun j hj => (ha j hj).1) (hK.mono fun j hj => (ha j hj).2)
        (pmfHypergeo_tendsto hm hn hp K) y
      filter_upwards [hK] with j hj
      exact isPmf_hypergeo (by omega)
  · intro hpos k hk
    refine .negLog (d := fun j => pmfHypergeo (m j) (n j) K k) ?_ ((C58_binomial_partial K h0 h1.le).2.1 k (Or.inl h1)) ?_
      (pmfHypergeo_tendsto hm hn hp K k)
    · filter_upwards [hK] with j hj
      exact (C58_hypergeometric_partial (by omega)).2.1 k
    · unfold pmfBinom
      have : 0 < K.choose k := Nat.choose_pos hk
      have : (0:ℝ) < K.choose k := by exact_mod_cast this
      have : 0 < 1 - p := by linarith
      positivity

/-- half of the population -/
example : Tendsto (fun j : ℕ => j) atTop atTop ∧ Tendsto (fun j : ℕ => (j : ℝ) / (j + j)) atTop (𝓝 (1 / 2)) := by
  refine ⟨tendsto_id, tendsto_const_nhds.congr' ?_⟩
  filter_upwards [eventually_gt_atTop 0] with n hn
  have : (n:ℝ) ≠ 0 := by exact_mod_cast hn.ne'
  field_simp
  norm_num

end Verif
