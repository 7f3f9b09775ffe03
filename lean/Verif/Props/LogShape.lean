import Verif.Lemmas.LogShape
import Verif.Props.Logs
import Verif.Props.TDist
import Verif.Props.Gamma
import Verif.Props.Beta
import Verif.Props.Gev
import Verif.Lemmas.ClosedScale
import Verif.Props.LogsDiscrete

/-!
# Property C156: log scores rise with the distance from the mode
-/

noncomputable section

open scoped Classical

namespace Verif

open XF Spec

/-! ### peaks -/

theorem peak_φ : Peak φ 0 := by
  refine peak_exp (K := 1 / Real.sqrt (2 * Real.pi)) (g := fun x => -x ^ 2 / 2) (by positivity) (fun x => ?_)
    (fun y' y h1 h2 => ?_) fun y' y h1 h2 => ?_
  · rw [φ]; ring
  · show -y ^ 2 / 2 < -y' ^ 2 / 2
    nlinarith
  · show -y ^ 2 / 2 < -y' ^ 2 / 2
    nlinarith

theorem peak_normal (μ : ℝ) {σ : ℝ} (hσ : 0 < σ) : Peak (densNormal μ σ) μ := by
  have := peak_φ.scale μ hσ
  rwa [mul_zero, add_zero] at this

theorem peak_laplace (μ : ℝ) {σ : ℝ} (hσ : 0 < σ) : Peak (densLaplace μ σ) μ := by
  refine peak_exp (K := 1 / (2 * σ)) (g := fun x => -|(x - μ) / σ|) (by positivity) (fun x => ?_)
    (fun y' y h1 h2 => ?_) fun y' y h1 h2 => ?_
  · rw [densLaplace]; ring
  · show -|(y - μ) / σ| < -|(y' - μ) / σ|
    rw [abs_of_nonneg (div_nonneg (by linarith) hσ.le), abs_of_nonneg (div_nonneg (by linarith) hσ.le)]
    exact neg_lt_neg (div_lt_div_of_pos_right (by linarith) hσ)
  · show -|(y - μ) / σ| < -|(y' - μ) / σ|
    rw [abs_of_nonpos (div_nonpos_of_nonpos_of_nonneg (by linarith) hσ.le),
      abs_of_nonpos (div_nonpos_of_nonpos_of_nonneg (by linarith) hσ.le), neg_neg, neg_neg]
    exact div_lt_div_of_pos_right (by linarith) hσ

/-- `v / (1 + v)²` with `v = exp (-z)` -/
theorem logis_fall {z w : ℝ} (h0 : 0 ≤ z) (h : z < w) :
    Real.exp (-w) / (1 + Real.exp (-w)) ^ 2 < Real.exp (-z) / (1 + Real.exp (-z)) ^ 2 := by
  have h1 : Real.exp (-z) ≤ 1 := by rw [Real.exp_le_one_iff]; linarith
  have h2 : Real.exp (-w) < Real.exp (-z) := Real.exp_lt_exp.2 (by linarith)
  have h3 := Real.exp_pos (-w)
  rw [div_lt_div_iff₀ (by positivity) (by positivity)]
  have : Real.exp (-z) * (1 + Real.exp (-w)) ^ 2 - Real.exp (-w) * (1 + Real.exp (-z)) ^ 2
      = (Real.exp (-z) - Real.exp (-w)) * (1 - Real.exp (-z) * Real.exp (-w)) := by ring
  have h4 : Real.exp (-z) * Real.exp (-w) < 1 := by nlinarith
  nlinarith [mul_pos (sub_pos.2 h2) (sub_pos.2 h4)]

theorem logis_even (z : ℝ) : Real.exp (-z) / (1 + Real.exp (-z)) ^ 2 = Real.exp (- -z) / (1 + Real.exp (- -z)) ^ 2 := by
  have h := Real.exp_pos (-z)
  rw [Real.exp_neg (-z)]
  field_simp
  ring

theorem peak_logistic (μ : ℝ) {σ : ℝ} (hσ : 0 < σ) : Peak (densLogistic μ σ) μ := by
  have h : Peak (fun z => Real.exp (-z) / (1 + Real.exp (-z)) ^ 2) 0 := by
    refine ⟨fun z => by positivity, fun y' y h1 h2 => Or.inl (logis_fall h1 h2), fun y' y h1 h2 => Or.inl ?_⟩
    show Real.exp (-y) / (1 + Real.exp (-y)) ^ 2 < Real.exp (-y') / (1 + Real.exp (-y')) ^ 2
    rw [logis_even y, logis_even y']
    exact logis_fall (by linarith) (by linarith)
  have := h.scale μ hσ
  rw [mul_zero, add_zero] at this
  convert this using 2 with x
  rw [densLogistic, div_div, mul_comm σ]

theorem peak_t {ν : ℝ} (hν : 0 < ν) (μ : ℝ) {σ : ℝ} (hσ : 0 < σ) : Peak (densT ν μ σ) μ := by
  have hg : 0 < Real.Gamma ((ν + 1) / 2) / (Real.sqrt (ν * Real.pi) * Real.Gamma (ν / 2)) := by
    have := Real.Gamma_pos_of_pos (by positivity : 0 < (ν + 1) / 2)
    have := Real.Gamma_pos_of_pos (by positivity : 0 < ν / 2)
    have := Real.pi_pos
    positivity
  have h : Peak (fun z => Real.Gamma ((ν + 1) / 2) / (Real.sqrt (ν * Real.pi) * Real.Gamma (ν / 2))
      * (1 + z ^ 2 / ν) ^ (-((ν + 1) / 2))) 0 := by
    have key : ∀ a b : ℝ, a ^ 2 < b ^ 2 → (1 + b ^ 2 / ν) ^ (-((ν + 1) / 2)) < (1 + a ^ 2 / ν) ^ (-((ν + 1) / 2)) := by
      intro a b hab
      refine Real.rpow_lt_rpow_of_neg (by positivity) ?_ (by linarith)
      have := div_lt_div_of_pos_right hab hν
      linarith
    refine ⟨fun z => by positivity, fun y' y h1 h2 => Or.inl (mul_lt_mul_of_pos_left (key _ _ (by nlinarith)) hg),
      fun y' y h1 h2 => Or.inl (mul_lt_mul_of_pos_left (key _ _ (by nlinarith)) hg)⟩
  have := h.scale μ hσ
  rw [mul_zero, add_zero] at this
  exact this

/-! ### families on the line -/

/-- C156: `logs_normal`. -/
theorem C156_normal (μ : ℝ) {σ : ℝ} (hσ : 0 < σ) : RisesFrom (fun y => Logs.normal (fin y) (fin μ) (fin σ) true) μ :=
  (peak_normal μ hσ).rises fun y => ((C57_normal μ hσ).2 y).1

/-- scale 2, and three observations on one side -/
example : (0:ℝ) < 2 ∧ (1:ℝ) ≤ 1 ∧ (1:ℝ) < 3 ∧ (3:ℝ) < 4 := by norm_num

/-- C156: `logs_laplace`. -/
theorem C156_laplace (μ : ℝ) {σ : ℝ} (hσ : 0 < σ) : RisesFrom (fun y => Logs.laplace (fin y) (fin μ) (fin σ)) μ :=
  (peak_laplace μ hσ).rises (C57_laplace μ hσ).2

/-- at distance 3 the score is worse than at distance 1 -/
example : Worse (Logs.laplace (fin 1) (fin 0) (fin 1)) (Logs.laplace (fin 3) (fin 0) (fin 1)) :=
  (C156_laplace 0 one_pos).1 1 3 (by norm_num) (by norm_num)

/-- C156: `logs_logistic`. -/
theorem C156_logistic (μ : ℝ) {σ : ℝ} (hσ : 0 < σ) : RisesFrom (fun y => Logs.logistic (fin y) (fin μ) (fin σ)) μ :=
  (peak_logistic μ hσ).rises (C57_logistic μ hσ).2

example : Worse (Logs.logistic (fin (-1)) (fin 0) (fin 1)) (Logs.logistic (fin (-3)) (fin 0) (fin 1)) :=
  (C156_logistic 0 one_pos).2 (-1) (-3) (by norm_num) (by norm_num)

/-- C156: `logs_t`. -/
theorem C156_t {ν σ : ℝ} (hν : 0 < ν) (hσ : 0 < σ) (μ : ℝ) :
    RisesFrom (fun y => Logs.t (fin y) (fin ν) (fin μ) (fin σ)) μ :=
  (peak_t hν μ hσ).rises (C57_t hν hσ μ).2

example : Worse (Logs.t (fin 1) (fin 3) (fin 0) (fin 1)) (Logs.t (fin 2) (fin 3) (fin 0) (fin 1)) :=
  (C156_t (by norm_num) one_pos 0).1 1 2 (by norm_num) (by norm_num)

/-- C156: `logs_2pnormal`, both scales. -/
theorem C156_2pnormal {a b : ℝ} (μ : ℝ) (ha : 0 < a) (hb : 0 < b) :
    RisesFrom (fun y => Logs.twopnormal (fin y) (fin a) (fin b) (fin μ)) μ := by
  refine Peak.rises (f := dens2pnormal a b μ) ?_ (C57_2pnormal μ ha hb).2
  have hk : 0 < 2 / (a + b) := by positivity
  refine ⟨fun x => ?_, fun y' y h1 h2 => Or.inl ?_, fun y' y h1 h2 => Or.inl ?_⟩
  · unfold dens2pnormal
    split_ifs <;> exact mul_nonneg hk.le (φ_pos _).le
  · rw [dens2pnormal, dens2pnormal, if_neg (by linarith), if_neg (by linarith)]
    refine mul_lt_mul_of_pos_left ?_ hk
    rcases peak_φ.right ((y' - μ) / b) ((y - μ) / b) (div_nonneg (by linarith) hb.le)
      (div_lt_div_of_pos_right (by linarith) hb) with h | h
    · exact h
    · exact absurd h.1 (φ_pos _).ne'
  · have e : dens2pnormal a b μ y' = 2 / (a + b) * φ ((y' - μ) / a) := by
      unfold dens2pnormal
      split_ifs with h
      · rfl
      · rw [show y' = μ by linarith]; simp
    rw [e, dens2pnormal, if_pos (by linarith)]
    refine mul_lt_mul_of_pos_left ?_ hk
    rcases peak_φ.left ((y' - μ) / a) ((y - μ) / a) (div_lt_div_of_pos_right (by linarith) ha)
      (div_nonpos_of_nonpos_of_nonneg (by linarith) ha.le) with h | h
    · exact h
    · exact absurd h.1 (φ_pos _).ne'

/-- scales 1 and 3 -/
example : (0:ℝ) < 1 ∧ (0:ℝ) < 3 := by norm_num

/-- C156: `logs_2pexponential`, both scales. -/
theorem C156_2pexponential {a b : ℝ} (μ : ℝ) (ha : 0 < a) (hb : 0 < b) :
    RisesFrom (fun y => Logs.twopexponential (fin y) (fin a) (fin b) (fin μ)) μ := by
  refine Peak.rises (f := dens2pexp a b μ) ?_ (C57_2pexponential μ ha hb).2
  refine peak_exp (K := 1 / (a + b)) (g := fun x => if x < μ then (x - μ) / a else -((x - μ) / b)) (by positivity)
    (fun x => ?_) (fun y' y h1 h2 => ?_) fun y' y h1 h2 => ?_
  · unfold dens2pexp
    split_ifs <;> ring
  · show (if y < μ then (y - μ) / a else -((y - μ) / b)) < if y' < μ then (y' - μ) / a else -((y' - μ) / b)
    rw [if_neg (by linarith), if_neg (by linarith)]
    exact neg_lt_neg (div_lt_div_of_pos_right (by linarith) hb)
  · show (if y < μ then (y - μ) / a else -((y - μ) / b)) < if y' < μ then (y' - μ) / a else -((y' - μ) / b)
    have e : (if y' < μ then (y' - μ) / a else -((y' - μ) / b)) = (y' - μ) / a := by
      split_ifs with h
      · rfl
      · rw [show y' = μ by linarith]; simp
    rw [e, if_pos (by linarith)]
    exact div_lt_div_of_pos_right (by linarith) ha

/-- scales 1 and 3 -/
example : Worse (Logs.twopexponential (fin 1) (fin 1) (fin 3) (fin 0)) (Logs.twopexponential (fin 2) (fin 1) (fin 3) (fin 0)) :=
  (C156_2pexponential 0 (by norm_num) (by norm_num)).1 1 2 (by norm_num) (by norm_num)

/-! ### truncated families: the best observation is the admissible point next to the location -/

/-- C156: `logs_tnormal`. -/
theorem C156_tnormal (μ : ℝ) {σ l u : ℝ} (hσ : 0 < σ) (hlu : l < u) :
    RisesFrom (fun y => Logs.tnormal (fin y) (fin μ) (fin σ) (fin l) (fin u)) (max l (min μ u)) ∧
    RisesFrom (fun y => Logs.tnormal (fin y) (fin μ) (fin σ) (fin l) pinf) (max l μ) ∧
    RisesFrom (fun y => Logs.tnormal (fin y) (fin μ) (fin σ) ninf (fin u)) (min μ u) := by
  have hF : cdfNormal μ σ l < cdfNormal μ σ u := Φ_strictMono ((div_lt_div_iff_of_pos_right hσ).2 (by linarith))
  exact ⟨((peak_normal μ hσ).trunc hF).rises (C57_tnormal μ hσ hlu).2,
    ((peak_normal μ hσ).truncLo (F := cdfNormal μ σ) (Φ_lt_one _)).rises (C57_tnormal_lower μ l hσ).2,
    ((peak_normal μ hσ).truncUp (F := cdfNormal μ σ) (Φ_pos _)).rises (C57_tnormal_upper μ u hσ).2⟩

/-- location outside the bounds: the best observation is the lower bound -/
example : max (0:ℝ) (min (-1) 2) = 0 ∧ (0:ℝ) < 2 := by norm_num

/-- C156: `logs_tlogistic`. -/
theorem C156_tlogistic (μ : ℝ) {σ l u : ℝ} (hσ : 0 < σ) (hlu : l < u) :
    RisesFrom (fun y => Logs.tlogistic (fin y) (fin μ) (fin σ) (fin l) (fin u)) (max l (min μ u)) ∧
    RisesFrom (fun y => Logs.tlogistic (fin y) (fin μ) (fin σ) (fin l) pinf) (max l μ) ∧
    RisesFrom (fun y => Logs.tlogistic (fin y) (fin μ) (fin σ) ninf (fin u)) (min μ u) := by
  have hF : cdfLogistic μ σ l < cdfLogistic μ σ u := logis_strictMono ((div_lt_div_iff_of_pos_right hσ).2 (by linarith))
  exact ⟨((peak_logistic μ hσ).trunc hF).rises (C57_tlogistic μ hσ hlu).2,
    ((peak_logistic μ hσ).truncLo (F := cdfLogistic μ σ) (logis_lt_one _)).rises (C57_tlogistic_lower μ l hσ).2,
    ((peak_logistic μ hσ).truncUp (F := cdfLogistic μ σ) (logis_pos _)).rises (C57_tlogistic_upper μ u hσ).2⟩

/-- bounds -1 and 2, location 1 -/
example : max (-1:ℝ) (min 1 2) = 1 ∧ (-1:ℝ) < 2 := by norm_num

/-- C156: `logs_tt`. -/
theorem C156_tt {ν σ l u : ℝ} (hν : 0 < ν) (hσ : 0 < σ) (hlu : l < u) (μ : ℝ) :
    RisesFrom (fun y => Logs.tt (fin y) (fin ν) (fin μ) (fin σ) (fin l) (fin u)) (max l (min μ u)) :=
  ((peak_t hν μ hσ).trunc (cdfT_strictMono hν hσ μ hlu)).rises (C57_tt hν hσ hlu μ).2

/-- bounds -1 and 2, location 5 -/
example : max (-1:ℝ) (min 5 2) = 2 ∧ (-1:ℝ) < 2 := by norm_num

/-! ### families on a half-line -/

/-- C156: `logs_exponential`. -/
theorem C156_exponential {r : ℝ} (hr : 0 < r) : RisesFrom (fun y => Logs.exponential (fin y) (fin r)) 0 := by
  refine Peak.rises (f := densExp r) ?_ (C57_exponential hr).2
  have hn : ∀ x, 0 ≤ densExp r x := fun x => by unfold densExp; split_ifs <;> positivity
  refine ⟨hn, fun y' y h1 h2 => Or.inl ?_, fun y' y h1 h2 => Less.of_zero (hn _) (if_pos (by linarith))⟩
  rw [densExp, densExp, if_neg (by linarith), if_neg (by linarith)]
  exact mul_lt_mul_of_pos_left (Real.exp_lt_exp.2 (by nlinarith)) hr

example : Worse (Logs.exponential (fin 0) (fin 2)) (Logs.exponential (fin 1) (fin 2)) :=
  (C156_exponential (by norm_num)).1 0 1 le_rfl (by norm_num)

/-- C156: `logs_exponential2`. -/
theorem C156_exponential2 (μ : ℝ) {σ : ℝ} (hσ : 0 < σ) :
    RisesFrom (fun y => Logs.exponential2 (fin y) (fin μ) (fin σ)) μ := by
  refine Peak.rises (f := densExp2 μ σ) ?_ (C57_exponential2 μ hσ).2
  have hn : ∀ x, 0 ≤ densExp2 μ σ x := fun x => by unfold densExp2; split_ifs <;> positivity
  refine ⟨hn, fun y' y h1 h2 => Or.inl ?_, fun y' y h1 h2 => Less.of_zero (hn _) (if_pos (by linarith))⟩
  rw [densExp2, densExp2, if_neg (by linarith), if_neg (by linarith)]
  exact div_lt_div_of_pos_right (Real.exp_lt_exp.2 (neg_lt_neg (div_lt_div_of_pos_right (by linarith) hσ))) hσ

example : Worse (Logs.exponential2 (fin 1) (fin 1) (fin 2)) (Logs.exponential2 (fin 4) (fin 1) (fin 2)) :=
  (C156_exponential2 1 (by norm_num)).1 1 4 le_rfl (by norm_num)

/-- C156: `logs_gpd` for shapes above -1.  (At -1 the law is uniform, below -1 the density has its pole at the upper end of
the support.) -/
theorem C156_gpd {ξ : ℝ} (hξ : -1 < ξ) (μ : ℝ) {σ : ℝ} (hσ : 0 < σ) :
    RisesFrom (fun y => Logs.gpd (fin y) (fin ξ) (fin μ) (fin σ)) μ := by
  have hp : Peak (densGpd ξ 0 1) 0 := by
    have hn : ∀ x, 0 ≤ densGpd ξ 0 1 x := fun x => by
      simp only [densGpd, sub_zero, div_one]
      split_ifs with h1 h2 h3
      · exact le_rfl
      · positivity
      · exact le_rfl
      · refine Real.rpow_nonneg ?_ _
        push Not at h1 h3
        rcases lt_or_ge ξ 0 with h | h
        · have := h3 h
          rw [le_div_iff_of_neg h] at this
          linarith
        · positivity
    refine ⟨hn, fun y' y h1 h2 => ?_, fun y' y h1 h2 => Less.of_zero (hn _) ?_⟩
    · by_cases h0 : ξ = 0
      · left
        simp only [densGpd, sub_zero, div_one, if_neg (not_lt.2 h1), if_neg (not_lt.2 (h1.trans h2.le)), if_pos h0]
        exact Real.exp_lt_exp.2 (by linarith)
      · by_cases hy : ξ < 0 ∧ -1 / ξ < y
        · refine Less.of_zero (hn _) ?_
          simp only [densGpd, sub_zero, div_one, if_neg (not_lt.2 (h1.trans h2.le)), if_neg h0, if_pos hy]
        · have hy' : ¬ (ξ < 0 ∧ -1 / ξ < y') := fun h => hy ⟨h.1, h.2.trans h2⟩
          left
          simp only [densGpd, sub_zero, div_one, if_neg (not_lt.2 h1), if_neg (not_lt.2 (h1.trans h2.le)), if_neg h0,
            if_neg hy, if_neg hy']
          rcases lt_or_gt_of_ne h0 with h | h
          · push Not at hy
            have h3 := hy h
            rw [le_div_iff_of_neg h] at h3
            exact Real.rpow_lt_rpow (by linarith) (by nlinarith) (div_pos_of_neg_of_neg (by linarith) h)
          · exact Real.rpow_lt_rpow_of_neg (by nlinarith) (by nlinarith) (div_neg_of_neg_of_pos (by linarith) h)
    · simp only [densGpd, sub_zero, div_one, if_pos (show y < 0 by linarith)]
  have h := hp.scale μ hσ
  rw [mul_zero, add_zero] at h
  have e : densGpd ξ μ σ = fun y => densGpd ξ 0 1 ((y - μ) / σ) / σ := by
    funext y
    simp only [densGpd, sub_zero, div_one]
    split_ifs <;> simp
  rw [← e] at h
  exact h.rises fun y => (C57_gpd ξ μ hσ).2 y fun hh => by linarith [hh.1]

/-- shape -1/2: the score is `+inf` above 2 -/
example : (-1:ℝ) < -1 / 2 ∧ (0:ℝ) < 1 := by norm_num

/-- C156: `logs_gamma` with shape above 1: the best observation is the mode. -/
theorem C156_gamma {α β : ℝ} (hα : 1 < α) (hβ : 0 < β) :
    ∃ s : ℝ → XF, (∀ y, Api.logsGamma (fin y) (fin α) (some (fin β)) none = .ok (s y)) ∧ RisesFrom s ((α - 1) / β) := by
  refine ⟨_, (C57_gamma (by linarith) hβ).2, Peak.rises (f := densGamma α β) ?_ fun y => rfl⟩
  have hG := Real.Gamma_pos_of_pos (by linarith : 0 < α)
  have hn := densGamma_nonneg (by linarith : 0 < α) hβ
  have e : ∀ x, 0 < x → densGamma α β x
      = β ^ α / Real.Gamma α * Real.exp ((α - 1) * Real.log x - β * x) := fun x hx => by
    rw [densGamma, if_neg (not_le.2 hx), Real.rpow_def_of_pos hx, mul_comm (Real.log x), Real.exp_sub, Real.exp_neg]
    ring
  have hk : 0 < β ^ α / Real.Gamma α := by positivity
  refine ⟨hn, fun y' y h1 h2 => ?_, fun y' y h1 h2 => ?_⟩
  · have h0 : 0 < y' := (div_pos (by linarith) hβ).trans_le h1
    left
    rw [e y' h0, e y (h0.trans h2)]
    rw [div_le_iff₀ hβ] at h1
    exact mul_lt_mul_of_pos_left (Real.exp_lt_exp.2 (gam_right (by linarith) h0 h2 (by linarith))) hk
  · by_cases hy : 0 < y
    · left
      rw [e y hy, e y' (hy.trans h1)]
      rw [le_div_iff₀ hβ] at h2
      exact mul_lt_mul_of_pos_left (Real.exp_lt_exp.2 (gam_left (by linarith) hy h1 (by linarith))) hk
    · exact Less.of_zero (hn _) (if_pos (not_lt.1 hy))

/-- shape 3, rate 2: the mode is 1 -/
example : (1:ℝ) < 3 ∧ ((3:ℝ) - 1) / 2 = 1 := by norm_num

/-- C156: `logs_gamma` with shape at most 1: the smaller the positive observation, the better. -/
theorem C156_gamma_small {α β : ℝ} (h0 : 0 < α) (hα : α ≤ 1) (hβ : 0 < β) :
    ∃ s : ℝ → XF, (∀ y, Api.logsGamma (fin y) (fin α) (some (fin β)) none = .ok (s y)) ∧ RisesRightOf s 0 := by
  refine ⟨_, (C57_gamma h0 hβ).2, rises_right (f := densGamma α β) (fun y hy => if_pos hy) (fun y hy => ?_)
    (fun y' y h1 h2 => ?_) fun y => rfl⟩
  · have hG := Real.Gamma_pos_of_pos h0
    rw [densGamma, if_neg (not_le.2 hy)]
    positivity
  · have hG := Real.Gamma_pos_of_pos h0
    have h3 := h1.trans h2
    rw [densGamma, densGamma, if_neg (not_le.2 h1), if_neg (not_le.2 h3)]
    refine div_lt_div_of_pos_right ?_ hG
    have h4 : y ^ (α - 1) ≤ y' ^ (α - 1) := Real.rpow_le_rpow_of_nonpos h1 h2.le (by linarith)
    have h5 : Real.exp (-(β * y)) < Real.exp (-(β * y')) := Real.exp_lt_exp.2 (by nlinarith)
    exact mul_lt_mul' (mul_le_mul_of_nonneg_left h4 (by positivity)) h5 (Real.exp_pos _).le (by positivity)

/-- shape 1/2 -/
example : (0:ℝ) < 1 / 2 ∧ (1:ℝ) / 2 ≤ 1 := by norm_num

/-- C156: `logs_beta` with both shapes above 1. -/
theorem C156_beta {a b l u : ℝ} (ha : 1 < a) (hb : 1 < b) (hlu : l < u) :
    RisesFrom (fun y => Logs.beta (fin y) (fin a) (fin b) (fin l) (fin u)) (l + (u - l) * ((a - 1) / (a + b - 2))) := by
  have h : 0 < u - l := sub_pos.2 hlu
  have ha0 : 0 < a := by linarith
  have hb0 : 0 < b := by linarith
  have hB := betaF_pos ha0 hb0
  have hz : negLog (0:ℝ) = pinf := if_pos rfl
  refine Peak.rises (f := densBeta a b l u) ?_ fun y => ?_
  · have hG : 0 < Real.Gamma a * Real.Gamma b / Real.Gamma (a + b) := by
      have := Real.Gamma_pos_of_pos ha0
      have := Real.Gamma_pos_of_pos hb0
      have := Real.Gamma_pos_of_pos (add_pos ha0 hb0)
      positivity
    have e : ∀ x, l < x ∧ x < u → densBeta a b l u x = 1 / (Real.Gamma a * Real.Gamma b / Real.Gamma (a + b)) / (u - l) *
        Real.exp ((a - 1) * Real.log ((x - l) / (u - l)) + (b - 1) * Real.log (1 - (x - l) / (u - l))) := fun x hx => by
      have z0 : 0 < (x - l) / (u - l) := div_pos (by linarith [hx.1]) h
      have z1 : (x - l) / (u - l) < 1 := by rw [div_lt_one h]; linarith [hx.2]
      rw [densBeta, if_pos hx, Real.rpow_def_of_pos z0, Real.rpow_def_of_pos (sub_pos.2 z1), ← Real.exp_add,
        mul_comm (Real.log _), mul_comm (Real.log (1 - _))]
      ring
    have hn : ∀ x, 0 ≤ densBeta a b l u x := fun x => by
      by_cases hx : l < x ∧ x < u
      · rw [e x hx]; positivity
      · rw [densBeta, if_neg hx]
    have hk : 0 < 1 / (Real.Gamma a * Real.Gamma b / Real.Gamma (a + b)) / (u - l) := by positivity
    have hc : 0 < a + b - 2 := by linarith
    have hq : 0 < (a - 1) / (a + b - 2) := div_pos (by linarith) hc
    have hq1 : (a - 1) / (a + b - 2) < 1 := by rw [div_lt_one hc]; linarith
    refine ⟨hn, fun y' y h1 h2 => ?_, fun y' y h1 h2 => ?_⟩
    · by_cases hy : y < u
      · have hl : l < y' := lt_of_lt_of_le (by nlinarith [mul_pos h hq]) h1
        left
        rw [e y ⟨hl.trans h2, hy⟩, e y' ⟨hl, h2.trans hy⟩]
        refine mul_lt_mul_of_pos_left (Real.exp_lt_exp.2 ?_) hk
        refine bet_right (by linarith) (by linarith) (div_pos (by linarith) h) (div_lt_div_of_pos_right (by linarith) h)
          (by rw [div_lt_one h]; linarith) ?_
        have h3 : (a - 1) / (a + b - 2) ≤ (y' - l) / (u - l) := by rw [le_div_iff₀ h]; linarith
        rw [div_le_iff₀ hc] at h3
        linarith
      · exact Less.of_zero (hn _) (if_neg fun hh => hy hh.2)
    · by_cases hy : l < y
      · have hu : y' < u := lt_of_le_of_lt h2 (by nlinarith [mul_pos h (sub_pos.2 hq1)])
        left
        rw [e y ⟨hy, h1.trans hu⟩, e y' ⟨hy.trans h1, hu⟩]
        refine mul_lt_mul_of_pos_left (Real.exp_lt_exp.2 ?_) hk
        refine bet_left (by linarith) (by linarith) (div_pos (by linarith) h) (div_lt_div_of_pos_right (by linarith) h)
          (by rw [div_lt_one h]; linarith) ?_
        have h3 : (y' - l) / (u - l) ≤ (a - 1) / (a + b - 2) := by rw [div_le_iff₀ h]; linarith
        rw [le_div_iff₀ hc] at h3
        linarith
      · exact Less.of_zero (hn _) (if_neg fun hh => hy hh.1)
  · by_cases h1 : y = l
    · rw [densBeta, if_neg (by rw [h1]; simp), hz]
      unfold Logs.beta
      simp only [fin_sub, fin_div h.ne', XF.zero_def, XF.one_def, fin_lt, beta_fin ha0 hb0, h1, sub_self, zero_div, lt_irrefl,
        not_lt.2 zero_le_one, or_self, if_false, pow_fin_zero (sub_pos.2 ha), sub_zero, pow_fin_pos one_pos, fin_mul, zero_mul,
        fin_div hB.ne']
      rw [log_fin_nonneg le_rfl, hz]
    by_cases h2 : y = u
    · rw [densBeta, if_neg (by rw [h2]; simp), hz]
      unfold Logs.beta
      simp only [fin_sub, fin_div h.ne', XF.zero_def, XF.one_def, fin_lt, beta_fin ha0 hb0, h2, div_self h.ne', lt_irrefl,
        not_lt.2 zero_le_one, or_self, if_false, sub_self, pow_fin_zero (sub_pos.2 hb), pow_fin_pos one_pos, fin_mul, mul_zero,
        fin_div hB.ne', zero_div]
      rw [log_fin_nonneg le_rfl, hz]
    exact (C57_beta ha0 hb0 hlu).2 y h1 h2

/-- shapes 2 and 3 on the unit interval: the mode is 1/3 -/
example : (1:ℝ) < 2 ∧ (1:ℝ) < 3 ∧ (0:ℝ) + (1 - 0) * ((2 - 1) / (2 + 3 - 2)) = 1 / 3 := by norm_num

/-- C156: `logs_lognormal`: the best observation is the mode `exp (μ - σ²)`. -/
theorem C156_lognormal (μ : ℝ) {σ : ℝ} (hσ : 0 < σ) :
    RisesFrom (fun y => Logs.lognormal (fin y) (fin μ) (fin σ)) (Real.exp (μ - σ ^ 2)) := by
  refine Peak.rises (f := densLog (densNormal μ σ)) (Peak.log ?_) (C57_lognormal μ hσ).2
  have hs : 0 < σ ^ 2 := by positivity
  have key : ∀ a b : ℝ, (a - (μ - σ ^ 2)) ^ 2 < (b - (μ - σ ^ 2)) ^ 2 →
      -((b - μ) / σ) ^ 2 / 2 - b < -((a - μ) / σ) ^ 2 / 2 - a := fun a b hab => by
    have e : ∀ t, -((t - μ) / σ) ^ 2 / 2 - t
        = -((t - (μ - σ ^ 2)) ^ 2 / (2 * σ ^ 2)) + (((μ - σ ^ 2) ^ 2 - μ ^ 2) / (2 * σ ^ 2)) := fun t => by
      field_simp; ring
    rw [e, e]
    have := div_lt_div_of_pos_right hab (by positivity : 0 < 2 * σ ^ 2)
    linarith
  refine peak_exp (K := 1 / Real.sqrt (2 * Real.pi) / σ) (g := fun t => -((t - μ) / σ) ^ 2 / 2 - t) (by positivity)
    (fun x => ?_) (fun y' y h1 h2 => key _ _ (by nlinarith)) fun y' y h1 h2 => key _ _ (by nlinarith)
  rw [densNormal, φ, Real.exp_sub, Real.exp_neg]
  ring

/-- scale 1: the mode is less than the median -/
example : Real.exp (0 - 1 ^ 2) < Real.exp 0 ∧ (0:ℝ) < 1 := by simp

/-- C156: `logs_loglaplace` with scale below 1: the best observation is the median. -/
theorem C156_loglaplace (μ : ℝ) {σ : ℝ} (hσ : 0 < σ) (h1 : σ < 1) :
    RisesFrom (fun y => Logs.loglaplace (fin y) (fin μ) (fin σ)) (Real.exp μ) := by
  refine Peak.rises (f := densLog (densLaplace μ σ)) (Peak.log ?_) (C57_loglaplace μ hσ).2
  refine peak_exp (K := 1 / (2 * σ)) (g := fun x => -|(x - μ) / σ| - x) (by positivity) (fun x => ?_)
    (fun y' y h1 h2 => ?_) fun y' y h2 h3 => ?_
  · rw [densLaplace, Real.exp_sub, Real.exp_neg x]; ring
  · show -|(y - μ) / σ| - y < -|(y' - μ) / σ| - y'
    rw [abs_of_nonneg (div_nonneg (by linarith) hσ.le), abs_of_nonneg (div_nonneg (by linarith) hσ.le)]
    have := div_lt_div_of_pos_right (show y' - μ < y - μ by linarith) hσ
    linarith
  · show -|(y - μ) / σ| - y < -|(y' - μ) / σ| - y'
    rw [abs_of_nonpos (div_nonpos_of_nonpos_of_nonneg (by linarith) hσ.le),
      abs_of_nonpos (div_nonpos_of_nonpos_of_nonneg (by linarith) hσ.le), neg_neg, neg_neg]
    have : y' - y < (y' - y) / σ := by rw [lt_div_iff₀ hσ]; nlinarith
    have e : (y' - y) / σ = (y' - μ) / σ - (y - μ) / σ := by ring
    linarith

/-- scale 1/2 -/
example : (0:ℝ) < 1 / 2 ∧ (1:ℝ) / 2 < 1 := by norm_num

/-- C156: `logs_loglaplace` with scale above 1: the smaller the positive observation, the better. -/
theorem C156_loglaplace_large (μ : ℝ) {σ : ℝ} (h1 : 1 < σ) :
    RisesRightOf (fun y => Logs.loglaplace (fin y) (fin μ) (fin σ)) 0 := by
  have hσ : 0 < σ := by linarith
  have hp : ∀ y, 0 < y → 0 < densLog (densLaplace μ σ) y := fun y hy => by
    rw [densLog, if_neg (not_le.2 hy), densLaplace]; positivity
  refine rises_right (f := densLog (densLaplace μ σ)) (fun y hy => if_pos hy) hp (fun y' y h2 h3 => ?_)
    (C57_loglaplace μ hσ).2
  have e : ∀ x, 0 < x → densLog (densLaplace μ σ) x
      = 1 / (2 * σ) * Real.exp (-|(Real.log x - μ) / σ| - Real.log x) := fun x hx => by
    rw [densLog, if_neg (not_le.2 hx), densLaplace, Real.exp_sub, Real.exp_log hx]; ring
  rw [e y' h2, e y (h2.trans h3)]
  refine mul_lt_mul_of_pos_left (Real.exp_lt_exp.2 ?_) (by positivity)
  have hl := Real.log_lt_log h2 h3
  have h4 := abs_sub_abs_le_abs_sub ((Real.log y' - μ) / σ) ((Real.log y - μ) / σ)
  have e2 : (Real.log y' - μ) / σ - (Real.log y - μ) / σ = -((Real.log y - Real.log y') / σ) := by ring
  have h5 : |(Real.log y - Real.log y') / σ| = (Real.log y - Real.log y') / σ := abs_of_pos (div_pos (by linarith) hσ)
  rw [e2, abs_neg, h5] at h4
  have : (Real.log y - Real.log y') / σ < Real.log y - Real.log y' := by rw [div_lt_iff₀ hσ]; nlinarith
  linarith

/-- scale 2 -/
example : (1:ℝ) < 2 := by norm_num

/-- the log-logistic density through `s = 1 / (1 + exp z)` -/
theorem loglogis_exp (μ : ℝ) {σ : ℝ} (hσ : 0 < σ) (t : ℝ) : densLogistic μ σ t * Real.exp (-t) = Real.exp (-μ) / σ *
    Real.exp ((1 - σ) * ((t - μ) / σ) - 2 * Real.log (1 + Real.exp ((t - μ) / σ))) := by
  have h1 : 0 < 1 + Real.exp ((t - μ) / σ) := by positivity
  have e : Real.exp (-t) = Real.exp (-μ) * Real.exp (-(σ * ((t - μ) / σ))) := by
    rw [← Real.exp_add]
    congr 1
    field_simp
    ring
  have e2 : Real.exp (2 * Real.log (1 + Real.exp ((t - μ) / σ))) = (1 + Real.exp ((t - μ) / σ)) ^ 2 := by
    rw [two_mul, Real.exp_add, Real.exp_log h1, sq]
  rw [densLogistic, e, Real.exp_sub, e2]
  generalize (t - μ) / σ = z at *
  rw [sub_mul, one_mul, sub_eq_add_neg, Real.exp_add, Real.exp_neg z]
  have := Real.exp_pos z
  field_simp
  ring

/-- C156: `logs_loglogistic` with scale below 1: the best observation is the mode. -/
theorem C156_loglogistic (μ : ℝ) {σ : ℝ} (hσ : 0 < σ) (h1 : σ < 1) :
    RisesFrom (fun y => Logs.loglogistic (fin y) (fin μ) (fin σ))
      (Real.exp (μ + σ * Real.log ((1 - σ) / (1 + σ)))) := by
  refine Peak.rises (f := densLog (densLogistic μ σ)) (Peak.log ?_) (C57_loglogistic μ hσ).2
  have hq : 0 < (1 - σ) / (1 + σ) := div_pos (by linarith) (by linarith)
  set S : ℝ → ℝ := fun t => 1 / (1 + Real.exp ((t - μ) / σ)) with hS
  have S0 : ∀ t, 0 < S t := fun t => by rw [hS]; positivity
  have S1 : ∀ t, S t < 1 := fun t => by
    rw [hS]
    show 1 / (1 + Real.exp ((t - μ) / σ)) < 1
    rw [div_lt_one (by positivity)]
    linarith [Real.exp_pos ((t - μ) / σ)]
  have Sa : ∀ t t', t < t' → S t' < S t := fun t t' h => by
    have : Real.exp ((t - μ) / σ) < Real.exp ((t' - μ) / σ) :=
      Real.exp_lt_exp.2 (div_lt_div_of_pos_right (by linarith) hσ)
    exact one_div_lt_one_div_of_lt (by positivity) (by linarith)
  have Sc : S (μ + σ * Real.log ((1 - σ) / (1 + σ))) = (1 + σ) / 2 := by
    rw [hS]
    show 1 / (1 + Real.exp ((μ + σ * Real.log ((1 - σ) / (1 + σ)) - μ) / σ)) = (1 + σ) / 2
    rw [add_sub_cancel_left, mul_div_cancel_left₀ _ hσ.ne', Real.exp_log hq]
    have : 1 + σ ≠ 0 := by positivity
    field_simp
    ring
  have Sm : ∀ t t', t ≤ t' → S t' ≤ S t := fun t t' h => by
    rcases h.eq_or_lt with h | h
    · rw [h]
    · exact (Sa _ _ h).le
  have eg : ∀ t, (1 - σ) * ((t - μ) / σ) - 2 * Real.log (1 + Real.exp ((t - μ) / σ))
      = (1 + σ) * Real.log (S t) + (1 - σ) * Real.log (1 - S t) := fun t => by
    have hp : 0 < 1 + Real.exp ((t - μ) / σ) := by positivity
    have e1 : Real.log (S t) = -Real.log (1 + Real.exp ((t - μ) / σ)) := by
      rw [hS]; simp [Real.log_inv]
    have e2 : 1 - S t = Real.exp ((t - μ) / σ) / (1 + Real.exp ((t - μ) / σ)) := by
      rw [hS]; field_simp; ring
    rw [e1, e2, Real.log_div (Real.exp_pos _).ne' hp.ne', Real.log_exp]
    ring
  refine peak_exp (K := Real.exp (-μ) / σ)
    (g := fun t => (1 - σ) * ((t - μ) / σ) - 2 * Real.log (1 + Real.exp ((t - μ) / σ))) (by positivity)
    (fun t => loglogis_exp μ hσ t) (fun y' y h2 h3 => ?_) fun y' y h2 h3 => ?_
  · simp only [eg]
    exact bet_left (by linarith) (by linarith) (S0 y) (Sa _ _ h3) (S1 _) (by
      have := Sm _ _ h2
      rw [Sc] at this
      linarith)
  · simp only [eg]
    exact bet_right (by linarith) (by linarith) (S0 y') (Sa _ _ h2) (S1 _) (by
      have := Sm _ _ h3
      rw [Sc] at this
      linarith)

/-- scale 1/2: the mode is `3 ^ (-1/2)` times the median -/
example : (0:ℝ) < 1 / 2 ∧ (1:ℝ) / 2 < 1 ∧ ((1:ℝ) - 1 / 2) / (1 + 1 / 2) = 1 / 3 := by norm_num

/-- C156: `logs_loglogistic` with scale at least 1: the smaller the positive observation, the better. -/
theorem C156_loglogistic_large (μ : ℝ) {σ : ℝ} (h1 : 1 ≤ σ) :
    RisesRightOf (fun y => Logs.loglogistic (fin y) (fin μ) (fin σ)) 0 := by
  have hσ : 0 < σ := by linarith
  have e : ∀ x, 0 < x → densLog (densLogistic μ σ) x
      = densLogistic μ σ (Real.log x) * Real.exp (-Real.log x) := fun x hx => by
    rw [densLog, if_neg (not_le.2 hx), Real.exp_neg, Real.exp_log hx, div_eq_mul_inv]
  refine rises_right (f := densLog (densLogistic μ σ)) (fun y hy => if_pos hy) (fun y hy => ?_) (fun y' y h2 h3 => ?_)
    (C57_loglogistic μ hσ).2
  · rw [e y hy, loglogis_exp μ hσ]; positivity
  · rw [e y (h2.trans h3), e y' h2, loglogis_exp μ hσ, loglogis_exp μ hσ]
    refine mul_lt_mul_of_pos_left (Real.exp_lt_exp.2 ?_) (by positivity)
    have h4 : (Real.log y' - μ) / σ < (Real.log y - μ) / σ :=
      div_lt_div_of_pos_right (by linarith [Real.log_lt_log h2 h3]) hσ
    have h5 := Real.log_lt_log (by positivity) (add_lt_add_right (Real.exp_lt_exp.2 h4) 1)
    nlinarith [mul_le_mul_of_nonneg_left h4.le (by linarith : 0 ≤ σ - 1)]

/-- scale 1 -/
example : (1:ℝ) ≤ 1 := le_rfl

/-- C156: `logs_gev` for shapes above -1. -/
theorem C156_gev {ξ : ℝ} (hξ : -1 < ξ) (μ : ℝ) {σ : ℝ} (hσ : 0 < σ) :
    RisesFrom (fun y => Logs.gev (fin y) (fin ξ) (fin μ) (fin σ)) (μ + σ * gevMode ξ) := by
  refine Peak.rises (f := densGev ξ μ σ) (Peak.scale ?_ μ hσ) (C57_gev ξ μ hσ).2
  by_cases h0 : ξ = 0
  · have e : gevMode ξ = 0 := if_pos h0
    rw [e]
    have k : ∀ x, (-x - Real.exp (-x)) = 1 * Real.log (Real.exp (-x)) - 1 * Real.exp (-x) := fun x => by
      rw [Real.log_exp]; ring
    refine peak_exp (K := 1) (g := fun x => -x - Real.exp (-x)) one_pos (fun x => ?_) (fun y' y h1 h2 => ?_)
      fun y' y h1 h2 => ?_
    · rw [densGev0, if_pos h0, ← Real.exp_add, one_mul, sub_eq_add_neg]
    · simp only [k]
      exact gam_left one_pos (Real.exp_pos _) (Real.exp_lt_exp.2 (by linarith)) (by
        rw [one_mul, Real.exp_le_one_iff]; linarith)
    · simp only [k]
      exact gam_right one_pos (Real.exp_pos _) (Real.exp_lt_exp.2 (by linarith)) (by
        rw [one_mul, Real.one_le_exp_iff]; linarith)
  · have hm : gevMode ξ = ((1 + ξ) ^ (-ξ) - 1) / ξ := if_neg h0
    have h1ξ : 0 < 1 + ξ := by linarith
    have hBm : 1 + ξ * gevMode ξ = (1 + ξ) ^ (-ξ) := by rw [hm]; field_simp; ring
    have hBm0 : 0 < 1 + ξ * gevMode ξ := by rw [hBm]; positivity
    set T : ℝ → ℝ := fun x => (1 + ξ * x) ^ (-1 / ξ) with hT
    have T0 : ∀ x, 0 < 1 + ξ * x → 0 < T x := fun x hx => Real.rpow_pos_of_pos hx _
    have Ta : ∀ x x', 0 < 1 + ξ * x → 0 < 1 + ξ * x' → x < x' → T x' < T x := fun x x' hx hx' h => by
      rcases lt_or_gt_of_ne h0 with hn | hp
      · exact Real.rpow_lt_rpow hx'.le (by nlinarith) (div_pos_of_neg_of_neg (by norm_num) hn)
      · exact Real.rpow_lt_rpow_of_neg hx (by nlinarith) (div_neg_of_neg_of_pos (by norm_num) hp)
    have Tm : T (gevMode ξ) = 1 + ξ := by
      show (1 + ξ * gevMode ξ) ^ (-1 / ξ) = 1 + ξ
      rw [hBm, ← Real.rpow_mul h1ξ.le, show -ξ * (-1 / ξ) = 1 by field_simp, Real.rpow_one]
    have Tle : ∀ x x', 0 < 1 + ξ * x → 0 < 1 + ξ * x' → x ≤ x' → T x' ≤ T x := fun x x' hx hx' h => by
      rcases h.eq_or_lt with h | h
      · rw [h]
      · exact (Ta _ _ hx hx' h).le
    have e : ∀ x, 0 < 1 + ξ * x → densGev0 ξ x = Real.exp ((1 + ξ) * Real.log (T x) - 1 * T x) := fun x hx => by
      rw [densGev0, if_neg h0, if_pos hx, one_mul, Real.exp_sub, hT]
      show _ = Real.exp ((1 + ξ) * Real.log ((1 + ξ * x) ^ (-1 / ξ))) / Real.exp ((1 + ξ * x) ^ (-1 / ξ))
      rw [Real.log_rpow hx, Real.exp_neg, Real.rpow_def_of_pos hx (-1 / ξ - 1),
        show Real.log (1 + ξ * x) * (-1 / ξ - 1) = (1 + ξ) * (-1 / ξ * Real.log (1 + ξ * x)) by field_simp; ring]
      exact (div_eq_mul_inv _ _).symm
    have hn : ∀ x, 0 ≤ densGev0 ξ x := fun x => by
      by_cases hx : 0 < 1 + ξ * x
      · rw [e x hx]; positivity
      · rw [densGev0, if_neg h0, if_neg hx]
    have hz : ∀ x, ¬ 0 < 1 + ξ * x → densGev0 ξ x = 0 := fun x hx => by rw [densGev0, if_neg h0, if_neg hx]
    refine ⟨hn, fun y' y h1 h2 => ?_, fun y' y h1 h2 => ?_⟩
    · by_cases hy : 0 < 1 + ξ * y
      · have hy' : 0 < 1 + ξ * y' := by
          rcases lt_or_gt_of_ne h0 with h | h
          · nlinarith
          · nlinarith
        left
        rw [e y hy, e y' hy']
        exact Real.exp_lt_exp.2 (gam_left h1ξ (T0 y hy) (Ta _ _ hy' hy h2) (by
          rw [one_mul, ← Tm]; exact Tle _ _ hBm0 hy' h1))
      · exact Less.of_zero (hn _) (hz y hy)
    · by_cases hy : 0 < 1 + ξ * y
      · have hy' : 0 < 1 + ξ * y' := by
          rcases lt_or_gt_of_ne h0 with h | h
          · nlinarith
          · nlinarith
        left
        rw [e y hy, e y' hy']
        exact Real.exp_lt_exp.2 (gam_right h1ξ (T0 y' hy') (Ta _ _ hy hy' h1) (by
          rw [one_mul, ← Tm]; exact Tle _ _ hy' hBm0 h2))
      · exact Less.of_zero (hn _) (hz y hy)

/-- shape 1: the mode is `-1/2` -/
example : (-1:ℝ) < 1 ∧ gevMode 1 = -1 / 2 := by
  refine ⟨by norm_num, ?_⟩
  rw [gevMode, if_neg one_ne_zero, Real.rpow_neg_one]
  norm_num

/-- C156: `logs_uniform`: all observations in the interval score the same, no other observation scores better. -/
theorem C156_uniform {l u : ℝ} (h : l < u) {y y' : ℝ} (h1 : l ≤ y) (h2 : y ≤ u) :
    Logs.uniform (fin y) (fin l) (fin u) ≤ Logs.uniform (fin y') (fin l) (fin u) ∧
    (l ≤ y' → y' ≤ u → Logs.uniform (fin y) (fin l) (fin u) = Logs.uniform (fin y') (fin l) (fin u)) := by
  have h0 : 1 / (u - l) ≠ 0 := one_div_ne_zero (sub_pos.2 h).ne'
  rw [(C57_uniform h).2, (C57_uniform h).2, densUniform, densUniform, if_pos ⟨h1, h2⟩]
  refine ⟨?_, fun h3 h4 => by rw [if_pos ⟨h3, h4⟩]⟩
  split_ifs
  · rw [negLog, if_neg h0]; simp
  · rw [negLog, if_neg h0, negLog, if_pos rfl]; simp

/-- the interval from 0 to 2 -/
example : (0:ℝ) < 2 ∧ (0:ℝ) ≤ 1 ∧ (1:ℝ) ≤ 2 := by norm_num

/-! ### counts -/

theorem negLog_le {a b : ℝ} (hb : 0 ≤ b) (h : b ≤ a) : negLog a ≤ negLog b := by
  unfold negLog
  split_ifs with h1 h2 h2
  · simp
  · exact absurd (le_antisymm (h1 ▸ h) hb) h2
  · simp
  · rw [fin_le]
    exact neg_le_neg (Real.log_le_log (lt_of_le_of_ne hb (Ne.symm h2)) h)

/-- a mass function that rises up to `c` and falls from `c - 1` on -/
theorem counts_rise {f : ℕ → ℝ} {c : ℝ} (h0 : ∀ k, 0 ≤ f k) (hl : ∀ k : ℕ, (k:ℝ) + 1 ≤ c → f k ≤ f (k + 1))
    (hr : ∀ k : ℕ, c ≤ (k:ℝ) + 1 → f (k + 1) ≤ f k) {s : ℕ → XF} (hs : ∀ k, s k = negLog (f k)) : CountsRiseFrom s c := by
  refine ⟨fun j k hjk hk => ?_, fun j k hj hjk => ?_⟩
  · rw [hs, hs]
    refine negLog_le (h0 j) ?_
    induction k, hjk using Nat.le_induction with
    | base => exact le_rfl
    | succ k hjk ih =>
      push_cast at hk
      exact (ih (by linarith)).trans (hl k hk)
  · rw [hs, hs]
    refine negLog_le (h0 k) ?_
    induction k, hjk using Nat.le_induction with
    | base => exact le_rfl
    | succ k hjk ih =>
      refine le_trans (hr k ?_) ih
      have : (j:ℝ) ≤ k := by exact_mod_cast hjk
      linarith

/-- C156: `logs_poisson`. -/
theorem C156_poisson {μ : ℝ} (h : 0 ≤ μ) : CountsRiseFrom (fun k => Logs.poisson (fin (k : ℝ)) (fin μ)) μ := by
  have e : ∀ k : ℕ, pmfPois μ (k + 1) = pmfPois μ k * (μ / (k + 1)) := fun k => by
    rw [pmfPois, pmfPois, Nat.factorial_succ]
    push_cast
    have : (k.factorial : ℝ) ≠ 0 := by exact_mod_cast k.factorial_ne_zero
    field_simp
    ring
  have h0 : ∀ k, 0 ≤ pmfPois μ k := fun k => by rw [pmfPois]; positivity
  refine counts_rise h0 (fun k hk => ?_) (fun k hk => ?_) (C58_poisson h).2.1
  · rw [e]
    exact le_mul_of_one_le_right (h0 k) (by rw [one_le_div (by positivity)]; exact hk)
  · rw [e]
    exact mul_le_of_le_one_right (h0 k) (by rw [div_le_one (by positivity)]; exact hk)

/-- rate 5/2: observing 2 scores best -/
example : (0:ℝ) ≤ 5 / 2 ∧ ((2:ℕ):ℝ) ≤ 5 / 2 ∧ (5:ℝ) / 2 ≤ ((2:ℕ):ℝ) + 1 := by norm_num

/-- C156: `logs_binomial`. -/
theorem C156_binomial (n : ℕ) {p : ℝ} (h0 : 0 ≤ p) (h1 : p < 1) :
    CountsRiseFrom (fun k => Logs.binomial (fin (k : ℝ)) (fin (n : ℝ)) (fin p)) ((n + 1) * p) := by
  have hq : 0 < 1 - p := by linarith
  have hn : ∀ k, 0 ≤ pmfBinom n p k := fun k => by rw [pmfBinom]; positivity
  have e : ∀ k : ℕ, k < n → pmfBinom n p (k + 1) * ((k + 1) * (1 - p)) = pmfBinom n p k * ((n - k) * p) := fun k hk => by
    have hc : ((n.choose (k + 1) : ℕ) : ℝ) * (k + 1) = n.choose k * (n - k) := by
      have := Nat.choose_succ_right_eq n k
      rw [← Nat.cast_sub hk.le]
      exact_mod_cast this
    rw [pmfBinom, pmfBinom, show n - k = n - (k + 1) + 1 by omega, pow_succ, pow_succ]
    linear_combination p ^ k * p * (1 - p) ^ (n - (k + 1)) * (1 - p) * hc
  refine counts_rise hn (fun k hk => ?_) (fun k hk => ?_) fun k => (C58_binomial_partial n h0 h1.le).2.1 k (Or.inl h1)
  · have hkn : k < n := by
      by_contra hh
      have : (n:ℝ) ≤ k := by exact_mod_cast not_lt.1 hh
      nlinarith
    have h2 := e k hkn
    have h3 : (k + 1) * (1 - p) ≤ (n - k) * p := by linarith
    have h4 : 0 < ((k:ℝ) + 1) * (1 - p) := by positivity
    by_contra hh
    push Not at hh
    nlinarith [hn k, hn (k + 1)]
  · by_cases hkn : k < n
    · have h2 := e k hkn
      have h3 : (n - k) * p ≤ (k + 1) * (1 - p) := by linarith
      have h4 : 0 < ((k:ℝ) + 1) * (1 - p) := by positivity
      by_contra hh
      push Not at hh
      nlinarith [hn k, hn (k + 1)]
    · have : pmfBinom n p (k + 1) = 0 := by
        rw [pmfBinom, Nat.choose_eq_zero_of_lt (by omega)]; simp
      rw [this]
      exact hn k

/-- ten trials with probability 1/4: observing 2 scores best -/
example : ((2:ℕ):ℝ) ≤ (((10:ℕ):ℝ) + 1) * (1 / 4) ∧ (((10:ℕ):ℝ) + 1) * (1 / 4) ≤ ((2:ℕ):ℝ) + 1 := by norm_num

/-- C156: `logs_negbinom` with size at least 1. -/
theorem C156_negbinom {r p : ℝ} (hr : 1 ≤ r) (h0 : 0 < p) (h1 : p ≤ 1) :
    CountsRiseFrom (fun k => Logs.negbinom (fin (k : ℝ)) (fin r) (fin p)) ((r - 1) * (1 - p) / p) := by
  have hP := C58_negbinom_partial hr h0 h1
  have hq : 0 ≤ 1 - p := by linarith
  have hn : ∀ k, 0 ≤ pmfNegbinom r p k := fun k => by
    rw [pmfNegbinom]
    have : 0 ≤ ∏ i ∈ Finset.range k, (r + i) := Finset.prod_nonneg fun i _ => by positivity
    positivity
  have e : ∀ k : ℕ, pmfNegbinom r p (k + 1) = pmfNegbinom r p k * ((r + k) * (1 - p) / (k + 1)) := fun k => by
    rw [pmfNegbinom, pmfNegbinom, Nat.factorial_succ, Finset.prod_range_succ]
    push_cast
    have : (k.factorial : ℝ) ≠ 0 := by exact_mod_cast k.factorial_ne_zero
    field_simp
    ring
  refine counts_rise hn (fun k hk => ?_) (fun k hk => ?_) hP.2.1
  · rw [e]
    rw [le_div_iff₀ h0] at hk
    exact le_mul_of_one_le_right (hn k) (by rw [one_le_div (by positivity)]; linarith)
  · rw [e]
    rw [div_le_iff₀ h0] at hk
    exact mul_le_of_le_one_right (hn k) (by rw [div_le_one (by positivity)]; linarith)

/-- size 3, probability 1/2: observing 2 scores best (and 1 as well) -/
example : ((2:ℕ):ℝ) ≤ (3 - 1) * (1 - 1 / 2) / (1 / 2) ∧ ((3:ℝ) - 1) * (1 - 1 / 2) / (1 / 2) ≤ ((1:ℕ):ℝ) + 1 := by norm_num

/-- C156: `logs_hypergeometric`. -/
theorem C156_hypergeometric {m n K : ℕ} (h : K ≤ m + n) :
    CountsRiseFrom (fun k => Logs.hypergeometric (fin (k : ℝ)) (fin (m : ℝ)) (fin (n : ℝ)) (fin (K : ℝ)))
      ((m + 1) * (K + 1) / (m + n + 2)) := by
  have hn : ∀ k, 0 ≤ pmfHypergeo m n K k := fun k => by
    rw [pmfHypergeo]
    split_ifs <;> positivity
  have hz : ∀ k, m < k ∨ K < k → pmfHypergeo m n K k = 0 := fun k hk => by
    rw [pmfHypergeo]
    split_ifs with h1
    · rw [Nat.choose_eq_zero_of_lt (show m < k by omega)]; simp
    · rfl
  have hz2 : ∀ k, n + k < K → pmfHypergeo m n K k = 0 := fun k hk => by
    rw [pmfHypergeo]
    split_ifs with h1
    · rw [Nat.choose_eq_zero_of_lt (show n < K - k by omega)]; simp
    · rfl
  have e : ∀ k : ℕ, k < m → k < K → K ≤ n + k + 1 → pmfHypergeo m n K (k + 1) * ((k + 1) * (n + k + 1 - K))
      = pmfHypergeo m n K k * ((m - k) * (K - k)) := fun k hm hK hle => by
    have hc : ((m.choose (k + 1) : ℕ) : ℝ) * (k + 1) = m.choose k * (m - k) := by
      have := Nat.choose_succ_right_eq m k
      rw [← Nat.cast_sub hm.le]
      exact_mod_cast this
    have hd : ((n.choose (K - k) : ℕ) : ℝ) * (K - k) = n.choose (K - (k + 1)) * (n + k + 1 - K) := by
      have := Nat.choose_succ_right_eq n (K - (k + 1))
      rw [show K - (k + 1) + 1 = K - k by omega] at this
      have h2 : ((n - (K - (k + 1)) : ℕ) : ℝ) = n + k + 1 - K := by
        rw [show n - (K - (k + 1)) = n + k + 1 - K by omega, Nat.cast_sub hle]
        push_cast
        ring
      rw [← h2, ← Nat.cast_sub hK.le]
      exact_mod_cast this
    rw [pmfHypergeo, pmfHypergeo, if_pos (by omega), if_pos hK.le]
    have h3 : (m.choose (k + 1) : ℝ) * n.choose (K - (k + 1)) * ((k + 1) * (n + k + 1 - K))
        = m.choose k * n.choose (K - k) * ((m - k) * (K - k)) := by
      calc _ = ((m.choose (k + 1) : ℝ) * (k + 1)) * (n.choose (K - (k + 1)) * (n + k + 1 - K)) := by ring
        _ = _ := by rw [hc, ← hd]; ring
    rw [div_mul_eq_mul_div, h3, div_mul_eq_mul_div]
  have hpos : (0:ℝ) < m + n + 2 := by positivity
  refine counts_rise hn (fun k hk => ?_) (fun k hk => ?_) (C58_hypergeometric_partial h).2.1
  · rw [le_div_iff₀ hpos] at hk
    have hkm : k < m := by
      by_contra hh
      have h1 : (m:ℝ) ≤ k := by exact_mod_cast not_lt.1 hh
      have h2 : (K:ℝ) ≤ m + n := by exact_mod_cast h
      nlinarith
    have hkK : k < K := by
      by_contra hh
      have h1 : (K:ℝ) ≤ k := by exact_mod_cast not_lt.1 hh
      have h2 : (k:ℝ) + 1 ≤ m := by exact_mod_cast hkm
      have h3 : (0:ℝ) ≤ n := Nat.cast_nonneg _
      have h4 : (0:ℝ) ≤ k := Nat.cast_nonneg _
      nlinarith [mul_nonneg h3 h4]
    rcases lt_or_ge (n + k) K with hlt | hge
    · rw [hz2 k hlt]; exact hn _
    · have h1 : (K:ℝ) ≤ n + k := by exact_mod_cast hge
      have h2 := e k hkm hkK (by omega)
      have h3 : ((k:ℝ) + 1) * (n + k + 1 - K) ≤ (m - k) * (K - k) := by nlinarith
      have h4 : 0 < ((k:ℝ) + 1) * (n + k + 1 - K) := mul_pos (by positivity) (by linarith)
      by_contra hh
      push Not at hh
      nlinarith [hn k, hn (k + 1)]
  · rw [div_le_iff₀ hpos] at hk
    by_cases hkm : k < m
    · by_cases hkK : k < K
      · have h5 : (k:ℝ) + 1 ≤ m := by exact_mod_cast hkm
        have hge : K ≤ n + k := by
          by_contra hh
          have h1 : (n:ℝ) + k + 1 ≤ K := by exact_mod_cast not_le.1 hh
          have h3 : (0:ℝ) ≤ n := Nat.cast_nonneg _
          nlinarith
        have h1 : (K:ℝ) ≤ n + k := by exact_mod_cast hge
        have h2 := e k hkm hkK (by omega)
        have h3 : (m - k) * (K - k) ≤ ((k:ℝ) + 1) * (n + k + 1 - K) := by nlinarith
        have h4 : 0 < ((k:ℝ) + 1) * (n + k + 1 - K) := mul_pos (by positivity) (by linarith)
        by_contra hh
        push Not at hh
        nlinarith [hn k, hn (k + 1)]
      · rw [hz (k + 1) (Or.inr (by omega))]; exact hn k
    · rw [hz (k + 1) (Or.inl (by omega))]; exact hn k

/-- 5 draws from 4 successes and 6 failures: observing 2 scores best -/
example : (5:ℕ) ≤ 4 + 6 ∧ ((2:ℕ):ℝ) ≤ (((4:ℕ):ℝ) + 1) * (((5:ℕ):ℝ) + 1) / (((4:ℕ):ℝ) + ((6:ℕ):ℝ) + 2) := by norm_num

end Verif
