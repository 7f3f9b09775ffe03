import Verif.Lemmas.Antideriv
import Verif.Spec.Dist

/-!
# The CRPS integrals of the elementary standard distributions
-/

noncomputable section

open scoped Classical Topology
open MeasureTheory Filter Set

namespace Verif

/-! ### exponential with a point mass -/

/-- Standard exponential distribution function with a point mass at zero. -/
def expM (M x : ℝ) : ℝ := if x < 0 then 0 else M + (1 - M) * (1 - Real.exp (-x))

theorem expM_meas (M : ℝ) : Measurable (expM M) := by
  unfold expM
  refine Measurable.ite measurableSet_Iio measurable_const ?_
  fun_prop

theorem crps_expM {M : ℝ} (h0 : 0 ≤ M) (h1 : M ≤ 1) (y : ℝ) :
    Integrable (fun z => (expM M z - if y ≤ z then 1 else 0) ^ 2) ∧
    Spec.crps (expM M) y
      = |y| - (1 - M) * (2 * (1 - Real.exp (-max y 0)) - 1 / 2 * (1 - M)) := by
  -- antiderivatives, with `u = exp (-x)`: `F = 1 - (1 - M) u`
  let P : ℝ → ℝ := fun x => x + 2 * (1 - M) * Real.exp (-1 * x)
    - (1 - M) ^ 2 / 2 * Real.exp (-2 * x)
  let Q : ℝ → ℝ := fun x => -((1 - M) ^ 2 / 2 * Real.exp (-2 * x))
  have hP : ∀ x, HasDerivAt P ((1 - (1 - M) * Real.exp (-x)) ^ 2) x := by
    intro x
    have := ((hasDerivAt_id x).add ((hasDerivAt_expc (-1) x).const_mul (2 * (1 - M)))).sub
      ((hasDerivAt_expc (-2) x).const_mul ((1 - M) ^ 2 / 2))
    refine this.congr_deriv ?_
    have e : Real.exp (-2 * x) = Real.exp (-x) ^ 2 := by
      rw [← Real.exp_nat_mul]; congr 1; push_cast; ring
    rw [e, neg_one_mul x]; ring
  have hQ : ∀ x, HasDerivAt Q (((1 - M) * Real.exp (-x)) ^ 2) x := by
    intro x
    have := ((hasDerivAt_expc (-2) x).const_mul ((1 - M) ^ 2 / 2)).neg
    refine this.congr_deriv ?_
    have e : Real.exp (-2 * x) = Real.exp (-x) ^ 2 := by
      rw [← Real.exp_nat_mul]; congr 1; push_cast; ring
    rw [e]; ring
  have hPc : Continuous P := by fun_prop
  have hQc : Continuous Q := by fun_prop
  have hQt : Tendsto Q atTop (𝓝 0) := by
    have := ((tendsto_exp_neg (c := -2) (by norm_num)).const_mul ((1 - M) ^ 2 / 2)).neg
    rw [mul_zero, neg_zero] at this
    exact this
  have key := crps_of_antideriv (F := expM M) (P := fun z => P (max z 0))
    (Q := fun z => min z 0 + Q (max z 0)) (s := {0}) (countable_singleton 0) (expM_meas M)
    (fun x => by
      unfold expM; split_ifs with h
      · exact le_refl _
      · have : Real.exp (-x) ≤ 1 := Real.exp_le_one_iff.2 (by linarith)
        nlinarith [mul_nonneg (sub_nonneg.2 h1) (sub_nonneg.2 this)])
    (fun x => by
      unfold expM; split_ifs with h
      · norm_num
      · nlinarith [mul_nonneg (sub_nonneg.2 h1) (Real.exp_pos (-x)).le])
    (hPc.comp (continuous_id.max continuous_const))
    (fun x hx => by
      rcases lt_or_gt_of_ne (show x ≠ 0 from hx) with h | h
      · simpa [expM, h] using hasDerivAt_ppart' (p := P) h
      · refine (hasDerivAt_ppart h (hP x)).congr_deriv ?_
        rw [expM, if_neg (not_lt.2 h.le)]; ring)
    ((continuous_id.min continuous_const).add (hQc.comp (continuous_id.max continuous_const)))
    (fun x hx => by
      rcases lt_or_gt_of_ne (show x ≠ 0 from hx) with h | h
      · refine ((hasDerivAt_npart h (hasDerivAt_id x)).add (hasDerivAt_ppart' (p := Q) h)).congr_deriv ?_
        simp [expM, h]
      · refine ((hasDerivAt_npart' (p := id) h).add (hasDerivAt_ppart h (hQ x))).congr_deriv ?_
        rw [expM, if_neg (not_lt.2 h.le)]; ring)
    (tendsto_pos_atBot P)
    ((tendsto_neg_atTop id).add (tendsto_pos_atTop hQt)) y
  refine ⟨key.1, key.2.trans ?_⟩
  simp only [P, Q, id]
  rcases le_or_gt 0 y with h | h
  · rw [max_eq_left h, min_eq_right h, abs_of_nonneg h]
    simp only [mul_zero, Real.exp_zero, neg_mul, one_mul]; ring
  · rw [max_eq_right h.le, min_eq_left h.le, abs_of_neg h]
    simp only [mul_zero, Real.exp_zero, neg_zero]; ring

/-! ### two-piece exponential -/

/-- Two-piece exponential distribution function with location zero. -/
def exp2p (a b x : ℝ) : ℝ :=
  if x < 0 then a / (a + b) * Real.exp (x / a) else 1 - b / (a + b) * Real.exp (-(x / b))

theorem exp2p_meas (a b : ℝ) : Measurable (exp2p a b) := by
  unfold exp2p
  refine Measurable.ite measurableSet_Iio ?_ ?_ <;> fun_prop

theorem crps_exp2p {a b : ℝ} (ha : 0 < a) (hb : 0 < b) (y : ℝ) :
    Integrable (fun z => (exp2p a b z - if y ≤ z then 1 else 0) ^ 2) ∧
    Spec.crps (exp2p a b) y
      = |y| + (a ^ 3 + b ^ 3) / (2 * (a + b) ^ 2) + if y < 0
        then 2 * a ^ 2 / (a + b) * Real.exp (-|y| / a) - 2 * a ^ 2 / (a + b)
        else 2 * b ^ 2 / (a + b) * Real.exp (-|y| / b) - 2 * b ^ 2 / (a + b) := by
  have hab : 0 < a + b := by linarith
  let w := a / (a + b)
  let v := b / (a + b)
  have hw : 0 ≤ w ∧ w ≤ 1 := ⟨by positivity, by rw [div_le_one hab]; linarith⟩
  have hv : 0 ≤ v ∧ v ≤ 1 := ⟨by positivity, by rw [div_le_one hab]; linarith⟩
  have hwv : w + v = 1 := by
    simp only [w, v]; rw [← add_div, div_self hab.ne']
  -- left pieces: `F = w e`, `e = exp (x / a)`; right pieces: `F = 1 - v e`, `e = exp (-x / b)`
  let P1 : ℝ → ℝ := fun x => w ^ 2 * a / 2 * Real.exp (2 / a * x)
  let P2 : ℝ → ℝ := fun x => x + 2 * v * b * Real.exp (-1 / b * x)
    - v ^ 2 * b / 2 * Real.exp (-2 / b * x)
  let Q1 : ℝ → ℝ := fun x => x - 2 * w * a * Real.exp (1 / a * x)
    + w ^ 2 * a / 2 * Real.exp (2 / a * x)
  let Q2 : ℝ → ℝ := fun x => -(v ^ 2 * b / 2 * Real.exp (-2 / b * x))
  have ea : ∀ x, Real.exp (2 / a * x) = Real.exp (x / a) ^ 2 := fun x => by
    rw [← Real.exp_nat_mul]; congr 1; push_cast; ring
  have eb : ∀ x, Real.exp (-2 / b * x) = Real.exp (-(x / b)) ^ 2 := fun x => by
    rw [← Real.exp_nat_mul]; congr 1; push_cast; ring
  have ea1 : ∀ x, Real.exp (1 / a * x) = Real.exp (x / a) := fun x => by congr 1; ring
  have eb1 : ∀ x, Real.exp (-1 / b * x) = Real.exp (-(x / b)) := fun x => by congr 1; ring
  have hP1 : ∀ x, HasDerivAt P1 ((w * Real.exp (x / a)) ^ 2) x := fun x => by
    refine ((hasDerivAt_expc (2 / a) x).const_mul (w ^ 2 * a / 2)).congr_deriv ?_
    rw [ea]; field_simp
  have hP2 : ∀ x, HasDerivAt P2 ((1 - v * Real.exp (-(x / b))) ^ 2) x := fun x => by
    refine (((hasDerivAt_id x).add ((hasDerivAt_expc (-1 / b) x).const_mul (2 * v * b))).sub
      ((hasDerivAt_expc (-2 / b) x).const_mul (v ^ 2 * b / 2))).congr_deriv ?_
    rw [eb, eb1]; field_simp; ring
  have hQ1 : ∀ x, HasDerivAt Q1 ((1 - w * Real.exp (x / a)) ^ 2) x := fun x => by
    refine (((hasDerivAt_id x).sub ((hasDerivAt_expc (1 / a) x).const_mul (2 * w * a))).add
      ((hasDerivAt_expc (2 / a) x).const_mul (w ^ 2 * a / 2))).congr_deriv ?_
    rw [ea, ea1]; field_simp; ring
  have hQ2 : ∀ x, HasDerivAt Q2 ((v * Real.exp (-(x / b))) ^ 2) x := fun x => by
    refine ((hasDerivAt_expc (-2 / b) x).const_mul (v ^ 2 * b / 2)).neg.congr_deriv ?_
    rw [eb]; field_simp
  have hP1t : Tendsto P1 atBot (𝓝 0) := by
    simpa using (tendsto_exp_pos (c := 2 / a) (by positivity)).const_mul (w ^ 2 * a / 2)
  have hQ2t : Tendsto Q2 atTop (𝓝 0) := by
    simpa using ((tendsto_exp_neg (c := -2 / b)
      (div_neg_of_neg_of_pos (by norm_num) hb)).const_mul (v ^ 2 * b / 2)).neg
  have c1 : Continuous P1 := by fun_prop
  have c2 : Continuous P2 := by fun_prop
  have c3 : Continuous Q1 := by fun_prop
  have c4 : Continuous Q2 := by fun_prop
  have cm : Continuous fun z : ℝ => min z 0 := continuous_id.min continuous_const
  have cM : Continuous fun z : ℝ => max z 0 := continuous_id.max continuous_const
  have key := crps_of_antideriv (F := exp2p a b) (P := fun z => P1 (min z 0) + P2 (max z 0))
    (Q := fun z => Q1 (min z 0) + Q2 (max z 0)) (s := {0}) (countable_singleton 0) (exp2p_meas a b)
    (fun x => by
      unfold exp2p; split_ifs with h
      · exact mul_nonneg hw.1 (Real.exp_pos _).le
      · have : Real.exp (-(x / b)) ≤ 1 :=
          Real.exp_le_one_iff.2 (neg_nonpos.2 (div_nonneg (by linarith) hb.le))
        have h2 := mul_le_one₀ hv.2 (Real.exp_pos _).le this
        linarith)
    (fun x => by
      unfold exp2p; split_ifs with h
      · have : Real.exp (x / a) ≤ 1 :=
          Real.exp_le_one_iff.2 (div_nonpos_of_nonpos_of_nonneg h.le ha.le)
        exact mul_le_one₀ hw.2 (Real.exp_pos _).le this
      · have := mul_nonneg hv.1 (Real.exp_pos (-(x / b))).le
        linarith)
    ((c1.comp cm).add (c2.comp cM))
    (fun x hx => by
      rcases lt_or_gt_of_ne (show x ≠ 0 from hx) with h | h
      · refine ((hasDerivAt_npart h (hP1 x)).add (hasDerivAt_ppart' (p := P2) h)).congr_deriv ?_
        rw [exp2p, if_pos h, add_zero]
      · refine ((hasDerivAt_npart' (p := P1) h).add (hasDerivAt_ppart h (hP2 x))).congr_deriv ?_
        rw [exp2p, if_neg (not_lt.2 h.le), zero_add])
    ((c3.comp cm).add (c4.comp cM))
    (fun x hx => by
      rcases lt_or_gt_of_ne (show x ≠ 0 from hx) with h | h
      · refine ((hasDerivAt_npart h (hQ1 x)).add (hasDerivAt_ppart' (p := Q2) h)).congr_deriv ?_
        rw [exp2p, if_pos h, add_zero]
      · refine ((hasDerivAt_npart' (p := Q1) h).add (hasDerivAt_ppart h (hQ2 x))).congr_deriv ?_
        rw [exp2p, if_neg (not_lt.2 h.le), zero_add]; ring)
    ((tendsto_neg_atBot hP1t).add (tendsto_pos_atBot P2))
    ((tendsto_neg_atTop Q1).add (tendsto_pos_atTop hQ2t)) y
  refine ⟨key.1, key.2.trans ?_⟩
  simp only [P1, P2, Q1, Q2, ea, eb, ea1, eb1]
  rcases le_or_gt 0 y with h | h
  · rw [max_eq_left h, min_eq_right h, abs_of_nonneg h, if_neg (not_lt.2 h)]
    simp only [zero_div, Real.exp_zero, neg_div, neg_zero, w, v]
    field_simp
    ring
  · rw [max_eq_right h.le, min_eq_left h.le, abs_of_neg h, if_pos h]
    simp only [zero_div, Real.exp_zero, neg_neg, neg_zero, w, v]
    field_simp
    ring

/-! ### logistic -/

/-- Standard logistic distribution function. -/
def logis (x : ℝ) : ℝ := 1 / (1 + Real.exp (-x))

theorem logis_deriv (x : ℝ) : HasDerivAt logis (logis x * (1 - logis x)) x := by
  have h : HasDerivAt (fun z => 1 + Real.exp (-z)) (-Real.exp (-x)) x := by
    simpa using ((hasDerivAt_neg x).exp.const_add 1)
  have hne : 1 + Real.exp (-x) ≠ 0 := by positivity
  have := (hasDerivAt_const x (1:ℝ)).div h hne
  refine this.congr_deriv ?_
  unfold logis
  field_simp
  ring

theorem logis_tendsto : Tendsto logis atTop (𝓝 1) := by
  have h : Tendsto (fun z : ℝ => 1 + Real.exp (-1 * z)) atTop (𝓝 (1 + 0)) :=
    (tendsto_exp_neg (by norm_num)).const_add 1
  have := h.inv₀ (by norm_num)
  rw [add_zero, inv_one] at this
  refine this.congr fun z => ?_
  simp [logis]

theorem logis_tendsto_bot : Tendsto logis atBot (𝓝 0) := by
  have h : Tendsto (fun z : ℝ => 1 + Real.exp (-z)) atBot atTop :=
    tendsto_atTop_add_const_left _ _ (Real.tendsto_exp_atTop.comp tendsto_neg_atBot_atTop)
  refine h.inv_tendsto_atTop.congr fun z => ?_
  simp [logis]

theorem crps_logis (y : ℝ) :
    Integrable (fun z => (logis z - if y ≤ z then 1 else 0) ^ 2) ∧
    Spec.crps logis y = y - 2 * Real.log (logis y) - 1 := by
  have p1 : ∀ x : ℝ, 0 < 1 + Real.exp x := fun x => by positivity
  have p2 : ∀ x : ℝ, 0 < 1 + Real.exp (-x) := fun x => by positivity
  have hexp : ∀ x : ℝ, Real.exp x * Real.exp (-x) = 1 := fun x => by
    rw [← Real.exp_add]; simp
  have e1 : ∀ x, logis x = Real.exp x / (1 + Real.exp x) := fun x => by
    unfold logis
    rw [div_eq_div_iff (p2 x).ne' (p1 x).ne']
    linarith [hexp x]
  have hP : ∀ x, HasDerivAt (fun z => Real.log (1 + Real.exp z) - logis z) (logis x ^ 2) x := fun x => by
    refine ((((Real.hasDerivAt_exp x).const_add 1).log (p1 x).ne').sub (logis_deriv x)).congr_deriv ?_
    rw [← e1]; ring
  have hQ : ∀ x, HasDerivAt (fun z => -Real.log (1 + Real.exp (-z)) - logis z) ((1 - logis x) ^ 2) x :=
    fun x => by
    have h : HasDerivAt (fun z => 1 + Real.exp (-z)) (-Real.exp (-x)) x := by
      simpa using ((hasDerivAt_neg x).exp.const_add 1)
    refine ((h.log (p2 x).ne').neg.sub (logis_deriv x)).congr_deriv ?_
    have : -(-Real.exp (-x) / (1 + Real.exp (-x))) = 1 - logis x := by
      unfold logis
      rw [neg_div, neg_neg, eq_sub_iff_add_eq, ← add_div, add_comm, div_self (p2 x).ne']
    rw [this]; ring
  have hPt : Tendsto (fun z => Real.log (1 + Real.exp z) - logis z) atBot (𝓝 (Real.log (1 + 0) - 0)) := by
    refine Tendsto.sub (Tendsto.log (Real.tendsto_exp_atBot.const_add 1) (by norm_num))
      logis_tendsto_bot
  have hQt : Tendsto (fun z => -Real.log (1 + Real.exp (-z)) - logis z) atTop
      (𝓝 (-Real.log (1 + 0) - 1)) := by
    refine Tendsto.sub (Tendsto.log ((Real.tendsto_exp_atBot.comp tendsto_neg_atTop_atBot).const_add 1)
      (by norm_num)).neg logis_tendsto
  have key := crps_of_antideriv (F := logis) (s := ∅) countable_empty
    (by unfold logis; fun_prop)
    (fun x => by unfold logis; positivity)
    (fun x => by
      unfold logis
      rw [div_le_one (p2 x)]
      linarith [Real.exp_pos (-x)])
    (continuous_iff_continuousAt.2 fun x => (hP x).continuousAt) (fun x _ => hP x)
    (continuous_iff_continuousAt.2 fun x => (hQ x).continuousAt) (fun x _ => hQ x) hPt hQt y
  refine ⟨key.1, key.2.trans ?_⟩
  have e2 : Real.log (1 + Real.exp y) = y + Real.log (1 + Real.exp (-y)) := by
    rw [← Real.log_exp y, ← Real.log_mul (Real.exp_pos _).ne' (p2 _).ne', Real.log_exp]
    congr 1
    rw [mul_add, hexp]; ring
  have e3 : Real.log (logis y) = -Real.log (1 + Real.exp (-y)) := by
    unfold logis; rw [one_div, Real.log_inv]
  rw [e2, e3, add_zero, Real.log_one]
  ring

/-! ### uniform -/

/-- Uniform distribution function on `[0, 1]` with point masses `L`, `U` at the ends. -/
def unif (L U x : ℝ) : ℝ := if x < 0 then 0 else if x < 1 then L + (1 - L - U) * x else 1

theorem unif_meas (L U : ℝ) : Measurable (unif L U) := by
  unfold unif
  refine Measurable.ite measurableSet_Iio measurable_const
    (Measurable.ite measurableSet_Iio ?_ measurable_const)
  fun_prop

theorem crps_unif {L U : ℝ} (hL : 0 ≤ L) (hU : 0 ≤ U) (hLU : L + U ≤ 1) (y : ℝ) :
    Integrable (fun z => (unif L U z - if y ≤ z then 1 else 0) ^ 2) ∧
    Spec.crps (unif L U) y = |y - min (max y 0) 1| + min (max y 0) 1 ^ 2 * (1 - L - U)
      - min (max y 0) 1 * (1 - 2 * L) + (1 - L - U) ^ 2 / 3 + (1 - L) * U := by
  set c := 1 - L - U with hc
  have hc0 : 0 ≤ c := by linarith
  let p : ℝ → ℝ := fun x => L ^ 2 * x + L * c * x ^ 2 + c ^ 2 * x ^ 3 / 3
  let q : ℝ → ℝ := fun x => (1 - L) ^ 2 * x - (1 - L) * c * x ^ 2 + c ^ 2 * x ^ 3 / 3
  have hp : ∀ x, HasDerivAt p ((L + c * x) ^ 2) x := fun x => by
    have := (((hasDerivAt_id x).const_mul (L ^ 2)).add (((hasDerivAt_id x).pow 2).const_mul (L * c))).add
      ((((hasDerivAt_id x).pow 3).const_mul (c ^ 2)).div_const 3)
    refine this.congr_deriv ?_
    simp; ring
  have hq : ∀ x, HasDerivAt q ((1 - (L + c * x)) ^ 2) x := fun x => by
    have := (((hasDerivAt_id x).const_mul ((1 - L) ^ 2)).sub
      (((hasDerivAt_id x).pow 2).const_mul ((1 - L) * c))).add
      ((((hasDerivAt_id x).pow 3).const_mul (c ^ 2)).div_const 3)
    refine this.congr_deriv ?_
    simp; ring
  have pc : Continuous p := by fun_prop
  have qc : Continuous q := by fun_prop
  have cl : Continuous fun z : ℝ => min (max z 0) 1 := by fun_prop
  -- the three regions
  have neg : ∀ x < 0, (fun z : ℝ => min (max z 0) 1) =ᶠ[𝓝 x] fun _ => 0 := fun x hx => by
    filter_upwards [gt_mem_nhds hx] with z hz
    rw [max_eq_right (le_of_lt hz)]; norm_num
  have mid : ∀ x, 0 < x → x < 1 → (fun z : ℝ => min (max z 0) 1) =ᶠ[𝓝 x] fun z => z := fun x h0 h1 => by
    filter_upwards [lt_mem_nhds h0, gt_mem_nhds h1] with z hz hz'
    rw [max_eq_left (le_of_lt hz), min_eq_left (le_of_lt hz')]
  have pos : ∀ x, 1 < x → (fun z : ℝ => min (max z 0) 1) =ᶠ[𝓝 x] fun _ => 1 := fun x h1 => by
    filter_upwards [lt_mem_nhds h1] with z hz
    rw [max_eq_left (by linarith : (0:ℝ) ≤ z), min_eq_right (le_of_lt hz)]
  have mneg : ∀ x < 0, (fun z : ℝ => min z 0) =ᶠ[𝓝 x] fun z => z := fun x hx => by
    filter_upwards [gt_mem_nhds hx] with z hz
    rw [min_eq_left (le_of_lt hz)]
  have mpos : ∀ x, 0 < x → (fun z : ℝ => min z 0) =ᶠ[𝓝 x] fun _ => 0 := fun x hx => by
    filter_upwards [lt_mem_nhds hx] with z hz
    rw [min_eq_right (le_of_lt hz)]
  have Mneg : ∀ x, x < 1 → (fun z : ℝ => max (z - 1) 0) =ᶠ[𝓝 x] fun _ => 0 := fun x hx => by
    filter_upwards [gt_mem_nhds hx] with z hz
    rw [max_eq_right (by linarith)]
  have Mpos : ∀ x, 1 < x → (fun z : ℝ => max (z - 1) 0) =ᶠ[𝓝 x] fun z => z - 1 := fun x hx => by
    filter_upwards [lt_mem_nhds hx] with z hz
    rw [max_eq_left (by linarith)]
  have key := crps_of_antideriv (F := unif L U) (P := fun z => p (min (max z 0) 1) + max (z - 1) 0)
    (Q := fun z => min z 0 + q (min (max z 0) 1)) (s := {0, 1}) (p := p 0) (q := 0 + q 1)
    (Set.toFinite _).countable (unif_meas L U)
    (fun x => by
      unfold unif; rw [← hc]; split_ifs with h h'
      · exact le_refl _
      · have := mul_nonneg hc0 (not_lt.1 h); linarith
      · norm_num)
    (fun x => by
      unfold unif; rw [← hc]; split_ifs with h h'
      · norm_num
      · have := mul_le_mul_of_nonneg_left h'.le hc0
        linarith
      · exact le_refl _)
    ((pc.comp cl).add (by fun_prop))
    (fun x hx => by
      simp only [mem_insert_iff, mem_singleton_iff, not_or] at hx
      rcases lt_or_gt_of_ne hx.1 with h | h
      · refine HasDerivAt.congr_deriv (((hasDerivAt_const x (p 0)).congr_of_eventuallyEq
          ((neg x h).fun_comp p)).add
          ((hasDerivAt_const x (0:ℝ)).congr_of_eventuallyEq (Mneg x (by linarith)))) ?_
        simp [unif, h]
      · rcases lt_or_gt_of_ne hx.2 with h' | h'
        · refine HasDerivAt.congr_deriv (((hp x).congr_of_eventuallyEq
            ((mid x h h').fun_comp p)).add
            ((hasDerivAt_const x (0:ℝ)).congr_of_eventuallyEq (Mneg x h'))) ?_
          rw [unif, if_neg (not_lt.2 h.le), if_pos h', add_zero]
        · refine HasDerivAt.congr_deriv (((hasDerivAt_const x (p 1)).congr_of_eventuallyEq
            ((pos x h').fun_comp p)).add
            (((hasDerivAt_id x).sub_const 1).congr_of_eventuallyEq (Mpos x h'))) ?_
          rw [unif, if_neg (not_lt.2 h.le), if_neg (not_lt.2 h'.le)]; norm_num)
    (by fun_prop)
    (fun x hx => by
      simp only [mem_insert_iff, mem_singleton_iff, not_or] at hx
      rcases lt_or_gt_of_ne hx.1 with h | h
      · refine HasDerivAt.congr_deriv (((hasDerivAt_id x).congr_of_eventuallyEq (mneg x h)).add
          ((hasDerivAt_const x (q 0)).congr_of_eventuallyEq ((neg x h).fun_comp q))) ?_
        simp [unif, h]
      · rcases lt_or_gt_of_ne hx.2 with h' | h'
        · refine HasDerivAt.congr_deriv (((hasDerivAt_const x (0:ℝ)).congr_of_eventuallyEq
            (mpos x h)).add ((hq x).congr_of_eventuallyEq ((mid x h h').fun_comp q))) ?_
          rw [unif, if_neg (not_lt.2 h.le), if_pos h', zero_add]
        · refine HasDerivAt.congr_deriv (((hasDerivAt_const x (0:ℝ)).congr_of_eventuallyEq
            (mpos x h)).add ((hasDerivAt_const x (q 1)).congr_of_eventuallyEq
              ((pos x h').fun_comp q))) ?_
          rw [unif, if_neg (not_lt.2 h.le), if_neg (not_lt.2 h'.le)]; norm_num)
    (by
      refine tendsto_const_nhds.congr' ?_
      filter_upwards [eventually_le_atBot 0] with z hz
      rw [max_eq_right hz, max_eq_right (by linarith)]; norm_num)
    (by
      refine tendsto_const_nhds.congr' ?_
      filter_upwards [eventually_ge_atTop 1] with z hz
      rw [min_eq_right (by linarith), max_eq_left (by linarith), min_eq_right hz]) y
  refine ⟨key.1, key.2.trans ?_⟩
  simp only [p, q]
  rcases lt_or_ge y 0 with h | h
  · rw [max_eq_right h.le, max_eq_right (by linarith : y - 1 ≤ 0), min_eq_left (by norm_num : (0:ℝ) ≤ 1),
      min_eq_left h.le, sub_zero, abs_of_neg h]
    rw [hc]; ring
  · rcases lt_or_ge y 1 with h' | h'
    · rw [max_eq_left h, max_eq_right (by linarith : y - 1 ≤ 0), min_eq_left h'.le, min_eq_right h,
        sub_self, abs_zero]
      rw [hc]; ring
    · rw [max_eq_left h, max_eq_left (by linarith : 0 ≤ y - 1), min_eq_right h', min_eq_right h,
        abs_of_nonneg (by linarith)]
      rw [hc]; ring

end Verif
