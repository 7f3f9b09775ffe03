import Verif.Lemmas.TCrps
import Verif.Lemmas.Gtc

/-!
# Antiderivatives for the truncated and censored t distribution
-/

noncomputable section

open scoped Classical Topology
open MeasureTheory Filter Set

namespace Verif

open XF Spec

theorem tF_deriv {s : ℝ} (hs : 1 / 2 < s) (x : ℝ) :
    HasDerivAt (tF s) (tK s x / betaF (1 / 2) (s - 1 / 2)) x := by
  rw [← tF_prim]
  exact prim_deriv ((tK_integrable hs).div_const _) ((tK_cont _).continuousAt.div_const _)

theorem tF_neg {s : ℝ} (hs : 1 / 2 < s) (x : ℝ) : tF s (-x) = 1 - tF s x := by
  have hB := tB_pos hs
  unfold tF
  have hz := tA_zero hs
  rw [betaF_symm] at hz
  rw [prim_tK hs, prim_tK hs, tA_even]
  generalize betaF (1 / 2) (s - 1 / 2) = b at *
  rcases lt_trichotomy x 0 with h | h | h
  · rw [if_pos (by linarith), if_neg (by linarith)]; field_simp
  · subst h
    rw [neg_zero, if_pos le_rfl, hz]; field_simp; ring
  · rw [if_neg (by linarith), if_pos h.le]; field_simp; ring

theorem tF_atBot {s : ℝ} (hs : 1 / 2 < s) : Tendsto (tF s) atBot (𝓝 0) := by
  have := (prim_atBot (tK_integrable hs)).div_const (betaF (1 / 2) (s - 1 / 2))
  rwa [zero_div] at this

theorem tK_atBot {r : ℝ} (hr : 0 < r) : Tendsto (tK r) atBot (𝓝 0) := by
  have h1 : Tendsto (fun x : ℝ => 1 + x ^ 2) atBot atTop := by
    refine tendsto_atTop_add_const_left _ _ ?_
    have := (tendsto_pow_atTop (α := ℝ) two_ne_zero).comp tendsto_neg_atBot_atTop
    refine this.congr fun x => ?_
    simp
  exact (tendsto_rpow_neg_atTop hr).comp h1

theorem tF_mul_atBot {s : ℝ} (hs : 1 < s) : Tendsto (fun x => x * tF s x) atBot (𝓝 0) := by
  have hs' : 1 / 2 < s := by linarith
  have hB := tB_pos hs'
  obtain ⟨i1, -, p1⟩ := tK_mean hs
  have h0 : Tendsto (fun x => -(tK (s - 1) x / (2 * (s - 1))) / betaF (1 / 2) (s - 1 / 2)) atBot (𝓝 0) := by
    have := (((tK_atBot (r := s - 1) (by linarith)).div_const (2 * (s - 1))).neg).div_const
      (betaF (1 / 2) (s - 1 / 2))
    simpa using this
  refine tendsto_of_tendsto_of_tendsto_of_le_of_le' h0 tendsto_const_nhds ?_ ?_
  · filter_upwards with x
    rw [← p1, tF, mul_div_assoc', div_le_div_iff_of_pos_right hB]
    unfold prim
    rw [← integral_const_mul]
    refine setIntegral_mono_on i1.integrableOn ((tK_integrable hs').integrableOn.const_mul _) measurableSet_Iic
      fun t ht => ?_
    exact mul_le_mul_of_nonneg_right ht (tK_pos s t).le
  · filter_upwards [eventually_le_atBot 0] with x hx
    exact mul_nonpos_of_nonpos_of_nonneg hx (tF_nonneg hs' x)

/-- The standard t distribution function. -/
def tT (ν x : ℝ) : ℝ := tF ((ν + 1) / 2) (x / Real.sqrt ν)

/-- Minus the antiderivative of `x * f x`. -/
def tG (ν x : ℝ) : ℝ := densT ν 0 1 x * (ν + x ^ 2) / (ν - 1)

/-- The constant of the t distribution. -/
def tBbar (ν : ℝ) : ℝ := 2 * Real.sqrt ν / (ν - 1) * betaF (1 / 2) (ν - 1 / 2) / betaF (1 / 2) (ν / 2) ^ 2

/-- The distribution function of the squared kernel. -/
def tH (ν x : ℝ) : ℝ := tF ν (x / Real.sqrt ν)

def tp (ν x : ℝ) : ℝ := x * tT ν x + tG ν x

def tP (ν x : ℝ) : ℝ := x * tT ν x ^ 2 + 2 * tG ν x * tT ν x - tBbar ν * tH ν x

theorem cdfT_tT {ν σ : ℝ} (hν : 0 < ν) (hσ : 0 < σ) (μ : ℝ) :
    cdfT ν μ σ = fun y => tT ν ((y - μ) / σ) := by
  rw [cdfT_eq hν hσ]; funext y; unfold tT; rw [div_div]

variable {ν : ℝ}

theorem densT_tK (hν : 0 < ν) (x : ℝ) :
    densT ν 0 1 x = tK ((ν + 1) / 2) (x / Real.sqrt ν) / (Real.sqrt ν * betaF (1 / 2) (ν / 2)) := by
  have h3 : 0 < Real.sqrt ν := Real.sqrt_pos.2 hν
  rw [densT_eq hν one_pos]
  dsimp only
  rw [sub_zero, one_mul, show (ν + 1) / 2 - 1 / 2 = ν / 2 by ring]
  field_simp

theorem tT_deriv (hν : 0 < ν) (x : ℝ) : HasDerivAt (tT ν) (densT ν 0 1 x) x := by
  have h3 : 0 < Real.sqrt ν := Real.sqrt_pos.2 hν
  have h := (tF_deriv (s := (ν + 1) / 2) (by linarith) (x / Real.sqrt ν)).comp x
    ((hasDerivAt_id x).div_const (Real.sqrt ν))
  refine h.congr_deriv ?_
  rw [densT_tK hν, show (ν + 1) / 2 - 1 / 2 = ν / 2 by ring]
  field_simp

theorem tH_deriv (hν : 1 < ν) (x : ℝ) :
    HasDerivAt (tH ν) (tK ν (x / Real.sqrt ν) / (Real.sqrt ν * betaF (1 / 2) (ν - 1 / 2))) x := by
  have h3 : 0 < Real.sqrt ν := Real.sqrt_pos.2 (by linarith)
  have h := (tF_deriv (s := ν) (by linarith) (x / Real.sqrt ν)).comp x
    ((hasDerivAt_id x).div_const (Real.sqrt ν))
  refine h.congr_deriv ?_
  field_simp

theorem tG_eq (hν : 1 < ν) (x : ℝ) :
    tG ν x = Real.sqrt ν / ((ν - 1) * betaF (1 / 2) (ν / 2)) * tK ((ν - 1) / 2) (x / Real.sqrt ν) := by
  have hν0 : 0 < ν := by linarith
  have h3 : 0 < Real.sqrt ν := Real.sqrt_pos.2 hν0
  have hsq := Real.sq_sqrt hν0.le
  have hB := betaF_pos (show (0:ℝ) < 1 / 2 by norm_num) (show 0 < ν / 2 by linarith)
  have hν1 : ν - 1 ≠ 0 := by linarith
  have e : tK ((ν - 1) / 2) (x / Real.sqrt ν)
      = tK ((ν + 1) / 2) (x / Real.sqrt ν) * (1 + (x / Real.sqrt ν) ^ 2) := by
    have h := one_add_sq_pos (x / Real.sqrt ν)
    unfold tK
    rw [show -((ν - 1) / 2) = -((ν + 1) / 2) + 1 by ring, Real.rpow_add h, Real.rpow_one]
  unfold tG
  rw [densT_tK hν0, e, div_pow, hsq]
  generalize tK ((ν + 1) / 2) (x / Real.sqrt ν) = k
  generalize Real.sqrt ν = r at *
  subst hsq
  field_simp

theorem tK_deriv (r x : ℝ) : HasDerivAt (tK r) (-(2 * r) * x * tK (r + 1) x) x := by
  have h1 : HasDerivAt (fun x : ℝ => 1 + x ^ 2) (2 * x) x := by
    simpa using (hasDerivAt_pow 2 x).const_add 1
  have h := h1.rpow_const (p := -r) (Or.inl (one_add_sq_pos x).ne')
  refine h.congr_deriv ?_
  unfold tK
  rw [show -r - 1 = -(r + 1) by ring]; ring

theorem tG_deriv (hν : 1 < ν) (x : ℝ) : HasDerivAt (tG ν) (-(x * densT ν 0 1 x)) x := by
  have hν0 : 0 < ν := by linarith
  have h3 : 0 < Real.sqrt ν := Real.sqrt_pos.2 hν0
  have hB := betaF_pos (show (0:ℝ) < 1 / 2 by norm_num) (show 0 < ν / 2 by linarith)
  have hν1 : ν - 1 ≠ 0 := by linarith
  have h := ((tK_deriv ((ν - 1) / 2) (x / Real.sqrt ν)).comp x
    ((hasDerivAt_id x).div_const (Real.sqrt ν))).const_mul (Real.sqrt ν / ((ν - 1) * betaF (1 / 2) (ν / 2)))
  have e : tG ν = fun x => Real.sqrt ν / ((ν - 1) * betaF (1 / 2) (ν / 2))
      * (tK ((ν - 1) / 2) ∘ fun x => id x / Real.sqrt ν) x := by
    funext x; exact tG_eq hν x
  rw [e]
  refine h.congr_deriv ?_
  rw [densT_tK hν0, show (ν - 1) / 2 + 1 = (ν + 1) / 2 by ring]
  generalize tK ((ν + 1) / 2) (x / Real.sqrt ν) = k
  field_simp

theorem tp_deriv (hν : 1 < ν) (x : ℝ) : HasDerivAt (tp ν) (tT ν x) x := by
  have h := ((hasDerivAt_id x).mul (tT_deriv (by linarith : 0 < ν) x)).add (tG_deriv hν x)
  refine h.congr_deriv ?_
  simp only [id]; ring

theorem tP_deriv (hν : 1 < ν) (x : ℝ) : HasDerivAt (tP ν) (tT ν x ^ 2) x := by
  have hν0 : 0 < ν := by linarith
  have h3 : 0 < Real.sqrt ν := Real.sqrt_pos.2 hν0
  have hB := betaF_pos (show (0:ℝ) < 1 / 2 by norm_num) (show 0 < ν / 2 by linarith)
  have hB2 := betaF_pos (show (0:ℝ) < 1 / 2 by norm_num) (show 0 < ν - 1 / 2 by linarith)
  have hν1 : ν - 1 ≠ 0 := by linarith
  have hT := tT_deriv hν0 x
  have h := (((hasDerivAt_id x).mul (hT.pow 2)).add (((tG_deriv hν x).const_mul 2).mul hT)).sub
    ((tH_deriv hν x).const_mul (tBbar ν))
  refine h.congr_deriv ?_
  have e : tBbar ν * (tK ν (x / Real.sqrt ν) / (Real.sqrt ν * betaF (1 / 2) (ν - 1 / 2)))
      = 2 * tG ν x * densT ν 0 1 x := by
    have ek := tK_mul ((ν - 1) / 2) ((ν + 1) / 2) (x / Real.sqrt ν)
    rw [show (ν - 1) / 2 + (ν + 1) / 2 = ν by ring] at ek
    rw [tG_eq hν, densT_tK hν0, ← ek]
    unfold tBbar
    generalize betaF (1 / 2) (ν - 1 / 2) = b at *
    generalize betaF (1 / 2) (ν / 2) = b' at *
    generalize tK ((ν + 1) / 2) (x / Real.sqrt ν) = k
    generalize tK ((ν - 1) / 2) (x / Real.sqrt ν) = k'
    field_simp
  rw [e]
  simp only [id, Pi.pow_apply]
  push_cast
  ring

theorem tT_nonneg (hν : 0 < ν) (x : ℝ) : 0 ≤ tT ν x := tF_nonneg (by linarith) _

theorem tT_le (hν : 0 < ν) (x : ℝ) : tT ν x ≤ 1 := tF_le (by linarith) _

theorem densT_pos' (hν : 0 < ν) (x : ℝ) : 0 < densT ν 0 1 x := by
  have h3 : 0 < Real.sqrt ν := Real.sqrt_pos.2 hν
  have hB := betaF_pos (show (0:ℝ) < 1 / 2 by norm_num) (show 0 < ν / 2 by linarith)
  rw [densT_tK hν]
  exact div_pos (tK_pos _ _) (mul_pos h3 hB)

theorem tT_strictMono (hν : 0 < ν) : StrictMono (tT ν) :=
  strictMono_of_hasDerivAt_pos (tT_deriv hν) (densT_pos' hν)

theorem tT_pos (hν : 0 < ν) (x : ℝ) : 0 < tT ν x :=
  (tT_nonneg hν (x - 1)).trans_lt (tT_strictMono hν (by linarith))

theorem tT_lt_one (hν : 0 < ν) (x : ℝ) : tT ν x < 1 :=
  (tT_strictMono hν (show x < x + 1 by linarith)).trans_le (tT_le hν _)

theorem tT_cont (hν : 0 < ν) : Continuous (tT ν) :=
  continuous_iff_continuousAt.2 fun x => (tT_deriv hν x).continuousAt

theorem tT_neg (hν : 0 < ν) (x : ℝ) : tT ν (-x) = 1 - tT ν x := by
  unfold tT; rw [neg_div, tF_neg (by linarith)]

theorem tH_neg (hν : 1 < ν) (x : ℝ) : tH ν (-x) = 1 - tH ν x := by
  unfold tH; rw [neg_div, tF_neg (by linarith)]

theorem tG_neg (x : ℝ) : tG ν (-x) = tG ν x := by
  simp only [tG, densT, sub_zero, div_one, neg_sq]

theorem div_atBot {r : ℝ} (hr : 0 < r) : Tendsto (fun x : ℝ => x / r) atBot atBot :=
  tendsto_id.atBot_div_const hr

theorem tP_atBot (hν : 1 < ν) : Tendsto (tP ν) atBot (𝓝 0) := by
  have hν0 : 0 < ν := by linarith
  have h3 : 0 < Real.sqrt ν := Real.sqrt_pos.2 hν0
  have a1 : Tendsto (tT ν) atBot (𝓝 0) := (tF_atBot (by linarith)).comp (div_atBot h3)
  have a2 : Tendsto (tH ν) atBot (𝓝 0) := (tF_atBot (by linarith)).comp (div_atBot h3)
  have a3 : Tendsto (tG ν) atBot (𝓝 0) := by
    have := ((tK_atBot (r := (ν - 1) / 2) (by linarith)).comp (div_atBot h3)).const_mul
      (Real.sqrt ν / ((ν - 1) * betaF (1 / 2) (ν / 2)))
    rw [mul_zero] at this
    exact this.congr fun x => (tG_eq hν x).symm
  have a4 : Tendsto (fun x => x * tT ν x) atBot (𝓝 0) := by
    have := ((tF_mul_atBot (s := (ν + 1) / 2) (by linarith)).comp (div_atBot h3)).const_mul (Real.sqrt ν)
    rw [mul_zero] at this
    refine this.congr fun x => ?_
    simp only [Function.comp, tT]; field_simp
  have := ((a4.mul a1).add ((a3.const_mul 2).mul a1)).sub (a2.const_mul (tBbar ν))
  simp only [mul_zero, add_zero, sub_zero] at this
  refine this.congr fun x => ?_
  unfold tP; ring

theorem tQ_deriv (hν : 1 < ν) (x : ℝ) : HasDerivAt (fun z => -tP ν (-z)) ((1 - tT ν x) ^ 2) x := by
  have := ((tP_deriv hν (-x)).comp x (hasDerivAt_neg x)).neg
  refine this.congr_deriv ?_
  rw [tT_neg (by linarith)]; ring

theorem tQ_atTop (hν : 1 < ν) : Tendsto (fun z => -tP ν (-z)) atTop (𝓝 0) := by
  simpa using ((tP_atBot hν).comp tendsto_neg_atTop_atBot).neg

end Verif
