import Verif.Lemmas.Antideriv
import Verif.Spec.Gtc

/-!
# CRPS of truncated and censored distributions from antiderivatives of the base distribution
-/

noncomputable section

open scoped Classical Topology
open MeasureTheory Filter Set

namespace Verif

open Spec

variable {F p P : ℝ → ℝ}

theorem hasDerivAt_lin {A d c x : ℝ} {p P : ℝ → ℝ} {F : ℝ → ℝ} (hp : HasDerivAt p (F x) x)
    (hP : HasDerivAt P (F x ^ 2) x) :
    HasDerivAt (fun z => A + d ^ 2 * z + 2 * d * c * p z + c ^ 2 * P z) ((d + c * F x) ^ 2) x := by
  have := (((((hasDerivAt_id x).const_mul (d ^ 2)).const_add A).add (hp.const_mul (2 * d * c))).add
    (hP.const_mul (c ^ 2)))
  refine this.congr_deriv ?_
  ring

theorem max_sub_deriv_lt {u x : ℝ} (h : x < u) : HasDerivAt (fun z => max (z - u) 0) 0 x := by
  refine (hasDerivAt_const x (0:ℝ)).congr_of_eventuallyEq ?_
  filter_upwards [gt_mem_nhds h] with z hz
  exact max_eq_right (by linarith [show z < u from hz])

theorem max_sub_deriv_gt {u x : ℝ} (h : u < x) : HasDerivAt (fun z => max (z - u) 0) 1 x := by
  refine ((hasDerivAt_id x).sub_const u).congr_of_eventuallyEq ?_
  filter_upwards [lt_mem_nhds h] with z hz
  exact max_eq_left (by linarith [show u < z from hz])

theorem min_sub_deriv_lt {l x : ℝ} (h : x < l) : HasDerivAt (fun z => min (z - l) 0) 1 x := by
  refine ((hasDerivAt_id x).sub_const l).congr_of_eventuallyEq ?_
  filter_upwards [gt_mem_nhds h] with z hz
  exact min_eq_left (by linarith [show z < l from hz])

theorem min_sub_deriv_gt {l x : ℝ} (h : l < x) : HasDerivAt (fun z => min (z - l) 0) 0 x := by
  refine (hasDerivAt_const x (0:ℝ)).congr_of_eventuallyEq ?_
  filter_upwards [lt_mem_nhds h] with z hz
  exact min_eq_right (by linarith [show l < z from hz])

/-- Two bounds. -/
theorem crps_gtc {l u L U : ℝ} (hF : Monotone F) (hm : Measurable F) (hp : ∀ x, HasDerivAt p (F x) x)
    (hP : ∀ x, HasDerivAt P (F x ^ 2) x) (hlu : l < u) (hFlu : F l < F u) (hL : 0 ≤ L) (hU : 0 ≤ U)
    (hLU : L + U ≤ 1) (y : ℝ) :
    HasCrps (cdfGtc F l u L U) y ∧
    Spec.crps (cdfGtc F l u L U) y =
      (let z := min (max y l) u
       let c := (1 - L - U) / (F u - F l)
       let d := L - c * F l
       |y - z| + (u - z) - 2 * (d * (u - z) + c * (p u - p z))
        + (d ^ 2 * (u - l) + 2 * d * c * (p u - p l) + c ^ 2 * (P u - P l))) := by
  obtain ⟨c, hc⟩ : ∃ c, c = (1 - L - U) / (F u - F l) := ⟨_, rfl⟩
  obtain ⟨d, hd⟩ : ∃ d, d = L - c * F l := ⟨_, rfl⟩
  have hFp : 0 < F u - F l := sub_pos.2 hFlu
  have hcF : c * (F u - F l) = 1 - L - U := by rw [hc]; field_simp
  have hc0 : 0 ≤ c := by rw [hc]; exact div_nonneg (by linarith) hFp.le
  have hG : ∀ x, cdfGtc F l u L U x = if x < l then 0 else if x < u then d + c * F x else 1 := by
    intro x
    unfold cdfGtc
    split_ifs
    · rfl
    · rw [hd, hc]; field_simp; ring
    · rfl
  have hpc : Continuous p := continuous_iff_continuousAt.2 fun x => (hp x).continuousAt
  have hPc : Continuous P := continuous_iff_continuousAt.2 fun x => (hP x).continuousAt
  have hκ : Continuous fun x : ℝ => min (max x l) u := by fun_prop
  have key := crps_of_antideriv (F := cdfGtc F l u L U) (s := {l, u})
    (P := fun x => (0 + d ^ 2 * min (max x l) u + 2 * d * c * p (min (max x l) u)
      + c ^ 2 * P (min (max x l) u)) + max (x - u) 0)
    (Q := fun x => (0 + (1 - d) ^ 2 * min (max x l) u + 2 * (1 - d) * (-c) * p (min (max x l) u)
      + (-c) ^ 2 * P (min (max x l) u)) + min (x - l) 0)
    (p := 0 + d ^ 2 * l + 2 * d * c * p l + c ^ 2 * P l + 0)
    (q := 0 + (1 - d) ^ 2 * u + 2 * (1 - d) * (-c) * p u + (-c) ^ 2 * P u + 0)
    (toFinite _).countable ?_ ?_ ?_ ?_ ?_ ?_ ?_ ?_ ?_ y
  · refine ⟨key.1, key.2.trans ?_⟩
    simp only [← hc, ← hd]
    rcases le_total y l with h1 | h1
    · rw [max_eq_right h1, min_eq_left hlu.le, max_eq_right (by linarith), min_eq_left (by linarith),
        abs_of_nonpos (by linarith)]
      ring
    rcases le_total y u with h2 | h2
    · rw [max_eq_left h1, min_eq_left h2, max_eq_right (by linarith), min_eq_right (by linarith), sub_self,
        abs_zero]
      ring
    · rw [max_eq_left h1, min_eq_right h2, max_eq_left (by linarith), min_eq_right (by linarith),
        abs_of_nonneg (by linarith)]
      ring
  · have : cdfGtc F l u L U = fun x => if x < l then 0 else if x < u then d + c * F x else 1 := funext hG
    rw [this]
    exact Measurable.ite measurableSet_Iio measurable_const
      (Measurable.ite measurableSet_Iio (measurable_const.add (measurable_const.mul hm)) measurable_const)
  · intro x
    rw [hG]
    split_ifs with h1 h2
    · exact le_rfl
    · have := mul_le_mul_of_nonneg_left (hF (not_lt.1 h1)) hc0
      rw [hd]; linarith
    · exact zero_le_one
  · intro x
    rw [hG]
    split_ifs with h1 h2
    · exact zero_le_one
    · have := mul_le_mul_of_nonneg_left (hF h2.le) hc0
      rw [hd]; linarith
    · exact le_rfl
  · fun_prop
  · intro x hx
    simp only [mem_insert_iff, mem_singleton_iff, not_or] at hx
    rw [hG]
    rcases lt_or_gt_of_ne hx.1 with h1 | h1
    · rw [if_pos h1]
      have e : (fun x => (0 + d ^ 2 * min (max x l) u + 2 * d * c * p (min (max x l) u)
          + c ^ 2 * P (min (max x l) u))) =ᶠ[𝓝 x]
          fun _ => 0 + d ^ 2 * l + 2 * d * c * p l + c ^ 2 * P l := by
        filter_upwards [gt_mem_nhds h1] with z hz
        rw [max_eq_right (le_of_lt hz), min_eq_left hlu.le]
      refine (((hasDerivAt_const x _).congr_of_eventuallyEq e).add
        (max_sub_deriv_lt (h1.trans hlu))).congr_deriv (by ring)
    rcases lt_or_gt_of_ne hx.2 with h2 | h2
    · rw [if_neg (not_lt.2 h1.le), if_pos h2]
      have e : (fun x => (0 + d ^ 2 * min (max x l) u + 2 * d * c * p (min (max x l) u)
          + c ^ 2 * P (min (max x l) u))) =ᶠ[𝓝 x]
          fun x => 0 + d ^ 2 * x + 2 * d * c * p x + c ^ 2 * P x := by
        filter_upwards [lt_mem_nhds h1, gt_mem_nhds h2] with z hz hz'
        rw [max_eq_left (le_of_lt hz), min_eq_left (le_of_lt hz')]
      refine (((hasDerivAt_lin (hp x) (hP x)).congr_of_eventuallyEq e).add
        (max_sub_deriv_lt h2)).congr_deriv (by ring)
    · rw [if_neg (not_lt.2 h1.le), if_neg (not_lt.2 h2.le)]
      have e : (fun x => (0 + d ^ 2 * min (max x l) u + 2 * d * c * p (min (max x l) u)
          + c ^ 2 * P (min (max x l) u))) =ᶠ[𝓝 x]
          fun _ => 0 + d ^ 2 * u + 2 * d * c * p u + c ^ 2 * P u := by
        filter_upwards [lt_mem_nhds h1, lt_mem_nhds h2] with z hz hz'
        rw [max_eq_left (le_of_lt hz), min_eq_right (le_of_lt hz')]
      refine (((hasDerivAt_const x _).congr_of_eventuallyEq e).add
        (max_sub_deriv_gt h2)).congr_deriv (by ring)
  · fun_prop
  · intro x hx
    simp only [mem_insert_iff, mem_singleton_iff, not_or] at hx
    rw [hG]
    rcases lt_or_gt_of_ne hx.1 with h1 | h1
    · rw [if_pos h1]
      have e : (fun x => (0 + (1 - d) ^ 2 * min (max x l) u + 2 * (1 - d) * (-c) * p (min (max x l) u)
          + (-c) ^ 2 * P (min (max x l) u))) =ᶠ[𝓝 x]
          fun _ => 0 + (1 - d) ^ 2 * l + 2 * (1 - d) * (-c) * p l + (-c) ^ 2 * P l := by
        filter_upwards [gt_mem_nhds h1] with z hz
        rw [max_eq_right (le_of_lt hz), min_eq_left hlu.le]
      refine (((hasDerivAt_const x _).congr_of_eventuallyEq e).add
        (min_sub_deriv_lt h1)).congr_deriv (by ring)
    rcases lt_or_gt_of_ne hx.2 with h2 | h2
    · rw [if_neg (not_lt.2 h1.le), if_pos h2]
      have e : (fun x => (0 + (1 - d) ^ 2 * min (max x l) u + 2 * (1 - d) * (-c) * p (min (max x l) u)
          + (-c) ^ 2 * P (min (max x l) u))) =ᶠ[𝓝 x]
          fun x => 0 + (1 - d) ^ 2 * x + 2 * (1 - d) * (-c) * p x + (-c) ^ 2 * P x := by
        filter_upwards [lt_mem_nhds h1, gt_mem_nhds h2] with z hz hz'
        rw [max_eq_left (le_of_lt hz), min_eq_left (le_of_lt hz')]
      refine (((hasDerivAt_lin (hp x) (hP x)).congr_of_eventuallyEq e).add
        (min_sub_deriv_gt h1)).congr_deriv (by ring)
    · rw [if_neg (not_lt.2 h1.le), if_neg (not_lt.2 h2.le)]
      have e : (fun x => (0 + (1 - d) ^ 2 * min (max x l) u + 2 * (1 - d) * (-c) * p (min (max x l) u)
          + (-c) ^ 2 * P (min (max x l) u))) =ᶠ[𝓝 x]
          fun _ => 0 + (1 - d) ^ 2 * u + 2 * (1 - d) * (-c) * p u + (-c) ^ 2 * P u := by
        filter_upwards [lt_mem_nhds h1, lt_mem_nhds h2] with z hz hz'
        rw [max_eq_left (le_of_lt hz), min_eq_right (le_of_lt hz')]
      refine (((hasDerivAt_const x _).congr_of_eventuallyEq e).add
        (min_sub_deriv_gt h1)).congr_deriv (by ring)
  · refine tendsto_const_nhds.congr' ?_
    filter_upwards [eventually_le_atBot l] with z hz
    rw [max_eq_right hz, min_eq_left hlu.le, max_eq_right (by linarith)]
  · refine tendsto_const_nhds.congr' ?_
    filter_upwards [eventually_ge_atTop u] with z hz
    rw [max_eq_left (hlu.le.trans hz), min_eq_right hz, min_eq_right (by linarith)]

/-- An upper bound only; `P` vanishes at minus infinity. -/
theorem crps_gtcUp {u U : ℝ} (hF : Monotone F) (hm : Measurable F) (h0 : ∀ x, 0 ≤ F x)
    (hp : ∀ x, HasDerivAt p (F x) x)
    (hP : ∀ x, HasDerivAt P (F x ^ 2) x) (hbot : Tendsto P atBot (𝓝 0)) (hFu : 0 < F u) (hU : 0 ≤ U)
    (hU1 : U ≤ 1) (y : ℝ) :
    HasCrps (cdfGtcUp F u U) y ∧
    Spec.crps (cdfGtcUp F u U) y =
      (let z := min y u
       let c := (1 - U) / F u
       |y - z| + (u - z) - 2 * c * (p u - p z) + c ^ 2 * P u) := by
  obtain ⟨c, hc⟩ : ∃ c, c = (1 - U) / F u := ⟨_, rfl⟩
  have hcF : c * F u = 1 - U := by rw [hc]; field_simp
  have hc0 : 0 ≤ c := by rw [hc]; exact div_nonneg (by linarith) hFu.le
  have hG : ∀ x, cdfGtcUp F u U x = if x < u then c * F x else 1 := by
    intro x
    unfold cdfGtcUp
    split_ifs
    · rw [hc]; field_simp
    · rfl
  have hpc : Continuous p := continuous_iff_continuousAt.2 fun x => (hp x).continuousAt
  have hPc : Continuous P := continuous_iff_continuousAt.2 fun x => (hP x).continuousAt
  have key := crps_of_antideriv (F := cdfGtcUp F u U) (s := {u})
    (P := fun x => (0 + 0 ^ 2 * min x u + 2 * 0 * c * p (min x u) + c ^ 2 * P (min x u)) + max (x - u) 0)
    (Q := fun x => (0 + 1 ^ 2 * min x u + 2 * 1 * (-c) * p (min x u) + (-c) ^ 2 * P (min x u)))
    (p := 0) (q := 0 + 1 ^ 2 * u + 2 * 1 * (-c) * p u + (-c) ^ 2 * P u)
    (countable_singleton _) ?_ ?_ ?_ ?_ ?_ ?_ ?_ ?_ ?_ y
  · refine ⟨key.1, key.2.trans ?_⟩
    simp only [← hc]
    rcases le_total y u with h2 | h2
    · rw [min_eq_left h2, max_eq_right (by linarith), sub_self, abs_zero]
      ring
    · rw [min_eq_right h2, max_eq_left (by linarith), abs_of_nonneg (by linarith)]
      ring
  · have : cdfGtcUp F u U = fun x => if x < u then c * F x else 1 := funext hG
    rw [this]
    exact Measurable.ite measurableSet_Iio (measurable_const.mul hm) measurable_const
  · intro x
    rw [hG]
    split_ifs with h1
    · exact mul_nonneg hc0 (h0 x)
    · exact zero_le_one
  · intro x
    rw [hG]
    split_ifs with h1
    · have := mul_le_mul_of_nonneg_left (hF h1.le) hc0
      linarith
    · exact le_rfl
  · fun_prop
  · intro x hx
    rw [mem_singleton_iff] at hx
    rw [hG]
    rcases lt_or_gt_of_ne hx with h2 | h2
    · rw [if_pos h2]
      have e : (fun x => (0 + 0 ^ 2 * min x u + 2 * 0 * c * p (min x u) + c ^ 2 * P (min x u))) =ᶠ[𝓝 x]
          fun x => 0 + 0 ^ 2 * x + 2 * 0 * c * p x + c ^ 2 * P x := by
        filter_upwards [gt_mem_nhds h2] with z hz'
        rw [min_eq_left (le_of_lt hz')]
      refine (((hasDerivAt_lin (hp x) (hP x)).congr_of_eventuallyEq e).add
        (max_sub_deriv_lt h2)).congr_deriv (by ring)
    · rw [if_neg (not_lt.2 h2.le)]
      have e : (fun x => (0 + 0 ^ 2 * min x u + 2 * 0 * c * p (min x u) + c ^ 2 * P (min x u))) =ᶠ[𝓝 x]
          fun _ => 0 + 0 ^ 2 * u + 2 * 0 * c * p u + c ^ 2 * P u := by
        filter_upwards [lt_mem_nhds h2] with z hz'
        rw [min_eq_right (le_of_lt hz')]
      refine (((hasDerivAt_const x _).congr_of_eventuallyEq e).add
        (max_sub_deriv_gt h2)).congr_deriv (by ring)
  · fun_prop
  · intro x hx
    rw [mem_singleton_iff] at hx
    rw [hG]
    rcases lt_or_gt_of_ne hx with h2 | h2
    · rw [if_pos h2]
      have e : (fun x => (0 + 1 ^ 2 * min x u + 2 * 1 * (-c) * p (min x u) + (-c) ^ 2 * P (min x u)))
          =ᶠ[𝓝 x] fun x => 0 + 1 ^ 2 * x + 2 * 1 * (-c) * p x + (-c) ^ 2 * P x := by
        filter_upwards [gt_mem_nhds h2] with z hz'
        rw [min_eq_left (le_of_lt hz')]
      exact ((hasDerivAt_lin (hp x) (hP x)).congr_of_eventuallyEq e).congr_deriv (by ring)
    · rw [if_neg (not_lt.2 h2.le)]
      have e : (fun x => (0 + 1 ^ 2 * min x u + 2 * 1 * (-c) * p (min x u) + (-c) ^ 2 * P (min x u)))
          =ᶠ[𝓝 x] fun _ => 0 + 1 ^ 2 * u + 2 * 1 * (-c) * p u + (-c) ^ 2 * P u := by
        filter_upwards [lt_mem_nhds h2] with z hz'
        rw [min_eq_right (le_of_lt hz')]
      exact ((hasDerivAt_const x _).congr_of_eventuallyEq e).congr_deriv (by ring)
  · have := hbot.const_mul (c ^ 2)
    rw [mul_zero] at this
    refine this.congr' ?_
    filter_upwards [eventually_le_atBot u] with z hz
    rw [min_eq_left hz, max_eq_right (by linarith)]
    ring
  · refine tendsto_const_nhds.congr' ?_
    filter_upwards [eventually_ge_atTop u] with z hz
    rw [min_eq_right hz]

/-- A lower bound only; `Q` is an antiderivative of the squared complement, vanishing at infinity. -/
theorem crps_gtcLo {Q : ℝ → ℝ} {l L : ℝ} (hF : Monotone F) (hm : Measurable F) (h1 : ∀ x, F x ≤ 1)
    (hp : ∀ x, HasDerivAt p (F x) x) (hP : ∀ x, HasDerivAt P (F x ^ 2) x)
    (hQ : ∀ x, HasDerivAt Q ((1 - F x) ^ 2) x) (htop : Tendsto Q atTop (𝓝 0)) (hFl : F l < 1)
    (hL : 0 ≤ L) (hL1 : L ≤ 1) (y : ℝ) :
    HasCrps (cdfGtcLo F l L) y ∧
    Spec.crps (cdfGtcLo F l L) y =
      (let z := max y l
       let c := (1 - L) / (1 - F l)
       let d := 1 - c
       |y - z| + (d ^ 2 * (z - l) + 2 * d * c * (p z - p l) + c ^ 2 * (P z - P l)) - c ^ 2 * Q z) := by
  obtain ⟨c, hc⟩ : ∃ c, c = (1 - L) / (1 - F l) := ⟨_, rfl⟩
  obtain ⟨d, hd⟩ : ∃ d, d = 1 - c := ⟨_, rfl⟩
  have hFp : 0 < 1 - F l := by linarith
  have hcF : c * (1 - F l) = 1 - L := by rw [hc]; field_simp
  have hc0 : 0 ≤ c := by rw [hc]; exact div_nonneg (by linarith) hFp.le
  have hG : ∀ x, cdfGtcLo F l L x = if x < l then 0 else d + c * F x := by
    intro x
    unfold cdfGtcLo
    split_ifs
    · rfl
    · rw [hd, hc]; field_simp; ring
  have hpc : Continuous p := continuous_iff_continuousAt.2 fun x => (hp x).continuousAt
  have hPc : Continuous P := continuous_iff_continuousAt.2 fun x => (hP x).continuousAt
  have hQc : Continuous Q := continuous_iff_continuousAt.2 fun x => (hQ x).continuousAt
  have key := crps_of_antideriv (F := cdfGtcLo F l L) (s := {l})
    (P := fun x => (0 + d ^ 2 * max x l + 2 * d * c * p (max x l) + c ^ 2 * P (max x l)))
    (Q := fun x => c ^ 2 * Q (max x l) + min (x - l) 0)
    (p := 0 + d ^ 2 * l + 2 * d * c * p l + c ^ 2 * P l) (q := 0)
    (countable_singleton _) ?_ ?_ ?_ ?_ ?_ ?_ ?_ ?_ ?_ y
  · refine ⟨key.1, key.2.trans ?_⟩
    simp only [← hc, ← hd]
    rcases le_total y l with h2 | h2
    · rw [max_eq_right h2, min_eq_left (by linarith), abs_of_nonpos (by linarith)]
      ring
    · rw [max_eq_left h2, min_eq_right (by linarith), sub_self, abs_zero]
      ring
  · have : cdfGtcLo F l L = fun x => if x < l then 0 else d + c * F x := funext hG
    rw [this]
    exact Measurable.ite measurableSet_Iio measurable_const (measurable_const.add (measurable_const.mul hm))
  · intro x
    rw [hG]
    split_ifs with h2
    · exact le_rfl
    · have := mul_le_mul_of_nonneg_left (hF (not_lt.1 h2)) hc0
      rw [hd]; linarith
  · intro x
    rw [hG]
    split_ifs with h2
    · exact zero_le_one
    · have := mul_le_mul_of_nonneg_left (h1 x) hc0
      rw [hd]; linarith
  · fun_prop
  · intro x hx
    rw [mem_singleton_iff] at hx
    rw [hG]
    rcases lt_or_gt_of_ne hx with h2 | h2
    · rw [if_pos h2]
      have e : (fun x => (0 + d ^ 2 * max x l + 2 * d * c * p (max x l) + c ^ 2 * P (max x l))) =ᶠ[𝓝 x]
          fun _ => 0 + d ^ 2 * l + 2 * d * c * p l + c ^ 2 * P l := by
        filter_upwards [gt_mem_nhds h2] with z hz'
        rw [max_eq_right (le_of_lt hz')]
      exact ((hasDerivAt_const x _).congr_of_eventuallyEq e).congr_deriv (by ring)
    · rw [if_neg (not_lt.2 h2.le)]
      have e : (fun x => (0 + d ^ 2 * max x l + 2 * d * c * p (max x l) + c ^ 2 * P (max x l))) =ᶠ[𝓝 x]
          fun x => 0 + d ^ 2 * x + 2 * d * c * p x + c ^ 2 * P x := by
        filter_upwards [lt_mem_nhds h2] with z hz'
        rw [max_eq_left (le_of_lt hz')]
      exact (hasDerivAt_lin (hp x) (hP x)).congr_of_eventuallyEq e
  · fun_prop
  · intro x hx
    rw [mem_singleton_iff] at hx
    rw [hG]
    rcases lt_or_gt_of_ne hx with h2 | h2
    · rw [if_pos h2]
      have e : (fun x => c ^ 2 * Q (max x l)) =ᶠ[𝓝 x] fun _ => c ^ 2 * Q l := by
        filter_upwards [gt_mem_nhds h2] with z hz'
        rw [max_eq_right (le_of_lt hz')]
      exact (((hasDerivAt_const x _).congr_of_eventuallyEq e).add
        (min_sub_deriv_lt h2)).congr_deriv (by ring)
    · rw [if_neg (not_lt.2 h2.le)]
      have e : (fun x => c ^ 2 * Q (max x l)) =ᶠ[𝓝 x] fun x => c ^ 2 * Q x := by
        filter_upwards [lt_mem_nhds h2] with z hz'
        rw [max_eq_left (le_of_lt hz')]
      refine ((((hQ x).const_mul (c ^ 2)).congr_of_eventuallyEq e).add
        (min_sub_deriv_gt h2)).congr_deriv ?_
      rw [hd]; ring
  · refine tendsto_const_nhds.congr' ?_
    filter_upwards [eventually_le_atBot l] with z hz
    rw [max_eq_right hz]
  · have := htop.const_mul (c ^ 2)
    rw [mul_zero] at this
    refine this.congr' ?_
    filter_upwards [eventually_ge_atTop l] with z hz
    rw [max_eq_left hz, min_eq_right (by linarith), add_zero]

/-! ### location and scale -/

theorem cdfGtc_scale (F : ℝ → ℝ) (μ : ℝ) {σ : ℝ} (hσ : 0 < σ) (l u L U : ℝ) :
    cdfGtc (fun x => F ((x - μ) / σ)) l u L U
      = fun x => cdfGtc F ((l - μ) / σ) ((u - μ) / σ) L U ((x - μ) / σ) := by
  funext x
  have h : ∀ a b : ℝ, (a - μ) / σ < (b - μ) / σ ↔ a < b := fun a b => by
    rw [div_lt_div_iff_of_pos_right hσ, sub_lt_sub_iff_right]
  unfold cdfGtc
  simp only [h]

theorem cdfGtcLo_scale (F : ℝ → ℝ) (μ : ℝ) {σ : ℝ} (hσ : 0 < σ) (l L : ℝ) :
    cdfGtcLo (fun x => F ((x - μ) / σ)) l L = fun x => cdfGtcLo F ((l - μ) / σ) L ((x - μ) / σ) := by
  funext x
  have h : ∀ a b : ℝ, (a - μ) / σ < (b - μ) / σ ↔ a < b := fun a b => by
    rw [div_lt_div_iff_of_pos_right hσ, sub_lt_sub_iff_right]
  unfold cdfGtcLo
  simp only [h]

theorem cdfGtcUp_scale (F : ℝ → ℝ) (μ : ℝ) {σ : ℝ} (hσ : 0 < σ) (u U : ℝ) :
    cdfGtcUp (fun x => F ((x - μ) / σ)) u U = fun x => cdfGtcUp F ((u - μ) / σ) U ((x - μ) / σ) := by
  funext x
  have h : ∀ a b : ℝ, (a - μ) / σ < (b - μ) / σ ↔ a < b := fun a b => by
    rw [div_lt_div_iff_of_pos_right hσ, sub_lt_sub_iff_right]
  unfold cdfGtcUp
  simp only [h]

/-! ### truncation and censoring as special cases -/

theorem cdfGtc_trunc (F : ℝ → ℝ) (l u : ℝ) : cdfGtc F l u 0 0 = cdfTrunc F l u := by
  funext x; simp [cdfGtc, cdfTrunc]

theorem cdfGtcLo_trunc (F : ℝ → ℝ) (l : ℝ) : cdfGtcLo F l 0 = cdfTruncLo F l := by
  funext x; simp [cdfGtcLo, cdfTruncLo]

theorem cdfGtcUp_trunc (F : ℝ → ℝ) (u : ℝ) : cdfGtcUp F u 0 = cdfTruncUp F u := by
  funext x; simp [cdfGtcUp, cdfTruncUp]

theorem cdfGtc_cens {l u : ℝ} (h : F l < F u) : cdfGtc F l u (F l) (1 - F u) = cdfCens F l u := by
  funext x
  unfold cdfGtc cdfCens
  have h' : F u - F l ≠ 0 := (sub_pos.2 h).ne'
  split_ifs
  · rfl
  · field_simp; ring
  · rfl

theorem cdfGtcLo_cens {l : ℝ} (h : F l < 1) : cdfGtcLo F l (F l) = cdfCensLo F l := by
  funext x
  unfold cdfGtcLo cdfCensLo
  have h' : 1 - F l ≠ 0 := (sub_pos.2 h).ne'
  split_ifs
  · rfl
  · field_simp; ring

theorem cdfGtcUp_cens {u : ℝ} (h : 0 < F u) : cdfGtcUp F u (1 - F u) = cdfCensUp F u := by
  funext x
  unfold cdfGtcUp cdfCensUp
  split_ifs
  · field_simp; ring
  · rfl

end Verif
