import Verif.Spec.FarBounds
import Verif.Lemmas.CrpsShape

/-!
# Truncating or censoring far away changes the CRPS little
-/

noncomputable section

open scoped Classical Topology
open MeasureTheory Filter

namespace Verif

open XF Spec

/-- A function with a CRPS comes close to zero … -/
theorem crps_atBot {F : ℝ → ℝ} (hF : Monotone F) {y : ℝ} (h : HasCrps F y) : Tendsto F atBot (𝓝 0) := by
  have hs : ∀ ε > 0, ∃ z, F z < ε := by
    intro ε hε
    by_contra hz
    push Not at hz
    unfold HasCrps at h
    have h1 := h.integrableOn (s := Set.Iio y)
    have h2 : IntegrableOn (fun _ : ℝ => ε ^ 2) (Set.Iio y) := by
      refine Integrable.mono' h1 aestronglyMeasurable_const ?_
      rw [ae_restrict_iff' measurableSet_Iio]
      refine ae_of_all _ fun t ht => ?_
      have ht' : t < y := ht
      rw [if_neg (not_le.2 ht'), sub_zero, Real.norm_eq_abs, abs_of_nonneg (sq_nonneg _)]
      have := hz t
      nlinarith
    rw [IntegrableOn, integrable_const_iff_isFiniteMeasure (pow_ne_zero 2 hε.ne')] at h2
    have := h2.measure_univ_lt_top
    simp at this
  rw [Metric.tendsto_nhds]
  intro ε hε
  obtain ⟨z, hz⟩ := hs ε hε
  filter_upwards [eventually_le_atBot z] with t ht
  rw [Real.dist_eq, sub_zero, abs_of_nonneg (crps_bounds hF h t).1]
  exact (hF ht).trans_lt hz

/-- … and to one. -/
theorem crps_atTop {F : ℝ → ℝ} (hF : Monotone F) {y : ℝ} (h : HasCrps F y) : Tendsto F atTop (𝓝 1) := by
  have hs : ∀ ε > 0, ∃ z, 1 - F z < ε := by
    intro ε hε
    by_contra hz
    push Not at hz
    unfold HasCrps at h
    have h1 := h.integrableOn (s := Set.Ioi y)
    have h2 : IntegrableOn (fun _ : ℝ => ε ^ 2) (Set.Ioi y) := by
      refine Integrable.mono' h1 aestronglyMeasurable_const ?_
      rw [ae_restrict_iff' measurableSet_Ioi]
      refine ae_of_all _ fun t ht => ?_
      have ht' : y < t := ht
      rw [if_pos ht'.le, Real.norm_eq_abs, abs_of_nonneg (sq_nonneg _)]
      have := hz t
      nlinarith
    rw [IntegrableOn, integrable_const_iff_isFiniteMeasure (pow_ne_zero 2 hε.ne')] at h2
    have := h2.measure_univ_lt_top
    simp at this
  rw [Metric.tendsto_nhds]
  intro ε hε
  obtain ⟨z, hz⟩ := hs ε hε
  filter_upwards [eventually_ge_atTop z] with t ht
  rw [Real.dist_eq, abs_sub_comm, abs_of_nonneg (by linarith [(crps_bounds hF h t).2])]
  linarith [hF ht]

theorem far_of_tendsto {S : ℝ → ℝ → XF} {v : XF} {s : ℝ → ℝ → ℝ} {c : ℝ} (hv : v = fin c)
    (hS : ∀ᶠ p : ℝ × ℝ in atBot ×ˢ atTop, S p.1 p.2 = fin (s p.1 p.2))
    (h : Tendsto (fun p : ℝ × ℝ => s p.1 p.2) (atBot ×ˢ atTop) (𝓝 c)) : FarBounds S v := by
  refine ⟨c, hv, fun ε hε => ?_⟩
  rw [Metric.tendsto_nhds] at h
  have h1 := (h ε hε).and hS
  rw [eventually_prod_iff] at h1
  obtain ⟨P, hP, Q, hQ, h2⟩ := h1
  obtain ⟨a, ha⟩ := eventually_atBot.1 hP
  obtain ⟨b, hb⟩ := eventually_atTop.1 hQ
  refine ⟨max (-a) b, fun l u hl hu => ?_⟩
  obtain ⟨h3, h4⟩ := h2 (ha l (by linarith [le_max_left (-a) b])) (hb u (by linarith [le_max_right (-a) b]))
  exact ⟨s l u, h4, by rwa [Real.dist_eq] at h3⟩

theorem cdfTrunc_mono {F : ℝ → ℝ} (hF : Monotone F) {l u : ℝ} (hlu : l ≤ u) : Monotone (cdfTrunc F l u) := by
  have := cdfGtc_mono hF hlu le_rfl le_rfl (by norm_num : (0:ℝ) + 0 ≤ 1)
  have e : cdfGtc F l u 0 0 = cdfTrunc F l u := by
    funext x
    unfold cdfGtc cdfTrunc
    simp
  rwa [e] at this

theorem cdfCens_mono {F : ℝ → ℝ} (hF : Monotone F) (h0 : ∀ z, 0 ≤ F z) (h1 : ∀ z, F z ≤ 1) (l u : ℝ) :
    Monotone (cdfCens F l u) := by
  intro a b hab
  unfold cdfCens
  split_ifs <;> first | linarith | exact h0 _ | exact h1 _ | exact hF hab

theorem trunc_tendsto {F : ℝ → ℝ} (hF : Monotone F) {y : ℝ} (h : HasCrps F y) :
    Tendsto (fun p : ℝ × ℝ => crps (cdfTrunc F p.1 p.2) y) (atBot ×ˢ atTop) (𝓝 (crps F y)) := by
  have hb := crps_bounds hF h
  have t0 : Tendsto (fun p : ℝ × ℝ => F p.1) (atBot ×ˢ atTop) (𝓝 0) := (crps_atBot hF h).comp tendsto_fst
  have t1 : Tendsto (fun p : ℝ × ℝ => F p.2) (atBot ×ˢ atTop) (𝓝 1) := (crps_atTop hF h).comp tendsto_snd
  have e1 : ∀ᶠ p : ℝ × ℝ in atBot ×ˢ atTop, F p.1 < 1 / 4 := t0.eventually_lt_const (by norm_num)
  have e2 : ∀ᶠ p : ℝ × ℝ in atBot ×ˢ atTop, 3 / 4 < F p.2 := t1.eventually_const_lt (by norm_num)
  have e3 : ∀ a : ℝ, ∀ᶠ p : ℝ × ℝ in atBot ×ˢ atTop, p.1 ≤ a := fun a => tendsto_fst.eventually (eventually_le_atBot a)
  have e4 : ∀ a : ℝ, ∀ᶠ p : ℝ × ℝ in atBot ×ˢ atTop, a < p.2 := fun a => tendsto_snd.eventually (eventually_gt_atTop a)
  unfold crps
  refine tendsto_integral_filter_of_dominated_convergence (fun z => 4 * (F z - if y ≤ z then 1 else 0) ^ 2) ?_ ?_
    (h.const_mul 4) ?_
  · filter_upwards [e3 0, e4 0] with p h3 h4
    have := (cdfTrunc_mono hF (h3.trans h4.le)).measurable
    exact ((this.sub (Measurable.ite measurableSet_Ici measurable_const measurable_const)).pow_const 2).aestronglyMeasurable
  · filter_upwards [e1, e2, e3 y, e4 y] with p h1 h2 h3 h4
    refine ae_of_all _ fun z => ?_
    rw [Real.norm_eq_abs, abs_of_nonneg (sq_nonneg _)]
    have hd : 0 < F p.2 - F p.1 := by linarith
    have hz := hb z
    have hl := hb p.1
    have hu := hb p.2
    unfold cdfTrunc
    by_cases hy : y ≤ z
    · rw [if_pos hy, if_neg (not_lt.2 (h3.trans hy))]
      split_ifs with h6
      · have e : (F z - F p.1) / (F p.2 - F p.1) - 1 = -((F p.2 - F z) / (F p.2 - F p.1)) := by field_simp; ring
        have h7 : (F p.2 - F z) / (F p.2 - F p.1) ≤ 2 * (1 - F z) := by
          rw [div_le_iff₀ hd]; nlinarith
        have h8 : 0 ≤ (F p.2 - F z) / (F p.2 - F p.1) := div_nonneg (sub_nonneg.2 (hF h6.le)) hd.le
        rw [e]
        nlinarith
      · rw [sub_self]; nlinarith [sq_nonneg (F z - 1)]
    · rw [if_neg hy, sub_zero, sub_zero]
      split_ifs with h5 h6
      · nlinarith [sq_nonneg (F z)]
      · have h7 : (F z - F p.1) / (F p.2 - F p.1) ≤ 2 * F z := by
          rw [div_le_iff₀ hd]; nlinarith
        have h8 : 0 ≤ (F z - F p.1) / (F p.2 - F p.1) := div_nonneg (sub_nonneg.2 (hF (not_lt.1 h5))) hd.le
        nlinarith
      · exact absurd (lt_of_lt_of_le (not_le.1 hy) h4.le) h6
  · refine ae_of_all _ fun z => ?_
    have t : Tendsto (fun p : ℝ × ℝ => (F z - F p.1) / (F p.2 - F p.1)) (atBot ×ˢ atTop) (𝓝 ((F z - 0) / (1 - 0))) :=
      (tendsto_const_nhds.sub t0).div (t1.sub t0) (by norm_num)
    rw [sub_zero, sub_zero, div_one] at t
    refine Tendsto.pow (Tendsto.sub (t.congr' ?_) tendsto_const_nhds) 2
    filter_upwards [e3 z, e4 z] with p h3 h4
    rw [cdfTrunc, if_neg (not_lt.2 h3), if_pos h4]

theorem cens_le {F : ℝ → ℝ} {y l u z : ℝ} (hl : l ≤ y) (hu : y ≤ u) :
    (cdfCens F l u z - if y ≤ z then 1 else 0) ^ 2 ≤ (F z - if y ≤ z then 1 else 0) ^ 2 := by
  unfold cdfCens
  by_cases hy : y ≤ z
  · rw [if_pos hy, if_neg (not_lt.2 (hl.trans hy))]
    split_ifs
    · exact le_rfl
    · rw [sub_self]; nlinarith [sq_nonneg (F z - 1)]
  · rw [if_neg hy, sub_zero, sub_zero, if_pos (lt_of_lt_of_le (not_le.1 hy) hu)]
    split_ifs
    · nlinarith [sq_nonneg (F z)]
    · exact le_rfl

theorem cens_tendsto {F : ℝ → ℝ} (hF : Monotone F) {y : ℝ} (h : HasCrps F y) :
    Tendsto (fun p : ℝ × ℝ => crps (cdfCens F p.1 p.2) y) (atBot ×ˢ atTop) (𝓝 (crps F y)) := by
  have hb := crps_bounds hF h
  have e3 : ∀ a : ℝ, ∀ᶠ p : ℝ × ℝ in atBot ×ˢ atTop, p.1 ≤ a := fun a => tendsto_fst.eventually (eventually_le_atBot a)
  have e4 : ∀ a : ℝ, ∀ᶠ p : ℝ × ℝ in atBot ×ˢ atTop, a < p.2 := fun a => tendsto_snd.eventually (eventually_gt_atTop a)
  unfold crps
  refine tendsto_integral_filter_of_dominated_convergence (fun z => (F z - if y ≤ z then 1 else 0) ^ 2) ?_ ?_ h ?_
  · refine Eventually.of_forall fun p => ?_
    have := (cdfCens_mono hF (fun z => (hb z).1) (fun z => (hb z).2) p.1 p.2).measurable
    exact ((this.sub (Measurable.ite measurableSet_Ici measurable_const measurable_const)).pow_const 2).aestronglyMeasurable
  · filter_upwards [e3 y, e4 y] with p h3 h4
    refine ae_of_all _ fun z => ?_
    rw [Real.norm_eq_abs, abs_of_nonneg (sq_nonneg _)]
    exact cens_le h3 h4.le
  · refine ae_of_all _ fun z => ?_
    refine Tendsto.pow (Tendsto.sub (tendsto_const_nhds.congr' ?_) tendsto_const_nhds) 2
    filter_upwards [e3 z, e4 z] with p h3 h4
    rw [cdfCens, if_neg (not_lt.2 h3), if_pos h4]

/-- censoring at bounds around the observation -/
theorem cens_crps_le {F : ℝ → ℝ} {y l u : ℝ} (h : HasCrps F y) (hl : l ≤ y) (hu : y ≤ u) :
    crps (cdfCens F l u) y ≤ crps F y :=
  integral_mono_of_nonneg (ae_of_all _ fun _ => sq_nonneg _) h (ae_of_all _ fun _ => cens_le hl hu)

theorem log_trunc_tendsto {f F : ℝ → ℝ} (h0 : Tendsto F atBot (𝓝 0)) (h1 : Tendsto F atTop (𝓝 1)) {y : ℝ}
    (hf : 0 < f y) :
    FarBounds (fun l u => negLog (densTrunc f F l u y)) (negLog (f y)) := by
  have t0 : Tendsto (fun p : ℝ × ℝ => F p.1) (atBot ×ˢ atTop) (𝓝 0) := h0.comp tendsto_fst
  have t1 : Tendsto (fun p : ℝ × ℝ => F p.2) (atBot ×ˢ atTop) (𝓝 1) := h1.comp tendsto_snd
  have e1 : ∀ᶠ p : ℝ × ℝ in atBot ×ˢ atTop, F p.1 < 1 / 4 := t0.eventually_lt_const (by norm_num)
  have e2 : ∀ᶠ p : ℝ × ℝ in atBot ×ˢ atTop, 3 / 4 < F p.2 := t1.eventually_const_lt (by norm_num)
  have e3 : ∀ a : ℝ, ∀ᶠ p : ℝ × ℝ in atBot ×ˢ atTop, p.1 ≤ a := fun a => tendsto_fst.eventually (eventually_le_atBot a)
  have e4 : ∀ a : ℝ, ∀ᶠ p : ℝ × ℝ in atBot ×ˢ atTop, a ≤ p.2 := fun a => tendsto_snd.eventually (eventually_ge_atTop a)
  refine far_of_tendsto (c := -Real.log (f y)) (s := fun l u => -Real.log (f y / (F u - F l))) (by rw [negLog, if_neg hf.ne']) ?_ ?_
  · filter_upwards [e1, e2, e3 y, e4 y] with p h2 h3 h4 h5
    have hd : 0 < F p.2 - F p.1 := by linarith
    have : densTrunc f F p.1 p.2 y = f y / (F p.2 - F p.1) := by
      unfold densTrunc
      simp [h4, h5]
    rw [this, negLog, if_neg (by positivity)]
  · have t : Tendsto (fun p : ℝ × ℝ => f y / (F p.2 - F p.1)) (atBot ×ˢ atTop) (𝓝 (f y / (1 - 0))) :=
      tendsto_const_nhds.div (t1.sub t0) (by norm_num)
    rw [sub_zero, div_one] at t
    exact (t.log hf.ne').neg

end Verif
