import Verif.Lemmas.Density

/-!
# Distribution functions with a derivative off a finite set, and the densities of the families
-/

noncomputable section

open scoped Classical Topology
open MeasureTheory Filter Set

namespace Verif

open Spec

/-- `F` is a continuous distribution function with derivative `f` off a finite set. -/
structure DiffDist (f F : ℝ → ℝ) : Prop where
  nonneg : ∀ x, 0 ≤ f x
  cont : Continuous F
  deriv : ∃ s : Set ℝ, s.Finite ∧ ∀ x, x ∉ s → HasDerivAt F (f x) x
  bot : Tendsto F atBot (𝓝 0)
  top : Tendsto F atTop (𝓝 1)

namespace DiffDist

variable {f F : ℝ → ℝ}

theorem isDensity (h : DiffDist f F) : IsDensity f F := by
  obtain ⟨s, hs, hd⟩ := h.deriv
  exact isDensity_of_deriv hs h.nonneg h.cont hd h.bot h.top

theorem scale (h : DiffDist f F) (μ : ℝ) {σ : ℝ} (hσ : 0 < σ) :
    DiffDist (fun x => f ((x - μ) / σ) / σ) (fun x => F ((x - μ) / σ)) := by
  refine ⟨fun x => div_nonneg (h.nonneg _) hσ.le, h.cont.comp (by fun_prop), ?_, ?_, ?_⟩
  · obtain ⟨s, hs, hd⟩ := h.deriv
    refine ⟨(fun x => (x - μ) / σ) ⁻¹' s, hs.preimage ?_, fun x hx => ?_⟩
    · intro a _ b _ hab
      dsimp only at hab
      rw [div_left_inj' hσ.ne'] at hab
      linarith
    · have h1 : HasDerivAt (fun x : ℝ => (x - μ) / σ) (1 / σ) x :=
        ((hasDerivAt_id x).sub_const μ).div_const σ
      refine ((hd _ hx).comp x h1).congr_deriv ?_
      ring
  · refine h.bot.comp ?_
    exact (tendsto_atBot_add_const_right _ (-μ) tendsto_id).atBot_div_const hσ
  · refine h.top.comp ?_
    exact (tendsto_atTop_add_const_right _ (-μ) tendsto_id).atTop_div_const hσ

theorem log (h : DiffDist f F) : DiffDist (densLog f) (cdfLog F) := by
  refine ⟨fun x => ?_, ?_, ?_, ?_, ?_⟩
  · unfold densLog
    split_ifs with hx
    · exact le_rfl
    · exact div_nonneg (h.nonneg _) (not_le.1 hx).le
  · rw [continuous_iff_continuousAt]
    intro x
    rcases lt_trichotomy x 0 with hx | hx | hx
    · refine (continuousAt_const (y := (0:ℝ))).congr ?_
      filter_upwards [gt_mem_nhds hx] with z hz
      rw [cdfLog, if_pos hz.le]
    · subst hx
      rw [← continuousWithinAt_univ, ← Iic_union_Ioi (a := (0:ℝ))]
      refine ContinuousWithinAt.union ?_ ?_
      · refine (continuousWithinAt_const (b := (0:ℝ))).congr (fun z hz => ?_) ?_
        · rw [cdfLog, if_pos (mem_Iic.1 hz)]
        · rw [cdfLog, if_pos le_rfl]
      · have ht : Tendsto (fun z => F (Real.log z)) (𝓝[>] 0) (𝓝 0) :=
          h.bot.comp Real.tendsto_log_nhdsGT_zero
        unfold ContinuousWithinAt
        rw [show cdfLog F 0 = 0 by simp [cdfLog]]
        refine ht.congr' ?_
        filter_upwards [self_mem_nhdsWithin] with z hz
        rw [cdfLog, if_neg (not_le.2 hz)]
    · refine (h.cont.continuousAt.comp (Real.continuousAt_log hx.ne')).congr ?_
      filter_upwards [lt_mem_nhds hx] with z hz
      rw [cdfLog, if_neg (not_le.2 hz)]; rfl
  · obtain ⟨s, hs, hd⟩ := h.deriv
    refine ⟨{0} ∪ Real.exp '' s, (finite_singleton 0).union (hs.image _), fun x hx => ?_⟩
    simp only [mem_union, mem_singleton_iff, not_or] at hx
    rcases lt_or_gt_of_ne hx.1 with h' | h'
    · rw [densLog, if_pos h'.le]
      refine (hasDerivAt_const x (0:ℝ)).congr_of_eventuallyEq ?_
      filter_upwards [gt_mem_nhds h'] with z hz
      rw [cdfLog, if_pos hz.le]
    · have hn : Real.log x ∉ s := fun hm => hx.2 ⟨_, hm, Real.exp_log h'⟩
      have := (hd _ hn).comp x (Real.hasDerivAt_log h'.ne')
      rw [densLog, if_neg (not_le.2 h')]
      refine (this.congr_of_eventuallyEq ?_).congr_deriv (by rw [div_eq_mul_inv])
      filter_upwards [lt_mem_nhds h'] with z hz
      rw [cdfLog, if_neg (not_le.2 hz)]; rfl
  · refine tendsto_const_nhds.congr' ?_
    filter_upwards [eventually_le_atBot 0] with z hz
    rw [cdfLog, if_pos hz]
  · refine (h.top.comp Real.tendsto_log_atTop).congr' ?_
    filter_upwards [eventually_gt_atTop 0] with z hz
    rw [cdfLog, if_neg (not_le.2 hz)]; rfl

theorem trunc (h : DiffDist f F) {l u : ℝ} (hlu : l < u) (hF : F l < F u) :
    DiffDist (densTrunc f F l u) (cdfTrunc F l u) := by
  have hp : 0 < F u - F l := sub_pos.2 hF
  have e : cdfTrunc F l u = fun x => (F (max l (min x u)) - F l) / (F u - F l) := by
    funext x
    unfold cdfTrunc
    split_ifs with h1 h2
    · rw [min_eq_left (h1.trans hlu).le, max_eq_left h1.le]; simp
    · rw [min_eq_left h2.le, max_eq_right (not_lt.1 h1)]
    · rw [min_eq_right (not_lt.1 h2), max_eq_right hlu.le, div_self hp.ne']
  refine ⟨fun x => ?_, ?_, ?_, ?_, ?_⟩
  · unfold densTrunc; split_ifs
    · exact div_nonneg (h.nonneg _) hp.le
    · exact le_rfl
  · rw [e]
    exact ((h.cont.comp (by fun_prop)).sub continuous_const).div_const _
  · obtain ⟨s, hs, hd⟩ := h.deriv
    refine ⟨s ∪ {l, u}, hs.union (toFinite _), fun x hx => ?_⟩
    simp only [mem_union, mem_insert_iff, mem_singleton_iff, not_or] at hx
    obtain ⟨hxs, hxl, hxu⟩ := hx
    unfold densTrunc
    rcases lt_or_gt_of_ne hxl with h1 | h1
    · rw [if_neg (fun hh => absurd hh.1 (not_le.2 h1))]
      refine (hasDerivAt_const x (0:ℝ)).congr_of_eventuallyEq ?_
      filter_upwards [gt_mem_nhds h1] with z hz
      rw [cdfTrunc, if_pos hz]
    rcases lt_or_gt_of_ne hxu with h2 | h2
    · rw [if_pos ⟨h1.le, h2.le⟩]
      refine (((hd x hxs).sub_const (F l)).div_const (F u - F l)).congr_of_eventuallyEq ?_
      filter_upwards [lt_mem_nhds h1, gt_mem_nhds h2] with z hz hz'
      rw [cdfTrunc, if_neg (not_lt.2 hz.le), if_pos hz']
    · rw [if_neg (fun hh => absurd hh.2 (not_le.2 h2))]
      refine (hasDerivAt_const x (1:ℝ)).congr_of_eventuallyEq ?_
      filter_upwards [lt_mem_nhds h1, lt_mem_nhds h2] with z hz hz'
      rw [cdfTrunc, if_neg (not_lt.2 hz.le), if_neg (not_lt.2 hz'.le)]
  · refine tendsto_const_nhds.congr' ?_
    filter_upwards [eventually_lt_atBot l] with z hz
    rw [cdfTrunc, if_pos hz]
  · refine tendsto_const_nhds.congr' ?_
    filter_upwards [eventually_ge_atTop u] with z hz
    rw [cdfTrunc, if_neg (not_lt.2 (hlu.le.trans hz)), if_neg (not_lt.2 hz)]

theorem truncLo (h : DiffDist f F) {l : ℝ} (hF : F l < 1) :
    DiffDist (densTruncLo f F l) (cdfTruncLo F l) := by
  have hp : 0 < 1 - F l := sub_pos.2 hF
  have e : cdfTruncLo F l = fun x => (F (max l x) - F l) / (1 - F l) := by
    funext x
    unfold cdfTruncLo
    split_ifs with h1
    · rw [max_eq_left h1.le]; simp
    · rw [max_eq_right (not_lt.1 h1)]
  refine ⟨fun x => ?_, ?_, ?_, ?_, ?_⟩
  · unfold densTruncLo; split_ifs
    · exact div_nonneg (h.nonneg _) hp.le
    · exact le_rfl
  · rw [e]
    exact ((h.cont.comp (by fun_prop)).sub continuous_const).div_const _
  · obtain ⟨s, hs, hd⟩ := h.deriv
    refine ⟨s ∪ {l}, hs.union (toFinite _), fun x hx => ?_⟩
    simp only [mem_union, mem_singleton_iff, not_or] at hx
    obtain ⟨hxs, hxl⟩ := hx
    unfold densTruncLo
    rcases lt_or_gt_of_ne hxl with h1 | h1
    · rw [if_neg (not_le.2 h1)]
      refine (hasDerivAt_const x (0:ℝ)).congr_of_eventuallyEq ?_
      filter_upwards [gt_mem_nhds h1] with z hz
      rw [cdfTruncLo, if_pos hz]
    · rw [if_pos h1.le]
      refine (((hd x hxs).sub_const (F l)).div_const (1 - F l)).congr_of_eventuallyEq ?_
      filter_upwards [lt_mem_nhds h1] with z hz
      rw [cdfTruncLo, if_neg (not_lt.2 hz.le)]
  · refine tendsto_const_nhds.congr' ?_
    filter_upwards [eventually_lt_atBot l] with z hz
    rw [cdfTruncLo, if_pos hz]
  · have h1 := (h.top.sub_const (F l)).div_const (1 - F l)
    rw [div_self hp.ne'] at h1
    refine h1.congr' ?_
    filter_upwards [eventually_ge_atTop l] with z hz
    rw [cdfTruncLo, if_neg (not_lt.2 hz)]

theorem truncUp (h : DiffDist f F) {u : ℝ} (hF : 0 < F u) :
    DiffDist (densTruncUp f F u) (cdfTruncUp F u) := by
  have e : cdfTruncUp F u = fun x => F (min x u) / F u := by
    funext x
    unfold cdfTruncUp
    split_ifs with h1
    · rw [min_eq_left h1.le]
    · rw [min_eq_right (not_lt.1 h1), div_self hF.ne']
  refine ⟨fun x => ?_, ?_, ?_, ?_, ?_⟩
  · unfold densTruncUp; split_ifs
    · exact div_nonneg (h.nonneg _) hF.le
    · exact le_rfl
  · rw [e]
    exact (h.cont.comp (by fun_prop)).div_const _
  · obtain ⟨s, hs, hd⟩ := h.deriv
    refine ⟨s ∪ {u}, hs.union (toFinite _), fun x hx => ?_⟩
    simp only [mem_union, mem_singleton_iff, not_or] at hx
    obtain ⟨hxs, hxu⟩ := hx
    unfold densTruncUp
    rcases lt_or_gt_of_ne hxu with h1 | h1
    · rw [if_pos h1.le]
      refine ((hd x hxs).div_const (F u)).congr_of_eventuallyEq ?_
      filter_upwards [gt_mem_nhds h1] with z hz
      rw [cdfTruncUp, if_pos hz]
    · rw [if_neg (not_le.2 h1)]
      refine (hasDerivAt_const x (1:ℝ)).congr_of_eventuallyEq ?_
      filter_upwards [lt_mem_nhds h1] with z hz
      rw [cdfTruncUp, if_neg (not_lt.2 hz.le)]
  · have h1 := h.bot.div_const (F u)
    rw [zero_div] at h1
    refine h1.congr' ?_
    filter_upwards [eventually_lt_atBot u] with z hz
    rw [cdfTruncUp, if_pos hz]
  · refine tendsto_const_nhds.congr' ?_
    filter_upwards [eventually_ge_atTop u] with z hz
    rw [cdfTruncUp, if_neg (not_lt.2 hz)]

/-- Mixtures. -/
theorem mix {ι : Type*} (l : List ι) (f F : ι → ℝ → ℝ) (w : ι → ℝ) (h : ∀ i ∈ l, DiffDist (f i) (F i))
    (hw : ∀ i ∈ l, 0 ≤ w i) (hs : (l.map w).sum = 1) :
    DiffDist (fun x => (l.map fun i => w i * f i x).sum) (fun x => (l.map fun i => w i * F i x).sum) := by
  have key : ∀ l : List ι, (∀ i ∈ l, DiffDist (f i) (F i)) → (∀ i ∈ l, 0 ≤ w i) →
      (∀ x, 0 ≤ (l.map fun i => w i * f i x).sum) ∧
      (Continuous fun x => (l.map fun i => w i * F i x).sum) ∧
      (∃ s : Set ℝ, s.Finite ∧ ∀ x, x ∉ s →
        HasDerivAt (fun x => (l.map fun i => w i * F i x).sum) ((l.map fun i => w i * f i x).sum) x) ∧
      Tendsto (fun x => (l.map fun i => w i * F i x).sum) atBot (𝓝 0) ∧
      Tendsto (fun x => (l.map fun i => w i * F i x).sum) atTop (𝓝 (l.map w).sum) := by
    intro l
    induction l with
    | nil =>
      intro _ _
      simp only [List.map_nil, List.sum_nil]
      exact ⟨fun _ => le_rfl, continuous_const, ⟨∅, finite_empty, fun x _ => hasDerivAt_const x 0⟩,
        tendsto_const_nhds, tendsto_const_nhds⟩
    | cons a t ih =>
      intro hd hw
      obtain ⟨i1, i2, ⟨s, hs, i3⟩, i4, i5⟩ := ih (fun i hi => hd i (List.mem_cons_of_mem _ hi))
        (fun i hi => hw i (List.mem_cons_of_mem _ hi))
      have ha := hd a List.mem_cons_self
      have hwa := hw a List.mem_cons_self
      obtain ⟨sa, hsa, ha3⟩ := ha.deriv
      simp only [List.map_cons, List.sum_cons]
      refine ⟨fun x => add_nonneg (mul_nonneg hwa (ha.nonneg x)) (i1 x), (ha.cont.const_mul _).add i2,
        ⟨sa ∪ s, hsa.union hs, fun x hx => ?_⟩, ?_, ?_⟩
      · simp only [mem_union, not_or] at hx
        exact ((ha3 x hx.1).const_mul _).add (i3 x hx.2)
      · have := (ha.bot.const_mul (w a)).add i4
        rw [mul_zero, add_zero] at this
        exact this
      · have := (ha.top.const_mul (w a)).add i5
        rw [mul_one] at this
        exact this
  obtain ⟨h1, h2, h3, h4, h5⟩ := key l h hw
  rw [hs] at h5
  exact ⟨h1, h2, h3, h4, h5⟩

end DiffDist

/-! ### the families -/

theorem tendsto_of_eventually_bot {F : ℝ → ℝ} {c : ℝ} (a : ℝ) (h : ∀ x, x < a → F x = c) :
    Tendsto F atBot (𝓝 c) := by
  refine tendsto_const_nhds.congr' ?_
  filter_upwards [eventually_lt_atBot a] with z hz
  rw [h z hz]

theorem diff_exp : DiffDist (fun x => if x < 0 then 0 else Real.exp (-x)) (expM 0) := by
  have e : expM 0 = fun x => 1 - Real.exp (-max x 0) := by
    funext x
    unfold expM
    split_ifs with h
    · rw [max_eq_right h.le]; simp
    · rw [max_eq_left (not_lt.1 h)]; ring
  refine ⟨fun x => ?_, ?_, ⟨{0}, finite_singleton 0, fun x hx => ?_⟩, ?_, ?_⟩
  · split_ifs
    · exact le_rfl
    · positivity
  · rw [e]; fun_prop
  · have hx : x ≠ 0 := hx
    rcases lt_or_gt_of_ne hx with h | h
    · rw [if_pos h]
      refine (hasDerivAt_const x (0:ℝ)).congr_of_eventuallyEq ?_
      filter_upwards [gt_mem_nhds h] with z hz
      rw [expM, if_pos hz]
    · rw [if_neg (not_lt.2 h.le)]
      have h1 : HasDerivAt (fun z => 1 - Real.exp (-z)) (Real.exp (-x)) x := by
        refine ((hasDerivAt_neg x).exp.const_sub 1).congr_deriv ?_
        ring
      refine h1.congr_of_eventuallyEq ?_
      filter_upwards [lt_mem_nhds h] with z hz
      rw [expM, if_neg (not_lt.2 hz.le)]; ring
  · exact tendsto_of_eventually_bot 0 fun x hx => by rw [expM, if_pos hx]
  · rw [e]
    have : Tendsto (fun x : ℝ => 1 - Real.exp (-max x 0)) atTop (𝓝 (1 - 0)) := by
      refine Tendsto.const_sub _ (Real.tendsto_exp_neg_atTop_nhds_zero.comp ?_)
      exact tendsto_atTop_mono (fun x => le_max_left _ _) tendsto_id
    rwa [sub_zero] at this

theorem diff_exp2p {a b : ℝ} (ha : 0 < a) (hb : 0 < b) :
    DiffDist (fun x => if x < 0 then Real.exp (x / a) / (a + b) else Real.exp (-(x / b)) / (a + b))
      (exp2p a b) := by
  have hab : 0 < a + b := by positivity
  have e : exp2p a b = fun x => a / (a + b) * Real.exp (min x 0 / a)
      + (b / (a + b) - b / (a + b) * Real.exp (-(max x 0 / b))) := by
    funext x
    unfold exp2p
    split_ifs with h
    · rw [max_eq_right h.le, min_eq_left h.le]; simp
    · rw [max_eq_left (not_lt.1 h), min_eq_right (not_lt.1 h)]
      simp only [zero_div, Real.exp_zero]
      field_simp; ring
  refine ⟨fun x => ?_, ?_, ⟨{0}, finite_singleton 0, fun x hx => ?_⟩, ?_, ?_⟩
  · split_ifs <;> positivity
  · rw [e]; fun_prop
  · have hx : x ≠ 0 := hx
    rcases lt_or_gt_of_ne hx with h | h
    · rw [if_pos h]
      have h1 : HasDerivAt (fun z => a / (a + b) * Real.exp (z / a)) (Real.exp (x / a) / (a + b)) x := by
        refine ((((hasDerivAt_id x).div_const a).exp).const_mul (a / (a + b))).congr_deriv ?_
        simp only [id]; field_simp
      refine h1.congr_of_eventuallyEq ?_
      filter_upwards [gt_mem_nhds h] with z hz
      rw [exp2p, if_pos hz]
    · rw [if_neg (not_lt.2 h.le)]
      have h1 : HasDerivAt (fun z => 1 - b / (a + b) * Real.exp (-(z / b)))
          (Real.exp (-(x / b)) / (a + b)) x := by
        refine (((((hasDerivAt_id x).div_const b).neg).exp).const_mul (b / (a + b))).const_sub 1
          |>.congr_deriv ?_
        simp only [id, Pi.neg_apply]; field_simp
      refine h1.congr_of_eventuallyEq ?_
      filter_upwards [lt_mem_nhds h] with z hz
      rw [exp2p, if_neg (not_lt.2 hz.le)]
  · have h1 : Tendsto (fun x : ℝ => a / (a + b) * Real.exp (x / a)) atBot (𝓝 (a / (a + b) * 0)) :=
      (Real.tendsto_exp_atBot.comp (tendsto_id.atBot_div_const ha)).const_mul _
    rw [mul_zero] at h1
    refine h1.congr' ?_
    filter_upwards [eventually_lt_atBot 0] with z hz
    rw [exp2p, if_pos hz]
  · have h1 : Tendsto (fun x : ℝ => 1 - b / (a + b) * Real.exp (-(x / b))) atTop
        (𝓝 (1 - b / (a + b) * 0)) :=
      ((Real.tendsto_exp_neg_atTop_nhds_zero.comp (tendsto_id.atTop_div_const hb)).const_mul _).const_sub 1
    rw [mul_zero, sub_zero] at h1
    refine h1.congr' ?_
    filter_upwards [eventually_ge_atTop 0] with z hz
    rw [exp2p, if_neg (not_lt.2 hz)]

theorem diff_logis : DiffDist (fun x => logis x * (1 - logis x)) logis := by
  have p : ∀ x, 0 < logis x ∧ 0 < 1 - logis x := by
    intro x
    have h : 0 < Real.exp (-x) := Real.exp_pos _
    constructor
    · unfold logis; positivity
    · have : 1 - logis x = Real.exp (-x) / (1 + Real.exp (-x)) := by unfold logis; field_simp; ring
      rw [this]; positivity
  exact ⟨fun x => mul_nonneg (p x).1.le (p x).2.le,
    continuous_iff_continuousAt.2 fun x => (logis_deriv x).continuousAt,
    ⟨∅, finite_empty, fun x _ => logis_deriv x⟩, logis_tendsto_bot, logis_tendsto⟩

theorem diff_Φ : DiffDist φ Φ :=
  ⟨fun x => (φ_pos x).le, Φ_cont, ⟨∅, finite_empty, fun x _ => Φ_deriv x⟩, Φ_atBot, Φ_atTop⟩

theorem diff_uniform {l u : ℝ} (h : l < u) : DiffDist (densUniform l u) (cdfUniform l u 0 0) := by
  have hd : 0 < u - l := sub_pos.2 h
  have e : cdfUniform l u 0 0 = fun x => (max l (min x u) - l) / (u - l) := by
    funext x
    unfold cdfUniform
    split_ifs with h1 h2
    · rw [min_eq_left (h1.trans h).le, max_eq_left h1.le]; simp
    · rw [min_eq_left h2.le, max_eq_right (not_lt.1 h1)]; ring
    · rw [min_eq_right (not_lt.1 h2), max_eq_right h.le, div_self hd.ne']
  refine ⟨fun x => ?_, ?_, ⟨{l, u}, toFinite _, fun x hx => ?_⟩, ?_, ?_⟩
  · unfold densUniform; split_ifs
    · positivity
    · exact le_rfl
  · rw [e]; fun_prop
  · simp only [mem_insert_iff, mem_singleton_iff, not_or] at hx
    unfold densUniform
    rcases lt_or_gt_of_ne hx.1 with h1 | h1
    · rw [if_neg (fun hh => absurd hh.1 (not_le.2 h1))]
      refine (hasDerivAt_const x (0:ℝ)).congr_of_eventuallyEq ?_
      filter_upwards [gt_mem_nhds h1] with z hz
      rw [cdfUniform, if_pos hz]
    rcases lt_or_gt_of_ne hx.2 with h2 | h2
    · rw [if_pos ⟨h1.le, h2.le⟩]
      refine (((hasDerivAt_id x).sub_const l).div_const (u - l)).congr_of_eventuallyEq ?_
      filter_upwards [lt_mem_nhds h1, gt_mem_nhds h2] with z hz hz'
      rw [cdfUniform, if_neg (not_lt.2 hz.le), if_pos hz']; simp
    · rw [if_neg (fun hh => absurd hh.2 (not_le.2 h2))]
      refine (hasDerivAt_const x (1:ℝ)).congr_of_eventuallyEq ?_
      filter_upwards [lt_mem_nhds h1, lt_mem_nhds h2] with z hz hz'
      rw [cdfUniform, if_neg (not_lt.2 hz.le), if_neg (not_lt.2 hz'.le)]
  · exact tendsto_of_eventually_bot l fun x hx => by rw [cdfUniform, if_pos hx]
  · refine tendsto_const_nhds.congr' ?_
    filter_upwards [eventually_ge_atTop u] with z hz
    rw [cdfUniform, if_neg (not_lt.2 (h.le.trans hz)), if_neg (not_lt.2 hz)]

theorem diff_2pnormal {a b : ℝ} (ha : 0 < a) (hb : 0 < b) :
    DiffDist (dens2pnormal a b 0) (cdf2pnormal a b 0) := by
  have hab : 0 < a + b := by positivity
  have e : cdf2pnormal a b 0 = fun x => 2 * a / (a + b) * Φ (min x 0 / a)
      + (2 * b / (a + b) * Φ (max x 0 / b) - b / (a + b)) := by
    funext x
    unfold cdf2pnormal
    split_ifs with h
    · rw [max_eq_right h.le, min_eq_left h.le, zero_div, Φ_zero, sub_zero]; ring
    · rw [max_eq_left (not_lt.1 h), min_eq_right (not_lt.1 h), zero_div, Φ_zero, sub_zero]
      field_simp; ring
  refine ⟨fun x => ?_, ?_, ⟨{0}, finite_singleton 0, fun x hx => ?_⟩, ?_, ?_⟩
  · unfold dens2pnormal
    split_ifs
    · exact mul_nonneg (by positivity) (φ_pos _).le
    · exact mul_nonneg (by positivity) (φ_pos _).le
  · rw [e]
    exact (continuous_const.mul (Φ_cont.comp (by fun_prop))).add
      ((continuous_const.mul (Φ_cont.comp (by fun_prop))).sub continuous_const)
  · have hx : x ≠ 0 := hx
    unfold dens2pnormal
    have hd : ∀ c : ℝ, HasDerivAt (fun z => Φ ((z - 0) / c)) (φ ((x - 0) / c) * (1 / c)) x := fun c =>
      (Φ_deriv _).comp x (((hasDerivAt_id x).sub_const 0).div_const c)
    rcases lt_or_gt_of_ne hx with h | h
    · rw [if_pos h]
      refine (((hd a).const_mul (2 * a / (a + b))).congr_of_eventuallyEq ?_).congr_deriv ?_
      · filter_upwards [gt_mem_nhds h] with z hz
        rw [cdf2pnormal, if_pos hz]
      · field_simp
    · rw [if_neg (not_lt.2 h.le)]
      refine ((((hd b).const_mul (2 * b / (a + b))).const_add ((a - b) / (a + b))).congr_of_eventuallyEq
        ?_).congr_deriv ?_
      · filter_upwards [lt_mem_nhds h] with z hz
        rw [cdf2pnormal, if_neg (not_lt.2 hz.le)]
      · field_simp
  · have h1 : Tendsto (fun x : ℝ => 2 * a / (a + b) * Φ ((x - 0) / a)) atBot (𝓝 (2 * a / (a + b) * 0)) := by
      refine (Φ_atBot.comp ?_).const_mul _
      exact (tendsto_atBot_add_const_right _ (-0) tendsto_id).atBot_div_const ha
    rw [mul_zero] at h1
    refine h1.congr' ?_
    filter_upwards [eventually_lt_atBot 0] with z hz
    rw [cdf2pnormal, if_pos hz]
  · have h1 : Tendsto (fun x : ℝ => (a - b) / (a + b) + 2 * b / (a + b) * Φ ((x - 0) / b)) atTop
        (𝓝 ((a - b) / (a + b) + 2 * b / (a + b) * 1)) := by
      refine ((Φ_atTop.comp ?_).const_mul _).const_add _
      exact (tendsto_atTop_add_const_right _ (-0) tendsto_id).atTop_div_const hb
    rw [show (a - b) / (a + b) + 2 * b / (a + b) * 1 = 1 by field_simp; ring] at h1
    refine h1.congr' ?_
    filter_upwards [eventually_ge_atTop 0] with z hz
    rw [cdf2pnormal, if_neg (not_lt.2 hz)]

/-- Standard generalised Pareto, shape other than zero. -/
theorem diff_gpd {ξ : ℝ} (hξ : ξ ≠ 0) :
    DiffDist (fun x => if x < 0 then 0 else if ξ < 0 ∧ -1 / ξ < x then 0 else (1 + ξ * x) ^ (-(ξ + 1) / ξ))
      (gpdF 0 ξ) := by
  have e : gpdF 0 ξ = fun x => 1 - gpdB ξ (max x 0) ^ (-1 / ξ) := by
    funext x
    unfold gpdF
    split_ifs with h
    · rw [max_eq_right h.le]; simp [gpdB]
    · rw [max_eq_left (not_lt.1 h)]; ring
  have r : ξ < 0 → 0 < -1 / ξ := fun h => div_pos_of_neg_of_neg (by norm_num) h
  have hBp : ∀ x, 0 ≤ x → ¬ (ξ < 0 ∧ -1 / ξ < x) → 0 ≤ 1 + ξ * x := by
    intro x hx h
    rcases lt_or_gt_of_ne hξ with hn | hp
    · have := mul_le_mul_of_nonpos_left (not_lt.1 fun h2 => h ⟨hn, h2⟩) hn.le
      rw [mul_div_cancel₀ _ hξ] at this
      linarith
    · positivity
  refine ⟨fun x => ?_, ?_, ⟨{0, -1 / ξ}, toFinite _, fun x hx => ?_⟩, ?_, ?_⟩
  · split_ifs with h1 h2
    · exact le_rfl
    · exact le_rfl
    · exact Real.rpow_nonneg (hBp x (not_lt.1 h1) h2) _
  · rw [e]
    have cB : Continuous fun z : ℝ => gpdB ξ (max z 0) :=
      (gpdB_cont ξ).comp (continuous_id.max continuous_const)
    refine continuous_const.sub (cB.rpow_const fun z => ?_)
    rcases lt_or_gt_of_ne hξ with h | h
    · exact Or.inr (r h).le
    · left
      have : 0 < 1 + ξ * max z 0 := by positivity
      exact (lt_max_of_lt_left this).ne'
  · simp only [mem_insert_iff, mem_singleton_iff, not_or] at hx
    rcases lt_or_gt_of_ne hx.1 with h | h
    · rw [if_pos h]
      refine (hasDerivAt_const x (0:ℝ)).congr_of_eventuallyEq ?_
      filter_upwards [gt_mem_nhds h] with z hz
      rw [gpdF, if_pos hz]
    · rw [if_neg (not_lt.2 h.le)]
      have hev : gpdF 0 ξ =ᶠ[𝓝 x] fun z => 1 - gpdB ξ z ^ (-1 / ξ) := by
        filter_upwards [lt_mem_nhds h] with z hz
        rw [gpdF, if_neg (not_lt.2 hz.le)]; ring
      rcases gpdB_deriv hξ r h hx.2 with hd | ⟨hz, hn, hd⟩
      · refine ((hd.const_sub 1).congr_of_eventuallyEq hev).congr_deriv ?_
        split_ifs with h2
        · have hB : gpdB ξ x = 0 := by
            have := mul_lt_mul_of_neg_left h2.2 h2.1
            rw [mul_div_cancel₀ _ hξ] at this
            exact max_eq_right (by linarith)
          have hev2 : (fun z => gpdB ξ z ^ (-1 / ξ)) =ᶠ[𝓝 x] fun _ => 0 := by
            filter_upwards [lt_mem_nhds h2.2] with z hz
            have := mul_lt_mul_of_neg_left hz h2.1
            rw [mul_div_cancel₀ _ hξ] at this
            have hB : gpdB ξ z = 0 := max_eq_right (by linarith)
            rw [hB, Real.zero_rpow (r h2.1).ne']
          have h3 := (hasDerivAt_const x (0:ℝ)).congr_of_eventuallyEq hev2
          rw [hd.unique h3, neg_zero]
        · have hB : gpdB ξ x = 1 + ξ * x := max_eq_left (hBp x h.le h2)
          rw [hB, show -1 / ξ - 1 = -(ξ + 1) / ξ by field_simp; ring]
          field_simp
      · refine ((hd.const_sub 1).congr_of_eventuallyEq hev).congr_deriv ?_
        have : ξ < 0 ∧ -1 / ξ < x := by
          refine ⟨hn, lt_of_le_of_ne ?_ (Ne.symm hx.2)⟩
          by_contra hc
          have := mul_lt_mul_of_neg_left (not_le.1 hc) hn
          rw [mul_div_cancel₀ _ hξ] at this
          have h4 : 0 < gpdB ξ x := lt_max_of_lt_left (by linarith)
          exact h4.ne' hz
        rw [if_pos this, neg_zero]
  · exact tendsto_of_eventually_bot 0 fun x hx => by rw [gpdF, if_pos hx]
  · rcases lt_or_gt_of_ne hξ with h | h
    · refine tendsto_const_nhds.congr' ?_
      filter_upwards [eventually_ge_atTop (-1 / ξ)] with z hz
      have h1 := mul_le_mul_of_nonpos_left hz h.le
      rw [mul_div_cancel₀ _ hξ] at h1
      have hB : gpdB ξ z = 0 := max_eq_right (by linarith)
      rw [gpdF, if_neg (not_lt.2 ((r h).le.trans hz)), hB, Real.zero_rpow (r h).ne']; ring
    · have ht : Tendsto (fun z => gpdB ξ z) atTop atTop := by
        refine tendsto_atTop_mono (fun z => le_max_left _ _) ?_
        exact tendsto_atTop_add_const_left _ _ (tendsto_id.const_mul_atTop h)
      have h1 := ((tendsto_rpow_neg_atTop (y := 1 / ξ) (by positivity)).comp ht).const_sub 1
      rw [sub_zero] at h1
      refine h1.congr' ?_
      filter_upwards [eventually_ge_atTop 0] with z hz
      rw [gpdF, if_neg (not_lt.2 hz), Function.comp, neg_div]; ring

end Verif
