import Verif.Lemmas.CrpsLimit
import Verif.Props.Closed
import Verif.Props.Gev
import Verif.Props.Gtc
import Verif.Props.TGtc
import Verif.Props.Logs

/-!
# C150: where the code changes its formula, the scores do not jump
-/

noncomputable section

open scoped Classical Topology
open MeasureTheory Filter Set

namespace Verif

open XF Spec

theorem Spec.Approaches.of_crps {ι : Type} {l : Filter ι} {s : ι → XF} {x : XF} {f : ι → ℝ} {v : ℝ}
    (h : ∀ᶠ t in l, s t = fin (f t)) (hx : x = fin v) (ht : Tendsto f l (𝓝 v)) : Approaches s l x := ⟨f, v, h, hx, ht⟩

theorem Spec.Approaches.negLog {ι : Type} {l : Filter ι} {s : ι → XF} {x : XF} {d : ι → ℝ} {v : ℝ}
    (h : ∀ᶠ t in l, s t = Spec.negLog (d t)) (hx : x = Spec.negLog v) (hv : 0 < v) (ht : Tendsto d l (𝓝 v)) :
    Approaches s l x := by
  refine ⟨fun t => -Real.log (d t), -Real.log v, ?_, ?_, (ht.log hv.ne').neg⟩
  · filter_upwards [h, ht.eventually (lt_mem_nhds hv)] with t h hp
    rw [h, Spec.negLog, if_neg hp.ne']
  · rw [hx, Spec.negLog, if_neg hv.ne']

/-! ### Shape zero -/

/-- C150, generalised Pareto law: `crps_gpd` with a small shape, positive or negative, tends to its value with
shape zero, for which the code has a formula of its own. -/
theorem C150_gpd {M σ : ℝ} (hσ : 0 < σ) (h0 : 0 ≤ M) (h1 : M ≤ 1) (μ y : ℝ) :
    Approaches (fun ξ => Closed.gpd (fin y) (fin ξ) (fin μ) (fin σ) (fin M)) (𝓝[≠] 0)
      (Closed.gpd (fin y) (fin 0) (fin μ) (fin σ) (fin M)) := by
  refine .of_crps (f := fun ξ => crps (cdfGpd M ξ μ σ) y) ?_ (C49_gpd hσ one_pos h0 h1 μ y).2 ?_
  · filter_upwards [shape_small (by norm_num : (0 : ℝ) < 1 / 4)] with ξ h
    exact (C49_gpd hσ (by linarith [le_abs_self ξ]) h0 h1 μ y).2
  · have e : ∀ ξ, crps (cdfGpd M ξ μ σ) y = σ * crps (cdfGpd0 M ξ) ((y - μ) / σ) := fun ξ => crps_scale _ μ hσ y
    simp only [e]
    exact (crps_gpd0_tendsto h0 h1 _).const_mul σ

example : Approaches (fun ξ => Closed.gpd (fin 3) (fin ξ) (fin 1) (fin 2) (fin (1 / 4))) (𝓝[≠] 0)
    (Closed.gpd (fin 3) (fin 0) (fin 1) (fin 2) (fin (1 / 4))) :=
  C150_gpd two_pos (by norm_num) (by norm_num) 1 3

/-- What is proved of C150 for the extreme value law: as the shape goes to zero, `crps_gev` tends to a number
that differs from its value with shape zero by the scale times the error of the decimal constant in the code,
which is at most `1e-7`.  Missing: equality, for which that constant would have to be Euler's constant. -/
theorem C150_gev_partial {σ : ℝ} (hσ : 0 < σ) (μ y : ℝ) :
    ∃ v : ℝ, Approaches (fun ξ => Closed.gev (fin y) (fin ξ) (fin μ) (fin σ)) (𝓝[≠] 0) (fin v) ∧
      Closed.gev (fin y) (fin 0) (fin μ) (fin σ)
        = fin (v + σ * (57721566490153286060651209008240243 / 10 ^ 35 - Real.eulerMascheroniConstant)) ∧
      |57721566490153286060651209008240243 / 10 ^ 35 - Real.eulerMascheroniConstant| ≤ (1 / 10 ^ 7 : ℝ) := by
  refine ⟨_, .of_crps (f := fun ξ => crps (cdfGev ξ μ σ) y) ?_ rfl ?_, (C82_gumbel μ y hσ).2, eulerMascheroni_decimal⟩
  · filter_upwards [shape_small (by norm_num : (0 : ℝ) < 1 / 4), shape_ne] with ξ h hn
    exact (C82_gev μ y hn (by linarith [le_abs_self ξ]) hσ).2
  · have e : ∀ ξ, crps (cdfGev ξ μ σ) y = σ * crps (cdfGev0 ξ) ((y - μ) / σ) := fun ξ => crps_scale _ μ hσ y
    simp only [e]
    exact (crps_gev0_tendsto _).const_mul σ

example : ∃ v : ℝ, Approaches (fun ξ => Closed.gev (fin 3) (fin ξ) (fin 1) (fin 2)) (𝓝[≠] 0) (fin v) :=
  (C150_gev_partial two_pos 1 3).imp fun _ h => h.1

/-- C150, log score of the generalised Pareto law at an observation in its support. -/
theorem C150_logs_gpd {μ σ y : ℝ} (hσ : 0 < σ) (hy : μ ≤ y) :
    Approaches (fun ξ => Logs.gpd (fin y) (fin ξ) (fin μ) (fin σ)) (𝓝[≠] 0)
      (Logs.gpd (fin y) (fin 0) (fin μ) (fin σ)) := by
  have hz : ¬ (y - μ) / σ < 0 := not_lt.2 (div_nonneg (by linarith) hσ.le)
  refine .negLog (d := fun ξ => densGpd ξ μ σ y) ?_ ((C57_gpd 0 μ hσ).2 y fun h => by linarith [h.1]) ?_ ?_
  · filter_upwards [shape_small (by norm_num : (0 : ℝ) < 1 / 4)] with ξ h
    exact (C57_gpd ξ μ hσ).2 y fun hc => by linarith [hc.1, neg_abs_le ξ]
  · unfold densGpd
    simp only [if_neg hz, if_true]
    exact div_pos (Real.exp_pos _) hσ
  · unfold densGpd
    simp only [if_neg hz, if_true]
    have h1 : Tendsto (fun ξ : ℝ => 1 + ξ * ((y - μ) / σ)) (𝓝[≠] 0) (𝓝 (1 + 0 * ((y - μ) / σ))) :=
      ((continuous_const.add (continuous_id.mul continuous_const)).tendsto _).mono_left nhdsWithin_le_nhds
    have := ((pow_shape_tendsto ((y - μ) / σ)).div h1 (by simp)).div_const σ
    simp only [zero_mul, add_zero, div_one] at this
    refine this.congr' ?_
    filter_upwards [shape_pos ((y - μ) / σ), shape_ne] with ξ h hn
    rw [if_neg hn, if_neg]
    · congr 1
      rw [show -(ξ + 1) / ξ = -1 / ξ - 1 by field_simp; ring, Real.rpow_sub h, Real.rpow_one]; rfl
    · rintro ⟨a, b⟩
      rw [div_lt_iff_of_neg a] at b
      linarith

example : Approaches (fun ξ => Logs.gpd (fin 3) (fin ξ) (fin 1) (fin 2)) (𝓝[≠] 0)
    (Logs.gpd (fin 3) (fin 0) (fin 1) (fin 2)) := C150_logs_gpd two_pos (by norm_num)

/-- C150, log score of the extreme value law at every observation. -/
theorem C150_logs_gev {σ : ℝ} (hσ : 0 < σ) (μ y : ℝ) :
    Approaches (fun ξ => Logs.gev (fin y) (fin ξ) (fin μ) (fin σ)) (𝓝[≠] 0)
      (Logs.gev (fin y) (fin 0) (fin μ) (fin σ)) := by
  refine .negLog (d := fun ξ => densGev ξ μ σ y) (Eventually.of_forall fun ξ => (C57_gev ξ μ hσ).2 y)
    ((C57_gev 0 μ hσ).2 y) ?_ ?_
  · unfold densGev densGev0
    rw [if_pos rfl]
    exact div_pos (mul_pos (Real.exp_pos _) (Real.exp_pos _)) hσ
  · unfold densGev densGev0
    simp only [if_true]
    generalize (y - μ) / σ = x
    have h1 : Tendsto (fun ξ : ℝ => 1 + ξ * x) (𝓝[≠] 0) (𝓝 (1 + 0 * x)) :=
      ((continuous_const.add (continuous_id.mul continuous_const)).tendsto _).mono_left nhdsWithin_le_nhds
    have h2 := (Real.continuous_exp.tendsto _).comp (pow_shape_tendsto x).neg
    have := (((pow_shape_tendsto x).div h1 (by simp)).mul h2).div_const σ
    simp only [zero_mul, add_zero, div_one] at this
    refine this.congr' ?_
    filter_upwards [shape_pos x, shape_ne] with ξ h hn
    rw [if_neg hn, if_pos h, Real.rpow_sub h, Real.rpow_one]; rfl

example : Approaches (fun ξ => Logs.gev (fin 3) (fin ξ) (fin 1) (fin 2)) (𝓝[≠] 0)
    (Logs.gev (fin 3) (fin 0) (fin 1) (fin 2)) := C150_logs_gev two_pos 1 3

/-! ### Infinite bounds -/

theorem fullCdf_normal (μ : ℝ) {σ : ℝ} (hσ : 0 < σ) : FullCdf (cdfNormal μ σ) where
  mono := fun a b h => Φ_strictMono (by rw [div_lt_div_iff_of_pos_right hσ]; linarith)
  bot := (dist_normal μ hσ).bot
  top := (dist_normal μ hσ).top
  crps := (C50_normal hσ μ 0).1

theorem fullCdf_logistic (μ : ℝ) {σ : ℝ} (hσ : 0 < σ) : FullCdf (cdfLogistic μ σ) where
  mono := fun a b h => logis_strictMono (by rw [div_lt_div_iff_of_pos_right hσ]; linarith)
  bot := (dist_logistic μ hσ).bot
  top := (dist_logistic μ hσ).top
  crps := (C48_logistic hσ μ 0).1

theorem fullCdf_t (μ : ℝ) {ν σ : ℝ} (hν : 1 < ν) (hσ : 0 < σ) : FullCdf (cdfT ν μ σ) where
  mono := cdfT_strictMono (by linarith) hσ μ
  bot := (dist_t (by linarith) hσ μ).bot
  top := (dist_t (by linarith) hσ μ).top
  crps := (C78_t hν hσ μ 0).1

theorem both_lt : ∀ᶠ b : ℝ × ℝ in atBot ×ˢ atTop, b.1 < b.2 := by
  filter_upwards [tendsto_fst.eventually (eventually_lt_atBot (0 : ℝ)),
    tendsto_snd.eventually (eventually_gt_atTop (0 : ℝ))] with b h1 h2 using h1.trans h2

/-- C150, `crps_tnormal`. -/
theorem C150_tnormal {σ : ℝ} (hσ : 0 < σ) (μ y : ℝ) :
    BoundsVanish (fun l u => Closed.tnormal (fin y) (fin μ) (fin σ) l u) := by
  obtain ⟨h1, h2, h3, h4⟩ := C69_tnormal hσ μ y
  have h := fullCdf_normal μ hσ
  exact ⟨fun u => .of_crps ((eventually_lt_atBot u).mono fun l hl => h1 l u hl) (h3 u) (h.trunc_atBot u y),
    fun l => .of_crps ((eventually_gt_atTop l).mono fun u hu => h1 l u hu) (h2 l) (h.trunc_atTop l y),
    .of_crps (Eventually.of_forall h2) h4 (h.truncLo_atBot y),
    .of_crps (Eventually.of_forall h3) h4 (h.truncUp_atTop y),
    .of_crps (both_lt.mono fun b hb => h1 b.1 b.2 hb) h4 (h.trunc_both y)⟩

example : Approaches (fun u => Closed.tnormal (fin 3) (fin 1) (fin 2) (fin 0) (fin u)) atTop
    (Closed.tnormal (fin 3) (fin 1) (fin 2) (fin 0) pinf) := (C150_tnormal two_pos 1 3).2.1 0

/-- C150, `crps_cnormal`. -/
theorem C150_cnormal {σ : ℝ} (hσ : 0 < σ) (μ y : ℝ) :
    BoundsVanish (fun l u => Closed.cnormal (fin y) (fin μ) (fin σ) l u) := by
  obtain ⟨h1, h2, h3, h4⟩ := C69_cnormal hσ μ y
  have h := fullCdf_normal μ hσ
  exact ⟨fun u => .of_crps ((eventually_lt_atBot u).mono fun l hl => h1 l u hl) (h3 u) (h.cens_atBot u y),
    fun l => .of_crps ((eventually_gt_atTop l).mono fun u hu => h1 l u hu) (h2 l) (h.cens_atTop l y),
    .of_crps (Eventually.of_forall h2) h4 (h.censLo_atBot y),
    .of_crps (Eventually.of_forall h3) h4 (h.censUp_atTop y),
    .of_crps (both_lt.mono fun b hb => h1 b.1 b.2 hb) h4 (h.cens_both y)⟩

example : Approaches (fun l => Closed.cnormal (fin 3) (fin 1) (fin 2) (fin l) pinf) atBot
    (Closed.cnormal (fin 3) (fin 1) (fin 2) ninf pinf) := (C150_cnormal two_pos 1 3).2.2.1

theorem both_ne (μ : ℝ) : ∀ᶠ b : ℝ × ℝ in atBot ×ˢ atTop, b.1 ≠ μ ∧ b.2 ≠ μ := by
  filter_upwards [tendsto_fst.eventually (eventually_lt_atBot μ),
    tendsto_snd.eventually (eventually_gt_atTop μ)] with b h1 h2 using ⟨h1.ne, h2.ne'⟩

/-- What is proved of C150 for `crps_tt`.  Missing: a fixed bound at the location, where the score is NaN
(`C83_false`). -/
theorem C150_tt_partial {ν σ : ℝ} (hν : 1 < ν) (hσ : 0 < σ) (μ y : ℝ) :
    BoundsVanishOff μ (fun l u => Closed.tt (fin y) (fin ν) (fin μ) (fin σ) l u) := by
  obtain ⟨h1, h2, h3, h4⟩ := C83_tt_partial hν hσ μ y
  have h := fullCdf_t μ hν hσ
  refine ⟨fun u hu => .of_crps ?_ (h3 u hu) (h.trunc_atBot u y),
    fun l hl => .of_crps ?_ (h2 l hl) (h.trunc_atTop l y),
    .of_crps ((eventually_lt_atBot μ).mono fun l hl => h2 l hl.ne) h4 (h.truncLo_atBot y),
    .of_crps ((eventually_gt_atTop μ).mono fun u hu => h3 u hu.ne') h4 (h.truncUp_atTop y),
    .of_crps ?_ h4 (h.trunc_both y)⟩
  · filter_upwards [eventually_lt_atBot u, eventually_lt_atBot μ] with l a b using h1 l u a b.ne hu
  · filter_upwards [eventually_gt_atTop l, eventually_gt_atTop μ] with u a b using h1 l u a hl b.ne'
  · filter_upwards [both_lt, both_ne μ] with b hb hn using h1 b.1 b.2 hb hn.1 hn.2

example : Approaches (fun l => Closed.tt (fin 3) (fin 5) (fin 1) (fin 2) (fin l) (fin 4)) atBot
    (Closed.tt (fin 3) (fin 5) (fin 1) (fin 2) ninf (fin 4)) :=
  (C150_tt_partial (by norm_num) two_pos 1 3).1 4 (by norm_num)

/-- What is proved of C150 for `crps_ct`.  Missing: a fixed bound at the location, where the score is NaN. -/
theorem C150_ct_partial {ν σ : ℝ} (hν : 1 < ν) (hσ : 0 < σ) (μ y : ℝ) :
    BoundsVanishOff μ (fun l u => Closed.ct (fin y) (fin ν) (fin μ) (fin σ) l u) := by
  obtain ⟨h1, h2, h3, h4⟩ := C83_ct_partial hν hσ μ y
  have h := fullCdf_t μ hν hσ
  refine ⟨fun u hu => .of_crps ?_ (h3 u hu) (h.cens_atBot u y),
    fun l hl => .of_crps ?_ (h2 l hl) (h.cens_atTop l y),
    .of_crps ((eventually_lt_atBot μ).mono fun l hl => h2 l hl.ne) h4 (h.censLo_atBot y),
    .of_crps ((eventually_gt_atTop μ).mono fun u hu => h3 u hu.ne') h4 (h.censUp_atTop y),
    .of_crps ?_ h4 (h.cens_both y)⟩
  · filter_upwards [eventually_lt_atBot u, eventually_lt_atBot μ] with l a b using h1 l u a b.ne hu
  · filter_upwards [eventually_gt_atTop l, eventually_gt_atTop μ] with u a b using h1 l u a hl b.ne'
  · filter_upwards [both_lt, both_ne μ] with b hb hn using h1 b.1 b.2 hb hn.1 hn.2

example : Approaches (fun u => Closed.ct (fin 3) (fin 5) (fin 1) (fin 2) ninf (fin u)) atTop
    (Closed.ct (fin 3) (fin 5) (fin 1) (fin 2) ninf pinf) :=
  (C150_ct_partial (by norm_num) two_pos 1 3).2.2.2.1

/-- What is proved of C150 for the bounded logistic laws: both bounds moving away.  Missing: one bound infinite,
where it is false (`C150_logistic_false`). -/
theorem C150_logistic_partial {σ : ℝ} (hσ : 0 < σ) (μ y : ℝ) :
    Approaches (fun b : ℝ × ℝ => Closed.tlogistic (fin y) (fin μ) (fin σ) (fin b.1) (fin b.2)) (atBot ×ˢ atTop)
      (Closed.tlogistic (fin y) (fin μ) (fin σ) ninf pinf) ∧
    Approaches (fun b : ℝ × ℝ => Closed.clogistic (fin y) (fin μ) (fin σ) (fin b.1) (fin b.2)) (atBot ×ˢ atTop)
      (Closed.clogistic (fin y) (fin μ) (fin σ) ninf pinf) := by
  have h := fullCdf_logistic μ hσ
  have e := (C48_logistic hσ μ y).2
  obtain ⟨-, e1, e2⟩ := C52_gtclogistic_logistic hσ μ y
  exact ⟨.of_crps (both_lt.mono fun b hb => (C70_tlogistic_clogistic hσ hb μ y).1) (e1.trans e) (h.trunc_both y),
    .of_crps (both_lt.mono fun b hb => (C70_tlogistic_clogistic hσ hb μ y).2) (e2.trans e) (h.cens_both y)⟩

example : Approaches (fun b : ℝ × ℝ => Closed.tlogistic (fin 3) (fin 1) (fin 2) (fin b.1) (fin b.2))
    (atBot ×ˢ atTop) (Closed.tlogistic (fin 3) (fin 1) (fin 2) ninf pinf) := (C150_logistic_partial two_pos 1 3).1

/-- C150 fails for the bounded logistic laws with one infinite bound: as the other bound moves away, the scores
tend to a number, the CRPS of the law with one bound, but the score with that bound infinite is NaN. -/
theorem C150_logistic_false {σ : ℝ} (hσ : 0 < σ) (μ b y : ℝ) :
    (Approaches (fun u => Closed.tlogistic (fin y) (fin μ) (fin σ) (fin b) (fin u)) atTop
        (fin (Spec.crps (cdfTruncLo (cdfLogistic μ σ) b) y)) ∧
      Closed.tlogistic (fin y) (fin μ) (fin σ) (fin b) pinf = nan) ∧
    (Approaches (fun l => Closed.tlogistic (fin y) (fin μ) (fin σ) (fin l) (fin b)) atBot
        (fin (Spec.crps (cdfTruncUp (cdfLogistic μ σ) b) y)) ∧
      Closed.tlogistic (fin y) (fin μ) (fin σ) ninf (fin b) = nan) ∧
    (Approaches (fun u => Closed.clogistic (fin y) (fin μ) (fin σ) (fin b) (fin u)) atTop
        (fin (Spec.crps (cdfCensLo (cdfLogistic μ σ) b) y)) ∧
      Closed.clogistic (fin y) (fin μ) (fin σ) (fin b) pinf = nan) ∧
    (Approaches (fun l => Closed.clogistic (fin y) (fin μ) (fin σ) (fin l) (fin b)) atBot
        (fin (Spec.crps (cdfCensUp (cdfLogistic μ σ) b) y)) ∧
      Closed.clogistic (fin y) (fin μ) (fin σ) ninf (fin b) = nan) := by
  have h := fullCdf_logistic μ hσ
  obtain ⟨n1, n2, n3, n4⟩ := C53_false_truncated hσ μ b (fin y)
  exact ⟨⟨.of_crps ((eventually_gt_atTop b).mono fun u hu => (C70_tlogistic_clogistic hσ hu μ y).1) rfl
      (h.trunc_atTop b y), n1⟩,
    ⟨.of_crps ((eventually_lt_atBot b).mono fun l hl => (C70_tlogistic_clogistic hσ hl μ y).1) rfl
      (h.trunc_atBot b y), n2⟩,
    ⟨.of_crps ((eventually_gt_atTop b).mono fun u hu => (C70_tlogistic_clogistic hσ hu μ y).2) rfl
      (h.cens_atTop b y), n3⟩,
    ⟨.of_crps ((eventually_lt_atBot b).mono fun l hl => (C70_tlogistic_clogistic hσ hl μ y).2) rfl
      (h.cens_atBot b y), n4⟩⟩

example : Closed.tlogistic (fin 3) (fin 1) (fin 2) (fin 0) pinf = nan := (C150_logistic_false two_pos 1 0 3).1.2

/-! ### Log scores with bounds -/

section
variable {f F : ℝ → ℝ} (hb : Tendsto F atBot (𝓝 0)) (ht : Tendsto F atTop (𝓝 1))

include hb in
theorem densTrunc_atBot {u y : ℝ} (hu : F u ≠ 0) (hy : y ≤ u) :
    Tendsto (fun l => densTrunc f F l u y) atBot (𝓝 (densTruncUp f F u y)) := by
  have := (tendsto_const_nhds (x := f y)).div (hb.const_sub (F u)) (by simpa using hu)
  rw [sub_zero] at this
  unfold densTruncUp
  rw [if_pos hy]
  refine this.congr' ?_
  filter_upwards [eventually_le_atBot y] with l hl
  unfold densTrunc
  rw [if_pos ⟨hl, hy⟩]; rfl

include ht in
theorem densTrunc_atTop {l y : ℝ} (hl : F l ≠ 1) (hy : l ≤ y) :
    Tendsto (fun u => densTrunc f F l u y) atTop (𝓝 (densTruncLo f F l y)) := by
  have := (tendsto_const_nhds (x := f y)).div (ht.sub_const (F l)) (sub_ne_zero.2 hl.symm)
  unfold densTruncLo
  rw [if_pos hy]
  refine this.congr' ?_
  filter_upwards [eventually_ge_atTop y] with u hu
  unfold densTrunc
  rw [if_pos ⟨hy, hu⟩]; rfl
end

/-- C150, log scores of the truncated families: an infinite bound is the limit of a far one.  The one-sided
logistic law, whose CRPS is NaN, has the right log score. -/
theorem C150_logs_truncated {ν σ : ℝ} (hν : 0 < ν) (hσ : 0 < σ) (μ y : ℝ) :
    LogBoundVanishes y (fun l u => Logs.tnormal (fin y) (fin μ) (fin σ) l u) ∧
    LogBoundVanishes y (fun l u => Logs.tlogistic (fin y) (fin μ) (fin σ) l u) ∧
    LogBoundVanishes y (fun l u => Logs.tt (fin y) (fin ν) (fin μ) (fin σ) l u) := by
  have hn := fullCdf_normal μ hσ
  have hg := fullCdf_logistic μ hσ
  have ht := dist_t hν hσ μ
  have pn : 0 < densNormal μ σ y := div_pos (div_pos (Real.exp_pos _) (Real.sqrt_pos.2 (by positivity))) hσ
  have pg : 0 < densLogistic μ σ y := by unfold densLogistic; positivity
  have pt := densT_pos hν hσ μ y
  refine ⟨⟨fun u hu => .negLog ((eventually_lt_atBot u).mono fun l hl => (C57_tnormal μ hσ hl).2 y)
      ((C57_tnormal_upper μ u hσ).2 y) ?_ (densTrunc_atBot hn.bot (hn.pos u).ne' hu),
    fun l hl => .negLog ((eventually_gt_atTop l).mono fun u hu => (C57_tnormal μ hσ hu).2 y)
      ((C57_tnormal_lower μ l hσ).2 y) ?_ (densTrunc_atTop hn.top (hn.lt_one l).ne hl)⟩,
    ⟨fun u hu => .negLog ((eventually_lt_atBot u).mono fun l hl => (C57_tlogistic μ hσ hl).2 y)
      ((C57_tlogistic_upper μ u hσ).2 y) ?_ (densTrunc_atBot hg.bot (hg.pos u).ne' hu),
    fun l hl => .negLog ((eventually_gt_atTop l).mono fun u hu => (C57_tlogistic μ hσ hu).2 y)
      ((C57_tlogistic_lower μ l hσ).2 y) ?_ (densTrunc_atTop hg.top (hg.lt_one l).ne hl)⟩,
    ⟨fun u hu => .negLog ((eventually_lt_atBot u).mono fun l hl => (C57_tt hν hσ hl μ).2 y)
      ((C57_tt_upper hν hσ μ u).2 y) ?_ (densTrunc_atBot ht.bot (cdfT_pos hν hσ μ u).ne' hu),
    fun l hl => .negLog ((eventually_gt_atTop l).mono fun u hu => (C57_tt hν hσ hu μ).2 y)
      ((C57_tt_lower hν hσ μ l).2 y) ?_ (densTrunc_atTop ht.top (cdfT_lt_one hν hσ μ l).ne hl)⟩⟩
  · rw [densTruncUp, if_pos hu]; exact div_pos pn (hn.pos u)
  · rw [densTruncLo, if_pos hl]; exact div_pos pn (sub_pos.2 (hn.lt_one l))
  · rw [densTruncUp, if_pos hu]; exact div_pos pg (hg.pos u)
  · rw [densTruncLo, if_pos hl]; exact div_pos pg (sub_pos.2 (hg.lt_one l))
  · rw [densTruncUp, if_pos hu]; exact div_pos pt (cdfT_pos hν hσ μ u)
  · rw [densTruncLo, if_pos hl]; exact div_pos pt (sub_pos.2 (cdfT_lt_one hν hσ μ l))

example : Approaches (fun u => Logs.tlogistic (fin 3) (fin 1) (fin 2) (fin 0) (fin u)) atTop
    (Logs.tlogistic (fin 3) (fin 1) (fin 2) (fin 0) pinf) :=
  (C150_logs_truncated one_pos two_pos 1 3).2.1.2 0 (by norm_num)

end Verif
