import Verif.Lemmas.GradClosed
import Verif.Lemmas.LogsFin
import Verif.Model.GradLogs

/-!
# Gradients of the logarithmic scores and the truncated logistic CRPS
-/

noncomputable section

open scoped Classical Topology

namespace Verif

open XF Py Mv Node Filter
open Spec (φ Φ)

theorem zero_or_nan (x : XF) : x * fin 0 = nan ∨ x * fin 0 = fin 0 := by
  cases x <;> simp [mul_def, XF.mul, infMul]

namespace Bad

theorem sel_right {c : Prop} {a b : Node} (h : Bad b) : Bad (Node.sel c a b) := fun g => by
  show a.back _ + b.back _ = nan
  rw [h, add_nan]

theorem log {a : Node} (h : Bad a) : Bad (Node.log a) := fun _ => h _

end Bad

/-- `_norm_cdf` at an infinite number: the cotangent that reaches the number is 0 (or NaN). -/
theorem normCdf_bad {u : Node} (hu : u.val = pinf ∨ u.val = ninf) (h0 : u.back (fin 0) = nan)
    (hn : u.back nan = nan) : Bad (Grad.normCdf u) := by
  intro g
  have h2 : (0 : ℝ) < Real.sqrt 2 := Real.sqrt_pos.2 two_pos
  have hpi : 0 < Real.sqrt Real.pi := Real.sqrt_pos.2 Real.pi_pos
  have he : (2 : XF) / XF.sqrt XF.pi * XF.exp (-((u.val / XF.sqrt 2) ^ 2)) = fin 0 := by
    rw [XF.pi, fin_sqrt Real.pi_pos.le, ofNat_def, fin_div hpi.ne', ← ofNat_def, sqrt2_fin]
    rcases hu with h | h <;> rw [h, pow_two]
    · rw [pinf_div_pos h2]; simp [mul_def, XF.mul, neg_def, XF.neg, XF.exp]
    · rw [ninf_div_pos h2]; simp [mul_def, XF.mul, neg_def, XF.neg, XF.exp]
  have : (Grad.normCdf u).back g = (0 + (u.back (g / 2 * (2 / XF.sqrt XF.pi
      * XF.exp (-((u.val / XF.sqrt 2) ^ 2))) / XF.sqrt 2) + 0)) + 0 := rfl
  rw [this, he, sqrt2_fin]
  rcases zero_or_nan (g / 2) with h | h <;> rw [h]
  · rw [nan_div, hn]; rfl
  · rw [fin_div h2.ne', zero_div, h0]; rfl

theorem logisCdf_bad_ninf {u : Node} (hu : u.val = ninf) (hn : u.back nan = nan) : Bad (Grad.logisCdf u) := by
  intro g
  have this : (Grad.logisCdf u).back g = 0 + (0 + u.back (-(-g * ((1 : XF) / (1 + XF.exp (-u.val))
    / (1 + XF.exp (-u.val))) * XF.exp (-u.val)))) := rfl
  have e : XF.exp (-u.val) = pinf := by rw [hu]; rfl
  have e1 : ((1 : XF) / (1 + pinf) / (1 + pinf)) = fin 0 := by
    show XF.div (XF.div _ _) _ = _
    rfl
  rw [this, e, e1]
  rcases zero_or_nan (-g) with h | h <;> rw [h]
  · rw [nan_mul, neg_nan, hn]; rfl
  · rw [show (fin 0 : XF) * pinf = nan from by simp [mul_def, XF.mul, infMul], neg_nan, hn]; rfl

theorem logisCdf_bad_pinf {u : Node} (hu : u.val = pinf) (h0 : u.back (fin 0) = nan)
    (hn : u.back nan = nan) : Bad (Grad.logisCdf u) := by
  intro g
  have this : (Grad.logisCdf u).back g = 0 + (0 + u.back (-(-g * ((1 : XF) / (1 + XF.exp (-u.val))
    / (1 + XF.exp (-u.val))) * XF.exp (-u.val)))) := rfl
  have e : XF.exp (-u.val) = fin 0 := by rw [hu]; rfl
  rw [this, e]
  rcases zero_or_nan (-g * ((1 : XF) / (1 + fin 0) / (1 + fin 0))) with h | h <;> rw [h]
  · rw [neg_nan, hn]; rfl
  · rw [fin_neg, neg_zero, h0]; rfl

/-- an infinite bound in standard units, as a function of the scale, turns the cotangent 0 into NaN -/
theorem bound_zero {m s : ℝ} (hs : 0 < s) {x : XF} (hx : x = pinf ∨ x = ninf) :
    ((const x - const (fin m)) / leaf (fin s)).back (fin 0) = nan := by
  rcases hx with rfl | rfl
  · simp only [div_back, sub_back, const_back, leaf_back, sub_val, const_val, leaf_val, pinf_sub_fin,
      pinf_div_pos hs, fin_neg, neg_zero]
    simp [mul_def, XF.mul, infMul, add_def, XF.add]
  · simp only [div_back, sub_back, const_back, leaf_back, sub_val, const_val, leaf_val, ninf_sub_fin,
      ninf_div_pos hs, fin_neg, neg_zero]
    simp [mul_def, XF.mul, infMul, add_def, XF.add]

/-- the distribution function in standard units at a bound that may be infinite -/
def ext (c : ℝ → ℝ) (x : XF) (m s : ℝ) : ℝ :=
  match x with
  | nan => 0
  | ninf => 0
  | pinf => 1
  | fin a => c ((a - m) / s)

theorem ext_diff {c : ℝ → ℝ} (hc : Differentiable ℝ c) (x : XF) {a b : ℝ → ℝ} {θ : ℝ}
    (ha : DifferentiableAt ℝ a θ) (hb : DifferentiableAt ℝ b θ) (h0 : b θ ≠ 0) :
    DifferentiableAt ℝ (fun t => ext c x (a t) (b t)) θ := by
  cases x with
  | fin r => exact (hc _).comp θ (((differentiableAt_const r).sub ha).div hb h0)
  | _ => exact differentiableAt_const _

theorem ext_lt {c : ℝ → ℝ} (hm : StrictMono c) (hp : ∀ x, 0 < c x) (h1 : ∀ x, c x < 1) {l u : XF} {y s : ℝ}
    (hl : l < fin y) (hu : fin y < u) (m : ℝ) (hs : 0 < s) : ext c l m s < ext c u m s := by
  have A : ext c l m s < c ((y - m) / s) := by
    cases l with
    | nan => exact hl.elim
    | pinf => exact hl.elim
    | ninf => exact hp _
    | fin a => exact hm ((div_lt_div_iff_of_pos_right hs).2 (by have : a < y := hl; linarith))
  have B : c ((y - m) / s) < ext c u m s := by
    cases u with
    | nan => exact hu.elim
    | ninf => exact hu.elim
    | pinf => exact h1 _
    | fin a => exact hm ((div_lt_div_iff_of_pos_right hs).2 (by have : y < a := hu; linarith))
  exact A.trans B

theorem ext_val {C : XF → XF} {c : ℝ → ℝ} (hf : ∀ x, C (fin x) = fin (c x)) (hp : C pinf = fin 1)
    (hn : C ninf = fin 0) {x : XF} (hx : x ≠ nan) (m : ℝ) {s : ℝ} (hs : 0 < s) :
    C ((x - fin m) / fin s) = fin (ext c x m s) := by
  cases x with
  | nan => exact (hx rfl).elim
  | pinf => rw [pinf_sub_fin, pinf_div_pos hs, hp]; rfl
  | ninf => rw [ninf_sub_fin, ninf_div_pos hs, hn]; rfl
  | fin a => rw [fin_sub, fin_div hs.ne', hf]; rfl

theorem ne_nan_of_lt {l : XF} {y : ℝ} (h : l < fin y) : l ≠ nan := by rintro rfl; exact h
theorem ne_nan_of_gt {u : XF} {y : ℝ} (h : fin y < u) : u ≠ nan := by rintro rfl; exact h

/-- an observation between the bounds is between them in standard units -/
theorem inside {l u : XF} {y s : ℝ} (hl : l < fin y) (hu : fin y < u) (m : ℝ) (hs : 0 < s) :
    ¬ ((fin y - fin m) / fin s < (l - fin m) / fin s ∨ (u - fin m) / fin s < (fin y - fin m) / fin s) := by
  rw [fin_sub, fin_div hs.ne']
  rintro (h | h)
  · cases l with
    | nan => exact hl
    | pinf => exact hl
    | ninf => rw [ninf_sub_fin, ninf_div_pos hs] at h; exact h
    | fin a =>
      rw [fin_sub, fin_div hs.ne'] at h
      have h1 : (y - m) / s < (a - m) / s := h
      have h2 : a < y := hl
      rw [div_lt_div_iff_of_pos_right hs] at h1
      linarith
  · cases u with
    | nan => exact hu
    | ninf => exact hu
    | pinf => rw [pinf_sub_fin, pinf_div_pos hs] at h; exact h
    | fin a =>
      rw [fin_sub, fin_div hs.ne'] at h
      have h1 : (a - m) / s < (y - m) / s := h
      have h2 : y < a := hu
      rw [div_lt_div_iff_of_pos_right hs] at h1
      linarith

namespace Tr

variable {N N' : ℝ → Node} {f f' : ℝ → ℝ} {θ : ℝ}

theorem laplacePdf (h : Tr N f θ) (h0 : f θ ≠ 0) :
    Tr (fun t => Grad.laplacePdf (N t)) (fun t => Real.exp (-|f t|) / 2) θ :=
  (h.abs h0).neg.exp.div Tr.two (by norm_num)

theorem logisPdf (h : Tr N f θ) :
    Tr (fun t => Grad.logisPdf (N t)) (fun t => Real.exp (-f t) / (1 + Real.exp (-f t)) ^ 2) θ :=
  h.neg.exp.div ((Tr.one.add h.neg.exp).pow 2) (by positivity)

theorem logsNormal {y m s : ℝ → Node} {fy fm fs : ℝ → ℝ} (hy : Tr y fy θ) (hm : Tr m fm θ) (hs : Tr s fs θ)
    (h0 : 0 < fs θ) (b : Bool) : ∃ f, Tr (fun t => Grad.logsNormal (y t) (m t) (s t) b) f θ := by
  have hw := (hy.sub hm).div hs h0.ne'
  have hp := (hw.normPdf.div hs h0.ne').log (div_pos (φ_pos _) h0)
  cases b
  · exact ⟨_, (Tr.constx (θ := θ) (x := 1) (c := 1) rfl).mul hp⟩
  · exact ⟨_, (Tr.constx (θ := θ) (x := -1) (c := -1) rfl).mul hp⟩

theorem logsLogistic {y m s : ℝ → Node} {fy fm fs : ℝ → ℝ} (hy : Tr y fy θ) (hm : Tr m fm θ) (hs : Tr s fs θ)
    (h0 : 0 < fs θ) : ∃ f, Tr (fun t => Grad.logsLogistic (y t) (m t) (s t)) f θ := by
  have hw := (hy.sub hm).div hs h0.ne'
  exact ⟨_, ((hw.logisPdf.div hs h0.ne').log (by positivity)).neg⟩

theorem logsLaplace {y m s : ℝ → Node} {fy fm fs : ℝ → ℝ} (hy : Tr y fy θ) (hm : Tr m fm θ) (hs : Tr s fs θ)
    (h0 : 0 < fs θ) (hne : fy θ ≠ fm θ) : ∃ f, Tr (fun t => Grad.logsLaplace (y t) (m t) (s t)) f θ := by
  have hw := (hy.sub hm).div hs h0.ne'
  exact ⟨_, (((hw.laplacePdf (div_ne_zero (sub_ne_zero.2 hne) h0.ne')).div hs h0.ne').log (by positivity)).neg⟩

theorem logsLognormal {y m s : ℝ → Node} {fy fm fs : ℝ → ℝ} (hy : Tr y fy θ) (hm : Tr m fm θ) (hs : Tr s fs θ)
    (h0 : 0 < fs θ) (hy0 : 0 < fy θ) : ∃ f, Tr (fun t => Grad.logsLognormal (y t) (m t) (s t)) f θ := by
  have hc : ∀ᶠ t in 𝓝 θ, ¬ (y t).val ≤ 0 := by
    filter_upwards [hy.1, hy.cont.eventually_const_lt hy0] with t ht h
    rw [ht, zero_def, fin_le]; exact not_le.2 h
  have hy' := hy.sel_false hc nan
  have hw := ((hy'.log hy0).sub hm).div hs h0.ne'
  exact ⟨_, (((hw.normPdf.div hs h0.ne').div hy' hy0.ne').log
    (div_pos (div_pos (φ_pos _) h0) hy0)).neg.sel_false hc pinf⟩

/-- the part shared by `tnormal` and `tlogistic` -/
theorem trunc {P A B W L U : ℝ → Node} {p a b : ℝ → ℝ} (hP : Tr P p θ) (hA : Tr A a θ) (hB : Tr B b θ)
    (hp : 0 < p θ) (hd : b θ < a θ)
    (hc : ∀ᶠ t in 𝓝 θ, ¬ ((W t).val < (L t).val ∨ (U t).val < (W t).val)) :
    ∃ f, Tr (fun t => Node.sel ((W t).val < (L t).val ∨ (U t).val < (W t).val) (Node.const pinf)
      (-Node.log (P t / (A t - B t)))) f θ :=
  ⟨_, ((hP.div (hA.sub hB) (sub_pos.2 hd).ne').log (div_pos hp (sub_pos.2 hd))).neg.sel_false hc pinf⟩

/-- strict inequalities between traced numbers persist -/
theorem ev_inside {L U : ℝ → Node} {l u : ℝ → ℝ} (hW : Tr N f θ) (hL : Tr L l θ) (hU : Tr U u θ)
    (h1 : l θ < f θ) (h2 : f θ < u θ) :
    ∀ᶠ t in 𝓝 θ, ¬ ((N t).val < (L t).val ∨ (U t).val < (N t).val) := by
  filter_upwards [hW.1, hL.1, hU.1, hL.cont.eventually_lt hW.cont h1, hW.cont.eventually_lt hU.cont h2]
    with t e1 e2 e3 h1 h2
  rw [e1, e2, e3, fin_lt, fin_lt]
  rintro (h | h) <;> linarith

theorem logsTnormal {y m s l u : ℝ → Node} {fy fm fs fl fu : ℝ → ℝ} (hy : Tr y fy θ) (hm : Tr m fm θ)
    (hs : Tr s fs θ) (hl : Tr l fl θ) (hu : Tr u fu θ) (h0 : 0 < fs θ) (hly : fl θ < fy θ) (hyu : fy θ < fu θ) :
    ∃ f, Tr (fun t => Grad.logsTnormal (y t) (m t) (s t) (l t) (u t)) f θ := by
  have hw := (hy.sub hm).div hs h0.ne'
  have hu' := (hu.sub hm).div hs h0.ne'
  have hl' := (hl.sub hm).div hs h0.ne'
  have h1 : (fl θ - fm θ) / fs θ < (fy θ - fm θ) / fs θ :=
    (div_lt_div_iff_of_pos_right h0).2 (by linarith)
  have h2 : (fy θ - fm θ) / fs θ < (fu θ - fm θ) / fs θ :=
    (div_lt_div_iff_of_pos_right h0).2 (by linarith)
  exact trunc (hw.normPdf.div hs h0.ne') hu'.normCdf hl'.normCdf (div_pos (φ_pos _) h0)
    (Φ_strictMono (h1.trans h2)) (ev_inside hw hl' hu' h1 h2)

theorem logsTlogistic {y m s l u : ℝ → Node} {fy fm fs fl fu : ℝ → ℝ} (hy : Tr y fy θ) (hm : Tr m fm θ)
    (hs : Tr s fs θ) (hl : Tr l fl θ) (hu : Tr u fu θ) (h0 : 0 < fs θ) (hly : fl θ < fy θ) (hyu : fy θ < fu θ) :
    ∃ f, Tr (fun t => Grad.logsTlogistic (y t) (m t) (s t) (l t) (u t)) f θ := by
  have hw := (hy.sub hm).div hs h0.ne'
  have hu' := (hu.sub hm).div hs h0.ne'
  have hl' := (hl.sub hm).div hs h0.ne'
  have h1 : (fl θ - fm θ) / fs θ < (fy θ - fm θ) / fs θ :=
    (div_lt_div_iff_of_pos_right h0).2 (by linarith)
  have h2 : (fy θ - fm θ) / fs θ < (fu θ - fm θ) / fs θ :=
    (div_lt_div_iff_of_pos_right h0).2 (by linarith)
  exact trunc (hw.logisPdf.div hs h0.ne') hu'.logisCdf hl'.logisCdf (by positivity)
    (logis_strictMono (h1.trans h2)) (ev_inside hw hl' hu' h1 h2)

/-- `_norm_cdf` at an infinite bound in standard units, as a function of the location -/
theorem normCdf_loc {x : XF} (hx : x ≠ nan) {s : ℝ} (hs : 0 < s) :
    Tr (fun t => Grad.normCdf ((Node.const x - Node.leaf (fin t)) / Node.const (fin s)))
      (fun t => ext Φ x t s) θ := by
  have h2 : (0 : ℝ) < Real.sqrt 2 := Real.sqrt_pos.2 two_pos
  have hpi : 0 < Real.sqrt Real.pi := Real.sqrt_pos.2 Real.pi_pos
  have key : ∀ {u : Node}, (u.val = pinf ∨ u.val = ninf) → u.back (fin 0) = fin 0 → ∀ g : ℝ,
      (Grad.normCdf u).back (fin g) = fin 0 := by
    intro u hu hb g
    have he : (2 : XF) / XF.sqrt XF.pi * XF.exp (-((u.val / XF.sqrt 2) ^ 2)) = fin 0 := by
      rw [XF.pi, fin_sqrt Real.pi_pos.le, ofNat_def, fin_div hpi.ne', ← ofNat_def, sqrt2_fin]
      rcases hu with h | h <;> rw [h, pow_two]
      · rw [pinf_div_pos h2]; simp [mul_def, XF.mul, neg_def, XF.neg, XF.exp]
      · rw [ninf_div_pos h2]; simp [mul_def, XF.mul, neg_def, XF.neg, XF.exp]
    have : (Grad.normCdf u).back (fin g) = (0 + (u.back (fin g / 2 * (2 / XF.sqrt XF.pi
        * XF.exp (-((u.val / XF.sqrt 2) ^ 2))) / XF.sqrt 2) + 0)) + 0 := rfl
    rw [this, he, sqrt2_fin, ofNat_def, fin_div (by norm_num), fin_mul, mul_zero, fin_div h2.ne', zero_div, hb]
    simp [zero_def, fin_add]
  have hb0 : ∀ x : XF, ((Node.const x - Node.leaf (fin θ)) / Node.const (fin s)).back (fin 0) = fin 0 := by
    intro x
    simp only [div_back, sub_back, const_back, leaf_back, const_val, fin_div hs.ne', zero_div, fin_neg, neg_zero,
      zero_def, fin_add, add_zero]
  have hv : ∀ t, (Grad.normCdf ((Node.const x - Node.leaf (fin t)) / Node.const (fin s))).val
      = fin (ext Φ x t s) := fun t => ext_val normCdf_fin normCdf_pinf normCdf_ninf hx t hs
  cases x with
  | nan => exact (hx rfl).elim
  | fin a => exact (((Tr.const a).sub Tr.leaf).div (Tr.const s) hs.ne').normCdf
  | pinf =>
    refine ⟨Eventually.of_forall hv, 0, hasDerivAt_const _ _, fun g => ?_⟩
    rw [key (Or.inl (pinf_div_pos hs)) (hb0 _), mul_zero]
  | ninf =>
    refine ⟨Eventually.of_forall hv, 0, hasDerivAt_const _ _, fun g => ?_⟩
    rw [key (Or.inr (ninf_div_pos hs)) (hb0 _), mul_zero]

/-- `_logis_cdf` at a bound in standard units that is not `-inf`, as a function of the location -/
theorem logisCdf_loc {x : XF} (hx : x ≠ nan) (hx' : x ≠ ninf) {s : ℝ} (hs : 0 < s) :
    Tr (fun t => Grad.logisCdf ((Node.const x - Node.leaf (fin t)) / Node.const (fin s)))
      (fun t => ext logis x t s) θ := by
  have hv : ∀ t, (Grad.logisCdf ((Node.const x - Node.leaf (fin t)) / Node.const (fin s))).val
      = fin (ext logis x t s) := fun t => ext_val logisCdf_fin logisCdf_pinf logisCdf_ninf hx t hs
  cases x with
  | nan => exact (hx rfl).elim
  | ninf => exact (hx' rfl).elim
  | fin a => exact (((Tr.const a).sub Tr.leaf).div (Tr.const s) hs.ne').logisCdf
  | pinf =>
    refine ⟨Eventually.of_forall hv, 0, hasDerivAt_const _ _, fun g => ?_⟩
    have hu : ((Node.const pinf - Node.leaf (fin θ)) / Node.const (fin s)).val = pinf := pinf_div_pos hs
    have hb0 : ((Node.const pinf - Node.leaf (fin θ)) / Node.const (fin s)).back (fin 0) = fin 0 := by
      simp only [div_back, sub_back, const_back, leaf_back, const_val, fin_div hs.ne', zero_div, fin_neg, neg_zero,
        zero_def, fin_add, add_zero]
    show (Grad.logisCdf ((Node.const pinf - Node.leaf (fin θ)) / Node.const (fin s))).back (fin g) = _
    generalize ((Node.const pinf - Node.leaf (fin θ)) / Node.const (fin s)) = u at hu hb0
    have this : (Grad.logisCdf u).back (fin g) = 0 + (0 + u.back (-(-fin g * ((1 : XF) / (1 + XF.exp (-u.val))
      / (1 + XF.exp (-u.val))) * XF.exp (-u.val)))) := rfl
    have e : XF.exp (-u.val) = fin 0 := by rw [hu]; rfl
    rw [this, e, one_def, fin_add, add_zero, fin_div one_ne_zero, fin_div one_ne_zero, fin_neg, fin_mul, fin_mul,
      mul_zero, fin_neg, neg_zero, hb0]
    simp [zero_def, fin_add]

theorem gtclogistic {y m s l u L U : ℝ → Node} {fy fm fs fl fu fL fU : ℝ → ℝ} (hy : Tr y fy θ) (hm : Tr m fm θ)
    (hs : Tr s fs θ) (hl : Tr l fl θ) (hu : Tr u fu θ) (hL : Tr L fL θ) (hU : Tr U fU θ)
    (h0 : 0 < fs θ) (hly : fl θ < fy θ) (hyu : fy θ < fu θ) (hLU : fL θ + fU θ ≠ 1) :
    ∃ f, Tr (fun t => Grad.gtclogistic (y t) (m t) (s t) (l t) (u t) (L t) (U t)) f θ := by
  have hw := (hy.sub hm).div hs h0.ne'
  have hu' := (hu.sub hm).div hs h0.ne'
  have hl' := (hl.sub hm).div hs h0.ne'
  have h1 : (fl θ - fm θ) / fs θ < (fy θ - fm θ) / fs θ :=
    (div_lt_div_iff_of_pos_right h0).2 (by linarith)
  have h2 : (fy θ - fm θ) / fs θ < (fu θ - fm θ) / fs θ :=
    (div_lt_div_iff_of_pos_right h0).2 (by linarith)
  have hz := (hw.max_left hl' h1).min_left hu' h2
  have hun : ∀ᶠ t in 𝓝 θ, ¬ XF.feq ((u t - m t) / s t).val pinf := by
    filter_upwards [hu'.1] with t ht
    rw [ht]; exact fun h => by cases h
  have hln : ∀ᶠ t in 𝓝 θ, ¬ XF.feq ((l t - m t) / s t).val ninf := by
    filter_upwards [hl'.1] with t ht
    rw [ht]; exact fun h => by cases h
  have hor : ∀ᶠ t in 𝓝 θ, ¬ (XF.feq ((u t - m t) / s t).val pinf ∨ XF.feq ((l t - m t) / s t).val ninf) := by
    filter_upwards [hun, hln] with t a b
    exact not_or.2 ⟨a, b⟩
  have hden : logis ((fu θ - fm θ) / fs θ) - logis ((fl θ - fm θ) / fs θ) ≠ 0 :=
    (sub_pos.2 (logis_strictMono (h1.trans h2))).ne'
  have hmass : 1 - fL θ - fU θ ≠ 0 := fun h => hLU (by linarith)
  have hlu := (hu'.neg.logisCdf.sel_false hor nan).log (by positivity)
  have hll := (hl'.neg.logisCdf.sel_false hor nan).log (by positivity)
  have hun' := hu'.sel_false hun nan
  have hln' := hl'.sel_false hln nan
  have hGu := ((hun'.mul hu'.logisCdf).add hlu).sel_false hun 0
  have hGl := ((hln'.mul hl'.logisCdf).add hll).sel_false hln 0
  have hHu := ((hu'.logisCdf.sub (hun'.mul (hu'.logisCdf.pow 2))).add
    ((Tr.one.sub (Tr.two.mul hu'.logisCdf)).mul hlu)).sel_false hun 1
  have hHl := ((hl'.logisCdf.sub (hln'.mul (hl'.logisCdf.pow 2))).add
    ((Tr.one.sub (Tr.two.mul hl'.logisCdf)).mul hll)).sel_false hln 0
  have hs1u := (hun'.mul (hU.pow 2)).sel_false
    (c := fun t => XF.feq ((u t - m t) / s t).val pinf ∧ XF.feq (U t).val 0) (hun.mono fun t h h' => h h'.1) 0
  have hs1l := (hln'.mul (hL.pow 2)).sel_false
    (c := fun t => XF.feq ((l t - m t) / s t).val ninf ∧ XF.feq (L t).val 0) (hln.mono fun t h h' => h h'.1) 0
  have hM := (Tr.one.sub hL).sub hU
  have hc := hM.div (hu'.logisCdf.sub hl'.logisCdf) hden
  have hs1 := (((hw.sub hz).abs_zero fun t => sub_self _).add hs1u).sub hs1l
  have hs2 := ((hc.mul hz).mul
    (((Tr.one.sub (Tr.two.mul hL)).mul hu'.logisCdf).add ((Tr.one.sub (Tr.two.mul hU)).mul hl'.logisCdf))).div
      hM hmass
  have hs3 := hc.mul (((Tr.two.mul (hz.neg.logisCdf.log (by positivity))).sub ((Tr.two.mul hGu).mul hU)).sub
    ((Tr.two.mul hGl).mul hL))
  have hs4 := (hc.pow 2).mul (hHu.sub hHl)
  exact ⟨_, hs.mul (((hs1.sub hs2).sub hs3).sub hs4)⟩

end Tr

theorem gtclogistic_val (y m s l u L U : Node) : (Grad.gtclogistic y m s l u L U).val
    = Closed.gtclogistic y.val m.val s.val l.val u.val L.val U.val := by
  unfold Grad.gtclogistic Closed.gtclogistic
  simp only [mul_val, sub_val, add_val, div_val, const_val, sel_val]
  congr! <;> (show XF.log (Node.sel _ _ _).val = _; rw [sel_val]; rfl)

theorem logsTnormal_val (y m s l u : Node) : (Grad.logsTnormal y m s l u).val
    = Logs.tnormal y.val m.val s.val l.val u.val := by
  unfold Grad.logsTnormal Logs.tnormal
  rw [sel_val]; rfl

theorem logsTlogistic_val (y m s l u : Node) : (Grad.logsTlogistic y m s l u).val
    = Logs.tlogistic y.val m.val s.val l.val u.val := by
  unfold Grad.logsTlogistic Logs.tlogistic
  rw [sel_val]; rfl

theorem logsLognormal_val (y m s : Node) : (Grad.logsLognormal y m s).val
    = Logs.lognormal y.val m.val s.val := by
  unfold Grad.logsLognormal Logs.lognormal
  rw [sel_val]; congr!

/-- An infinite bound spoils the gradient of `gtclogistic`. -/
theorem gtclogistic_bad {obs mu sigma lower upper lmass umass : Node}
    (h : (((upper - mu) / sigma).val = pinf ∧ ((upper - mu) / sigma).back nan = nan) ∨
      (((lower - mu) / sigma).val = ninf ∧ ((lower - mu) / sigma).back nan = nan)) :
    Bad (Grad.gtclogistic obs mu sigma lower upper lmass umass) := by
  unfold Grad.gtclogistic
  refine Bad.mul_right (Bad.sub_left (Bad.sub_right ?_))
  rcases h with ⟨hv, hb⟩ | ⟨hv, hb⟩
  · have hneg : (-((upper - mu) / sigma)).val = ninf := by rw [neg_val, hv]; rfl
    have hnb : (-((upper - mu) / sigma)).back nan = nan := by rw [neg_back, neg_nan, hb]
    exact Bad.mul_right (Bad.sub_left (Bad.sub_right (Bad.mul_left (Bad.mul_right (Bad.sel_right
      (Bad.add_right (Bad.log (Bad.sel_right (logisCdf_bad_ninf hneg hnb)))))))))
  · exact Bad.mul_left (Bad.div_right (Bad.sub_right (logisCdf_bad_ninf hv hb)))

end Verif
