import Verif.Lemmas.Grad
import Verif.Lemmas.ClosedScale
import Verif.Lemmas.GtcFin

/-!
# Gradients of the closed forms
-/

noncomputable section

open scoped Classical Topology

namespace Verif

open XF Py Mv Node Filter
open Spec (φ Φ)

namespace Tr

variable {N N' : ℝ → Node} {f f' : ℝ → ℝ} {θ : ℝ}

theorem constx {x : XF} {c : ℝ} (h : x = fin c) : Tr (fun _ => Node.const x) (fun _ => c) θ := by
  subst h; exact Tr.const c

theorem one : Tr (fun _ => Node.const 1) (fun _ => 1) θ := Tr.constx rfl
theorem two : Tr (fun _ => Node.const 2) (fun _ => 2) θ := Tr.constx rfl
theorem sqrt2 : Tr (fun _ => Node.const (XF.sqrt 2)) (fun _ => Real.sqrt 2) θ := Tr.constx sqrt2_fin

theorem normCdf (h : Tr N f θ) : Tr (fun t => Grad.normCdf (N t)) (fun t => Φ (f t)) θ := by
  have h2 : Real.sqrt 2 ≠ 0 := (Real.sqrt_pos.2 two_pos).ne'
  have := (Tr.one.add (h.div Tr.sqrt2 h2).erf).div Tr.two (by norm_num)
  exact this.congr fun t => erf_Φ _

theorem normPdf (h : Tr N f θ) : Tr (fun t => Grad.normPdf (N t)) (fun t => φ (f t)) θ := by
  have hc : (1 / XF.sqrt (2 * XF.pi)) = fin (1 / Real.sqrt (2 * Real.pi)) := by
    unfold XF.pi
    rw [one_def, ofNat_def, fin_mul, fin_sqrt (by positivity), fin_div (by positivity)]
  have := (Tr.constx (θ := θ) hc).mul ((((h.pow 2).neg).div Tr.two (by norm_num)).exp)
  refine this.congr fun t => ?_
  unfold Spec.φ
  ring_nf

theorem logisCdf (h : Tr N f θ) :
    Tr (fun t => Grad.logisCdf (N t)) (fun t => 1 / (1 + Real.exp (-f t))) θ :=
  Tr.one.div (Tr.one.add h.neg.exp) (by positivity)

theorem max_left (h : Tr N f θ) (h' : Tr N' f' θ) (hlt : f' θ < f θ) :
    Tr (fun t => Node.max (N t) (N' t)) f θ := by
  have e := h.val
  have e' := h'.val
  have hne : ∀ᶠ t in 𝓝 θ, f' t < f t := h'.cont.eventually_lt h.cont hlt
  obtain ⟨hv, d, hd, hb⟩ := h
  obtain ⟨hv', d', hd', hb'⟩ := h'
  refine ⟨?_, d, hd, fun g => ?_⟩
  · filter_upwards [hv, hv', hne] with t ht ht' hl
    show XF.max (N t).val (N' t).val = _
    rw [ht, ht', fin_max, max_eq_left hl.le]
  · show (N θ).back (if (N θ).val < (N' θ).val then 0 else if XF.feq (N θ).val (N' θ).val then _ else _)
      + (N' θ).back (if (N' θ).val < (N θ).val then 0 else if XF.feq (N θ).val (N' θ).val then _ else _) = _
    have hf : ¬ XF.feq (fin (f θ)) (fin (f' θ)) := fun hc => hlt.ne' (fin_inj.1 hc)
    rw [e, e', if_neg (by simpa using hlt.le), if_neg hf, if_pos (by simpa using hlt), hb, zero_def, hb',
      fin_add, zero_mul, add_zero]

theorem min_left (h : Tr N f θ) (h' : Tr N' f' θ) (hlt : f θ < f' θ) :
    Tr (fun t => Node.min (N t) (N' t)) f θ := by
  have e := h.val
  have e' := h'.val
  have hne : ∀ᶠ t in 𝓝 θ, f t < f' t := h.cont.eventually_lt h'.cont hlt
  obtain ⟨hv, d, hd, hb⟩ := h
  obtain ⟨hv', d', hd', hb'⟩ := h'
  refine ⟨?_, d, hd, fun g => ?_⟩
  · filter_upwards [hv, hv', hne] with t ht ht' hl
    show XF.min (N t).val (N' t).val = _
    rw [ht, ht', fin_min, min_eq_left hl.le]
  · show (N θ).back (if (N' θ).val < (N θ).val then 0 else if XF.feq (N θ).val (N' θ).val then _ else _)
      + (N' θ).back (if (N θ).val < (N' θ).val then 0 else if XF.feq (N θ).val (N' θ).val then _ else _) = _
    have hf : ¬ XF.feq (fin (f θ)) (fin (f' θ)) := fun hc => hlt.ne (fin_inj.1 hc)
    rw [e, e', if_neg (by simpa using hlt.le), if_neg hf, if_pos (by simpa using hlt), hb, zero_def, hb',
      fin_add, zero_mul, add_zero]

/-- `B.where` with a condition that is false near `θ`. -/
theorem sel_false (h : Tr N f θ) {c : ℝ → Prop} (hc : ∀ᶠ t in 𝓝 θ, ¬ c t) (x : XF) :
    Tr (fun t => Node.sel (c t) (Node.const x) (N t)) f θ := by
  have hc0 : ¬ c θ := hc.self_of_nhds
  obtain ⟨hv, d, hd, hb⟩ := h
  refine ⟨?_, d, hd, fun g => ?_⟩
  · filter_upwards [hv, hc] with t ht hl
    show (if c t then x else (N t).val) = _
    rw [if_neg hl, ht]
  · show (Node.const x).back _ + (N θ).back (if c θ then 0 else fin g) = _
    simp only [if_neg hc0, const_back, zero_add, hb]

/-- the difference of a number and itself has gradient 0 under `abs` -/
theorem abs_self (h : Tr N f θ) : Tr (fun t => Node.abs (N t - N t)) (fun _ => 0) θ := by
  have e := h.val
  obtain ⟨hv, d, hd, hb⟩ := h
  refine ⟨?_, 0, hasDerivAt_const _ _, fun g => ?_⟩
  · filter_upwards [hv] with t ht
    show XF.abs ((N t).val - (N t).val) = _
    rw [ht, fin_sub, fin_abs]; simp
  · show (N θ).back (fin g * sgn ((N θ).val - (N θ).val)) + (N θ).back (-(fin g * sgn ((N θ).val - (N θ).val))) = _
    rw [e, fin_sub, sub_self]
    simp only [sgn, lt_irrefl, if_false, if_true, fin_mul, mul_zero, fin_neg, neg_zero, hb, zero_mul, fin_add,
      add_zero]

/-- the CRPS of a normal forecast -/
theorem normal {y m s : ℝ → Node} {fy fm fs : ℝ → ℝ} (hy : Tr y fy θ) (hm : Tr m fm θ) (hs : Tr s fs θ)
    (h0 : 0 < fs θ) :
    Tr (fun t => Grad.normal (y t) (m t) (s t))
      (fun t => fs t * ((fy t - fm t) / fs t * (2 * Φ ((fy t - fm t) / fs t) - 1)
        + 2 * φ ((fy t - fm t) / fs t) - 1 / Real.sqrt Real.pi)) θ := by
  have hw := (hy.sub hm).div hs h0.ne'
  have hc : 1 / XF.sqrt XF.pi = fin (1 / Real.sqrt Real.pi) := by
    unfold XF.pi
    rw [one_def, fin_sqrt Real.pi_pos.le, fin_div (Real.sqrt_pos.2 Real.pi_pos).ne']
  exact hs.mul (((hw.mul ((Tr.two.mul hw.normCdf).sub Tr.one)).add (Tr.two.mul hw.normPdf)).sub (Tr.constx hc))

theorem logistic {y m s : ℝ → Node} {fy fm fs : ℝ → ℝ} (hy : Tr y fy θ) (hm : Tr m fm θ) (hs : Tr s fs θ)
    (h0 : 0 < fs θ) :
    Tr (fun t => Grad.logistic (y t) (m t) (s t))
      (fun t => fs t * ((fy t - fm t) / fs t - 2 * Real.log (1 / (1 + Real.exp (-((fy t - fm t) / fs t)))) - 1)) θ := by
  have hw := (hy.sub hm).div hs h0.ne'
  exact hs.mul ((hw.sub (Tr.two.mul (hw.logisCdf.log (by positivity)))).sub Tr.one)

theorem laplace {y m s : ℝ → Node} {fy fm fs : ℝ → ℝ} (hy : Tr y fy θ) (hm : Tr m fm θ) (hs : Tr s fs θ)
    (h0 : 0 < fs θ) (hne : fy θ ≠ fm θ) :
    Tr (fun t => Grad.laplace (y t) (m t) (s t))
      (fun t => fs t * (|(fy t - fm t) / fs t| + Real.exp (-|(fy t - fm t) / fs t|) - 3 / 4)) θ := by
  have hw := (hy.sub hm).div hs h0.ne'
  have ha := hw.abs (div_ne_zero (sub_ne_zero.2 hne) h0.ne')
  have hc : (3 / 4 : XF) = fin (3 / 4) := by
    rw [ofNat_def, ofNat_def, fin_div (by norm_num)]
  exact hs.mul ((ha.add ha.neg.exp).sub (Tr.constx hc))

theorem lognormal {y m s : ℝ → Node} {fy fm fs : ℝ → ℝ} (hy : Tr y fy θ) (hm : Tr m fm θ) (hs : Tr s fs θ)
    (h0 : 0 < fs θ) (hy0 : 0 < fy θ) :
    ∃ f, Tr (fun t => Grad.lognormal (y t) (m t) (s t)) f θ := by
  have hw := ((hy.log hy0).sub hm).div hs h0.ne'
  have h2 : Real.sqrt 2 ≠ 0 := (Real.sqrt_pos.2 two_pos).ne'
  exact ⟨_, (hy.mul ((Tr.two.mul hw.normCdf).sub Tr.one)).sub
    ((Tr.two.mul (hm.add ((hs.pow 2).div Tr.two (by norm_num))).exp).mul
      (((hw.sub hs).normCdf.add (hs.div Tr.sqrt2 h2).normCdf).sub Tr.one))⟩

/-- `abs` of a number that is 0 near `θ` -/
theorem abs_zero (h : Tr N f θ) (h0 : ∀ t, f t = 0) : Tr (fun t => Node.abs (N t)) (fun _ => 0) θ := by
  have e := h.val
  obtain ⟨hv, d, hd, hb⟩ := h
  refine ⟨?_, 0, hasDerivAt_const _ _, fun g => ?_⟩
  · filter_upwards [hv] with t ht
    show XF.abs (N t).val = _
    rw [ht, fin_abs, h0, _root_.abs_zero]
  · show (N θ).back (fin g * sgn (N θ).val) = _
    rw [e, h0]
    simp only [sgn, lt_irrefl, if_false, if_true, fin_mul, mul_zero, hb, zero_mul]

theorem gtcnormal {y m s l u L U : ℝ → Node} {fy fm fs fl fu fL fU : ℝ → ℝ} (hy : Tr y fy θ) (hm : Tr m fm θ)
    (hs : Tr s fs θ) (hl : Tr l fl θ) (hu : Tr u fu θ) (hL : Tr L fL θ) (hU : Tr U fU θ)
    (h0 : 0 < fs θ) (hly : fl θ < fy θ) (hyu : fy θ < fu θ) (hLU : fL θ + fU θ ≠ 1) :
    ∃ f, Tr (fun t => Grad.gtcnormal (y t) (m t) (s t) (l t) (u t) (L t) (U t)) f θ := by
  have hw := (hy.sub hm).div hs h0.ne'
  have hu' := (hu.sub hm).div hs h0.ne'
  have hl' := (hl.sub hm).div hs h0.ne'
  have h1 : (fl θ - fm θ) / fs θ < (fy θ - fm θ) / fs θ :=
    (div_lt_div_iff_of_pos_right h0).2 (by linarith)
  have h2 : (fy θ - fm θ) / fs θ < (fu θ - fm θ) / fs θ :=
    (div_lt_div_iff_of_pos_right h0).2 (by linarith)
  have hz := (hw.max_left hl' h1).min_left hu' h2
  have hun : ∀ᶠ t in 𝓝 θ, ¬ XF.feq ((u t - m t) / s t).val pinf := by
    filter_upwards [hu'.1] with t ht
    rw [ht]; exact fun h => by cases h
  have hln : ∀ᶠ t in 𝓝 θ, ¬ XF.feq ((l t - m t) / s t).val ninf := by
    filter_upwards [hl'.1] with t ht
    rw [ht]; exact fun h => by cases h
  have hden : Φ ((fu θ - fm θ) / fs θ) - Φ ((fl θ - fm θ) / fs θ) ≠ 0 :=
    (sub_pos.2 (Φ_strictMono (h1.trans h2))).ne'
  have hmass : 1 - fL θ - fU θ ≠ 0 := fun h => hLU (by linarith)
  have hs1u := ((hu'.sel_false hun nan).mul (hU.pow 2)).sel_false
    (c := fun t => XF.feq ((u t - m t) / s t).val pinf ∧ XF.feq (U t).val 0) (hun.mono fun t h h' => h h'.1) 0
  have hs1l := ((hl'.sel_false hln nan).mul (hL.pow 2)).sel_false
    (c := fun t => XF.feq ((l t - m t) / s t).val ninf ∧ XF.feq (L t).val 0) (hln.mono fun t h h' => h h'.1) 0
  have hM := (Tr.one.sub hL).sub hU
  have hc := hM.div (hu'.normCdf.sub hl'.normCdf) hden
  have hs1 := (((hw.sub hz).abs_zero fun t => sub_self _).add hs1u).sub hs1l
  have hs2 := (hc.mul hz).mul ((Tr.two.mul hz.normCdf).sub
    ((((Tr.one.sub (Tr.two.mul hL)).mul hu'.normCdf).add ((Tr.one.sub (Tr.two.mul hU)).mul hl'.normCdf)).div
      hM hmass))
  have hs3 := hc.mul (((Tr.two.mul hz.normPdf).sub ((Tr.two.mul hu'.normPdf).mul hU)).sub
    ((Tr.two.mul hl'.normPdf).mul hL))
  have hs4 := ((hc.pow 2).mul ((hu'.mul Tr.sqrt2).normCdf.sub (hl'.mul Tr.sqrt2).normCdf)).div
    (Tr.constx sqrt_pi_fin) (Real.sqrt_pos.2 Real.pi_pos).ne'
  exact ⟨_, hs.mul (((hs1.add hs2).add hs3).sub hs4)⟩

end Tr

/-- `f_u = _norm_pdf(u)` at `u = inf`: the cotangent 0 of `u ** 2` meets its derivative `2 * inf`. -/
theorem normPdf_bad {u : Node} (hu : u.val = pinf ∨ u.val = ninf) (hb : u.back nan = nan) :
    Bad (Grad.normPdf u) := by
  intro g
  have h0 : ∀ x : XF, x * fin 0 = nan ∨ x * fin 0 = fin 0 := by
    intro x
    cases x <;> simp [mul_def, XF.mul, infMul]
  have hx : ∀ x : XF, (x = nan ∨ x = fin 0) → -(x / 2) * (2 * u.val) = nan := by
    rintro x (rfl | rfl)
    · rw [nan_div, neg_nan, nan_mul]
    · rw [ofNat_def, fin_div (by norm_num), fin_neg]
      rcases hu with h | h <;> rw [h] <;> simp [mul_def, XF.mul, infMul]
  have he : XF.exp (-(u.val ^ 2) / 2) = fin 0 := by
    rcases hu with h | h <;> rw [h, pow_two, ofNat_def] <;>
      simp [mul_def, XF.mul, neg_def, XF.neg, div_def, XF.div, XF.exp]
  have : (Grad.normPdf u).back g = 0 + (u.back (-((g * (1 / XF.sqrt (2 * XF.pi))
      * XF.exp (-(u.val ^ 2) / 2)) / 2) * ((2 : ℕ) * u.val ^ (2 - 1))) + 0) := rfl
  rw [this, he]
  have e2 : ((2 : ℕ) : XF) * u.val ^ (2 - 1) = 2 * u.val := by
    rw [show 2 - 1 = 1 from rfl, pow_one]; rfl
  rw [e2, hx _ (h0 _), hb, nan_add, add_nan]

/-- An infinite bound spoils the gradient of `gtcnormal` with respect to everything the bound in standard units
depends on. -/
theorem gtc_bad {obs mu sigma lower upper lmass umass : Node}
    (h : (((upper - mu) / sigma).val = pinf ∧ ((upper - mu) / sigma).back nan = nan) ∨
      (((lower - mu) / sigma).val = ninf ∧ ((lower - mu) / sigma).back nan = nan)) :
    Bad (Grad.gtcnormal obs mu sigma lower upper lmass umass) := by
  unfold Grad.gtcnormal
  refine Bad.mul_right (Bad.sub_left (Bad.add_right (Bad.mul_right ?_)))
  rcases h with ⟨hv, hb⟩ | ⟨hv, hb⟩
  · exact Bad.sub_left (Bad.sub_right (Bad.mul_left (Bad.mul_right (normPdf_bad (Or.inl hv) hb))))
  · exact Bad.sub_right (Bad.mul_left (Bad.mul_right (normPdf_bad (Or.inr hv) hb)))

/-- the bounds in standard units, for the gradients with respect to the location and the scale -/
theorem bound_bad {m s : ℝ} (hs : 0 < s) {x : XF} :
    (((const x - leaf (fin m)) / const (fin s)).back nan = nan ∧
      ((const x - const (fin m)) / leaf (fin s)).back nan = nan) ∧
    (x = pinf → ((const x - leaf (fin m)) / const (fin s)).val = pinf ∧
      ((const x - const (fin m)) / leaf (fin s)).val = pinf) ∧
    (x = ninf → ((const x - leaf (fin m)) / const (fin s)).val = ninf ∧
      ((const x - const (fin m)) / leaf (fin s)).val = ninf) := by
  refine ⟨⟨?_, ?_⟩, ?_, ?_⟩
  · simp only [div_back, sub_back, const_back, leaf_back, nan_div, neg_nan, nan_add, add_nan]
  · simp only [div_back, sub_back, const_back, leaf_back, neg_nan, nan_mul, add_nan]
  · rintro rfl
    simp only [div_val, sub_val, const_val, leaf_val, pinf_sub_fin, pinf_div_pos hs, and_self]
  · rintro rfl
    simp only [div_val, sub_val, const_val, leaf_val, ninf_sub_fin, ninf_div_pos hs, and_self]

theorem Φ_differentiable : Differentiable ℝ Φ := fun x => (Φ_deriv x).differentiableAt
theorem φ_differentiable : Differentiable ℝ φ := fun x => (φ_deriv x).differentiableAt

theorem hasGradient_of {score : XF → XF} {θ : ℝ} {f : ℝ → ℝ} (hv : ∀ᶠ t in 𝓝 θ, score (fin t) = fin (f t))
    (hd : DifferentiableAt ℝ f θ) : Spec.HasGradient score θ :=
  ⟨_, f, _, hv, hd.hasDerivAt, rfl⟩

theorem sel_val (c : Prop) [Decidable c] (a b : Node) :
    (Node.sel c a b).val = if c then a.val else b.val := by
  unfold Node.sel
  by_cases h : c <;> simp [h]

theorem gtcnormal_val (y m s l u L U : Node) : (Grad.gtcnormal y m s l u L U).val
    = Closed.gtcnormal y.val m.val s.val l.val u.val L.val U.val := by
  unfold Grad.gtcnormal Closed.gtcnormal
  simp only [mul_val, sub_val, add_val, div_val, const_val]
  congr! <;> rw [sel_val] <;> rfl

end Verif
