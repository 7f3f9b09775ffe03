import Verif.Lemmas.GradEdge
import Verif.Lemmas.GradLogs

/-!
# Backpropagation through the truncated scores with respect to the observation
-/

noncomputable section

open scoped Classical Topology

namespace Verif

open XF Py Mv Node Filter Spec Stats

/-- `gtcnormal` after the clamp: `A` is `|ω - z|`, `u` and `l` are the standardised bounds -/
def normCore (A z u l sigma lmass umass : Node) : Node :=
  let Fu := Grad.normCdf u
  let Fl := Grad.normCdf l
  let uInf := XF.feq u.val pinf
  let lInf := XF.feq l.val ninf
  let s1u := sel (uInf ∧ XF.feq umass.val 0) (const 0) (sel uInf (const nan) u * pow umass 2)
  let s1l := sel (lInf ∧ XF.feq lmass.val 0) (const 0) (sel lInf (const nan) l * pow lmass 2)
  let c := (const 1 - lmass - umass) / (Fu - Fl)
  sigma * (A + s1u - s1l + c * z * (const 2 * Grad.normCdf z
    - ((const 1 - const 2 * lmass) * Fu + (const 1 - const 2 * umass) * Fl) / (const 1 - lmass - umass))
    + c * (const 2 * Grad.normPdf z - const 2 * Grad.normPdf u * umass - const 2 * Grad.normPdf l * lmass)
    - pow c 2 * (Grad.normCdf (u * const (XF.sqrt 2)) - Grad.normCdf (l * const (XF.sqrt 2))) / const (XF.sqrt XF.pi))

theorem gtcnormal_core (obs mu sigma lower upper lmass umass : Node) :
    Grad.gtcnormal obs mu sigma lower upper lmass umass
      = normCore (Node.abs ((obs - mu) / sigma - Node.min (Node.max ((obs - mu) / sigma) ((lower - mu) / sigma))
          ((upper - mu) / sigma)))
        (Node.min (Node.max ((obs - mu) / sigma) ((lower - mu) / sigma)) ((upper - mu) / sigma))
        ((upper - mu) / sigma) ((lower - mu) / sigma) sigma lmass umass := rfl

namespace NoGrad

theorem normPdf {a : Node} (ha : NoGrad a) : NoGrad (Grad.normPdf a) :=
  (NoGrad.const _).mul ((((ha.pow 2).neg).div (NoGrad.const _)).exp)

theorem logisCdf {a : Node} (ha : NoGrad a) : NoGrad (Grad.logisCdf a) :=
  (NoGrad.const _).div ((NoGrad.const _).add ha.neg.exp)

end NoGrad

/-- the distribution function at an end of an interval, which may be infinite -/
def endF (F : ℝ → ℝ) : XF → ℝ
  | fin x => F x
  | pinf => 1
  | _ => 0

/-- no point masses, nothing but the observation varies -/
theorem normCore_obs {A z u l : Node} {s va da v d : ℝ} (hA : Pt A va da) (hz : Pt z v d) (hu : NoGrad u)
    (hl : NoGrad l) (hun : u.val ≠ nan) (hln : l.val ≠ nan) (hu' : u.val ≠ ninf) (hl' : l.val ≠ pinf)
    (hne : endF Φ u.val ≠ endF Φ l.val) :
    ∃ w, Pt (normCore A z u l (const (fin s)) (const 0) (const 0)) w
      (s * (da + (endF Φ u.val - endF Φ l.val)⁻¹ * (2 * Φ v - (endF Φ u.val + endF Φ l.val)) * d)) := by
  have Fv : ∀ {n : Node}, NoGrad n → n.val ≠ nan → Pt (Grad.normCdf n) (endF Φ n.val) 0 := by
    intro n hn hv
    refine ⟨?_, fun g => by rw [hn.normCdf, mul_zero]⟩
    show Stats.normCdf n.val = _
    revert hv
    cases n.val with
    | nan => exact fun h => absurd rfl h
    | ninf => exact fun _ => normCdf_ninf
    | pinf => exact fun _ => normCdf_pinf
    | fin x => exact fun _ => normCdf_fin x
  have pv : ∀ {n : Node}, NoGrad n → n.val ≠ nan → ∃ p, Pt (Grad.normPdf n) p 0 := by
    intro n hn hv
    have : ∃ p, (Grad.normPdf n).val = fin p := by
      show ∃ p, Stats.normPdf n.val = fin p
      revert hv
      cases n.val with
      | nan => exact fun h => absurd rfl h
      | ninf => exact fun _ => ⟨_, normPdf_ninf⟩
      | pinf => exact fun _ => ⟨_, normPdf_pinf⟩
      | fin x => exact fun _ => ⟨_, normPdf_fin x⟩
    obtain ⟨p, hp⟩ := this
    exact ⟨p, hp, fun g => by rw [hn.normPdf, mul_zero]⟩
  have mv : ∀ {n : Node}, n.val ≠ nan → (n * const (XF.sqrt 2)).val ≠ nan := by
    intro n hv
    rw [mul_val, const_val, sqrt2_fin]
    have := Real.sqrt_pos.2 (two_pos (α := ℝ))
    revert hv
    cases n.val <;> simp [mul_def, XF.mul, infMul, this, this.ne']
  have hFu := Fv hu hun
  have hFl := Fv hl hln
  have hFu2 := Fv (hu.mul (NoGrad.const (XF.sqrt 2))) (mv hun)
  have hFl2 := Fv (hl.mul (NoGrad.const (XF.sqrt 2))) (mv hln)
  obtain ⟨_, hfu⟩ := pv hu hun
  obtain ⟨_, hfl⟩ := pv hl hln
  have z0 : (Node.pow (const 0) 2).val = fin 0 := by
    show (0 : XF) ^ 2 = _
    rw [zero_def, fin_pow]; norm_num
  have hs1u : Pt (sel (XF.feq u.val pinf ∧ XF.feq (const 0).val 0) (const 0)
      (sel (XF.feq u.val pinf) (const nan) u * Node.pow (const 0) 2)) 0 0 := by
    refine ⟨?_, fun g => ?_⟩
    · rw [sel_val]
      by_cases h : XF.feq u.val pinf
      · rw [if_pos ⟨h, (fin_feq 0 0).2 rfl⟩]; rfl
      · rw [if_neg fun h' => h h'.1, mul_val, sel_val, if_neg h, z0]
        revert hun hu' h
        cases u.val <;> simp [XF.feq]
    · rw [NoGrad.sel _ (NoGrad.const 0) ((NoGrad.sel _ (NoGrad.const nan) hu).mul ((NoGrad.const 0).pow 2)), mul_zero]
  have hs1l : Pt (sel (XF.feq l.val ninf ∧ XF.feq (const 0).val 0) (const 0)
      (sel (XF.feq l.val ninf) (const nan) l * Node.pow (const 0) 2)) 0 0 := by
    refine ⟨?_, fun g => ?_⟩
    · rw [sel_val]
      by_cases h : XF.feq l.val ninf
      · rw [if_pos ⟨h, (fin_feq 0 0).2 rfl⟩]; rfl
      · rw [if_neg fun h' => h h'.1, mul_val, sel_val, if_neg h, z0]
        revert hln hl' h
        cases l.val <;> simp [XF.feq]
    · rw [NoGrad.sel _ (NoGrad.const 0) ((NoGrad.sel _ (NoGrad.const nan) hl).mul ((NoGrad.const 0).pow 2)), mul_zero]
  have hM := (Pt.one.sub Pt.zero).sub Pt.zero
  have hD := sub_ne_zero.2 hne
  have hc := hM.div (hFu.sub hFl) hD
  have hzc : Pt (Grad.normCdf z) (Φ v) (φ v * d) := by
    have hd : HasDerivAt (fun t => Φ (v + d * t)) (φ v * d) 0 := by
      have h1 : HasDerivAt Φ (φ v) (v + d * 0) := by rw [mul_zero, add_zero]; exact Φ_deriv v
      exact h1.comp 0 (Pt.tr_deriv v d)
    simpa [fam_zero] using (hz.tr.normCdf).pt hd
  have hzp : Pt (Grad.normPdf z) (φ v) (-(v * φ v) * d) := by
    have hd : HasDerivAt (fun t => φ (v + d * t)) (-(v * φ v) * d) 0 := by
      have h1 : HasDerivAt φ (-(v * φ v)) (v + d * 0) := by
        rw [mul_zero, add_zero]
        exact (φ_deriv v).congr_deriv (by ring)
      exact h1.comp 0 (Pt.tr_deriv v d)
    simpa [fam_zero] using (hz.tr.normPdf).pt hd
  have hpi : Pt (const (XF.sqrt XF.pi)) (Real.sqrt Real.pi) 0 := by rw [sqrt_pi_fin]; exact Pt.const _
  have hpi0 : Real.sqrt Real.pi ≠ 0 := (Real.sqrt_pos.2 Real.pi_pos).ne'
  have key := (Pt.const s).mul (((((hA.add hs1u).sub hs1l).add ((hc.mul hz).mul ((Pt.two.mul hzc).sub
    ((((Pt.one.sub (Pt.two.mul Pt.zero)).mul hFu).add ((Pt.one.sub (Pt.two.mul Pt.zero)).mul hFl)).div hM
      (by norm_num))))).add (hc.mul (((Pt.two.mul hzp).sub ((Pt.two.mul hfu).mul Pt.zero)).sub
        ((Pt.two.mul hfl).mul Pt.zero)))).sub (((hc.pow 2).mul (hFu2.sub hFl2)).div hpi hpi0))
  refine ⟨_, key.cast rfl ?_⟩
  simp [-mul_eq_mul_left_iff]
  ring

/-- `gtclogistic` after the clamp -/
def logisCore (A z u l sigma lmass umass : Node) : Node :=
  let Fu := Grad.logisCdf u
  let Fl := Grad.logisCdf l
  let uInf := XF.feq u.val pinf
  let lInf := XF.feq l.val ninf
  let Fmu := sel (uInf ∨ lInf) (const nan) (Grad.logisCdf (-u))
  let Fml := sel (uInf ∨ lInf) (const nan) (Grad.logisCdf (-l))
  let u := sel uInf (const nan) u
  let l := sel lInf (const nan) l
  let Gu := sel uInf (const 0) (u * Fu + Node.log Fmu)
  let Gl := sel lInf (const 0) (l * Fl + Node.log Fml)
  let Hu := sel uInf (const 1) (Fu - u * pow Fu 2 + (const 1 - const 2 * Fu) * Node.log Fmu)
  let Hl := sel lInf (const 0) (Fl - l * pow Fl 2 + (const 1 - const 2 * Fl) * Node.log Fml)
  let c := (const 1 - lmass - umass) / (Fu - Fl)
  let s1u := sel (uInf ∧ XF.feq umass.val 0) (const 0) (u * pow umass 2)
  let s1l := sel (lInf ∧ XF.feq lmass.val 0) (const 0) (l * pow lmass 2)
  sigma * (A + s1u - s1l - c * z * ((const 1 - const 2 * lmass) * Fu + (const 1 - const 2 * umass) * Fl)
    / (const 1 - lmass - umass)
    - c * (const 2 * Node.log (Grad.logisCdf (-z)) - const 2 * Gu * umass - const 2 * Gl * lmass)
    - pow c 2 * (Hu - Hl))

theorem gtclogistic_core (obs mu sigma lower upper lmass umass : Node) :
    Grad.gtclogistic obs mu sigma lower upper lmass umass
      = logisCore (Node.abs ((obs - mu) / sigma - Node.min (Node.max ((obs - mu) / sigma) ((lower - mu) / sigma))
          ((upper - mu) / sigma)))
        (Node.min (Node.max ((obs - mu) / sigma) ((lower - mu) / sigma)) ((upper - mu) / sigma))
        ((upper - mu) / sigma) ((lower - mu) / sigma) sigma lmass umass := rfl

theorem Pt.of_tr_dead {n : Node} {f : ℝ → ℝ} (h : Tr (fun _ => n) f 0) (hn : NoGrad n) : ∃ v, Pt n v 0 :=
  ⟨f 0, h.val, fun g => by rw [hn, mul_zero]⟩

namespace Tr

variable {θ : ℝ}

/-- `gtcnormal` after the clamp, finite bounds -/
theorem normCore {A z u l s L U : ℝ → Node} {fA fz fu fl fs fL fU : ℝ → ℝ} (hA : Tr A fA θ) (hz : Tr z fz θ)
    (hu' : Tr u fu θ) (hl' : Tr l fl θ) (hs : Tr s fs θ) (hL : Tr L fL θ) (hU : Tr U fU θ)
    (hlu : fl θ < fu θ) (hLU : fL θ + fU θ ≠ 1) :
    ∃ f, Tr (fun t => Verif.normCore (A t) (z t) (u t) (l t) (s t) (L t) (U t)) f θ := by
  have hun : ∀ᶠ t in 𝓝 θ, ¬ XF.feq (u t).val pinf := by
    filter_upwards [hu'.1] with t ht
    rw [ht]; exact fun h => by cases h
  have hln : ∀ᶠ t in 𝓝 θ, ¬ XF.feq (l t).val ninf := by
    filter_upwards [hl'.1] with t ht
    rw [ht]; exact fun h => by cases h
  have hden : Φ (fu θ) - Φ (fl θ) ≠ 0 := (sub_pos.2 (Φ_strictMono hlu)).ne'
  have hmass : 1 - fL θ - fU θ ≠ 0 := fun h => hLU (by linarith)
  have hs1u := ((hu'.sel_false hun nan).mul (hU.pow 2)).sel_false
    (c := fun t => XF.feq (u t).val pinf ∧ XF.feq (U t).val 0) (hun.mono fun t h h' => h h'.1) 0
  have hs1l := ((hl'.sel_false hln nan).mul (hL.pow 2)).sel_false
    (c := fun t => XF.feq (l t).val ninf ∧ XF.feq (L t).val 0) (hln.mono fun t h h' => h h'.1) 0
  have hM := (Tr.one.sub hL).sub hU
  have hc := hM.div (hu'.normCdf.sub hl'.normCdf) hden
  have hs1 := (hA.add hs1u).sub hs1l
  have hs2 := (hc.mul hz).mul ((Tr.two.mul hz.normCdf).sub
    ((((Tr.one.sub (Tr.two.mul hL)).mul hu'.normCdf).add ((Tr.one.sub (Tr.two.mul hU)).mul hl'.normCdf)).div
      hM hmass))
  have hs3 := hc.mul (((Tr.two.mul hz.normPdf).sub ((Tr.two.mul hu'.normPdf).mul hU)).sub
    ((Tr.two.mul hl'.normPdf).mul hL))
  have hs4 := ((hc.pow 2).mul ((hu'.mul Tr.sqrt2).normCdf.sub (hl'.mul Tr.sqrt2).normCdf)).div
    (Tr.constx sqrt_pi_fin) (Real.sqrt_pos.2 Real.pi_pos).ne'
  exact ⟨_, hs.mul (((hs1.add hs2).add hs3).sub hs4)⟩

/-- `gtclogistic` after the clamp, finite bounds -/
theorem logisCore {A z u l s L U : ℝ → Node} {fA fz fu fl fs fL fU : ℝ → ℝ} (hA : Tr A fA θ) (hz : Tr z fz θ)
    (hu' : Tr u fu θ) (hl' : Tr l fl θ) (hs : Tr s fs θ) (hL : Tr L fL θ) (hU : Tr U fU θ)
    (hlu : fl θ < fu θ) (hLU : fL θ + fU θ ≠ 1) :
    ∃ f, Tr (fun t => Verif.logisCore (A t) (z t) (u t) (l t) (s t) (L t) (U t)) f θ := by
  have hun : ∀ᶠ t in 𝓝 θ, ¬ XF.feq (u t).val pinf := by
    filter_upwards [hu'.1] with t ht
    rw [ht]; exact fun h => by cases h
  have hln : ∀ᶠ t in 𝓝 θ, ¬ XF.feq (l t).val ninf := by
    filter_upwards [hl'.1] with t ht
    rw [ht]; exact fun h => by cases h
  have hor : ∀ᶠ t in 𝓝 θ, ¬ (XF.feq (u t).val pinf ∨ XF.feq (l t).val ninf) := by
    filter_upwards [hun, hln] with t a b
    exact not_or.2 ⟨a, b⟩
  have hden : logis (fu θ) - logis (fl θ) ≠ 0 := (sub_pos.2 (logis_strictMono hlu)).ne'
  have hmass : 1 - fL θ - fU θ ≠ 0 := fun h => hLU (by linarith)
  have hlu := (hu'.neg.logisCdf.sel_false hor nan).log (by positivity)
  have hll := (hl'.neg.logisCdf.sel_false hor nan).log (by positivity)
  have hun' := hu'.sel_false hun nan
  have hln' := hl'.sel_false hln nan
  have hGu := ((hun'.mul hu'.logisCdf).add hlu).sel_false hun 0
  have hGl := ((hln'.mul hl'.logisCdf).add hll).sel_false hln 0
  have hHu := ((hu'.logisCdf.sub (hun'.mul (hu'.logisCdf.pow 2))).add
    ((Tr.one.sub (Tr.two.mul hu'.logisCdf)).mul hlu)).sel_false hun 1
  have hHl := ((hl'.logisCdf.sub (hln'.mul (hl'.logisCdf.pow 2))).add
    ((Tr.one.sub (Tr.two.mul hl'.logisCdf)).mul hll)).sel_false hln 0
  have hs1u := (hun'.mul (hU.pow 2)).sel_false
    (c := fun t => XF.feq (u t).val pinf ∧ XF.feq (U t).val 0) (hun.mono fun t h h' => h h'.1) 0
  have hs1l := (hln'.mul (hL.pow 2)).sel_false
    (c := fun t => XF.feq (l t).val ninf ∧ XF.feq (L t).val 0) (hln.mono fun t h h' => h h'.1) 0
  have hM := (Tr.one.sub hL).sub hU
  have hc := hM.div (hu'.logisCdf.sub hl'.logisCdf) hden
  have hs1 := (hA.add hs1u).sub hs1l
  have hs2 := ((hc.mul hz).mul
    (((Tr.one.sub (Tr.two.mul hL)).mul hu'.logisCdf).add ((Tr.one.sub (Tr.two.mul hU)).mul hl'.logisCdf))).div
      hM hmass
  have hs3 := hc.mul (((Tr.two.mul (hz.neg.logisCdf.log (by positivity))).sub ((Tr.two.mul hGu).mul hU)).sub
    ((Tr.two.mul hGl).mul hL))
  have hs4 := (hc.pow 2).mul (hHu.sub hHl)
  exact ⟨_, hs.mul (((hs1.sub hs2).sub hs3).sub hs4)⟩

/-- the clamp of a number that is not at an end of the interval -/
theorem clamp {w u l : ℝ → Node} {fw fu fl : ℝ → ℝ} (hw : Tr w fw θ) (hu : Tr u fu θ) (hl : Tr l fl θ)
    (hlu : fl θ < fu θ) (h1 : fw θ ≠ fl θ) (h2 : fw θ ≠ fu θ) :
    ∃ fz fA, Tr (fun t => Node.min (Node.max (w t) (l t)) (u t)) fz θ ∧
      Tr (fun t => Node.abs (w t - Node.min (Node.max (w t) (l t)) (u t))) fA θ := by
  rcases lt_or_gt_of_ne h1 with h | h
  · have hz := (hw.max_right hl h).min_left hu hlu
    exact ⟨_, _, hz, (hw.sub hz).abs (sub_ne_zero.2 h1)⟩
  · rcases lt_or_gt_of_ne h2 with h' | h'
    · have hz := (hw.max_left hl h).min_left hu h'
      exact ⟨_, _, hz, (hw.sub hz).abs_zero fun _ => sub_self _⟩
    · have hz := (hw.max_left hl h).min_right hu h'
      exact ⟨_, _, hz, (hw.sub hz).abs (sub_ne_zero.2 h2)⟩

/-- `gtcnormal` and `gtclogistic` at an observation that is not at a bound -/
theorem gtc {y m s l u L U : ℝ → Node} {fy fm fs fl fu fL fU : ℝ → ℝ} (hy : Tr y fy θ) (hm : Tr m fm θ)
    (hs : Tr s fs θ) (hl : Tr l fl θ) (hu : Tr u fu θ) (hL : Tr L fL θ) (hU : Tr U fU θ)
    (h0 : 0 < fs θ) (hlu : fl θ < fu θ) (h1 : fy θ ≠ fl θ) (h2 : fy θ ≠ fu θ) (hLU : fL θ + fU θ ≠ 1) :
    (∃ f, Tr (fun t => Grad.gtcnormal (y t) (m t) (s t) (l t) (u t) (L t) (U t)) f θ) ∧
    ∃ f, Tr (fun t => Grad.gtclogistic (y t) (m t) (s t) (l t) (u t) (L t) (U t)) f θ := by
  have hw := (hy.sub hm).div hs h0.ne'
  have hu' := (hu.sub hm).div hs h0.ne'
  have hl' := (hl.sub hm).div hs h0.ne'
  have e : ∀ {a b : ℝ}, a ≠ b → (a - fm θ) / fs θ ≠ (b - fm θ) / fs θ := by
    intro a b h h'
    rw [div_left_inj' h0.ne'] at h'
    exact h (by linarith)
  have hlu' : (fl θ - fm θ) / fs θ < (fu θ - fm θ) / fs θ := (div_lt_div_iff_of_pos_right h0).2 (by linarith)
  obtain ⟨_, _, hz, hA⟩ := hw.clamp hu' hl' hlu' (e h1) (e h2)
  exact ⟨hA.normCore hz hu' hl' hs hL hU hlu' hLU, hA.logisCore hz hu' hl' hs hL hU hlu' hLU⟩

end Tr

/-- no point masses, finite bounds, nothing but the observation varies -/
theorem logisCore_obs {A z u l : Node} {s va da v d vu vl : ℝ} (hA : Pt A va da) (hz : Pt z v d) (hu : NoGrad u)
    (hl : NoGrad l) (eu : u.val = fin vu) (el : l.val = fin vl) (hlu : vl < vu) :
    ∃ w, Pt (logisCore A z u l (const (fin s)) (const 0) (const 0)) w
      (s * (da + (logis vu - logis vl)⁻¹ * (2 * logis v - (logis vu + logis vl)) * d)) := by
  have Tu : Tr (fun _ => u) (fun _ => vu) 0 := Tr.of_dead hu (Eventually.of_forall fun _ => eu)
  have Tl : Tr (fun _ => l) (fun _ => vl) 0 := Tr.of_dead hl (Eventually.of_forall fun _ => el)
  have hun : ∀ᶠ _ in 𝓝 (0:ℝ), ¬ XF.feq u.val pinf := Eventually.of_forall fun _ => by
    rw [eu]; exact fun h => by cases h
  have hln : ∀ᶠ _ in 𝓝 (0:ℝ), ¬ XF.feq l.val ninf := Eventually.of_forall fun _ => by
    rw [el]; exact fun h => by cases h
  have hor : ∀ᶠ _ in 𝓝 (0:ℝ), ¬ (XF.feq u.val pinf ∨ XF.feq l.val ninf) := by
    filter_upwards [hun, hln] with t a b
    exact not_or.2 ⟨a, b⟩
  have d0 := NoGrad.const (0:XF)
  have dn := NoGrad.const nan
  have d1 := NoGrad.const (1:XF)
  have d2 := NoGrad.const (2:XF)
  have Fu : Pt (Grad.logisCdf u) (logis vu) 0 := ⟨Tu.logisCdf.val, fun g => by rw [hu.logisCdf, mul_zero]⟩
  have Fl : Pt (Grad.logisCdf l) (logis vl) 0 := ⟨Tl.logisCdf.val, fun g => by rw [hl.logisCdf, mul_zero]⟩
  have Tlu := (Tu.neg.logisCdf.sel_false hor nan).log (by positivity)
  have Tll := (Tl.neg.logisCdf.sel_false hor nan).log (by positivity)
  have Dlu := (NoGrad.sel (XF.feq u.val pinf ∨ XF.feq l.val ninf) dn hu.neg.logisCdf).log
  have Dll := (NoGrad.sel (XF.feq u.val pinf ∨ XF.feq l.val ninf) dn hl.neg.logisCdf).log
  have Tun := Tu.sel_false hun nan
  have Tln := Tl.sel_false hln nan
  have Dun := NoGrad.sel (XF.feq u.val pinf) dn hu
  have Dln := NoGrad.sel (XF.feq l.val ninf) dn hl
  obtain ⟨_, hGu⟩ := Pt.of_tr_dead (((Tun.mul Tu.logisCdf).add Tlu).sel_false hun 0)
    (NoGrad.sel _ d0 ((Dun.mul hu.logisCdf).add Dlu))
  obtain ⟨_, hGl⟩ := Pt.of_tr_dead (((Tln.mul Tl.logisCdf).add Tll).sel_false hln 0)
    (NoGrad.sel _ d0 ((Dln.mul hl.logisCdf).add Dll))
  obtain ⟨_, hHu⟩ := Pt.of_tr_dead (((Tu.logisCdf.sub (Tun.mul (Tu.logisCdf.pow 2))).add
    ((Tr.one.sub (Tr.two.mul Tu.logisCdf)).mul Tlu)).sel_false hun 1)
    (NoGrad.sel _ d1 ((hu.logisCdf.sub (Dun.mul (hu.logisCdf.pow 2))).add ((d1.sub (d2.mul hu.logisCdf)).mul Dlu)))
  obtain ⟨_, hHl⟩ := Pt.of_tr_dead (((Tl.logisCdf.sub (Tln.mul (Tl.logisCdf.pow 2))).add
    ((Tr.one.sub (Tr.two.mul Tl.logisCdf)).mul Tll)).sel_false hln 0)
    (NoGrad.sel _ d0 ((hl.logisCdf.sub (Dln.mul (hl.logisCdf.pow 2))).add ((d1.sub (d2.mul hl.logisCdf)).mul Dll)))
  obtain ⟨_, hs1u⟩ := Pt.of_tr_dead ((Tun.mul (Tr.zero.pow 2)).sel_false
    (c := fun _ => XF.feq u.val pinf ∧ XF.feq (const 0).val 0) (hun.mono fun t h h' => h h'.1) 0)
    (NoGrad.sel _ d0 (Dun.mul (d0.pow 2)))
  obtain ⟨_, hs1l⟩ := Pt.of_tr_dead ((Tln.mul (Tr.zero.pow 2)).sel_false
    (c := fun _ => XF.feq l.val ninf ∧ XF.feq (const 0).val 0) (hln.mono fun t h h' => h h'.1) 0)
    (NoGrad.sel _ d0 (Dln.mul (d0.pow 2)))
  have hM := (Pt.one.sub Pt.zero).sub Pt.zero
  have hD : logis vu - logis vl ≠ 0 := (sub_pos.2 (logis_strictMono hlu)).ne'
  have hc := hM.div (Fu.sub Fl) hD
  have hlz : Pt (Node.log (Grad.logisCdf (-z))) (Real.log (logis (-v))) (-logis v * d) := by
    have hd : HasDerivAt (fun t => Real.log (1 / (1 + Real.exp (-(-(v + d * t)))))) (-logis v * d) 0 := by
      have h1 : HasDerivAt logis (logis (-v) * (1 - logis (-v))) (-(v + d * 0)) := by
        rw [mul_zero, add_zero]; exact logis_deriv (-v)
      have h3 : HasDerivAt (fun t => -(v + d * t)) (-d) 0 := (Pt.tr_deriv v d).neg
      have h4 : HasDerivAt (fun t => logis (-(v + d * t))) (logis (-v) * (1 - logis (-v)) * -d) 0 :=
        HasDerivAt.comp (h₂ := logis) (h := fun t => -(v + d * t)) 0 h1 h3
      refine (h4.log (logis_pos _).ne').congr_deriv ?_
      have hl0 := logis_pos (-v)
      have e : logis v = 1 - logis (-v) := by
        unfold logis
        rw [neg_neg, Real.exp_neg]
        have := Real.exp_pos v
        field_simp
        ring
      simp only [mul_zero, add_zero, e]
      field_simp
    have := (hz.tr.neg.logisCdf.log (by positivity)).pt hd
    simpa [fam_zero, logis] using this
  have key := (Pt.const s).mul (((((hA.add hs1u).sub hs1l).sub (((hc.mul hz).mul
    (((Pt.one.sub (Pt.two.mul Pt.zero)).mul Fu).add ((Pt.one.sub (Pt.two.mul Pt.zero)).mul Fl))).div hM
      (by norm_num))).sub (hc.mul (((Pt.two.mul hlz).sub ((Pt.two.mul hGu).mul Pt.zero)).sub
        ((Pt.two.mul hGl).mul Pt.zero)))).sub ((hc.pow 2).mul (hHu.sub hHl)))
  refine ⟨_, key.cast rfl ?_⟩
  simp [-mul_eq_mul_left_iff]
  ring

theorem cdfGtc_cont_lower {F : ℝ → ℝ} (hF : Monotone F) (hc : Continuous F) {l u : ℝ} (hlu : l < u) (hl : F l < F u) :
    ContinuousAt (cdfGtc F l u 0 0) l := by
  have hd := sub_pos.2 hl
  have h2 : ContinuousAt (fun z => max 0 ((F z - F l) / (F u - F l))) l := by
    apply Continuous.continuousAt; fun_prop
  refine h2.congr ?_
  filter_upwards [gt_mem_nhds hlu] with z hz
  unfold cdfGtc
  split_ifs with h
  · exact max_eq_left (div_nonpos_of_nonpos_of_nonneg (by linarith [hF h.le]) hd.le)
  · rw [max_eq_right (div_nonneg (by linarith [hF (not_lt.1 h)]) hd.le)]; ring

theorem cdfGtc_cont_upper {F : ℝ → ℝ} (hF : Monotone F) (hc : Continuous F) {l u : ℝ} (hlu : l < u) (hl : F l < F u) :
    ContinuousAt (cdfGtc F l u 0 0) u := by
  have hd := sub_pos.2 hl
  have h2 : ContinuousAt (fun z => min 1 ((F z - F l) / (F u - F l))) u := by
    apply Continuous.continuousAt; fun_prop
  refine h2.congr ?_
  filter_upwards [lt_mem_nhds hlu] with z hz
  unfold cdfGtc
  rw [if_neg (not_lt.2 (le_of_lt hz))]
  split_ifs with h
  · rw [min_eq_right (by rw [div_le_one hd]; linarith [hF h.le])]; ring
  · exact min_eq_left (by rw [one_le_div hd]; linarith [hF (not_lt.1 h)])

/-- the standardised clamp at the lower bound -/
theorem clamp_lower {l m s : ℝ} (hs : 0 < s) {u : XF} (hu : fin l < u) :
    Pt (Node.min (Node.max ((leaf (fin l) - const (fin m)) / const (fin s)) ((const (fin l) - const (fin m)) / const (fin s)))
      ((const u - const (fin m)) / const (fin s))) ((l - m) / s) (1 / s / 2) ∧
    Pt (Node.abs ((leaf (fin l) - const (fin m)) / const (fin s) - Node.min (Node.max ((leaf (fin l) - const (fin m)) / const (fin s))
      ((const (fin l) - const (fin m)) / const (fin s))) ((const u - const (fin m)) / const (fin s)))) 0 0 := by
  have hw : Pt ((leaf (fin l) - const (fin m)) / const (fin s)) ((l - m) / s) (1 / s) :=
    (((Pt.leaf l).sub (Pt.const m)).div (Pt.const s) hs.ne').cast rfl (by field_simp; ring)
  have hl : Pt ((const (fin l) - const (fin m)) / const (fin s)) ((l - m) / s) 0 :=
    (((Pt.const l).sub (Pt.const m)).div (Pt.const s) hs.ne').cast rfl (by simp)
  have hz := ((hw.max_tie hl).cast rfl (e := 1 / s / 2) (by ring)).min_lt
    (b := (const u - const (fin m)) / const (fin s))
    (((NoGrad.const u).sub (NoGrad.const _)).div (NoGrad.const _) _) (by
      rw [div_val, sub_val, const_val, const_val, const_val]
      revert hu
      cases u with
      | nan => simp
      | ninf => simp
      | pinf => intro _; rw [pinf_sub_fin, pinf_div_pos hs]; simp
      | fin r =>
        intro h
        rw [fin_lt] at h
        rw [fin_sub, fin_div hs.ne', fin_lt]
        exact (div_lt_div_iff_of_pos_right hs).2 (by linarith))
  exact ⟨hz, ((hw.sub hz).cast (sub_self _) rfl).abs_zero⟩

/-- the standardised clamp at the upper bound -/
theorem clamp_upper {u m s : ℝ} (hs : 0 < s) {l : XF} (hl : l < fin u) :
    Pt (Node.min (Node.max ((leaf (fin u) - const (fin m)) / const (fin s)) ((const l - const (fin m)) / const (fin s)))
      ((const (fin u) - const (fin m)) / const (fin s))) ((u - m) / s) (1 / s / 2) ∧
    Pt (Node.abs ((leaf (fin u) - const (fin m)) / const (fin s) - Node.min (Node.max ((leaf (fin u) - const (fin m)) / const (fin s))
      ((const l - const (fin m)) / const (fin s))) ((const (fin u) - const (fin m)) / const (fin s)))) 0 0 := by
  have hw : Pt ((leaf (fin u) - const (fin m)) / const (fin s)) ((u - m) / s) (1 / s) :=
    (((Pt.leaf u).sub (Pt.const m)).div (Pt.const s) hs.ne').cast rfl (by field_simp; ring)
  have hu : Pt ((const (fin u) - const (fin m)) / const (fin s)) ((u - m) / s) 0 :=
    (((Pt.const u).sub (Pt.const m)).div (Pt.const s) hs.ne').cast rfl (by simp)
  have hz := ((hw.max_gt (b := (const l - const (fin m)) / const (fin s))
    (((NoGrad.const l).sub (NoGrad.const _)).div (NoGrad.const _) _) (by
      rw [div_val, sub_val, const_val, const_val, const_val]
      revert hl
      cases l with
      | nan => simp
      | pinf => simp
      | ninf => intro _; rw [ninf_sub_fin, ninf_div_pos hs]; simp
      | fin r =>
        intro h
        rw [fin_lt] at h
        rw [fin_sub, fin_div hs.ne', fin_lt]
        exact (div_lt_div_iff_of_pos_right hs).2 (by linarith))).min_tie hu).cast rfl (e := 1 / s / 2) (by ring)
  exact ⟨hz, ((hw.sub hz).cast (sub_self _) rfl).abs_zero⟩

theorem nstd_dead (x : XF) (m s : ℝ) : NoGrad ((const x - const (fin m)) / const (fin s)) :=
  ((NoGrad.const x).sub (NoGrad.const _)).div (NoGrad.const _)

theorem nstd_fin {s : ℝ} (x m : ℝ) (hs : 0 < s) :
    ((const (fin x) - const (fin m)) / const (fin s)).val = fin ((x - m) / s) := by
  rw [div_val, sub_val, const_val, const_val, const_val, fin_sub, fin_div hs.ne']

theorem nstd_pinf {s : ℝ} (m : ℝ) (hs : 0 < s) : ((const pinf - const (fin m)) / const (fin s)).val = pinf := by
  rw [div_val, sub_val, const_val, const_val, const_val, pinf_sub_fin, pinf_div_pos hs]

theorem nstd_ninf {s : ℝ} (m : ℝ) (hs : 0 < s) : ((const ninf - const (fin m)) / const (fin s)).val = ninf := by
  rw [div_val, sub_val, const_val, const_val, const_val, ninf_sub_fin, ninf_div_pos hs]

end Verif
