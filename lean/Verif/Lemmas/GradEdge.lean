import Verif.Model.GradEdge
import Verif.Lemmas.GradT
import Verif.Lemmas.GradClogs
import Verif.Lemmas.GradSort

/-!
# Backpropagation through clamps, point masses and two pieces
-/

noncomputable section

open scoped Classical Topology

namespace Verif

open XF Py Mv Node Filter Spec

/-- `n` has the finite value `v` and passes the cotangent on times `d`, whether or not `d` is a derivative -/
def Pt (n : Node) (v d : ℝ) : Prop := n.val = fin v ∧ ∀ g : ℝ, n.back (fin g) = fin (g * d)

/-- a family of numbers that is `n` at 0 and the affine function `v + d * t` elsewhere -/
def fam (n : Node) (v d : ℝ) (t : ℝ) : Node := if t = 0 then n else Node.const (fin (v + d * t))

theorem fam_zero (n : Node) (v d : ℝ) : fam n v d 0 = n := if_pos rfl

theorem Pt.tr {n : Node} {v d : ℝ} (h : Pt n v d) : Tr (fam n v d) (fun t => v + d * t) 0 := by
  refine ⟨Eventually.of_forall fun t => ?_, d, ?_, fun g => ?_⟩
  · unfold fam
    split_ifs with h0
    · subst h0; rw [h.1]; simp
    · rfl
  · simpa using ((hasDerivAt_id (0:ℝ)).const_mul d).const_add v
  · rw [fam_zero, h.2]

theorem Pt.tr_deriv (v d : ℝ) : HasDerivAt (fun t => v + d * t) d 0 := by
  simpa using ((hasDerivAt_id (0:ℝ)).const_mul d).const_add v

theorem Pt.grad {n : Node} {v d : ℝ} (h : Pt n v d) : n.grad = fin d := by
  show n.back 1 = _
  rw [one_def, h.2, one_mul]

theorem Tr.pt {N : ℝ → Node} {f : ℝ → ℝ} {θ d : ℝ} (h : Tr N f θ) (hd : HasDerivAt f d θ) : Pt (N θ) (f θ) d := by
  refine ⟨h.val, fun g => ?_⟩
  obtain ⟨_, d', hd', hb⟩ := h
  rw [hb, hd'.unique hd]

namespace Pt

variable {a b : Node} {v w d e : ℝ}

theorem add (h : Pt a v d) (h' : Pt b w e) : Pt (a + b) (v + w) (d + e) :=
  ⟨by rw [add_val, h.1, h'.1, fin_add], fun g => by rw [add_back, h.2, h'.2, fin_add, mul_add]⟩

theorem sub (h : Pt a v d) (h' : Pt b w e) : Pt (a - b) (v - w) (d - e) :=
  ⟨by rw [sub_val, h.1, h'.1, fin_sub], fun g => by
    rw [sub_back, h.2, fin_neg, h'.2, fin_add]; congr 1; ring⟩

theorem mul (h : Pt a v d) (h' : Pt b w e) : Pt (a * b) (v * w) (d * w + v * e) :=
  ⟨by rw [mul_val, h.1, h'.1, fin_mul], fun g => by
    rw [mul_back, h.1, h'.1, fin_mul, fin_mul, h.2, h'.2, fin_add]; congr 1; ring⟩

theorem div (h : Pt a v d) (h' : Pt b w e) (hw : w ≠ 0) : Pt (a / b) (v / w) ((d * w - v * e) / w ^ 2) :=
  ⟨by rw [div_val, h.1, h'.1, fin_div hw], fun g => by
    rw [div_back, h.1, h'.1, fin_div hw, fin_div hw, fin_div hw, fin_neg, fin_mul, h.2, h'.2, fin_add]
    congr 1; field_simp; ring⟩

theorem leaf (c : ℝ) : Pt (Node.leaf (fin c)) c 1 := ⟨rfl, fun g => by rw [mul_one]; rfl⟩
theorem const (c : ℝ) : Pt (Node.const (fin c)) c 0 := ⟨rfl, fun g => by rw [mul_zero]; rfl⟩
theorem one : Pt (Node.const 1) 1 0 := const 1
theorem two : Pt (Node.const 2) 2 0 := const 2
theorem zero : Pt (Node.const 0) 0 0 := const 0

theorem pow (h : Pt a v d) (n : ℕ) : Pt (Node.pow a n) (v ^ n) (n * v ^ (n - 1) * d) := by
  have hd : HasDerivAt (fun t => (v + d * t) ^ n) (n * v ^ (n - 1) * d) 0 := by
    have := (tr_deriv v d).pow n
    simp only [mul_zero, add_zero] at this
    exact this
  simpa [fam_zero] using (h.tr.pow n).pt hd

theorem cast (h : Pt a v d) (hv : v = w) (hd : d = e) : Pt a w e := hv ▸ hd ▸ h

/-- two equal arguments of `B.maximum` receive half of the cotangent each -/
theorem max_tie (h : Pt a v d) (h' : Pt b v e) : Pt (Node.max a b) v (d / 2 + e / 2) := by
  refine ⟨?_, fun g => ?_⟩
  · show XF.max a.val b.val = _
    rw [h.1, h'.1, fin_max, max_self]
  · show a.back (if a.val < b.val then 0 else if XF.feq a.val b.val then fin g / 2 else fin g)
      + b.back (if b.val < a.val then 0 else if XF.feq a.val b.val then fin g / 2 else fin g) = _
    rw [h.1, h'.1, if_neg (by simp), if_pos ((fin_feq _ _).2 rfl), XF.ofNat_def, fin_div (two_ne_zero' ℝ), h.2, h'.2, fin_add]
    congr 1; ring

theorem min_tie (h : Pt a v d) (h' : Pt b v e) : Pt (Node.min a b) v (d / 2 + e / 2) := by
  refine ⟨?_, fun g => ?_⟩
  · show XF.min a.val b.val = _
    rw [h.1, h'.1, fin_min, min_self]
  · show a.back (if b.val < a.val then 0 else if XF.feq a.val b.val then fin g / 2 else fin g)
      + b.back (if a.val < b.val then 0 else if XF.feq a.val b.val then fin g / 2 else fin g) = _
    rw [h.1, h'.1, if_neg (by simp), if_pos ((fin_feq _ _).2 rfl), XF.ofNat_def, fin_div (two_ne_zero' ℝ), h.2, h'.2, fin_add]
    congr 1; ring

/-- `B.minimum` with a larger second argument, which may be infinite -/
theorem min_lt (h : Pt a v d) (hb : b.back (fin 0) = fin 0) (hlt : fin v < b.val) : Pt (Node.min a b) v d := by
  have hn : ¬ b.val < fin v := by
    intro h'; revert h' hlt; cases b.val <;> simp
    intro h1; exact h1.le
  have hf : ¬ XF.feq (fin v) b.val := by
    intro h'; revert h' hlt; cases b.val <;> simp [XF.feq]
    intro h1 h2; linarith
  refine ⟨?_, fun g => ?_⟩
  · show XF.min a.val b.val = _
    rw [h.1]; revert hlt; cases b.val <;> simp [XF.min]
    intro h1 h2; linarith
  · show a.back (if b.val < a.val then 0 else if XF.feq a.val b.val then fin g / 2 else fin g)
      + b.back (if a.val < b.val then 0 else if XF.feq a.val b.val then fin g / 2 else fin g) = _
    rw [h.1, if_neg hn, if_neg hf, if_pos hlt, h.2, zero_def, hb, fin_add, add_zero]

/-- `B.maximum` with a smaller second argument, which may be infinite -/
theorem max_gt (h : Pt a v d) (hb : b.back (fin 0) = fin 0) (hlt : b.val < fin v) : Pt (Node.max a b) v d := by
  have hn : ¬ fin v < b.val := by
    intro h'; revert h' hlt; cases b.val <;> simp
    intro h1; exact h1.le
  have hf : ¬ XF.feq (fin v) b.val := by
    intro h'; revert h' hlt; cases b.val <;> simp [XF.feq]
    intro h1 h2; linarith
  refine ⟨?_, fun g => ?_⟩
  · show XF.max a.val b.val = _
    rw [h.1]; revert hlt; cases b.val <;> simp [XF.max]
    intro h1 h2; linarith
  · show a.back (if a.val < b.val then 0 else if XF.feq a.val b.val then fin g / 2 else fin g)
      + b.back (if b.val < a.val then 0 else if XF.feq a.val b.val then fin g / 2 else fin g) = _
    rw [h.1, if_neg hn, if_neg hf, if_pos hlt, h.2, zero_def, hb, fin_add, add_zero]

/-- `B.abs` at 0 stops the cotangent -/
theorem abs_zero (h : Pt a 0 d) : Pt (Node.abs a) 0 0 := by
  refine ⟨?_, fun g => ?_⟩
  · show XF.abs a.val = _
    rw [h.1, fin_abs, _root_.abs_zero]
  · show a.back (fin g * sgn a.val) = _
    rw [h.1]
    simp only [sgn, lt_irrefl, if_false, if_true, fin_mul, mul_zero]
    rw [h.2, zero_mul]

end Pt

namespace Tr

variable {N N' : ℝ → Node} {f f' : ℝ → ℝ} {θ : ℝ}

theorem max_right (h : Tr N f θ) (h' : Tr N' f' θ) (hlt : f θ < f' θ) :
    Tr (fun t => Node.max (N t) (N' t)) f' θ := by
  have e := h.val
  have e' := h'.val
  have hne : ∀ᶠ t in 𝓝 θ, f t < f' t := h.cont.eventually_lt h'.cont hlt
  obtain ⟨hv, d, hd, hb⟩ := h
  obtain ⟨hv', d', hd', hb'⟩ := h'
  refine ⟨?_, d', hd', fun g => ?_⟩
  · filter_upwards [hv, hv', hne] with t ht ht' hl
    show XF.max (N t).val (N' t).val = _
    rw [ht, ht', fin_max, max_eq_right hl.le]
  · show (N θ).back (if (N θ).val < (N' θ).val then 0 else if XF.feq (N θ).val (N' θ).val then _ else _)
      + (N' θ).back (if (N' θ).val < (N θ).val then 0 else if XF.feq (N θ).val (N' θ).val then _ else _) = _
    have hf : ¬ XF.feq (fin (f θ)) (fin (f' θ)) := fun hc => hlt.ne (fin_inj.1 hc)
    rw [e, e', if_pos (by simpa using hlt), if_neg (c := fin (f' θ) < fin (f θ)) (by simpa using hlt.le), if_neg hf,
      zero_def, hb, hb', fin_add, zero_mul, zero_add]

theorem min_right (h : Tr N f θ) (h' : Tr N' f' θ) (hlt : f' θ < f θ) :
    Tr (fun t => Node.min (N t) (N' t)) f' θ := by
  have e := h.val
  have e' := h'.val
  have hne : ∀ᶠ t in 𝓝 θ, f' t < f t := h'.cont.eventually_lt h.cont hlt
  obtain ⟨hv, d, hd, hb⟩ := h
  obtain ⟨hv', d', hd', hb'⟩ := h'
  refine ⟨?_, d', hd', fun g => ?_⟩
  · filter_upwards [hv, hv', hne] with t ht ht' hl
    show XF.min (N t).val (N' t).val = _
    rw [ht, ht', fin_min, min_eq_right hl.le]
  · show (N θ).back (if (N' θ).val < (N θ).val then 0 else if XF.feq (N θ).val (N' θ).val then _ else _)
      + (N' θ).back (if (N θ).val < (N' θ).val then 0 else if XF.feq (N θ).val (N' θ).val then _ else _) = _
    have hf : ¬ XF.feq (fin (f θ)) (fin (f' θ)) := fun hc => hlt.ne' (fin_inj.1 hc)
    rw [e, e', if_pos (by simpa using hlt), if_neg (c := fin (f θ) < fin (f' θ)) (by simpa using hlt.le), if_neg hf,
      zero_def, hb, hb', fin_add, zero_mul, zero_add]

/-- `_exp_cdf` away from 0 -/
theorem expCdf {X R : ℝ → Node} {x r : ℝ → ℝ} (hX : Tr X x θ) (hR : Tr R r θ) (h0 : 0 < r θ) (hx : x θ ≠ 0) :
    Tr (fun t => Grad.expCdf (X t) (R t))
      (if x θ < 0 then fun _ => 0 else fun t => 1 - Real.exp (-r t * x t)) θ := by
  have h1 := Tr.one.sub ((hR.neg.mul hX).exp)
  split_ifs with h
  · refine h1.max_right Tr.zero ?_
    have : 0 < -r θ * x θ := by nlinarith
    have := Real.one_lt_exp_iff.2 this
    linarith
  · have hx' : 0 < x θ := lt_of_le_of_ne (not_lt.1 h) (Ne.symm hx)
    refine h1.max_left Tr.zero ?_
    have : -r θ * x θ < 0 := by nlinarith
    have := Real.exp_lt_one_iff.2 this
    linarith

theorem exponential {y r : ℝ → Node} {fy fr : ℝ → ℝ} (hy : Tr y fy θ) (hr : Tr r fr θ) (h0 : 0 < fr θ)
    (hne : fy θ ≠ 0) : ∃ f, Tr (fun t => Grad.exponential (y t) (r t)) f θ :=
  ⟨_, ((hy.abs hne).sub ((Tr.two.mul (hy.expCdf hr h0 hne)).div hr h0.ne')).add
    (Tr.one.div (Tr.two.mul hr) (mul_ne_zero two_ne_zero h0.ne'))⟩

/-- a branch of `_is_scalar_value` that does not matter: torch, an argument that does not vary, or an argument whose
value is not the special one -/
def Free (lib : Lib) (f : ℝ → ℝ) (v θ : ℝ) : Prop := lib = .torch ∨ (∀ t, f t = v) ∨ f θ ≠ v

theorem notScalar {L : ℝ → Node} {fl : ℝ → ℝ} {v : ℝ} (hl : Tr L fl θ) {lib : Lib}
    (h : lib = .torch ∨ fl θ ≠ v) : ∀ᶠ t in 𝓝 θ, ¬ Grad.isScalarValue lib (L t).val (fin v) := by
  rcases h with h | h
  · exact Eventually.of_forall fun t hc => by rw [h] at hc; exact hc
  · filter_upwards [hl.1, hl.cont.eventually_ne h] with t ht hn hc
    cases lib
    · exact hc
    · rw [ht] at hc; exact hn ((fin_feq _ _).1 hc)

theorem scalarCases {L : ℝ → Node} {fl : ℝ → ℝ} {v : ℝ} (hl : Tr L fl θ) {lib : Lib} (h : Free lib fl v θ) :
    (∀ᶠ t in 𝓝 θ, ¬ Grad.isScalarValue lib (L t).val (fin v)) ∨
      ((∀ᶠ t in 𝓝 θ, Grad.isScalarValue lib (L t).val (fin v)) ∧ ∀ t, fl t = v) := by
  rcases h with h | h | h
  · exact Or.inl (hl.notScalar (Or.inl h))
  · cases lib
    · exact Or.inl (hl.notScalar (Or.inl rfl))
    · refine Or.inr ⟨?_, h⟩
      filter_upwards [hl.1] with t ht
      rw [ht, h]; exact (fin_feq _ _).2 rfl
  · exact Or.inl (hl.notScalar (Or.inr h))

/-- `exponentialM` away from the location -/
theorem exponentialM {lib : Lib} {y m l s : ℝ → Node} {fy fm fl fs : ℝ → ℝ} (hy : Tr y fy θ) (hm : Tr m fm θ)
    (hl : Tr l fl θ) (hs : Tr s fs θ) (h0 : 0 < fs θ) (hne : fy θ ≠ fl θ) (cl : Free lib fl 0 θ) (cm : Free lib fm 0 θ)
    (cs : Free lib fs 1 θ) : ∃ f, Tr (fun t => Grad.exponentialM lib (y t) (m t) (l t) (s t)) f θ := by
  have hx : Tr (fun t => if ¬ Grad.isScalarValue lib (l t).val 0 then y t - l t else y t) (fun t => fy t - fl t) θ := by
    rcases hl.scalarCases cl with h | ⟨h, hz⟩
    · exact (hy.sub hl).congrEv (h.mono fun t ht => if_pos ht)
    · exact (hy.congrEv (h.mono fun t ht => if_neg (not_not.2 ht))).congr fun t => by rw [hz, sub_zero]
  have ha : Tr (fun t => if Grad.isScalarValue lib (m t).val 0 then Node.const 1 else Node.const 1 - m t) (fun t => 1 - fm t) θ := by
    rcases hm.scalarCases cm with h | ⟨h, hz⟩
    · exact (Tr.one.sub hm).congrEv (h.mono fun t ht => if_neg ht)
    · exact (Tr.one.congrEv (h.mono fun t ht => if_pos ht)).congr fun t => by rw [hz, sub_zero]
  have hne' : (fun t => fy t - fl t) θ ≠ 0 := sub_ne_zero.2 hne
  have hab := hx.abs hne'
  have hh := (Tr.const (θ := θ) (1 / 2)).mul ha
  rcases hs.scalarCases cs with h | ⟨h, hz⟩
  · have hr := Tr.one.div hs h0.ne'
    exact ⟨_, (hab.sub ((hs.mul ha).mul ((Tr.two.mul (hx.expCdf hr (by positivity) hne')).sub hh))).congrEv
      (h.mono fun t ht => if_neg ht)⟩
  · exact ⟨_, (hab.sub (ha.mul ((Tr.two.mul (hx.expCdf Tr.one one_pos hne')).sub hh))).congrEv
      (h.mono fun t ht => if_pos ht)⟩

/-- `twopexponential` away from the location, or with neither the observation nor the location varying -/
theorem twopexponential {y a b l : ℝ → Node} {fy fa fb fl : ℝ → ℝ} (hy : Tr y fy θ) (ha : Tr a fa θ)
    (hb : Tr b fb θ) (hl : Tr l fl θ) (ha0 : 0 < fa θ) (hb0 : 0 < fb θ) (hne : fy θ ≠ fl θ ∨ ∀ t, fy t - fl t = 0) :
    ∃ f, Tr (fun t => Grad.twopexponential (y t) (a t) (b t) (l t)) f θ := by
  have hx := hy.sub hl
  obtain ⟨fz, hz⟩ := hx.abs' (hne.imp_left sub_ne_zero.2)
  have hab := ha.add hb
  have hab0 : fa θ + fb θ ≠ 0 := by positivity
  have c1 := (Tr.two.mul (ha.pow 2)).div hab hab0
  have c2 := (Tr.two.mul (hb.pow 2)).div hab hab0
  have c3 := ((ha.pow 3).add (hb.pow 3)).div (Tr.two.mul (hab.pow 2)) (mul_ne_zero two_ne_zero (pow_ne_zero 2 hab0))
  have s1 := ((hz.add (c1.mul ((hz.neg.div ha ha0.ne').exp))).sub c1).add c3
  have s2 := ((hz.add (c2.mul ((hz.neg.div hb hb0.ne').exp))).sub c2).add c3
  rcases hne with hne | hne
  · rcases lt_or_gt_of_ne hne with h | h
    · refine ⟨_, s1.sel_pos' ?_ s2⟩
      filter_upwards [hx.1, hx.cont.eventually_lt_const (sub_neg.2 h)] with t ht hn
      rw [ht, zero_def, fin_lt]; exact hn
    · refine ⟨_, s2.sel_neg' ?_ s1⟩
      filter_upwards [hx.1, hx.cont.eventually_const_lt (sub_pos.2 h)] with t ht hn
      rw [ht, zero_def, fin_lt]; exact not_lt.2 hn.le
  · refine ⟨_, s2.sel_neg' ?_ s1⟩
    filter_upwards [hx.1] with t ht
    rw [ht, zero_def, fin_lt, hne]; exact lt_irrefl _

/-- `uniform` away from the ends -/
theorem uniform {y a b L U : ℝ → Node} {fy fa fb fL fU : ℝ → ℝ} (hy : Tr y fy θ) (ha : Tr a fa θ)
    (hb : Tr b fb θ) (hL : Tr L fL θ) (hU : Tr U fU θ) (hab : fa θ < fb θ) (h1 : fy θ ≠ fa θ) (h2 : fy θ ≠ fb θ) :
    ∃ f, Tr (fun t => Grad.uniform (y t) (a t) (b t) (L t) (U t)) f θ := by
  have hd0 : 0 < fb θ - fa θ := sub_pos.2 hab
  have hd := hb.sub ha
  have hw := (hy.sub ha).div hd hd0.ne'
  have three : Tr (fun _ => Node.const 3) (fun _ => 3) θ := Tr.constx rfl
  have hm := (Tr.one.sub hL).sub hU
  have fin' : ∀ {F fF A fA}, Tr F fF θ → Tr A fA θ → A = (fun t => Node.abs ((y t - a t) / (b t - a t) - F t)) →
      ∃ f, Tr (fun t => (b t - a t) * (Node.abs ((y t - a t) / (b t - a t) - F t)
        + (F t).pow 2 * (Node.const 1 - L t - U t) - F t * (Node.const 1 - Node.const 2 * L t)
        + ((Node.const 1 - L t - U t).pow 2) / Node.const 3 + (Node.const 1 - L t) * U t)) f θ := by
    rintro F fF A fA hF hA rfl
    exact ⟨_, hd.mul ((((hA.add ((hF.pow 2).mul hm)).sub (hF.mul (Tr.one.sub (Tr.two.mul hL)))).add
      ((hm.pow 2).div three (by norm_num))).add ((Tr.one.sub hL).mul hU))⟩
  rcases lt_or_gt_of_ne h1 with h | h
  · have hw0 : (fy θ - fa θ) / (fb θ - fa θ) < 0 := div_neg_of_neg_of_pos (sub_neg.2 h) hd0
    have hF := (hw.max_right Tr.zero hw0).min_left Tr.one one_pos
    exact fin' hF ((hw.sub hF).abs (by simpa using hw0.ne)) rfl
  have hw0 : 0 < (fy θ - fa θ) / (fb θ - fa θ) := div_pos (sub_pos.2 h) hd0
  rcases lt_or_gt_of_ne h2 with h' | h'
  · have hw1 : (fy θ - fa θ) / (fb θ - fa θ) < 1 := by rw [div_lt_one hd0]; linarith
    have hF := (hw.max_left Tr.zero hw0).min_left Tr.one hw1
    exact fin' hF ((hw.sub hF).abs_zero fun t => sub_self _) rfl
  · have hw1 : 1 < (fy θ - fa θ) / (fb θ - fa θ) := by rw [one_lt_div hd0]; linarith
    have hF := (hw.max_left Tr.zero hw0).min_right Tr.one hw1
    exact fin' hF ((hw.sub hF).abs (sub_ne_zero.2 hw1.ne')) rfl

end Tr

/-- the gradient of the exponential score at 0 -/
theorem exponential_zero {x r : Node} {vr dx dr : ℝ} (hx : Pt x 0 dx) (hr : Pt r vr dr) (h0 : 0 < vr) :
    Pt (Grad.exponential x r) (1 / (2 * vr)) (-dx - dr / (2 * vr ^ 2)) := by
  have he : Pt (const 1 - Node.exp (-r * x)) 0 (vr * dx) := by
    have h1 := Tr.one.sub ((hr.tr.neg.mul hx.tr).exp)
    have hd : HasDerivAt (fun t => 1 - Real.exp (-(vr + dr * t) * (0 + dx * t))) (vr * dx) 0 := by
      have := (((Pt.tr_deriv vr dr).neg.mul (Pt.tr_deriv 0 dx)).exp).const_sub 1
      refine this.congr_deriv ?_
      simp
    have := h1.pt hd
    simpa [fam_zero] using this
  have hc := he.max_tie Pt.zero
  refine ((hx.abs_zero.sub ((Pt.two.mul hc).div hr h0.ne')).add
    (Pt.one.div (Pt.two.mul hr) (mul_ne_zero two_ne_zero h0.ne'))).cast ?_ ?_
  · simp
  · field_simp; ring

theorem feq_fin_right {x : XF} {v : ℝ} (h : XF.feq x (fin v)) : x = fin v := by
  revert h; cases x <;> simp [XF.feq]

theorem xf_sub_zero (x : XF) : x - fin 0 = x := by
  cases x <;> simp [sub_def, add_def, XF.add, neg_def, XF.neg]

theorem xf_one_mul (x : XF) : fin 1 * x = x := by
  cases x <;> simp [mul_def, XF.mul, infMul]

theorem exponentialM_val (lib : Lib) (y m l s : Node) :
    (Grad.exponentialM lib y m l s).val = Closed.exponentialM y.val m.val l.val s.val := by
  cases lib
  · have e1 : (if ¬ XF.feq l.val 0 then y.val - l.val else y.val) = y.val - l.val := by
      by_cases h : XF.feq l.val 0
      · rw [if_neg (not_not.2 h), feq_fin_right h, xf_sub_zero]
      · rw [if_pos h]
    have e2 : (if XF.feq m.val 0 then (1 : XF) else 1 - m.val) = 1 - m.val := by
      by_cases h : XF.feq m.val 0
      · rw [if_pos h, feq_fin_right h, one_def, fin_sub, sub_zero]
      · rw [if_neg h]
    unfold Closed.exponentialM Grad.exponentialM
    have hF : ∀ x v, ¬ Grad.isScalarValue .torch x v := fun _ _ h => h
    simp only [e1, e2, hF, if_false, not_false_eq_true, if_true]
    by_cases h : XF.feq s.val 1
    · rw [if_pos h]
      simp only [sub_val, mul_val, const_val, feq_fin_right h, xf_one_mul]
      have : (1 / s.val : XF) = 1 := by
        rw [feq_fin_right h, one_def, fin_div one_ne_zero, div_one]
      show _ - _ * (2 * Stats.expCdf (y.val - l.val) (1 / s.val) - _) = _
      rw [this]; rfl
    · rw [if_neg h]; rfl
  · unfold Closed.exponentialM Grad.exponentialM
    simp only [Grad.isScalarValue, apply_ite Node.val]
    by_cases h : XF.feq l.val 0 <;> by_cases h' : XF.feq m.val 0 <;> by_cases h'' : XF.feq s.val 1 <;>
      simp only [h, h', h'', if_true, if_false, not_true_eq_false, not_false_eq_true] <;> rfl

namespace NoGrad

theorem abs {a : Node} (h : NoGrad a) : NoGrad (Node.abs a) := fun _ => h _

theorem max {a b : Node} (h : NoGrad a) (h' : NoGrad b) : NoGrad (Node.max a b) := fun g => by
  show a.back _ + b.back _ = _
  rw [h, h', fin_add, add_zero]

theorem min {a b : Node} (h : NoGrad a) (h' : NoGrad b) : NoGrad (Node.min a b) := fun g => by
  show a.back _ + b.back _ = _
  rw [h, h', fin_add, add_zero]

theorem expCdf {a b : Node} (h : NoGrad a) (h' : NoGrad b) : NoGrad (Grad.expCdf a b) :=
  ((const 1).sub (h'.neg.mul h).exp).max (const 0)

theorem ite {c : Prop} [Decidable c] {a b : Node} (h : c → NoGrad a) (h' : ¬ c → NoGrad b) : NoGrad (if c then a else b) := by
  by_cases hc : c
  · rw [if_pos hc]; exact h hc
  · rw [if_neg hc]; exact h' hc

theorem exponentialM {lib : Lib} {y m l s : Node} (hy : NoGrad y)
    (hl : ¬ Grad.isScalarValue lib l.val 0 → NoGrad l) (hm : ¬ Grad.isScalarValue lib m.val 0 → NoGrad m)
    (hs : ¬ Grad.isScalarValue lib s.val 1 → NoGrad s) : NoGrad (Grad.exponentialM lib y m l s) := by
  have hx : NoGrad (if ¬ Grad.isScalarValue lib l.val 0 then y - l else y) :=
    ite (fun h => hy.sub (hl h)) fun _ => hy
  have ha : NoGrad (if Grad.isScalarValue lib m.val 0 then Node.const 1 else Node.const 1 - m) :=
    ite (fun _ => const 1) fun h => (const 1).sub (hm h)
  exact ite (fun _ => hx.abs.sub (ha.mul (((const 2).mul (hx.expCdf (const 1))).sub ((const _).mul ha))))
    fun h => hx.abs.sub (((hs h).mul ha).mul (((const 2).mul (hx.expCdf ((const 1).div (hs h)))).sub ((const _).mul ha)))

end NoGrad

theorem NoGrad.grad {n : Node} (h : NoGrad n) : n.grad = fin 0 := h _

theorem jax_scalar (v : ℝ) {n : Node} : ¬ Grad.isScalarValue .jax (fin v) (fin v) → NoGrad n :=
  fun h => absurd ((fin_feq _ _).2 rfl) h

theorem exponentialM_fin {s : ℝ} (y m l : ℝ) (hs : 0 < s) :
    Closed.exponentialM (fin y) (fin m) (fin l) (fin s)
      = fin (|y - l| - s * (1 - m) * (2 * Max.max (1 - Real.exp (-((y - l) / s))) 0 - 1 / 2 * (1 - m))) := by
  rw [show Closed.exponentialM (fin y) (fin m) (fin l) (fin s)
    = (Grad.exponentialM .torch (const (fin y)) (const (fin m)) (const (fin l)) (const (fin s))).val from
      (exponentialM_val .torch (const (fin y)) (const (fin m)) (const (fin l)) (const (fin s))).symm]
  unfold Grad.exponentialM
  have hF : ∀ x v, ¬ Grad.isScalarValue .torch x v := fun _ _ h => h
  simp only [hF, if_false, not_false_eq_true, if_true]
  show XF.abs (fin y - fin l) - fin s * (1 - fin m) * (2 * XF.max (1 - XF.exp (-(1 / fin s) * (fin y - fin l))) 0
    - fin (1 / 2) * (1 - fin m)) = _
  rw [one_def, zero_def, XF.ofNat_def, fin_div hs.ne']
  simp only [fin_sub, fin_neg, fin_mul, fin_exp, fin_max, fin_abs]
  rw [show -(1 / s) * (y - l) = -((y - l) / s) by ring]

end Verif
