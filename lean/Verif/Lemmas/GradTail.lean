import Verif.Lemmas.GradLogs
import Verif.Lemmas.CrpsShape
import Verif.Lemmas.ClosedScale
import Verif.Model.GradTail

/-!
# Gradients of the generalised Pareto and extreme value scores and Student's t
-/

noncomputable section

open scoped Classical Topology

namespace Verif

open XF Py Mv Node Filter
open Spec (CrpsShape IsGradient HasGradient)

theorem tpow_val (a b : Node) : (tpow a b).val = XF.pow a.val b.val := rfl
theorem exp_val (a : Node) : (Node.exp a).val = XF.exp a.val := rfl
theorem log_val (a : Node) : (Node.log a).val = XF.log a.val := rfl
theorem abs_val (a : Node) : (Node.abs a).val = XF.abs a.val := rfl
theorem pow_val (a : Node) (n : ℕ) : (Node.pow a n).val = a.val ^ n := rfl
theorem expi_val (a : Node) : (Node.expi a).val = XF.expi a.val := rfl
theorem gammauinc_val (a : XF) (x : Node) : (Node.gammauinc a x).val = XF.gammauinc a x.val := rfl
theorem betainc_val (a b : XF) (x : Node) : (Node.betainc a b x).val = XF.betainc a b x.val := rfl

/-- where the distribution function is continuous, the CRPS has the derivative `2 F - 1` -/
theorem crpsShape_deriv {A : Set ℝ} {F s : ℝ → ℝ} {θ : ℝ}
    (h : ∀ y ∈ A, ∀ y' ∈ A, y ≤ y' → (2 * F y - 1) * (y' - y) ≤ s y' - s y ∧ s y' - s y ≤ (2 * F y' - 1) * (y' - y) ∧
      |s y' - s y| ≤ y' - y)
    (hA : A ∈ 𝓝 θ) (hc : ContinuousAt F θ) : HasDerivAt s (2 * F θ - 1) θ := by
  rw [hasDerivAt_iff_isLittleO, Asymptotics.isLittleO_iff]
  intro ε hε
  have hθ : θ ∈ A := mem_of_mem_nhds hA
  have hF : ∀ᶠ t in 𝓝 θ, |F t - F θ| < ε / 2 := by
    have := Metric.continuousAt_iff.1 hc (ε / 2) (by linarith)
    obtain ⟨δ, hδ, h'⟩ := this
    filter_upwards [Metric.ball_mem_nhds θ hδ] with t ht
    exact h' ht
  filter_upwards [hA, hF] with t ht hFt
  rw [abs_lt] at hFt
  rw [Real.norm_eq_abs, Real.norm_eq_abs, smul_eq_mul]
  rcases le_total θ t with h1 | h1
  · obtain ⟨a, b, -⟩ := h θ hθ t ht h1
    rw [abs_of_nonneg (sub_nonneg.2 h1), abs_le]
    constructor <;> nlinarith
  · obtain ⟨a, b, -⟩ := h t ht θ hθ h1
    rw [abs_of_nonpos (sub_nonpos.2 h1), abs_le]
    constructor <;> nlinarith

/-- a score that is finite with a derivative -/
theorem crpsShape_gradient {A : Set ℝ} {S : ℝ → XF} {F : ℝ → ℝ} (h : CrpsShape A S F) {θ : ℝ} (hA : A ∈ 𝓝 θ)
    (hc : ContinuousAt F θ) {score : XF → XF} (hs : ∀ t, score (fin t) = S t) :
    IsGradient score θ (fin (2 * F θ - 1)) := by
  obtain ⟨s, hv, h⟩ := h
  refine ⟨s, _, ?_, crpsShape_deriv h hA hc, rfl⟩
  filter_upwards [hA] with t ht
  rw [hs, hv t ht]

/-! ### standard units -/

theorem std_back_obs {m s : ℝ} (y : XF) :
    ((leaf y - const (fin m)) / const (fin s)).back nan = nan := by
  simp only [div_back, sub_back, leaf_back, const_back, nan_div]; rfl

theorem std_back_loc {y s : ℝ} (m : XF) :
    ((const (fin y) - leaf m) / const (fin s)).back nan = nan := by
  simp only [div_back, sub_back, leaf_back, const_back, nan_div]; rfl

theorem std_back_scale {y m : ℝ} (s : XF) :
    ((const (fin y) - const (fin m)) / leaf s).back nan = nan := by
  simp only [div_back, sub_back, leaf_back, const_back, neg_nan, nan_mul, add_nan]

namespace Bad

theorem sel_left {c : Prop} {a b : Node} (h : Bad a) : Bad (Node.sel c a b) := fun g => by
  show a.back _ + b.back _ = nan
  rw [h, nan_add]

theorem nan_mul_node {s : Node} (h : s.back nan = nan) : Bad (const nan * s) := fun g => by
  rw [mul_back, const_val, const_back, XF.mul_nan, h, add_nan]

theorem expi {a : Node} (h : Bad a) : Bad (Node.expi a) := fun _ => h _

end Bad

/-! ### the generalised extreme value distribution -/

theorem gevCdf_bad {s : Node} (h : s.back nan = nan) (xi : XF) : Bad (Grad.gevCdf s xi) := by
  unfold Grad.gevCdf
  exact Bad.sel_right (Bad.sel_right (Bad.sel_right (Bad.sel_right (Bad.nan_mul_node h))))

theorem gev_bad {obs mu sigma : Node} (h : ((obs - mu) / sigma).back nan = nan) (xi : XF) :
    Bad (Grad.gev obs xi mu sigma) := by
  unfold Grad.gev
  exact Bad.mul_left (Bad.sel_right (Bad.sub_left (Bad.sub_left (Bad.mul_right (Bad.sub_left
    (Bad.mul_right (gevCdf_bad h xi)))))))

theorem gevCdf_val (s : Node) (xi : XF) : (Grad.gevCdf s xi).val = Stats.gevCdf s.val xi := by
  unfold Grad.gevCdf Stats.gevCdf
  simp only [sel_val, const_val, mul_val, exp_val, neg_val, tpow_val, add_val]

theorem gevAdjust_val (s f : Node) (xi : XF) :
    (Grad.gevAdjust s xi f).val = Closed.gevAdjust s.val xi f.val := by
  unfold Grad.gevAdjust Closed.gevAdjust
  simp only [sel_val, const_val, mul_val, exp_val, neg_val, tpow_val, add_val, div_val, gammauinc_val, log_val]

theorem gev_val (obs mu sigma : Node) (xi : XF) :
    (Grad.gev obs xi mu sigma).val = Closed.gev obs.val xi mu.val sigma.val := by
  unfold Grad.gev Closed.gev
  simp only [sel_val, const_val, mul_val, exp_val, neg_val, tpow_val, add_val, div_val, sub_val, expi_val, log_val,
    gevCdf_val, gevAdjust_val]

theorem tCdf_val (x : Node) (df : XF) : (Grad.tCdf x df).val = Stats.tCdf x.val df := by
  unfold Grad.tCdf Stats.tCdf
  simp only [sel_val, const_val, mul_val, sub_val, add_val, div_val, pow_val, betainc_val]

theorem tPdf_val (x : Node) (df : XF) : (Grad.tPdf x df).val = Stats.tPdf x.val df := by
  unfold Grad.tPdf Stats.tPdf
  simp only [sel_val, const_val, mul_val, sub_val, add_val, div_val, pow_val, tpow_val, abs_val]

theorem gradT_val (obs mu sigma : Node) (df : XF) :
    (Grad.t obs df mu sigma).val = Closed.t obs.val df mu.val sigma.val := by
  unfold Grad.t Closed.t
  simp only [sel_val, const_val, mul_val, sub_val, add_val, div_val, pow_val, tCdf_val, tPdf_val]

theorem gpdCdf_val (x shape : Node) : (Grad.gpdCdf x shape).val = Stats.gpdCdf x.val shape.val := by
  unfold Grad.gpdCdf Stats.gpdCdf
  simp only [sel_val, const_val, mul_val, sub_val, add_val, div_val, neg_val, tpow_val, exp_val]

theorem gpd_val (y ξ μ σ M : Node) : (Grad.gpd y ξ μ σ M).val = Closed.gpd y.val ξ.val μ.val σ.val M.val := by
  unfold Grad.gpd Closed.gpd
  simp only [sel_val, const_val, mul_val, sub_val, add_val, div_val, pow_val, tpow_val, abs_val, gpdCdf_val]

theorem gpdPdf_val (x shape : Node) : (Grad.gpdPdf x shape).val = Stats.gpdPdf x.val shape.val := by
  unfold Grad.gpdPdf Stats.gpdPdf
  simp only [sel_val, const_val, mul_val, sub_val, add_val, div_val, neg_val, tpow_val, exp_val]

theorem logsGpd_val (y ξ μ σ : Node) : (Grad.logsGpd y ξ μ σ).val = Logs.gpd y.val ξ.val μ.val σ.val := by
  unfold Grad.logsGpd Logs.gpd
  simp only [sel_val, const_val, sub_val, div_val, neg_val, log_val, gpdPdf_val]

theorem gevPdf_val (s xi : Node) : (Grad.gevPdf s xi).val = Stats.gevPdf s.val xi.val := by
  unfold Grad.gevPdf Stats.gevPdf
  simp only [sel_val, const_val, mul_val, sub_val, add_val, div_val, neg_val, tpow_val, exp_val]

theorem logsGev_val (y ξ μ σ : Node) : (Grad.logsGev y ξ μ σ).val = Logs.gev y.val ξ.val μ.val σ.val := by
  unfold Grad.logsGev Logs.gev
  simp only [sel_val, const_val, sub_val, div_val, neg_val, log_val, gevPdf_val]

/-! ### exponents that are NaN, and nodes without a path to the leaf -/

theorem Bad.tpow_nan {a b : Node} (ha : a.back nan = nan) (hb : b.val = nan) : Bad (tpow a b) := fun g => by
  show a.back (if XF.feq b.val 0 then 0 else g * (b.val * _)) + _ = nan
  rw [hb, if_neg (by intro h; cases h), nan_mul, XF.mul_nan, ha, nan_add]

theorem Bad.tpow_left {a b : Node} (h : Bad a) : Bad (tpow a b) := fun g => by
  show a.back _ + _ = nan
  rw [h, nan_add]

/-- no cotangent, finite or not, reaches the leaf -/
def NoGrad (n : Node) : Prop := ∀ g, n.back g = fin 0

namespace NoGrad

variable {a b : Node}

theorem const (x : XF) : NoGrad (Node.const x) := fun _ => rfl
theorem add (h : NoGrad a) (h' : NoGrad b) : NoGrad (a + b) := fun g => by rw [add_back, h, h', fin_add, add_zero]
theorem sub (h : NoGrad a) (h' : NoGrad b) : NoGrad (a - b) := fun g => by rw [sub_back, h, h', fin_add, add_zero]
theorem neg (h : NoGrad a) : NoGrad (-a) := fun g => by rw [neg_back, h]
theorem mul (h : NoGrad a) (h' : NoGrad b) : NoGrad (a * b) := fun g => by rw [mul_back, h, h', fin_add, add_zero]
theorem div (h : NoGrad a) (h' : NoGrad b) : NoGrad (a / b) := fun g => by rw [div_back, h, h', fin_add, add_zero]
theorem exp (h : NoGrad a) : NoGrad (Node.exp a) := fun _ => h _
theorem log (h : NoGrad a) : NoGrad (Node.log a) := fun _ => h _
theorem pow (h : NoGrad a) (n : ℕ) : NoGrad (Node.pow a n) := fun _ => h _

theorem tpow (h : NoGrad a) (h' : NoGrad b) : NoGrad (Node.tpow a b) := fun g => by
  show a.back _ + b.back _ = _
  rw [h, h', fin_add, add_zero]

theorem sel (c : Prop) (h : NoGrad a) (h' : NoGrad b) : NoGrad (Node.sel c a b) := fun g => by
  show a.back _ + b.back _ = _
  rw [h, h', fin_add, add_zero]

/-- a number that is replaced by a constant -/
theorem sel_const {c : Prop} (hc : ¬ c) (h0 : a.back (fin 0) = fin 0) (x : XF) :
    NoGrad (Node.sel c a (Node.const x)) := fun g => by
  show a.back (if c then g else 0) + (Node.const x).back _ = _
  rw [if_neg hc, zero_def, h0, const_back, zero_def, fin_add, add_zero]

theorem const_sel {c : Prop} (hc : c) (h0 : a.back (fin 0) = fin 0) (x : XF) :
    NoGrad (Node.sel c (Node.const x) a) := fun g => by
  show (Node.const x).back _ + a.back (if c then 0 else g) = _
  rw [if_pos hc, if_pos hc, zero_def, h0, const_back, zero_def, fin_add, add_zero]

end NoGrad

namespace Tr

variable {N N' : ℝ → Node} {f f' : ℝ → ℝ} {θ : ℝ}

theorem back_zero (h : Tr N f θ) : (N θ).back (fin 0) = fin 0 := by
  obtain ⟨_, d, _, hb⟩ := h
  rw [hb, zero_mul]

theorem of_dead {c : ℝ} (hd : NoGrad (N θ)) (hv : ∀ᶠ t in 𝓝 θ, (N t).val = fin c) : Tr N (fun _ => c) θ :=
  ⟨hv, 0, hasDerivAt_const _ _, fun g => by rw [hd, mul_zero]⟩

/-- `B.where` with a condition that holds near `θ` -/
theorem sel_pos (h : Tr N f θ) {c : ℝ → Prop} (hc : ∀ᶠ t in 𝓝 θ, c t) {M : ℝ → Node}
    (hM : (M θ).back (fin 0) = fin 0) : Tr (fun t => Node.sel (c t) (N t) (M t)) f θ := by
  have hc0 : c θ := hc.self_of_nhds
  obtain ⟨hv, d, hd, hb⟩ := h
  refine ⟨?_, d, hd, fun g => ?_⟩
  · filter_upwards [hv, hc] with t ht hl
    show (if c t then (N t).val else _) = _
    rw [if_pos hl, ht]
  · show (N θ).back (if c θ then fin g else 0) + (M θ).back (if c θ then 0 else fin g) = _
    rw [if_pos hc0, if_pos hc0, hb, zero_def, hM, fin_add, add_zero]

/-- `B.where` with a condition that fails near `θ` -/
theorem sel_neg (h : Tr N f θ) {c : ℝ → Prop} (hc : ∀ᶠ t in 𝓝 θ, ¬ c t) {M : ℝ → Node}
    (hM : (M θ).back (fin 0) = fin 0) : Tr (fun t => Node.sel (c t) (M t) (N t)) f θ := by
  have hc0 : ¬ c θ := hc.self_of_nhds
  obtain ⟨hv, d, hd, hb⟩ := h
  refine ⟨?_, d, hd, fun g => ?_⟩
  · filter_upwards [hv, hc] with t ht hl
    show (if c t then _ else (N t).val) = _
    rw [if_neg hl, ht]
  · show (M θ).back (if c θ then fin g else 0) + (N θ).back (if c θ then 0 else fin g) = _
    rw [if_neg hc0, if_neg hc0, hb, zero_def, hM, fin_add, zero_add]

/-- a power with a positive base -/
theorem tpow (h : Tr N f θ) (h' : Tr N' f' θ) (h0 : 0 < f θ) :
    Tr (fun t => Node.tpow (N t) (N' t)) (fun t => f t ^ f' t) θ := by
  have e := h.val
  have e' := h'.val
  have hpos := h.cont.eventually_const_lt h0
  obtain ⟨hv, d, hd, hb⟩ := h
  obtain ⟨hv', d', hd', hb'⟩ := h'
  refine ⟨?_, _, hd.rpow hd' h0, fun g => ?_⟩
  · filter_upwards [hv, hv', hpos] with t ht ht' hp
    show XF.pow (N t).val (N' t).val = _
    rw [ht, ht', pow_fin_pos hp]
  · show (N θ).back (if XF.feq (N' θ).val 0 then 0 else fin g * ((N' θ).val * XF.pow (N θ).val ((N' θ).val - 1)))
      + (N' θ).back (if XF.feq (N θ).val 0 ∧ 0 ≤ (N' θ).val then 0
        else fin g * (XF.pow (N θ).val (N' θ).val * XF.log (N θ).val)) = _
    have hne : ¬ XF.feq (fin (f θ)) 0 := fun hc => h0.ne' (fin_inj.1 hc)
    rw [e, e', if_neg (c := XF.feq (fin (f θ)) 0 ∧ _) (fun hc => hne hc.1), pow_fin_pos h0, fin_log h0, fin_mul,
      fin_mul, hb', one_def, fin_sub, pow_fin_pos h0, fin_mul, fin_mul]
    by_cases hz : f' θ = 0
    · rw [if_pos (by rw [hz]; exact rfl), zero_def, hb, fin_add]
      rw [hz]; congr 1; simp; ring
    · rw [if_neg (c := XF.feq (fin (f' θ)) 0) (fun hc => hz (fin_inj.1 hc)), hb, fin_add]
      congr 1; ring

theorem mone : Tr (fun _ => Node.const (-1)) (fun _ => -1) θ := Tr.constx rfl
theorem zero : Tr (fun _ => Node.const 0) (fun _ => 0) θ := Tr.constx rfl

/-- `_gpd_cdf` inside the support, for a shape that is not 0 -/
theorem gpdCdf {X S : ℝ → Node} {x s : ℝ → ℝ} (hX : Tr X x θ) (hS : Tr S s θ) (hx : 0 < x θ) (hs : s θ ≠ 0)
    (h1 : 0 < 1 + s θ * x θ) :
    Tr (fun t => Grad.gpdCdf (X t) (S t)) (fun t => 1 - (1 + s t * x t) ^ (-1 / s t)) θ := by
  have e0 : ∀ᶠ t in 𝓝 θ, ¬ XF.feq (S t).val 0 := by
    filter_upwards [hS.1, hS.cont.eventually_ne hs] with t ht hne
    rw [ht]; exact fun h => hne (fin_inj.1 h)
  have eX : ∀ᶠ t in 𝓝 θ, 0 ≤ (X t).val := by
    filter_upwards [hX.1, hX.cont.eventually_const_lt hx] with t ht h
    rw [ht, zero_def, fin_le]; exact h.le
  have hS' := hS.sel_false e0 nan
  have hp : ∀ᶠ t in 𝓝 θ, 0 < 1 + s t * x t :=
    (continuousAt_const.add (hS.cont.mul hX.cont)).eventually_const_lt h1
  -- above the end point of the support
  have eU : ∀ᶠ t in 𝓝 θ, ¬ (¬ (XF.feq (S t).val 0 ∨ 0 < (Node.sel (XF.feq (S t).val 0) (Node.const nan) (S t)).val) ∧
      (Node.const (-1) / Node.sel (XF.feq (S t).val 0) (Node.const nan) (S t)).val < (X t).val) := by
    filter_upwards [hS'.1, hX.1, hp, hS.cont.eventually_ne hs] with t ht hxt hpt hne
    rw [div_val, ht, hxt, const_val, zero_def, fin_lt]
    rintro ⟨ha, hb⟩
    have hneg : s t < 0 := lt_of_le_of_ne (not_lt.1 fun h => ha (Or.inr h)) hne
    rw [one_def, fin_neg, fin_div hne, fin_lt, div_lt_iff_of_neg hneg] at hb
    nlinarith
  have hX' := hX.sel_pos eX (M := fun _ => Node.const nan) rfl
  have hS2 := hS'.sel_false eU nan
  have hpow := Tr.one.sub ((Tr.one.add (hS2.mul hX')).tpow (Tr.mone.div hS2 hs) h1)
  have h0 := (Tr.zero (θ := θ)).sel_neg (c := fun t => XF.feq (S t).val 0 ∧ 0 ≤ (X t).val)
    (M := fun t => Node.const 1 - Node.exp (-Node.sel (0 ≤ (X t).val) (X t) (Node.const nan)))
    (e0.mono fun t h h' => h h'.1) (Tr.one.sub hX'.neg.exp).back_zero
  have e2 : ∀ᶠ t in 𝓝 θ, (¬ (XF.feq (S t).val 0 ∨ 0 < (Node.sel (XF.feq (S t).val 0) (Node.const nan) (S t)).val) ∧
      0 ≤ (X t).val) ∨ (0 < (Node.sel (XF.feq (S t).val 0) (Node.const nan) (S t)).val ∧ 0 ≤ (X t).val) := by
    filter_upwards [e0, eX] with t a b
    by_cases h : 0 < (Node.sel (XF.feq (S t).val 0) (Node.const nan) (S t)).val
    · exact Or.inr ⟨h, b⟩
    · exact Or.inl ⟨fun h' => h'.elim a h, b⟩
  exact (hpow.sel_pos e2 h0.back_zero).sel_false eU 1

/-- `_gpd_cdf` below the support -/
theorem gpdCdf_below {X : ℝ → Node} {x : ℝ → ℝ} (hX : Tr X x θ) (hx : x θ < 0) {S : Node} (hS : NoGrad S) {ξ : ℝ}
    (hξ : S.val = fin ξ) : Tr (fun t => Grad.gpdCdf (X t) S) (fun _ => 0) θ := by
  have h0 : ∀ᶠ t in 𝓝 θ, ¬ 0 ≤ (X t).val := by
    filter_upwards [hX.1, hX.cont.eventually_lt_const hx] with t ht h
    rw [ht, zero_def, fin_le]; exact not_le.2 h
  refine Tr.of_dead ?_ ?_
  · unfold Grad.gpdCdf
    have hd := NoGrad.sel_const h0.self_of_nhds hX.back_zero nan
    have hS1 := NoGrad.sel (XF.feq S.val 0) (NoGrad.const nan) hS
    exact NoGrad.sel _ (NoGrad.const _) (NoGrad.sel _ (NoGrad.sub (NoGrad.const _) (NoGrad.tpow (NoGrad.add (NoGrad.const _)
      (NoGrad.mul (NoGrad.sel _ (NoGrad.const _) hS1) hd)) (NoGrad.div (NoGrad.const _) (NoGrad.sel _ (NoGrad.const _) hS1))))
      (NoGrad.sel _ (NoGrad.sub (NoGrad.const _) (NoGrad.exp (NoGrad.neg hd))) (NoGrad.const _)))
  · filter_upwards [hX.1, hX.cont.eventually_lt_const hx] with t ht h
    rw [gpdCdf_val, ht, hξ]
    rw [gpdCdf_fin, gpdG, if_pos h]

/-- `gpd` with a distribution function that is differentiable and less than 1 -/
theorem gpd {y m s ξ M : ℝ → Node} {fy fm fs fξ fM fF : ℝ → ℝ} (hy : Tr y fy θ) (hm : Tr m fm θ) (hs : Tr s fs θ)
    (hξ : Tr ξ fξ θ) (hM : Tr M fM θ) (h0 : 0 < fs θ) (hne : fy θ ≠ fm θ) (h1 : fξ θ < 1)
    (hM1 : ∀ᶠ t in 𝓝 θ, 0 ≤ fM t ∧ fM t ≤ 1)
    (hF : Tr (fun t => Grad.gpdCdf ((y t - m t) / s t) (Node.sel ((ξ t).val < 1) (ξ t) (Node.const nan))) fF θ)
    (hF1 : fF θ < 1) : ∃ f, Tr (fun t => Grad.gpd (y t) (ξ t) (m t) (s t) (M t)) f θ := by
  have hw := (hy.sub hm).div hs h0.ne'
  have e1 : ∀ᶠ t in 𝓝 θ, (ξ t).val < 1 := by
    filter_upwards [hξ.1, hξ.cont.eventually_lt_const h1] with t ht h
    rw [ht, one_def, fin_lt]; exact h
  have eM : ∀ᶠ t in 𝓝 θ, 0 ≤ (M t).val ∧ (M t).val ≤ 1 := by
    filter_upwards [hM.1, hM1] with t ht h
    rw [ht, one_def, zero_def, fin_le, fin_le]; exact h
  have hξ' := hξ.sel_pos e1 (M := fun _ => Node.const nan) rfl
  have hM' := hM.sel_pos eM (M := fun _ => Node.const nan) rfl
  have hp := (Tr.one.sub hF).tpow (Tr.one.sub hξ') (sub_pos.2 hF1)
  have ha := hw.abs (div_ne_zero (sub_ne_zero.2 hne) h0.ne')
  exact ⟨_, hs.mul ((ha.sub (((Tr.two.mul (Tr.one.sub hM')).mul (Tr.one.sub hp)).div (Tr.one.sub hξ')
    (sub_pos.2 h1).ne')).add (((Tr.one.sub hM').pow 2).div (Tr.two.sub hξ') (ne_of_gt (by linarith))))⟩

/-- `_gpd_pdf` inside the support, for a shape that is not 0 -/
theorem gpdPdf {X S : ℝ → Node} {x s : ℝ → ℝ} (hX : Tr X x θ) (hS : Tr S s θ) (hx : 0 < x θ) (hs : s θ ≠ 0)
    (h1 : 0 < 1 + s θ * x θ) :
    Tr (fun t => Grad.gpdPdf (X t) (S t)) (fun t => (1 + s t * x t) ^ (-(s t + 1) / s t)) θ := by
  have e0 : ∀ᶠ t in 𝓝 θ, ¬ XF.feq (S t).val 0 := by
    filter_upwards [hS.1, hS.cont.eventually_ne hs] with t ht hne
    rw [ht]; exact fun h => hne (fin_inj.1 h)
  have hS' := hS.sel_false e0 nan
  have hp : ∀ᶠ t in 𝓝 θ, 0 < 1 + s t * x t :=
    (continuousAt_const.add (hS.cont.mul hX.cont)).eventually_const_lt h1
  have eS : ∀ᶠ t in 𝓝 θ, (0 ≤ (S t).val ∧ 0 ≤ (X t).val) ∨
      ((Node.sel (XF.feq (S t).val 0) (Node.const nan) (S t)).val < 0 ∧ 0 ≤ (X t).val ∧
        (X t).val ≤ (Node.const (-1) / Node.sel (XF.feq (S t).val 0) (Node.const nan) (S t)).val) := by
    filter_upwards [hS.1, hS'.1, hX.1, hp, hS.cont.eventually_ne hs, hX.cont.eventually_const_lt hx]
      with t hs0 ht hxt hpt hne hx0
    rw [div_val, ht, hxt, hs0, const_val, zero_def, fin_lt, fin_le, fin_le, one_def, fin_neg, fin_div hne, fin_le]
    rcases lt_or_ge (s t) 0 with h | h
    · refine Or.inr ⟨h, hx0.le, ?_⟩
      rw [le_div_iff_of_neg h]; nlinarith
    · exact Or.inl ⟨h, hx0.le⟩
  have hX' := hX.sel_pos eS (M := fun _ => Node.const nan) rfl
  have hpow := (Tr.one.add (hS'.mul hX')).tpow ((hS'.add Tr.one).neg.div hS' hs) h1
  exact (hpow.sel_neg e0 hX'.neg.exp.back_zero).sel_pos eS (M := fun _ => Node.const 0) rfl

/-- `_gev_pdf` inside the support, for a shape that is not 0 -/
theorem gevPdf {X S : ℝ → Node} {x s : ℝ → ℝ} (hX : Tr X x θ) (hS : Tr S s θ) (hs : s θ ≠ 0)
    (h1 : 0 < 1 + x θ * s θ) :
    Tr (fun t => Grad.gevPdf (X t) (S t)) (fun t => (1 + x t * s t) ^ (-(s t + 1) / s t) *
      Real.exp (-(1 + x t * s t) ^ (-1 / s t))) θ := by
  have e0 : ∀ᶠ t in 𝓝 θ, ¬ XF.feq (S t).val 0 := by
    filter_upwards [hS.1, hS.cont.eventually_ne hs] with t ht hne
    rw [ht]; exact fun h => hne (fin_inj.1 h)
  have hS' := hS.sel_false e0 nan
  have hp : ∀ᶠ t in 𝓝 θ, 0 < 1 + x t * s t :=
    (continuousAt_const.add (hX.cont.mul hS.cont)).eventually_const_lt h1
  have eS : ∀ᶠ t in 𝓝 θ, (¬ XF.feq (S t).val 0 ∧ -1 < (X t * S t).val) ∨ XF.feq (S t).val 0 := by
    filter_upwards [hS.1, e0, hX.1, hp] with t hs0 h0 hxt hpt
    refine Or.inl ⟨h0, ?_⟩
    rw [mul_val, hs0, hxt, one_def, fin_neg, fin_mul, fin_lt]
    linarith
  have hX' := hX.sel_pos eS (M := fun _ => Node.const nan) rfl
  have hb := Tr.one.add (hX'.mul hS')
  have hpow := (hb.tpow ((hS'.add Tr.one).neg.div hS' hs) h1).mul (hb.tpow (Tr.mone.div hS' hs) h1).neg.exp
  exact (hpow.sel_neg e0 (hX'.neg.exp.mul hX'.neg.exp.neg.exp).back_zero).sel_pos eS
    (M := fun _ => Node.const 0) rfl

/-- the part shared by `gpd` and `gev` in `core/logarithmic.py` -/
theorem logsTail {P s : ℝ → Node} {p fs : ℝ → ℝ} (hP : Tr P p θ) (hs : Tr s fs θ) (hp : 0 < p θ) (h0 : 0 < fs θ) :
    ∃ f, Tr (fun t => Node.sel (XF.feq (P t).val 0) (Node.const pinf)
      (-Node.log (Node.sel (XF.feq (P t).val 0) (Node.const nan) (P t / s t)))) f θ := by
  have e0 : ∀ᶠ t in 𝓝 θ, ¬ XF.feq (P t).val 0 := by
    filter_upwards [hP.1, hP.cont.eventually_ne hp.ne'] with t ht hne
    rw [ht]; exact fun h => hne (fin_inj.1 h)
  exact ⟨_, (((hP.div hs h0.ne').sel_false e0 nan).log (div_pos hp h0)).neg.sel_false e0 pinf⟩

end Tr

/-! ### where the formula that is not selected contains NaN -/

theorem one_add_mul_back {a b : Node} (ha : a.val = nan) (hb : b.back nan = nan) :
    (const 1 + a * b).back nan = nan := by
  rw [add_back, mul_back, ha, XF.mul_nan, hb, add_nan, add_nan]

theorem sel_back_nan {c : Prop} (hc : c) {a : Node} (ha : a.back nan = nan) (x : XF) :
    (Node.sel c a (const x)).back nan = nan := by
  show a.back (if c then nan else 0) + _ = nan
  rw [if_pos hc, ha, nan_add]

/-- `_gpd_cdf` for shape 0 or above the end point -/
theorem gpdCdf_bad {x shape : Node} {a ξ : ℝ} (hx : x.val = fin a) (hb : x.back nan = nan) (hs : shape.val = fin ξ)
    (h0 : 0 ≤ a) (h : ξ = 0 ∨ (ξ < 0 ∧ -1 / ξ < a)) : Bad (Grad.gpdCdf x shape) := by
  unfold Grad.gpdCdf
  have hX := sel_back_nan (c := 0 ≤ x.val) (by rw [hx, zero_def, fin_le]; exact h0) hb nan
  refine Bad.sel_right (Bad.sel_left (Bad.sub_right ?_))
  have key : (sel (¬(XF.feq shape.val 0 ∨ 0 < (sel (XF.feq shape.val 0) (const nan) shape).val) ∧
      (const (-1) / sel (XF.feq shape.val 0) (const nan) shape).val < x.val) (const nan)
      (sel (XF.feq shape.val 0) (const nan) shape)).val = nan := by
    rw [sel_val]
    split_ifs with hc
    · rfl
    · rw [sel_val] at hc ⊢
      split_ifs with hz
      · rfl
      · exfalso
        rw [div_val, sel_val] at hc
        rw [if_neg hz, hs, hx, const_val, zero_def, one_def, fin_neg, fin_lt] at hc
        have hξ : ξ ≠ 0 := by
          intro h; rw [hs, h] at hz; exact hz rfl
        rcases h with h | ⟨h1, h2⟩
        · exact hξ h
        · refine hc ⟨?_, ?_⟩
          · rintro (h | h)
            · exact hξ (fin_inj.1 h)
            · linarith
          · rw [fin_div hξ, fin_lt]; exact h2
  refine Bad.tpow_nan (one_add_mul_back key hX) ?_
  rw [div_val, key, div_nan]

theorem gpd_bad {obs mu sigma shape mass : Node} {a ξ : ℝ} (hx : ((obs - mu) / sigma).val = fin a)
    (hb : ((obs - mu) / sigma).back nan = nan) (hs : shape.val = fin ξ) (h1 : ξ < 1) (h0 : 0 ≤ a)
    (h : ξ = 0 ∨ (ξ < 0 ∧ -1 / ξ < a)) : Bad (Grad.gpd obs shape mu sigma mass) := by
  unfold Grad.gpd
  have hs' : (sel (shape.val < 1) shape (const nan)).val = fin ξ := by
    rw [sel_val, if_pos (by rw [hs, one_def, fin_lt]; exact h1), hs]
  exact Bad.mul_right (Bad.add_left (Bad.sub_right (Bad.div_left (Bad.mul_right (Bad.sub_right (Bad.tpow_left
    (Bad.sub_right (gpdCdf_bad hx hb hs' h0 h))))))))

theorem logsGpd_bad {obs mu sigma shape : Node} {a : ℝ} (hx : ((obs - mu) / sigma).val = fin a)
    (hb : ((obs - mu) / sigma).back nan = nan) (hs : shape.val = fin 0) (h0 : 0 ≤ a) :
    Bad (Grad.logsGpd obs shape mu sigma) := by
  unfold Grad.logsGpd
  refine Bad.sel_right (Bad.neg (Bad.log (Bad.sel_right (Bad.div_left ?_))))
  unfold Grad.gpdPdf
  refine Bad.sel_left (Bad.sel_right ?_)
  have hz : XF.feq shape.val 0 := by rw [hs]; exact rfl
  have key : (sel (XF.feq shape.val 0) (const nan) shape).val = nan := by rw [sel_val, if_pos hz]; rfl
  refine Bad.tpow_nan (one_add_mul_back key (sel_back_nan (Or.inl ⟨?_, ?_⟩) hb nan)) ?_
  · rw [div_val, key, div_nan]
  · rw [hs, zero_def, fin_le]
  · rw [hx, zero_def, fin_le]; exact h0

theorem logsGev_bad {obs mu sigma shape : Node} (hb : ((obs - mu) / sigma).back nan = nan)
    (hs : shape.val = fin 0) : Bad (Grad.logsGev obs shape mu sigma) := by
  unfold Grad.logsGev
  refine Bad.sel_right (Bad.neg (Bad.log (Bad.sel_right (Bad.div_left ?_))))
  unfold Grad.gevPdf
  have hz : XF.feq shape.val 0 := by rw [hs]; exact rfl
  have key : (sel (XF.feq shape.val 0) (const nan) shape).val = nan := by rw [sel_val, if_pos hz]; rfl
  refine Bad.sel_left (Bad.sel_right (Bad.mul_left (Bad.tpow_nan ?_ ?_)))
  · rw [add_back, mul_back, key, XF.mul_nan, sel_back_nan (Or.inr hz) hb nan, nan_add, add_nan]
  · rw [div_val, key, div_nan]

/-! ### the shape near 0 -/

/-- `log (1 + ξ x) / ξ`, continued to `ξ = 0` -/
def lrat (x ξ : ℝ) : ℝ := if ξ = 0 then x else Real.log (1 + ξ * x) / ξ

theorem lrat_zero (x : ℝ) : lrat x 0 = x := if_pos rfl

theorem lrat_deriv (x : ℝ) : HasDerivAt (lrat x) (-(x ^ 2 / 2)) 0 := by
  rw [hasDerivAt_iff_isLittleO, Asymptotics.isLittleO_iff]
  intro ε hε
  set C : ℝ := 2 * |x| ^ 3 with hC
  have hC0 : 0 ≤ C := by positivity
  have h1 : ∀ᶠ ξ in 𝓝 (0:ℝ), |ξ * x| < 1 / 2 := by
    have : Tendsto (fun ξ : ℝ => |ξ * x|) (𝓝 0) (𝓝 |0 * x|) := by
      exact ((continuous_id.mul continuous_const).abs).tendsto 0
    rw [zero_mul, _root_.abs_zero] at this
    exact this.eventually_lt_const (by norm_num)
  have h2 : ∀ᶠ ξ in 𝓝 (0:ℝ), C * |ξ| < ε := by
    have : Tendsto (fun ξ : ℝ => C * |ξ|) (𝓝 0) (𝓝 (C * |0|)) := by
      exact (continuous_const.mul continuous_abs).tendsto 0
    rw [_root_.abs_zero, mul_zero] at this
    exact this.eventually_lt_const hε
  filter_upwards [h1, h2] with ξ h1 h2
  rw [lrat_zero, sub_zero, smul_eq_mul, Real.norm_eq_abs, Real.norm_eq_abs]
  by_cases h0 : ξ = 0
  · subst h0; rw [lrat_zero]; simp
  rw [lrat, if_neg h0]
  have hlog := Real.abs_log_sub_add_sum_range_le (x := -(ξ * x)) (by rw [abs_neg]; linarith) 2
  rw [abs_neg] at hlog
  norm_num [Finset.sum_range_succ] at hlog
  have hb : |ξ * x| ^ 3 / (1 - |ξ * x|) ≤ C * |ξ| ^ 3 := by
    rw [div_le_iff₀ (by linarith), abs_mul, mul_pow, hC]
    have h3 : 0 ≤ |ξ| ^ 3 * |x| ^ 3 := by positivity
    rw [abs_mul] at h1
    nlinarith
  have hξ : 0 < |ξ| := abs_pos.2 h0
  have key : |Real.log (1 + ξ * x) / ξ - x - ξ * -(x ^ 2 / 2)| * |ξ| ≤ C * |ξ| ^ 3 := by
    rw [← abs_mul]
    rw [abs_mul ξ x] at hb
    refine le_trans (le_of_eq ?_) (hlog.trans hb)
    congr 1
    field_simp
    ring
  have h5 : |Real.log (1 + ξ * x) / ξ - x - ξ * -(x ^ 2 / 2)| ≤ C * |ξ| ^ 2 := by
    by_contra hcon
    push Not at hcon
    nlinarith
  calc _ ≤ C * |ξ| ^ 2 := h5
    _ = C * |ξ| * |ξ| := by ring
    _ ≤ ε * |ξ| := by nlinarith

theorem lrat_exp {x ξ : ℝ} (h0 : ξ ≠ 0) (h : 0 < 1 + ξ * x) : (1 + ξ * x) ^ (-1 / ξ) = Real.exp (-lrat x ξ) := by
  rw [lrat, if_neg h0, Real.rpow_def_of_pos h]
  congr 1; ring

end Verif
