import Verif.Model.Grad
import Verif.Spec.Grad
import Mathlib.Analysis.SpecialFunctions.ExpDeriv
import Mathlib.Analysis.SpecialFunctions.Log.Deriv
import Mathlib.Analysis.SpecialFunctions.Sqrt
import Mathlib.Analysis.SpecialFunctions.Pow.Deriv
import Mathlib.Analysis.Calculus.Deriv.Abs
import Mathlib.Analysis.Calculus.Deriv.Inv
import Mathlib.Analysis.Calculus.Deriv.Pow
import Mathlib.MeasureTheory.Integral.IntervalIntegral.FundThmCalculus

/-!
# The backward rules compute derivatives

`Tr N f θ`: near `θ` the node `N t` has the finite value `f t`, `f` is differentiable at `θ`, and the backward
function of `N θ` multiplies a finite cotangent with the derivative.
-/

noncomputable section

open scoped Classical Topology

namespace Verif

open XF Py Mv Node Filter

/-- `(N t).val = f t` near `θ` and `N θ` passes the cotangent on times the derivative. -/
def Tr (N : ℝ → Node) (f : ℝ → ℝ) (θ : ℝ) : Prop :=
  (∀ᶠ t in 𝓝 θ, (N t).val = fin (f t)) ∧
    ∃ d, HasDerivAt f d θ ∧ ∀ g : ℝ, (N θ).back (fin g) = fin (g * d)

namespace Node

@[simp] theorem const_val (x : XF) : (const x).val = x := rfl
@[simp] theorem const_back (x g : XF) : (const x).back g = 0 := rfl
@[simp] theorem leaf_val (x : XF) : (leaf x).val = x := rfl
@[simp] theorem leaf_back (x g : XF) : (leaf x).back g = g := rfl
@[simp] theorem add_val (a b : Node) : (a + b).val = a.val + b.val := rfl
@[simp] theorem sub_val (a b : Node) : (a - b).val = a.val - b.val := rfl
@[simp] theorem neg_val (a : Node) : (-a).val = -a.val := rfl
@[simp] theorem mul_val (a b : Node) : (a * b).val = a.val * b.val := rfl
@[simp] theorem div_val (a b : Node) : (a / b).val = a.val / b.val := rfl
theorem add_back (a b : Node) (g : XF) : (a + b).back g = a.back g + b.back g := rfl
theorem sub_back (a b : Node) (g : XF) : (a - b).back g = a.back g + b.back (-g) := rfl
theorem neg_back (a : Node) (g : XF) : (-a).back g = a.back (-g) := rfl
theorem mul_back (a b : Node) (g : XF) :
    (a * b).back g = a.back (g * b.val) + b.back (g * a.val) := rfl
theorem div_back (a b : Node) (g : XF) :
    (a / b).back g = a.back (g / b.val) + b.back (-g * (a.val / b.val / b.val)) := rfl

theorem sum_back (l : List Node) (g : XF) : (Node.sum l).back g = (l.map fun n => n.back g).sum := rfl
theorem sum_val (l : List Node) : (Node.sum l).val = (l.map Node.val).sum := rfl

end Node

namespace Tr

variable {N N' : ℝ → Node} {f f' : ℝ → ℝ} {θ : ℝ}

theorem val (h : Tr N f θ) : (N θ).val = fin (f θ) := h.1.self_of_nhds

theorem cont (h : Tr N f θ) : ContinuousAt f θ := by
  obtain ⟨_, d, hd, _⟩ := h
  exact hd.continuousAt

/-- the gradient is the derivative -/
theorem isGradient (h : Tr N f θ) {score : XF → XF} (hs : ∀ t, (N t).val = score (fin t)) :
    Spec.IsGradient score θ (N θ).grad := by
  obtain ⟨hv, d, hd, hb⟩ := h
  refine ⟨f, d, ?_, hd, ?_⟩
  · filter_upwards [hv] with t ht
    rw [← hs, ht]
  · show (N θ).back 1 = _
    rw [one_def, hb, one_mul]

theorem const (c : ℝ) : Tr (fun _ => Node.const (fin c)) (fun _ => c) θ :=
  ⟨Eventually.of_forall fun _ => rfl, 0, hasDerivAt_const _ _, fun g => by simp [zero_def]⟩

theorem leaf : Tr (fun t => Node.leaf (fin t)) (fun t => t) θ :=
  ⟨Eventually.of_forall fun _ => rfl, 1, hasDerivAt_id _, fun g => by simp⟩

theorem add (h : Tr N f θ) (h' : Tr N' f' θ) : Tr (fun t => N t + N' t) (fun t => f t + f' t) θ := by
  obtain ⟨hv, d, hd, hb⟩ := h
  obtain ⟨hv', d', hd', hb'⟩ := h'
  refine ⟨?_, d + d', hd.add hd', fun g => ?_⟩
  · filter_upwards [hv, hv'] with t ht ht'
    rw [add_val, ht, ht', fin_add]
  · rw [add_back, hb, hb', fin_add, mul_add]

theorem neg (h : Tr N f θ) : Tr (fun t => -N t) (fun t => -f t) θ := by
  obtain ⟨hv, d, hd, hb⟩ := h
  refine ⟨?_, -d, hd.neg, fun g => ?_⟩
  · filter_upwards [hv] with t ht
    rw [neg_val, ht, fin_neg]
  · rw [neg_back, fin_neg, hb, neg_mul, mul_neg]

theorem sub (h : Tr N f θ) (h' : Tr N' f' θ) : Tr (fun t => N t - N' t) (fun t => f t - f' t) θ := by
  obtain ⟨hv, d, hd, hb⟩ := h
  obtain ⟨hv', d', hd', hb'⟩ := h'
  refine ⟨?_, d - d', hd.sub hd', fun g => ?_⟩
  · filter_upwards [hv, hv'] with t ht ht'
    rw [sub_val, ht, ht', fin_sub]
  · rw [sub_back, hb, fin_neg, hb', fin_add]
    congr 1; ring

theorem mul (h : Tr N f θ) (h' : Tr N' f' θ) : Tr (fun t => N t * N' t) (fun t => f t * f' t) θ := by
  have e := h.val
  have e' := h'.val
  obtain ⟨hv, d, hd, hb⟩ := h
  obtain ⟨hv', d', hd', hb'⟩ := h'
  refine ⟨?_, d * f' θ + f θ * d', hd.mul hd', fun g => ?_⟩
  · filter_upwards [hv, hv'] with t ht ht'
    rw [mul_val, ht, ht', fin_mul]
  · rw [mul_back, e, e', fin_mul, fin_mul, hb, hb', fin_add]
    congr 1; ring

theorem div (h : Tr N f θ) (h' : Tr N' f' θ) (h0 : f' θ ≠ 0) :
    Tr (fun t => N t / N' t) (fun t => f t / f' t) θ := by
  have e := h.val
  have e' := h'.val
  have hne : ∀ᶠ t in 𝓝 θ, f' t ≠ 0 := h'.cont.eventually_ne h0
  obtain ⟨hv, d, hd, hb⟩ := h
  obtain ⟨hv', d', hd', hb'⟩ := h'
  refine ⟨?_, (d * f' θ - f θ * d') / f' θ ^ 2, hd.div hd' h0, fun g => ?_⟩
  · filter_upwards [hv, hv', hne] with t ht ht' hn
    rw [div_val, ht, ht', fin_div hn]
  · rw [div_back, e, e', fin_div h0, fin_div h0, fin_div h0, fin_neg, fin_mul, hb, hb', fin_add]
    congr 1; field_simp; ring

theorem pow (h : Tr N f θ) (n : ℕ) : Tr (fun t => Node.pow (N t) n) (fun t => f t ^ n) θ := by
  have e := h.val
  obtain ⟨hv, d, hd, hb⟩ := h
  have hp : ∀ (a : ℝ) (k : ℕ), (fin a : XF) ^ k = fin (a ^ k) := by
    intro a k
    induction k with
    | zero => simp [one_def]
    | succ k ih => rw [pow_succ, ih, fin_mul, pow_succ]
  refine ⟨?_, n * f θ ^ (n - 1) * d, hd.pow n, fun g => ?_⟩
  · filter_upwards [hv] with t ht
    show (N t).val ^ n = _
    rw [ht, hp]
  · show (N θ).back (fin g * ((n : XF) * (N θ).val ^ (n - 1))) = _
    rw [e, hp, natCast_def, fin_mul, fin_mul, hb]
    congr 1; ring

theorem exp (h : Tr N f θ) : Tr (fun t => Node.exp (N t)) (fun t => Real.exp (f t)) θ := by
  have e := h.val
  obtain ⟨hv, d, hd, hb⟩ := h
  refine ⟨?_, Real.exp (f θ) * d, hd.exp, fun g => ?_⟩
  · filter_upwards [hv] with t ht
    show XF.exp (N t).val = _
    rw [ht, fin_exp]
  · show (N θ).back (fin g * XF.exp (N θ).val) = _
    rw [e, fin_exp, fin_mul, hb]
    congr 1; ring

theorem log (h : Tr N f θ) (h0 : 0 < f θ) : Tr (fun t => Node.log (N t)) (fun t => Real.log (f t)) θ := by
  have e := h.val
  have hpos : ∀ᶠ t in 𝓝 θ, 0 < f t := h.cont.eventually_const_lt h0
  obtain ⟨hv, d, hd, hb⟩ := h
  refine ⟨?_, d / f θ, hd.log h0.ne', fun g => ?_⟩
  · filter_upwards [hv, hpos] with t ht hp
    show XF.log (N t).val = _
    rw [ht, fin_log hp]
  · show (N θ).back (fin g / (N θ).val) = _
    rw [e, fin_div h0.ne', hb]
    congr 1; ring

theorem sqrt (h : Tr N f θ) (h0 : 0 < f θ) : Tr (fun t => Node.sqrt (N t)) (fun t => Real.sqrt (f t)) θ := by
  have e := h.val
  have hpos : ∀ᶠ t in 𝓝 θ, 0 < f t := h.cont.eventually_const_lt h0
  have hs := Real.sqrt_pos.2 h0
  obtain ⟨hv, d, hd, hb⟩ := h
  refine ⟨?_, d / (2 * Real.sqrt (f θ)), hd.sqrt h0.ne', fun g => ?_⟩
  · filter_upwards [hv, hpos] with t ht hp
    show XF.sqrt (N t).val = _
    rw [ht, fin_sqrt hp.le]
  · show (N θ).back (fin g / (2 * XF.sqrt (N θ).val)) = _
    rw [e, fin_sqrt h0.le, ofNat_def, fin_mul, fin_div (by positivity), hb]
    congr 1; simp only [OfNat.ofNat]; ring

theorem abs (h : Tr N f θ) (h0 : f θ ≠ 0) : Tr (fun t => Node.abs (N t)) (fun t => |f t|) θ := by
  have e := h.val
  obtain ⟨hv, d, hd, hb⟩ := h
  refine ⟨?_, SignType.sign (f θ) * d, (hasDerivAt_abs h0).comp θ hd, fun g => ?_⟩
  · filter_upwards [hv] with t ht
    show XF.abs (N t).val = _
    rw [ht, fin_abs]
  · show (N θ).back (fin g * sgn (N θ).val) = _
    rw [e]
    rcases lt_or_gt_of_ne h0 with hn | hp
    · simp [sgn, hn, hb, sign_neg hn]
    · simp [sgn, hp.not_gt, hp.ne', hb, sign_pos hp]

theorem erf (h : Tr N f θ) : Tr (fun t => Node.erf (N t))
    (fun t => 2 / Real.sqrt Real.pi * ∫ s in (0:ℝ)..f t, Real.exp (-s ^ 2)) θ := by
  have e := h.val
  have hpi : 0 < Real.sqrt Real.pi := Real.sqrt_pos.2 Real.pi_pos
  have hc : Continuous fun s : ℝ => Real.exp (-s ^ 2) := by fun_prop
  obtain ⟨hv, d, hd, hb⟩ := h
  have hi : HasDerivAt (fun x : ℝ => 2 / Real.sqrt Real.pi * ∫ s in (0:ℝ)..x, Real.exp (-s ^ 2))
      (2 / Real.sqrt Real.pi * Real.exp (-f θ ^ 2)) (f θ) :=
    (intervalIntegral.integral_hasDerivAt_right (hc.intervalIntegrable _ _)
      hc.stronglyMeasurable.stronglyMeasurableAtFilter hc.continuousAt).const_mul _
  refine ⟨?_, 2 / Real.sqrt Real.pi * Real.exp (-f θ ^ 2) * d, hi.comp θ hd, fun g => ?_⟩
  · filter_upwards [hv] with t ht
    show XF.erf (N t).val = _
    rw [ht]; rfl
  · show (N θ).back (fin g * (2 / XF.sqrt XF.pi * XF.exp (-((N θ).val ^ 2)))) = _
    rw [e, XF.pi, fin_sqrt Real.pi_pos.le, ofNat_def, fin_div hpi.ne', pow_two, fin_mul, fin_neg, fin_exp,
      fin_mul, fin_mul, hb]
    congr 1; simp only [OfNat.ofNat, pow_two]; ring

theorem congr (h : Tr N f θ) (hf : ∀ t, f t = f' t) : Tr N f' θ := by
  rwa [show f' = f from (funext hf).symm]

theorem sum {ι : Type} (l : List ι) {N : ι → ℝ → Node} {f : ι → ℝ → ℝ} (h : ∀ i ∈ l, Tr (N i) (f i) θ) :
    Tr (fun t => Node.sum (l.map fun i => N i t)) (fun t => (l.map fun i => f i t).sum) θ := by
  induction l with
  | nil =>
    refine ⟨Eventually.of_forall fun _ => rfl, 0, ?_, fun g => ?_⟩
    · simpa using hasDerivAt_const θ (0 : ℝ)
    · simp [Node.sum, zero_def]
  | cons i l ih =>
    have h1 := h i (by simp)
    have h2 := ih fun j hj => h j (by simp [hj])
    have := h1.add h2
    obtain ⟨hv, d, hd, hb⟩ := this
    refine ⟨?_, d, ?_, fun g => ?_⟩
    · filter_upwards [hv] with t ht
      simpa [Node.sum] using ht
    · simpa using hd
    · simpa [Node.sum, add_back] using hb g

theorem norm {ι : Type} (lib : Lib) (l : List ι) {N : ι → ℝ → Node} {f : ι → ℝ → ℝ}
    (h : ∀ i ∈ l, Tr (N i) (f i) θ) (h0 : 0 < (l.map fun i => f i θ * f i θ).sum) :
    Tr (fun t => Node.norm lib (l.map fun i => N i t))
      (fun t => Real.sqrt (l.map fun i => f i t * f i t).sum) θ := by
  have hq := (Tr.sum l fun i hi => (h i hi).mul (h i hi)).sqrt h0
  cases lib with
  | jax =>
    refine (funext fun t => ?_ : (fun t => Node.norm .jax (l.map fun i => N i t)) = _) ▸ hq
    simp [Node.norm, List.map_map, Function.comp_def]
  | torch =>
    have hv : ∀ t, (Node.norm .torch (l.map fun i => N i t)).val
        = (Node.sqrt (Node.sum (l.map fun i => N i t * N i t))).val := by
      intro t
      simp [Node.norm, vnorm, Node.sqrt, Node.sum, List.map_map, Function.comp_def]
    have hn := (hv θ).trans hq.val
    obtain ⟨h1, d, hd, hb⟩ := hq
    refine ⟨?_, d, hd, fun g => ?_⟩
    · filter_upwards [h1] with t ht
      rw [hv, ht]
    · rw [← hb]
      have hs := Real.sqrt_pos.2 h0
      have hn' : vnorm ((l.map fun i => N i θ).map Node.val)
          = fin (Real.sqrt (l.map fun i => f i θ * f i θ).sum) := hn
      have hne : ¬ XF.feq (fin (Real.sqrt (l.map fun i => f i θ * f i θ).sum)) 0 := by
        intro hc
        rw [zero_def] at hc
        exact hs.ne' (fin_inj.1 hc)
      show ((l.map fun i => N i θ).map fun x => x.back (if XF.feq (vnorm ((l.map fun i => N i θ).map
        Node.val)) 0 then 0 else x.val * (fin g / vnorm ((l.map fun i => N i θ).map Node.val)))).sum = _
      rw [hn']
      simp only [if_neg hne]
      show _ = (Node.sum (l.map fun i => N i θ * N i θ)).back (fin g / (2 * XF.sqrt
        (Node.sum (l.map fun i => N i θ * N i θ)).val))
      have hval : (Node.sum (l.map fun i => N i θ * N i θ)).val
          = fin (l.map fun i => f i θ * f i θ).sum :=
        (Tr.sum l fun i hi => (h i hi).mul (h i hi)).val
      rw [hval, fin_sqrt h0.le, ofNat_def, fin_mul, fin_div hs.ne',
        fin_div (mul_pos two_pos hs).ne']
      rw [sum_back, List.map_map, List.map_map]
      refine congrArg List.sum (List.map_congr_left fun i hi => ?_)
      show (N i θ).back ((N i θ).val * _) = (N i θ * N i θ).back _
      have e := (h i hi).val
      obtain ⟨_, di, _, hbi⟩ := h i hi
      rw [mul_back, e, fin_mul, fin_mul, hbi, hbi, fin_add]
      congr 1; simp only [OfNat.ofNat]; field_simp; ring

end Tr

/-! ### NaN gradients -/

/-- Whatever the cotangent, the gradient is NaN. -/
def Bad (n : Node) : Prop := ∀ g, n.back g = nan

namespace Bad

variable {a b : Node}

theorem grad (h : Bad a) : a.grad = nan := h _
theorem add_left (h : Bad a) : Bad (a + b) := fun g => by rw [add_back, h, nan_add]
theorem add_right (h : Bad b) : Bad (a + b) := fun g => by rw [add_back, h, add_nan]
theorem sub_left (h : Bad a) : Bad (a - b) := fun g => by rw [sub_back, h, nan_add]
theorem sub_right (h : Bad b) : Bad (a - b) := fun g => by rw [sub_back, h, add_nan]
theorem neg (h : Bad a) : Bad (-a) := fun g => by rw [neg_back, h]
theorem mul_left (h : Bad a) : Bad (a * b) := fun g => by rw [mul_back, h, nan_add]
theorem mul_right (h : Bad b) : Bad (a * b) := fun g => by rw [mul_back, h, add_nan]
theorem div_left (h : Bad a) : Bad (a / b) := fun g => by rw [div_back, h, nan_add]
theorem div_right (h : Bad b) : Bad (a / b) := fun g => by rw [div_back, h, add_nan]
theorem pow (h : Bad a) (n : ℕ) : Bad (Node.pow a n) := fun _ => h _
theorem exp (h : Bad a) : Bad (Node.exp a) := fun _ => h _

theorem sum {l : List Node} {n : Node} (hn : n ∈ l) (h : Bad n) : Bad (Node.sum l) := by
  intro g
  show (l.map fun n => n.back g).sum = nan
  induction l with
  | nil => simp at hn
  | cons x l ih =>
    rw [List.map_cons, List.sum_cons]
    rcases List.mem_cons.1 hn with rfl | hm
    · rw [h, nan_add]
    · rw [ih hm, add_nan]

end Bad

/-- NaN is not a derivative. -/
theorem not_isGradient_nan (score : XF → XF) (θ : ℝ) : ¬ Spec.IsGradient score θ nan := by
  rintro ⟨f, d, _, _, h⟩
  cases h

/-- The derivative is unique. -/
theorem Spec.IsGradient.unique {score : XF → XF} {θ : ℝ} {g g' : XF} (h : Spec.IsGradient score θ g)
    (h' : Spec.IsGradient score θ g') : g = g' := by
  obtain ⟨f, d, hv, hd, rfl⟩ := h
  obtain ⟨f', d', hv', hd', rfl⟩ := h'
  have he : f =ᶠ[𝓝 θ] f' := by
    filter_upwards [hv, hv'] with t ht ht'
    exact fin_inj.1 (ht.symm.trans ht')
  rw [(hd.congr_of_eventuallyEq he.symm).unique hd']

end Verif
