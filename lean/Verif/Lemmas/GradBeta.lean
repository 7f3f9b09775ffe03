import Verif.Lemmas.GradEdge
import Verif.Lemmas.GradT
import Verif.Props.Beta
import Verif.Lemmas.BetaSum

/-!
# Gradients of the CRPS of the beta distribution
-/

noncomputable section

open scoped Classical Topology

namespace Verif

open XF Py Mv Node Filter Spec

/-- the number returned, NaN if the call raises -/
def okVal : Except Err XF → XF
  | .ok x => x
  | .error _ => nan

/-- the gradient of the number returned, NaN if the call raises -/
def okGrad : Except Err Node → XF
  | .ok n => n.grad
  | .error _ => nan

/-- the score before scaling, with the constants as numbers -/
def betaCore (a b : ℝ) (x : Node) : Node :=
  x * (const 2 * Node.min (Node.max (Node.betainc (fin a) (fin b) x) (const 0)) (const 1) - const 1)
    + const (fin a / (fin a + fin b)) * (const 1
      - const 2 * Node.min (Node.max (Node.betainc (fin a + 1) (fin b) x) (const 0)) (const 1)
      - const (2 * XF.beta (2 * fin a) (2 * fin b) / (fin a * XF.beta (fin a) (fin b) ^ 2)))

/-- the test for the default limits fails -/
def notDefault (l u : XF) : Prop := ¬ (Grad.isScalarValue .jax l 0 ∧ Grad.isScalarValue .jax u 1)

theorem notDefault_iff (l u : XF) : notDefault l u ↔ ¬ (XF.feq l 0 ∧ XF.feq u 1) := Iff.rfl

theorem betaCore_eq (y l u : Node) (a b : ℝ) : Grad.beta y (fin a) (fin b) l u =
    if notDefault l.val u.val ∧ u.val ≤ l.val then .error .valueError else
    .ok (if notDefault l.val u.val then betaCore a b ((y - l) / (u - l)) * (u - l) else betaCore a b y) := by
  unfold Grad.beta betaCore
  by_cases c : notDefault l.val u.val
  · by_cases d : u.val ≤ l.val
    · rw [if_pos ⟨c, d⟩, if_pos ⟨c, d⟩]
    · have k : ¬ (notDefault l.val u.val ∧ u.val ≤ l.val) := fun h => d h.2
      refine (if_neg k).trans (Eq.trans ?_ (if_neg k).symm)
      rw [if_pos c]
      unfold notDefault at c
      simp only [if_pos c]
  · have k : ¬ (notDefault l.val u.val ∧ u.val ≤ l.val) := fun h => c h.1
    refine (if_neg k).trans (Eq.trans ?_ (if_neg k).symm)
    rw [if_neg c]
    unfold notDefault at c
    simp only [if_neg c]

theorem beta_val (y l u : Node) (a b : ℝ) :
    (Grad.beta y (fin a) (fin b) l u).map Node.val = Closed.beta y.val (fin a) (fin b) l.val u.val := by
  rw [betaCore_eq]
  unfold Closed.beta
  by_cases c : notDefault l.val u.val
  · have c' := (notDefault_iff _ _).1 c
    by_cases d : u.val ≤ l.val
    · rw [if_pos ⟨c, d⟩]; simp only [c', d, not_false_eq_true, and_self, if_true]; rfl
    · rw [if_neg fun h => d h.2, if_pos c]; simp only [if_pos c', d, and_false, if_false]; rfl
  · have c' := mt (notDefault_iff _ _).2 c
    rw [if_neg fun h => c h.1, if_neg c]
    simp only [if_neg c']
    rw [if_neg fun h => c' h.1]; rfl

theorem bF_zero (a b : ℝ) : bF a b 0 = 0 := by rw [bF, prim_bK_neg le_rfl, zero_div]

theorem bF_one {a b : ℝ} (ha : 0 < a) (hb : 0 < b) : bF a b 1 = 1 := by
  rw [bF, prim_bK_one ha hb le_rfl, div_self (betaF_pos ha hb).ne']

theorem bF_cont {a b : ℝ} (ha : 0 < a) (hb : 0 < b) : Continuous (bF a b) := by
  have := isDensity_continuous (dist_beta ha hb (one_pos : (0:ℝ) < 1))
  rw [cdfBeta_eq one_pos] at this
  simpa using this

theorem bF_strict {a b : ℝ} (ha : 0 < a) (hb : 0 < b) : StrictMonoOn (bF a b) (Set.Icc 0 1) := by
  refine strictMonoOn_of_deriv_pos (convex_Icc 0 1) (bF_cont ha hb).continuousOn fun x hx => ?_
  rw [interior_Icc] at hx
  rw [(bF_deriv ha hb hx.1 hx.2).deriv]
  have := sub_pos.2 hx.2
  have := hx.1
  exact div_pos (by positivity) (betaF_pos ha hb)

theorem bF_pos {a b x : ℝ} (ha : 0 < a) (hb : 0 < b) (h0 : 0 < x) (h1 : x < 1) : 0 < bF a b x := by
  have := bF_strict ha hb ⟨le_rfl, zero_le_one⟩ ⟨h0.le, h1.le⟩ h0
  rwa [bF_zero] at this

theorem bF_lt_one {a b x : ℝ} (ha : 0 < a) (hb : 0 < b) (h0 : 0 < x) (h1 : x < 1) : bF a b x < 1 := by
  have := bF_strict ha hb ⟨h0.le, h1.le⟩ ⟨zero_le_one, le_rfl⟩ h1
  rwa [bF_one ha hb] at this

/-- the score of the standard beta distribution -/
def betaS (a b x : ℝ) : ℝ := x * (2 * bF a b x - 1) + a / (a + b) * (1 - 2 * bF (a + 1) b x
  - 2 * betaF (2 * a) (2 * b) / (a * betaF a b ^ 2))

namespace Tr

variable {y l u x : ℝ → Node} {fy fl fu fx : ℝ → ℝ} {θ : ℝ}

theorem betaCore {a b : ℝ} (ha : 0 < a) (hb : 0 < b) (hx : Tr x fx θ) (h0 : 0 < fx θ) (h1 : fx θ < 1) :
    Tr (fun t => Verif.betaCore a b (x t)) (fun t => betaS a b (fx t)) θ := by
  have ha1 : 0 < a + 1 := by linarith
  have hab : a + b ≠ 0 := by positivity
  have hBB : a * betaF a b ^ 2 ≠ 0 := by have := betaF_pos ha hb; positivity
  have e1 : fin a + 1 = fin (a + 1) := by rw [XF.one_def, fin_add]
  have e2 : ∀ c : ℝ, (2 : XF) * fin c = fin (2 * c) := fun c => by rw [XF.ofNat_def, fin_mul]
  have k1 := ((hx.betainc ha hb h0 h1).max_left Tr.zero (bF_pos ha hb h0 h1)).min_left Tr.one (bF_lt_one ha hb h0 h1)
  have k2 := ((hx.betainc ha1 hb h0 h1).max_left Tr.zero (bF_pos ha1 hb h0 h1)).min_left Tr.one (bF_lt_one ha1 hb h0 h1)
  rw [← e1] at k2
  have c1 := Tr.constx (θ := θ) (x := fin a / (fin a + fin b)) (c := a / (a + b)) (by rw [fin_add, fin_div hab])
  have c2 := Tr.constx (θ := θ) (x := 2 * XF.beta (2 * fin a) (2 * fin b) / (fin a * XF.beta (fin a) (fin b) ^ 2))
    (c := 2 * betaF (2 * a) (2 * b) / (a * betaF a b ^ 2)) (by
      rw [beta_fin ha hb, e2 a, e2 b, beta_fin (show 0 < 2 * a by linarith) (show 0 < 2 * b by linarith)]
      simp only [e2, fin_mul, fin_pow, fin_div hBB])
  exact (hx.mul ((Tr.two.mul k1).sub Tr.one)).add (c1.mul ((Tr.one.sub (Tr.two.mul k2)).sub c2))

/-- between the limits, unless a varying limit passes through the default -/
theorem beta {a b : ℝ} (ha : 0 < a) (hb : 0 < b) (hy : Tr y fy θ) (hl : Tr l fl θ) (hu : Tr u fu θ)
    (h0 : fl θ < fy θ) (h1 : fy θ < fu θ) (hd : (∀ t, fl t = 0 ∧ fu t = 1) ∨ ¬ (fl θ = 0 ∧ fu θ = 1)) :
    ∃ N : ℝ → Node, Tr N (fun t => betaS a b ((fy t - fl t) / (fu t - fl t)) * (fu t - fl t)) θ ∧
      ∀ᶠ t in 𝓝 θ, Grad.beta (y t) (fin a) (fin b) (l t) (u t) = .ok (N t) := by
  have hd0 : 0 < fu θ - fl θ := by linarith
  rcases hd with hd | hd
  · have hlθ := (hd θ).1; have huθ := (hd θ).2
    refine ⟨fun t => Verif.betaCore a b (y t), (hy.betaCore ha hb (hlθ ▸ h0) (huθ ▸ h1)).congr fun t => ?_, ?_⟩
    · rw [(hd t).1, (hd t).2]; simp
    · filter_upwards [hl.1, hu.1] with t e1 e2
      have hs : ¬ notDefault (l t).val (u t).val := by
        rw [notDefault_iff, e1, e2, special_fin, (hd t).1, (hd t).2]; simp
      rw [betaCore_eq, if_neg fun h => hs h.1, if_neg hs]
  · refine ⟨fun t => Verif.betaCore a b ((y t - l t) / (u t - l t)) * (u t - l t),
      (((hy.sub hl).div (hu.sub hl) hd0.ne').betaCore ha hb (div_pos (by linarith) hd0)
        ((div_lt_one hd0).2 (by linarith))).mul (hu.sub hl), ?_⟩
    have hne : ∀ᶠ t in 𝓝 θ, ¬ (fl t = 0 ∧ fu t = 1) := by
      by_cases h : fl θ = 0
      · have h' : fu θ ≠ 1 := fun h' => hd ⟨h, h'⟩
        filter_upwards [hu.cont.eventually_ne h'] with t ht hc using ht hc.2
      · filter_upwards [hl.cont.eventually_ne h] with t ht hc using ht hc.1
    filter_upwards [hl.1, hu.1, hne, hl.cont.eventually_lt hu.cont (by linarith)] with t e1 e2 hn hlt
    have hs : notDefault (l t).val (u t).val := by
      rw [notDefault_iff, e1, e2, special_fin]; exact hn
    rw [betaCore_eq, if_neg (by rw [e1, e2, fin_le]; exact fun h => not_le.2 hlt h.2), if_pos hs]

end Tr

theorem beta_isGradient {f : ℝ → ℝ} {θ : ℝ} {N : ℝ → Node} {B : ℝ → Except Err Node} {S : XF → Except Err XF}
    (h : Tr N f θ) (e : ∀ᶠ t in 𝓝 θ, B t = .ok (N t)) (hS : ∀ t, (B t).map Node.val = S (fin t)) {n : Except Err Node}
    (hn : n = B θ) : IsGradient (fun t => okVal (S t)) θ (okGrad n) := by
  have h2 := h.congrEv (N' := fun t => if B t = .ok (N t) then N t else const nan) (e.mono fun t ht => if_pos ht)
  obtain ⟨d, hd, hb⟩ := h.2
  refine ⟨f, d, ?_, hd, ?_⟩
  · filter_upwards [h.1, e] with t ht hB
    rw [← hS, hB]; exact ht
  · rw [hn, e.self_of_nhds]
    show (N θ).back 1 = _
    rw [one_def, hb, one_mul]

theorem NoGrad.betaCore {a b : ℝ} {x : Node} (h : NoGrad x) : NoGrad (betaCore a b x) := by
  have hB : ∀ a b : XF, NoGrad (Node.betainc a b x) := fun a b g => h _
  exact (h.mul (((NoGrad.const 2).mul (((hB _ _).max (NoGrad.const 0)).min (NoGrad.const 1))).sub (NoGrad.const 1))).add
    ((NoGrad.const _).mul (((NoGrad.const 1).sub ((NoGrad.const 2).mul (((hB _ _).max (NoGrad.const 0)).min
      (NoGrad.const 1)))).sub (NoGrad.const _)))

end Verif
