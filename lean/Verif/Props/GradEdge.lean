import Verif.Lemmas.GradEdge
import Verif.Props.GradTail

/-!
# C132: gradients of the exponential, two-piece exponential and uniform scores
-/

noncomputable section

open scoped Classical Topology

namespace Verif

open XF Py Mv Node Filter Spec

/-- The scores modelled a second time, with gradients, have the same values. -/
theorem C132_edge_values (lib : Lib) (y a b c d : Node) :
    (Grad.exponential y a).val = Closed.exponential y.val a.val ∧
    (Grad.exponentialM lib y a b c).val = Closed.exponentialM y.val a.val b.val c.val ∧
    (Grad.twopexponential y a b c).val = Closed.twopexponential y.val a.val b.val c.val ∧
    (Grad.uniform y a b c d).val = Closed.uniform y.val a.val b.val c.val d.val :=
  ⟨rfl, exponentialM_val .., rfl, rfl⟩

/-- the gradient with respect to the observation -/
example : (leaf (fin 3)).val = fin 3 := rfl

/-- `crps_exponential`: the gradients with respect to the observation and the rate are the derivatives, at every
observation; at 0 the halved cotangent of the clamp and the missing cotangent of `|0|` make up for each other. -/
theorem C132_exponential (y : ℝ) {r : ℝ} (hr : 0 < r) :
    IsGradient (fun t => Closed.exponential t (fin r)) y (Grad.exponential (leaf (fin y)) (const (fin r))).grad ∧
    IsGradient (fun t => Closed.exponential (fin y) t) r (Grad.exponential (const (fin y)) (leaf (fin r))).grad := by
  by_cases hy : y = 0
  · subst hy
    constructor
    · rw [(exponential_zero (Pt.leaf 0) (Pt.const r) hr).grad]
      have h := C119_derivative (score := fun t => Closed.exponential t (fin r)) (C119_exponential hr) (θ := 0)
        univ_mem (isDensity_continuous (C57_exponential hr).1).continuousAt
      convert h using 2
      simp [cdfExp]
    · rw [(exponential_zero (Pt.const 0) (Pt.leaf r) hr).grad]
      refine ⟨fun t => 1 / (2 * t), -0 - 1 / (2 * r ^ 2), ?_, ?_, rfl⟩
      · filter_upwards [lt_mem_nhds hr] with t ht
        exact (exponential_zero (Pt.const 0) (Pt.const t) ht).1
      · have := ((hasDerivAt_id r).const_mul 2).fun_inv (mul_ne_zero two_ne_zero hr.ne')
        simp only [← one_div] at this
        refine this.congr_deriv ?_
        simp only [id]; field_simp; ring
  · obtain ⟨_, h1⟩ := (Tr.leaf (θ := y)).exponential (Tr.const r) hr hy
    obtain ⟨_, h2⟩ := (Tr.const (θ := r) y).exponential Tr.leaf hr hy
    exact ⟨h1.isGradient fun _ => rfl, h2.isGradient fun _ => rfl⟩

/-- rate 3 -/
example : (0:ℝ) < 3 := by norm_num

/-- `crps_exponentialM` at an observation other than the location: the gradients are the derivatives on torch, and on
jax if the parameter does not have its default value.  Not so at the default values on jax
(`C132_exponentialM_false`). -/
theorem C132_exponentialM_partial (lib : Lib) {y m l s : ℝ} (hs : 0 < s) (hne : y ≠ l) :
    IsGradient (fun t => Closed.exponentialM t (fin m) (fin l) (fin s)) y
      (Grad.exponentialM lib (leaf (fin y)) (const (fin m)) (const (fin l)) (const (fin s))).grad ∧
    (lib = .torch ∨ m ≠ 0 → IsGradient (fun t => Closed.exponentialM (fin y) t (fin l) (fin s)) m
      (Grad.exponentialM lib (const (fin y)) (leaf (fin m)) (const (fin l)) (const (fin s))).grad) ∧
    (lib = .torch ∨ l ≠ 0 → IsGradient (fun t => Closed.exponentialM (fin y) (fin m) t (fin s)) l
      (Grad.exponentialM lib (const (fin y)) (const (fin m)) (leaf (fin l)) (const (fin s))).grad) ∧
    (lib = .torch ∨ s ≠ 1 → IsGradient (fun t => Closed.exponentialM (fin y) (fin m) (fin l) t) s
      (Grad.exponentialM lib (const (fin y)) (const (fin m)) (const (fin l)) (leaf (fin s))).grad) := by
  have cst : ∀ {v c θ : ℝ}, Tr.Free lib (fun _ => c) v θ := fun {v c θ} => by
    by_cases h : c = v
    · exact Or.inr (Or.inl fun _ => h)
    · exact Or.inr (Or.inr h)
  have lf : ∀ {v θ : ℝ}, (lib = .torch ∨ θ ≠ v) → Tr.Free lib (fun t => t) v θ := fun h =>
    h.elim Or.inl fun h => Or.inr (Or.inr h)
  refine ⟨?_, fun h => ?_, fun h => ?_, fun h => ?_⟩
  · obtain ⟨_, h1⟩ := (Tr.leaf (θ := y)).exponentialM (lib := lib) (Tr.const m) (Tr.const l) (Tr.const s) hs hne cst cst cst
    exact h1.isGradient fun _ => exponentialM_val ..
  · obtain ⟨_, h1⟩ := (Tr.const (θ := m) y).exponentialM Tr.leaf (Tr.const l) (Tr.const s) hs hne cst (lf h) cst
    exact h1.isGradient fun _ => exponentialM_val ..
  · obtain ⟨_, h1⟩ := (Tr.const (θ := l) y).exponentialM (Tr.const m) Tr.leaf (Tr.const s) hs hne (lf h) cst cst
    exact h1.isGradient fun _ => exponentialM_val ..
  · obtain ⟨_, h1⟩ := (Tr.const (θ := s) y).exponentialM (Tr.const m) (Tr.const l) Tr.leaf hs hne cst cst (lf h)
    exact h1.isGradient fun _ => exponentialM_val ..

/-- a point mass of one fifth at -1, scale 3 -/
example : (0:ℝ) < 3 ∧ (2:ℝ) ≠ -1 ∧ (1 / 5 : ℝ) ≠ 0 ∧ (-1:ℝ) ≠ 0 ∧ (3:ℝ) ≠ 1 := by norm_num

/-- The gradients of `crps_exponentialM` are wrong on jax with respect to a parameter that has its default value:
`_is_scalar_value` takes a branch in which the parameter does not occur, so that the gradient is 0 whatever the
observation.  The derivatives are not 0. -/
theorem C132_exponentialM_false {y m s : ℝ} (l : ℝ) (hs : 0 < s) :
    ((Grad.exponentialM .jax (const (fin y)) (const (fin m)) (leaf (fin 0)) (const (fin s))).grad = fin 0 ∧
      (y ≠ 0 → IsGradient (fun t => Closed.exponentialM (fin y) (fin m) t (fin s)) 0
        (fin (1 - 2 * cdfExpM m 0 s y)))) ∧
    ((Grad.exponentialM .jax (const (fin y)) (leaf (fin 0)) (const (fin l)) (const (fin s))).grad = fin 0 ∧
      IsGradient (fun t => Closed.exponentialM (fin y) t (fin l) (fin s)) 0 (fin (s * (2 * cdfExpM 0 l s y - 1)))) ∧
    ((Grad.exponentialM .jax (const (fin y)) (const (fin m)) (const (fin l)) (leaf (fin 1))).grad = fin 0 ∧
      IsGradient (fun t => Closed.exponentialM (fin y) (fin m) (fin l) t) 1
        (fin ((1 - m) ^ 2 / 2 - 2 * (1 - m) * (1 - (1 + max (y - l) 0) * Real.exp (-max (y - l) 0))))) := by
  have pos : ∀ {x : ℝ}, 0 < x → max (1 - Real.exp (-x)) 0 = 1 - Real.exp (-x) := fun {x} h =>
    max_eq_left (sub_nonneg.2 (Real.exp_le_one_iff.2 (by linarith)))
  have neg : ∀ {x : ℝ}, x ≤ 0 → max (1 - Real.exp (-x)) 0 = 0 := fun {x} h =>
    max_eq_right (sub_nonpos.2 (Real.one_le_exp (by linarith)))
  refine ⟨⟨(NoGrad.exponentialM (NoGrad.const _) (jax_scalar 0) (fun _ => NoGrad.const _) fun _ => NoGrad.const _).grad,
    fun hy => ?_⟩, ⟨(NoGrad.exponentialM (NoGrad.const _) (fun _ => NoGrad.const _) (jax_scalar 0)
      fun _ => NoGrad.const _).grad, ?_⟩, (NoGrad.exponentialM (NoGrad.const _) (fun _ => NoGrad.const _)
      (fun _ => NoGrad.const _) (jax_scalar 1)).grad, ?_⟩
  · rcases lt_or_gt_of_ne hy with h | h
    · refine ⟨fun t => -(y - t) - s * (1 - m) * (2 * 0 - 1 / 2 * (1 - m)), _, ?_, ?_, rfl⟩
      · filter_upwards [lt_mem_nhds h] with t ht
        rw [exponentialM_fin _ _ _ hs, neg (div_nonpos_of_nonpos_of_nonneg (by linarith) hs.le),
          abs_of_neg (by linarith)]
      · refine ((((hasDerivAt_id (0:ℝ)).const_sub y).neg).sub_const _).congr_deriv ?_
        rw [cdfExpM, if_pos h]; ring
    · refine ⟨fun t => (y - t) - s * (1 - m) * (2 * (1 - Real.exp (-((y - t) / s))) - 1 / 2 * (1 - m)), _, ?_, ?_, rfl⟩
      · filter_upwards [gt_mem_nhds h] with t ht
        rw [exponentialM_fin _ _ _ hs, pos (div_pos (by linarith) hs), abs_of_pos (by linarith)]
      · have h1 := (hasDerivAt_id (0:ℝ)).const_sub y
        refine (h1.sub ((((((h1.div_const s).neg).exp).const_sub 1).const_mul 2).sub_const (1 / 2 * (1 - m))
          |>.const_mul (s * (1 - m)))).congr_deriv ?_
        rw [cdfExpM, if_neg (not_lt.2 h.le)]
        simp only [id, sub_zero, Pi.neg_apply]
        field_simp; ring
  · refine ⟨fun t => |y - l| - s * (1 - t) * (2 * max (1 - Real.exp (-((y - l) / s))) 0 - 1 / 2 * (1 - t)), _,
      Eventually.of_forall fun t => exponentialM_fin _ _ _ hs, ?_, rfl⟩
    have h1 := (hasDerivAt_id (0:ℝ)).const_sub 1
    refine (((h1.const_mul s).mul ((h1.const_mul (1 / 2)).const_sub
      (2 * max (1 - Real.exp (-((y - l) / s))) 0))).const_sub |y - l|).congr_deriv ?_
    have : cdfExpM 0 l s y = max (1 - Real.exp (-((y - l) / s))) 0 := by
      unfold cdfExpM
      split_ifs with h
      · rw [neg (div_nonpos_of_nonpos_of_nonneg (by linarith) hs.le)]
      · rcases (not_lt.1 h).eq_or_lt with h' | h'
        · rw [h']; simp
        · rw [pos (div_pos (by linarith) hs)]; ring
    rw [this]; simp only [id]; ring
  · rcases le_or_gt (y - l) 0 with h | h
    · refine ⟨fun t => |y - l| - t * (1 - m) * (2 * 0 - 1 / 2 * (1 - m)), _, ?_, ?_, rfl⟩
      · filter_upwards [lt_mem_nhds one_pos] with t ht
        rw [exponentialM_fin _ _ _ ht, neg (div_nonpos_of_nonpos_of_nonneg h ht.le)]
      · refine ((((hasDerivAt_id (1:ℝ)).mul_const (1 - m)).mul_const (2 * 0 - 1 / 2 * (1 - m))).const_sub
          |y - l|).congr_deriv ?_
        rw [max_eq_right h]; simp; ring
    · refine ⟨fun t => |y - l| - t * (1 - m) * (2 * (1 - Real.exp (-((y - l) / t))) - 1 / 2 * (1 - m)), _, ?_, ?_, rfl⟩
      · filter_upwards [lt_mem_nhds one_pos] with t ht
        rw [exponentialM_fin _ _ _ ht, pos (div_pos h ht)]
      · have h1 := (((((hasDerivAt_const (1:ℝ) (y - l)).div (hasDerivAt_id (1:ℝ)) one_ne_zero).neg).exp).const_sub 1
          |>.const_mul 2).sub_const (1 / 2 * (1 - m))
        refine ((((hasDerivAt_id (1:ℝ)).mul_const (1 - m)).mul h1).const_sub |y - l|).congr_deriv ?_
        rw [max_eq_left h.le]
        simp
        ring

/-- scale 2 -/
example : (0:ℝ) < 2 ∧ (1:ℝ) ≠ 0 := by norm_num

/-- With the default parameters and a negative observation all three gradients on jax are wrong. -/
theorem C132_exponentialM_default_false {y : ℝ} (hy : y < 0) :
    ¬ IsGradient (fun t => Closed.exponentialM (fin y) t (fin 0) (fin 1)) 0
      (Grad.exponentialM .jax (const (fin y)) (leaf (fin 0)) (const (fin 0)) (const (fin 1))).grad ∧
    ¬ IsGradient (fun t => Closed.exponentialM (fin y) (fin 0) t (fin 1)) 0
      (Grad.exponentialM .jax (const (fin y)) (const (fin 0)) (leaf (fin 0)) (const (fin 1))).grad ∧
    ¬ IsGradient (fun t => Closed.exponentialM (fin y) (fin 0) (fin 0) t) 1
      (Grad.exponentialM .jax (const (fin y)) (const (fin 0)) (const (fin 0)) (leaf (fin 1))).grad := by
  obtain ⟨⟨a, a'⟩, ⟨b, b'⟩, c, c'⟩ := C132_exponentialM_false (y := y) (m := 0) (s := 1) 0 one_pos
  have e : ∀ m, cdfExpM m 0 1 y = 0 := fun m => by rw [cdfExpM, if_pos hy]
  refine ⟨fun h => ?_, fun h => ?_, fun h => ?_⟩
  · have := b'.unique h
    rw [b, fin_inj, e] at this; norm_num at this
  · have := (a' hy.ne).unique h
    rw [a, fin_inj, e] at this; norm_num at this
  · have := c'.unique h
    rw [c, fin_inj, max_eq_right (by linarith)] at this; norm_num at this

/-- the observation -1 -/
example : (-1:ℝ) < 0 := by norm_num

/-! ### two-piece exponential -/

/-- `crps_2pexponential`: the gradients with respect to the two scales are the derivatives; so are those with respect
to the observation and the location where the two differ. -/
theorem C132_2pexponential_partial {y a b l : ℝ} (ha : 0 < a) (hb : 0 < b) :
    (y ≠ l → IsGradient (fun t => Closed.twopexponential t (fin a) (fin b) (fin l)) y
      (Grad.twopexponential (leaf (fin y)) (const (fin a)) (const (fin b)) (const (fin l))).grad) ∧
    IsGradient (fun t => Closed.twopexponential (fin y) t (fin b) (fin l)) a
      (Grad.twopexponential (const (fin y)) (leaf (fin a)) (const (fin b)) (const (fin l))).grad ∧
    IsGradient (fun t => Closed.twopexponential (fin y) (fin a) t (fin l)) b
      (Grad.twopexponential (const (fin y)) (const (fin a)) (leaf (fin b)) (const (fin l))).grad ∧
    (y ≠ l → IsGradient (fun t => Closed.twopexponential (fin y) (fin a) (fin b) t) l
      (Grad.twopexponential (const (fin y)) (const (fin a)) (const (fin b)) (leaf (fin l))).grad) := by
  have hc : y ≠ l ∨ ∀ _ : ℝ, y - l = 0 := by
    by_cases h : y = l
    · exact Or.inr fun _ => sub_eq_zero.2 h
    · exact Or.inl h
  refine ⟨fun h => ?_, ?_, ?_, fun h => ?_⟩
  · obtain ⟨_, h1⟩ := (Tr.leaf (θ := y)).twopexponential (Tr.const a) (Tr.const b) (Tr.const l) ha hb (Or.inl h)
    exact h1.isGradient fun _ => rfl
  · obtain ⟨_, h1⟩ := (Tr.const (θ := a) y).twopexponential Tr.leaf (Tr.const b) (Tr.const l) ha hb hc
    exact h1.isGradient fun _ => rfl
  · obtain ⟨_, h1⟩ := (Tr.const (θ := b) y).twopexponential (Tr.const a) Tr.leaf (Tr.const l) ha hb hc
    exact h1.isGradient fun _ => rfl
  · obtain ⟨_, h1⟩ := (Tr.const (θ := l) y).twopexponential (Tr.const a) (Tr.const b) Tr.leaf ha hb (Or.inl h)
    exact h1.isGradient fun _ => rfl

/-- scales 3 and 2 -/
example : (0:ℝ) < 3 ∧ (0:ℝ) < 2 ∧ (1:ℝ) ≠ 0 := by norm_num

/-- At the location the gradients of `crps_2pexponential` with respect to the observation and the location are 0, but
the derivatives are `(σ1 - σ2) / (σ1 + σ2)` and minus that: the derivative of `|x|` is taken to be 0 at 0, and the score
is an expression in `|x|`. -/
theorem C132_2pexponential_false {a b : ℝ} (l : ℝ) (ha : 0 < a) (hb : 0 < b) :
    ((Grad.twopexponential (leaf (fin l)) (const (fin a)) (const (fin b)) (const (fin l))).grad = fin 0 ∧
      IsGradient (fun t => Closed.twopexponential t (fin a) (fin b) (fin l)) l (fin ((a - b) / (a + b)))) ∧
    ((Grad.twopexponential (const (fin l)) (const (fin a)) (const (fin b)) (leaf (fin l))).grad = fin 0 ∧
      IsGradient (fun t => Closed.twopexponential (fin l) (fin a) (fin b) t) l (fin ((b - a) / (a + b)))) := by
  have hab : a + b ≠ 0 := by positivity
  have h : IsGradient (fun t => Closed.twopexponential t (fin a) (fin b) (fin l)) l (fin ((a - b) / (a + b))) := by
    have h := C119_derivative (score := fun t => Closed.twopexponential t (fin a) (fin b) (fin l))
      (C119_2pexponential ha hb l) (θ := l) univ_mem (isDensity_continuous (C57_2pexponential l ha hb).1).continuousAt
    convert h using 2
    rw [cdf2pexp, if_neg (lt_irrefl _)]
    simp
    field_simp; ring
  have key : ∀ {x m : Node} {d e : ℝ}, Pt x l d → Pt m l e →
      (Grad.twopexponential x (const (fin a)) (const (fin b)) m).grad = fin 0 := by
    intro x m d e hx hm
    have hz := ((hx.sub hm).cast (sub_self l) rfl).abs_zero
    have part : ∀ c : ℝ, 0 < c → ∃ v, Pt (Node.abs (x - m) + const 2 * (Node.pow (const (fin c)) 2)
          / (const (fin a) + const (fin b)) * Node.exp (-Node.abs (x - m) / const (fin c))
          - const 2 * (Node.pow (const (fin c)) 2) / (const (fin a) + const (fin b))
          + (Node.pow (const (fin a)) 3 + Node.pow (const (fin b)) 3)
            / (const 2 * Node.pow (const (fin a) + const (fin b)) 2)) v 0 := by
      intro c hc
      have tz := hz.tr
      have ab := (Tr.const (θ := 0) a).add (Tr.const b)
      have c1 := (Tr.two.mul ((Tr.const (θ := 0) c).pow 2)).div ab hab
      have c3 := (((Tr.const (θ := 0) a).pow 3).add ((Tr.const b).pow 3)).div (Tr.two.mul (ab.pow 2))
        (mul_ne_zero two_ne_zero (pow_ne_zero 2 hab))
      have s := ((tz.add (c1.mul ((tz.neg.div (Tr.const c) hc.ne').exp))).sub c1).add c3
      have := s.pt (d := 0) (by simp only [zero_mul, zero_add, neg_zero, zero_div]; exact hasDerivAt_const _ _)
      simp only [fam_zero] at this
      exact ⟨_, this⟩
    obtain ⟨v1, p1⟩ := part a ha
    obtain ⟨v2, p2⟩ := part b hb
    have hn : ¬ (x - m).val < 0 := by
      rw [sub_val, hx.1, hm.1, fin_sub, sub_self, zero_def, fin_lt]; exact lt_irrefl _
    unfold Grad.twopexponential Node.grad
    rw [one_def]
    show (Node.sel ((x - m).val < 0) _ _).back (fin 1) = _
    rw [sel_back_neg hn, p2.2, zero_def, p1.2, fin_add]
    simp
  refine ⟨⟨key (Pt.leaf l) (Pt.const l), h⟩, key (Pt.const l) (Pt.leaf l), ?_⟩
  obtain ⟨f, d, hv, hd, he⟩ := h
  have ht : ∀ t, Closed.twopexponential (fin l) (fin a) (fin b) (fin t)
      = Closed.twopexponential (fin (2 * l - t)) (fin a) (fin b) (fin l) := by
    intro t
    unfold Closed.twopexponential
    rw [fin_sub, fin_sub, show 2 * l - t - l = l - t by ring]
  have h2 : HasDerivAt (fun t => 2 * l - t) (-1) l := by simpa using (hasDerivAt_id l).const_sub (2 * l)
  have hll : 2 * l - l = l := by ring
  refine ⟨fun t => f (2 * l - t), d * -1, ?_, ?_, ?_⟩
  · have : Tendsto (fun t => 2 * l - t) (𝓝 l) (𝓝 l) := by
      have := h2.continuousAt.tendsto
      rwa [hll] at this
    filter_upwards [this.eventually hv] with t h
    rw [ht, h]
  · exact HasDerivAt.comp l (h₂ := f) (by rw [hll]; exact hd) h2
  · rw [fin_inj] at he ⊢
    rw [← he]; ring

/-- scales 3 and 2: the derivatives are 1/5 and -1/5 -/
example : (0:ℝ) < 3 ∧ (0:ℝ) < 2 ∧ ((3:ℝ) - 2) / (3 + 2) ≠ 0 := by norm_num

/-! ### uniform -/

/-- `crps_uniform`: at an observation other than the two ends, inside or outside, the gradients with respect to the
observation, the ends and the point masses are the derivatives. -/
theorem C132_uniform_partial {y a b L U : ℝ} (hab : a < b) (h1 : y ≠ a) (h2 : y ≠ b) :
    IsGradient (fun t => Closed.uniform t (fin a) (fin b) (fin L) (fin U)) y
      (Grad.uniform (leaf (fin y)) (const (fin a)) (const (fin b)) (const (fin L)) (const (fin U))).grad ∧
    IsGradient (fun t => Closed.uniform (fin y) t (fin b) (fin L) (fin U)) a
      (Grad.uniform (const (fin y)) (leaf (fin a)) (const (fin b)) (const (fin L)) (const (fin U))).grad ∧
    IsGradient (fun t => Closed.uniform (fin y) (fin a) t (fin L) (fin U)) b
      (Grad.uniform (const (fin y)) (const (fin a)) (leaf (fin b)) (const (fin L)) (const (fin U))).grad ∧
    IsGradient (fun t => Closed.uniform (fin y) (fin a) (fin b) t (fin U)) L
      (Grad.uniform (const (fin y)) (const (fin a)) (const (fin b)) (leaf (fin L)) (const (fin U))).grad ∧
    IsGradient (fun t => Closed.uniform (fin y) (fin a) (fin b) (fin L) t) U
      (Grad.uniform (const (fin y)) (const (fin a)) (const (fin b)) (const (fin L)) (leaf (fin U))).grad := by
  obtain ⟨_, g1⟩ := (Tr.leaf (θ := y)).uniform (Tr.const a) (Tr.const b) (Tr.const L) (Tr.const U) hab h1 h2
  obtain ⟨_, g2⟩ := (Tr.const (θ := a) y).uniform Tr.leaf (Tr.const b) (Tr.const L) (Tr.const U) hab h1 h2
  obtain ⟨_, g3⟩ := (Tr.const (θ := b) y).uniform (Tr.const a) Tr.leaf (Tr.const L) (Tr.const U) hab h1 h2
  obtain ⟨_, g4⟩ := (Tr.const (θ := L) y).uniform (Tr.const a) (Tr.const b) Tr.leaf (Tr.const U) hab h1 h2
  obtain ⟨_, g5⟩ := (Tr.const (θ := U) y).uniform (Tr.const a) (Tr.const b) (Tr.const L) Tr.leaf hab h1 h2
  exact ⟨g1.isGradient fun _ => rfl, g2.isGradient fun _ => rfl, g3.isGradient fun _ => rfl,
    g4.isGradient fun _ => rfl, g5.isGradient fun _ => rfl⟩

/-- inside and outside [0, 2] -/
example : (0:ℝ) < 2 ∧ (1:ℝ) ≠ 0 ∧ (1:ℝ) ≠ 2 ∧ (3:ℝ) ≠ 0 ∧ (3:ℝ) ≠ 2 := by norm_num

/-- At an observation equal to an end without point mass the gradient of `crps_uniform` with respect to the observation
is half the derivative: -1/2 instead of -1 at the lower end, 1/2 instead of 1 at the upper end. -/
theorem C132_uniform_false {a b : ℝ} (hab : a < b) {p : ℝ} (h0 : 0 ≤ p) (h1 : p < 1) :
    ((Grad.uniform (leaf (fin a)) (const (fin a)) (const (fin b)) (const (fin 0)) (const (fin p))).grad = fin (-1 / 2) ∧
      IsGradient (fun t => Closed.uniform t (fin a) (fin b) (fin 0) (fin p)) a (fin (-1))) ∧
    ((Grad.uniform (leaf (fin b)) (const (fin a)) (const (fin b)) (const (fin p)) (const (fin 0))).grad = fin (1 / 2) ∧
      IsGradient (fun t => Closed.uniform t (fin a) (fin b) (fin p) (fin 0)) b (fin 1)) := by
  have hd : 0 < b - a := sub_pos.2 hab
  have hden := (Pt.const b).sub (Pt.const a)
  have key : ∀ {w F : Node} {v d L U : ℝ}, Pt w v d → Pt F v (d / 2) →
      Pt ((const (fin b) - const (fin a)) * (Node.abs (w - F) + F.pow 2 * (const 1 - const (fin L) - const (fin U))
        - F * (const 1 - const 2 * const (fin L)) + ((const 1 - const (fin L) - const (fin U)).pow 2) / const 3
        + (const 1 - const (fin L)) * const (fin U)))
        ((b - a) * (0 + v ^ 2 * (1 - L - U) - v * (1 - 2 * L) + (1 - L - U) ^ 2 / 3 + (1 - L) * U))
        ((b - a) * (d / 2 * (2 * v * (1 - L - U) - (1 - 2 * L)))) := by
    intro w F v d L U hw hF
    have hA := ((hw.sub hF).cast (sub_self v) rfl).abs_zero
    have hm := (Pt.one.sub (Pt.const L)).sub (Pt.const U)
    have three : Pt (const 3) 3 0 := Pt.const 3
    refine (hden.mul ((((hA.add ((hF.pow 2).mul hm)).sub (hF.mul (Pt.one.sub (Pt.two.mul (Pt.const L))))).add
      ((hm.pow 2).div three (by norm_num))).add ((Pt.one.sub (Pt.const L)).mul (Pt.const U)))).cast rfl ?_
    simp [-mul_eq_mul_left_iff]
    ring
  refine ⟨⟨?_, ?_⟩, ?_, ?_⟩
  · have hw : Pt ((leaf (fin a) - const (fin a)) / (const (fin b) - const (fin a))) 0 (1 / (b - a)) :=
      (((Pt.leaf a).sub (Pt.const a)).div hden hd.ne').cast (by simp) (by field_simp; ring)
    have hF := ((hw.max_tie Pt.zero).cast rfl (e := 1 / (b - a) / 2) (by ring)).min_lt (b := const 1) rfl
      (by rw [const_val, one_def, fin_lt]; exact one_pos)
    refine (key hw hF).grad.trans ?_
    congr 1; field_simp; ring
  · have hc : ContinuousAt (cdfUniform a b 0 p) a := by
      have h2 : ContinuousAt (fun z => max 0 ((1 - p) * ((z - a) / (b - a)))) a := by
        apply Continuous.continuousAt; fun_prop
      refine h2.congr ?_
      filter_upwards [gt_mem_nhds hab] with z hz
      unfold cdfUniform
      split_ifs with h
      · exact max_eq_left (mul_nonpos_of_nonneg_of_nonpos (by linarith)
          (div_nonpos_of_nonpos_of_nonneg (by linarith) hd.le))
      · rw [max_eq_right (mul_nonneg (by linarith) (div_nonneg (by linarith) hd.le))]; ring
    have h := C119_derivative (score := fun t => Closed.uniform t (fin a) (fin b) (fin 0) (fin p))
      (C119_uniform hab le_rfl h0 (by linarith)) (θ := a) univ_mem hc
    convert h using 2
    rw [cdfUniform, if_neg (lt_irrefl _), if_pos hab]; simp
  · have hw : Pt ((leaf (fin b) - const (fin a)) / (const (fin b) - const (fin a))) 1 (1 / (b - a)) :=
      (((Pt.leaf b).sub (Pt.const a)).div hden hd.ne').cast (div_self hd.ne') (by field_simp; ring)
    have hF := ((hw.max_gt (b := const 0) rfl (by rw [const_val, zero_def, fin_lt]; exact one_pos)).min_tie Pt.one).cast
      rfl (e := 1 / (b - a) / 2) (by ring)
    refine (key hw hF).grad.trans ?_
    congr 1; field_simp; ring
  · have hc : ContinuousAt (cdfUniform a b p 0) b := by
      have h2 : ContinuousAt (fun z => min 1 (p + (1 - p) * ((z - a) / (b - a)))) b := by
        apply Continuous.continuousAt; fun_prop
      refine h2.congr ?_
      filter_upwards [lt_mem_nhds hab] with z hz
      unfold cdfUniform
      rw [if_neg (not_lt.2 (le_of_lt hz))]
      split_ifs with h
      · have : (z - a) / (b - a) ≤ 1 := by rw [div_le_one hd]; linarith
        rw [min_eq_right (by nlinarith)]; ring
      · have : 1 ≤ (z - a) / (b - a) := by rw [one_le_div hd]; linarith
        exact min_eq_left (by nlinarith)
    have h := C119_derivative (score := fun t => Closed.uniform t (fin a) (fin b) (fin p) (fin 0))
      (C119_uniform hab h0 le_rfl (by linarith)) (θ := b) univ_mem hc
    convert h using 2
    rw [cdfUniform, if_neg (not_lt.2 hab.le), if_neg (lt_irrefl _)]; norm_num

/-- the uniform law on [0, 2] with and without a point mass at the other end -/
example : (0:ℝ) < 2 ∧ (0:ℝ) ≤ 0 ∧ (0:ℝ) ≤ 1 / 3 ∧ (1 / 3 : ℝ) < 1 := by norm_num

end Verif
