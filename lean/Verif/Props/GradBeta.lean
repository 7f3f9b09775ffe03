import Verif.Lemmas.GradBeta
import Verif.Props.GradEdge

/-!
# C132: gradients of `crps_beta` on jax
-/

noncomputable section

open scoped Classical Topology

namespace Verif

open XF Py Mv Node Filter Spec

/-- `crps_beta` modelled a second time, with gradients, has the same values. -/
theorem C132_beta_values (y l u : Node) (a b : ℝ) :
    (Grad.beta y (fin a) (fin b) l u).map Node.val = Closed.beta y.val (fin a) (fin b) l.val u.val :=
  beta_val y l u a b

/-- a call that raises: the limits are in the wrong order -/
example : Grad.beta (leaf (fin 1)) (fin 2) (fin 3) (const (fin 4)) (const (fin 3)) = .error .valueError := by
  rw [betaCore_eq, if_pos]
  rw [notDefault_iff, const_val, const_val, special_fin, fin_le]; norm_num

/-- `crps_beta` at an observation between the limits: the gradient with respect to the observation is the derivative,
and so are those with respect to the limits unless these have their default values 0 and 1
(`C132_beta_false`). -/
theorem C132_beta_partial {a b l u y : ℝ} (ha : 0 < a) (hb : 0 < b) (h0 : l < y) (h1 : y < u) :
    IsGradient (fun t => okVal (Closed.beta t (fin a) (fin b) (fin l) (fin u))) y
      (okGrad (Grad.beta (leaf (fin y)) (fin a) (fin b) (const (fin l)) (const (fin u)))) ∧
    (¬ (l = 0 ∧ u = 1) →
      IsGradient (fun t => okVal (Closed.beta (fin y) (fin a) (fin b) t (fin u))) l
        (okGrad (Grad.beta (const (fin y)) (fin a) (fin b) (leaf (fin l)) (const (fin u)))) ∧
      IsGradient (fun t => okVal (Closed.beta (fin y) (fin a) (fin b) (fin l) t)) u
        (okGrad (Grad.beta (const (fin y)) (fin a) (fin b) (const (fin l)) (leaf (fin u))))) := by
  refine ⟨?_, fun h => ⟨?_, ?_⟩⟩
  · obtain ⟨N, hN, e⟩ := Tr.beta (θ := y) ha hb Tr.leaf (Tr.const l) (Tr.const u) h0 h1 (by
      by_cases h : l = 0 ∧ u = 1
      · exact Or.inl fun _ => h
      · exact Or.inr h)
    exact beta_isGradient (S := fun t => Closed.beta t (fin a) (fin b) (fin l) (fin u)) hN e (fun t => beta_val ..) rfl
  · obtain ⟨N, hN, e⟩ := Tr.beta (θ := l) ha hb (Tr.const y) Tr.leaf (Tr.const u) h0 h1 (Or.inr h)
    exact beta_isGradient (S := fun t => Closed.beta (fin y) (fin a) (fin b) t (fin u)) hN e (fun t => beta_val ..) rfl
  · obtain ⟨N, hN, e⟩ := Tr.beta (θ := u) ha hb (Tr.const y) (Tr.const l) Tr.leaf h0 h1 (Or.inr h)
    exact beta_isGradient (S := fun t => Closed.beta (fin y) (fin a) (fin b) (fin l) t) hN e (fun t => beta_val ..) rfl

/-- an observation between the limits -1 and 2 -/
example : (0:ℝ) < 2 ∧ (0:ℝ) < 3 ∧ (-1:ℝ) < 1 ∧ (1:ℝ) < 2 ∧ ¬ ((-1:ℝ) = 0 ∧ (2:ℝ) = 1) := by norm_num

/-- At the default limits 0 and 1 the code skips the scaling, so on jax the gradients with respect to the limits are
0; the derivatives are `-S(x) - (1 - x) (2 F(x) - 1)` and `S(x) - x (2 F(x) - 1)`, with `F` the distribution function
and `S` its CRPS. -/
theorem C132_beta_false {a b x : ℝ} (ha : 0 < a) (hb : 0 < b) (h0 : 0 < x) (h1 : x < 1) :
    (okGrad (Grad.beta (const (fin x)) (fin a) (fin b) (leaf (fin 0)) (const (fin 1))) = fin 0 ∧
      IsGradient (fun t => okVal (Closed.beta (fin x) (fin a) (fin b) t (fin 1))) 0
        (fin (-crps (cdfBeta a b 0 1) x - (1 - x) * (2 * cdfBeta a b 0 1 x - 1)))) ∧
    (okGrad (Grad.beta (const (fin x)) (fin a) (fin b) (const (fin 0)) (leaf (fin 1))) = fin 0 ∧
      IsGradient (fun t => okVal (Closed.beta (fin x) (fin a) (fin b) (fin 0) t)) 1
        (fin (crps (cdfBeta a b 0 1) x - x * (2 * cdfBeta a b 0 1 x - 1)))) := by
  have hF : cdfBeta a b 0 1 x = bF a b x := by rw [cdfBeta_eq one_pos]; simp
  have hS : crps (cdfBeta a b 0 1) x = betaS a b x := by
    rw [(crps_beta ha hb one_pos x).2, betaS]; simp
  have hd : ∀ {z : ℝ}, 0 < z → z < 1 → HasDerivAt (betaS a b) (2 * bF a b z - 1) z := by
    intro z z0 z1
    have d1 := bF_deriv ha hb z0 z1
    have d2 := bF_deriv (show 0 < a + 1 by linarith) hb z0 z1
    have h := ((hasDerivAt_id z).mul ((d1.const_mul 2).sub_const 1)).add
      ((((d2.const_mul 2).const_sub 1).sub_const (2 * betaF (2 * a) (2 * b) / (a * betaF a b ^ 2))).const_mul (a / (a + b)))
    refine h.congr_deriv ?_
    have hz : z ^ (a + 1 - 1) = z * z ^ (a - 1) := by
      rw [add_sub_cancel_right, Real.rpow_sub_one z0.ne']; field_simp
    rw [betaF_succ ha hb, hz]
    have hB := (betaF_pos ha hb).ne'
    have hab : a + b ≠ 0 := by positivity
    simp only [id]
    field_simp; ring
  have hg : ∀ l u : XF, XF.feq l 0 → XF.feq u 1 → ∀ n m : Node, n.val = l → m.val = u →
      okGrad (Grad.beta (const (fin x)) (fin a) (fin b) n m) = fin 0 := by
    rintro l u h1 h2 n m rfl rfl
    have hs : ¬ notDefault n.val m.val := by rw [notDefault_iff]; exact not_not.2 ⟨h1, h2⟩
    rw [betaCore_eq, if_neg fun h => hs h.1, if_neg hs]
    exact (NoGrad.betaCore (NoGrad.const _)).grad
  have h00 : XF.feq (fin 0) 0 := (fin_feq _ _).2 rfl
  have h11 : XF.feq (fin 1) 1 := (fin_feq _ _).2 rfl
  refine ⟨⟨hg _ _ h00 h11 _ _ rfl rfl, fun t => betaS a b ((x - t) / (1 - t)) * (1 - t), _, ?_, ?_, rfl⟩,
    hg _ _ h00 h11 _ _ rfl rfl, fun t => betaS a b (x / t) * t, _, ?_, ?_, rfl⟩
  · filter_upwards [gt_mem_nhds h0] with t ht
    show okVal (Closed.beta (fin x) (fin a) (fin b) (fin t) (fin 1)) = _
    rw [(C77_partial ha hb (by linarith) ⟨ht.le, h1.le⟩).2]
    show fin _ = _
    rw [(crps_beta ha hb (by linarith) x).2, betaS, mul_comm]
  · have k := (((hasDerivAt_id (0:ℝ)).const_sub x).fun_div ((hasDerivAt_id (0:ℝ)).const_sub 1) (by simp))
    have e : (x - id 0) / (1 - id 0) = x := by simp
    have k2 := HasDerivAt.comp (h₂ := betaS a b) (h := fun t : ℝ => (x - id t) / (1 - id t)) 0
      (by rw [e]; exact hd h0 h1) k
    have k3 := k2.mul ((hasDerivAt_id (0:ℝ)).const_sub 1)
    refine k3.congr_deriv ?_
    rw [hF, hS]
    simp only [Function.comp, id, sub_zero, div_one]; ring
  · filter_upwards [lt_mem_nhds h1] with t ht
    show okVal (Closed.beta (fin x) (fin a) (fin b) (fin 0) (fin t)) = _
    rw [(C77_partial ha hb (by linarith) ⟨h0.le, ht.le⟩).2]
    show fin _ = _
    rw [(crps_beta ha hb (by linarith) x).2, betaS, mul_comm]; simp
  · have k := (hasDerivAt_const (1:ℝ) x).fun_div (hasDerivAt_id (1:ℝ)) (by simp)
    have e : x / id (1:ℝ) = x := by simp
    have k2 := HasDerivAt.comp (h₂ := betaS a b) (h := fun t : ℝ => x / id t) 1 (by rw [e]; exact hd h0 h1) k
    have k3 := k2.mul (hasDerivAt_id (1:ℝ))
    refine k3.congr_deriv ?_
    rw [hF, hS]
    simp only [Function.comp, id, div_one]; ring

/-- the observation 1/2 -/
example : (0:ℝ) < 2 ∧ (0:ℝ) < 3 ∧ (0:ℝ) < 1 / 2 ∧ (1 / 2 : ℝ) < 1 := by norm_num

/-- At every observation other than the median at least one of the two gradients with respect to the default limits is
wrong: the derivatives add up to `1 - 2 F(x)`. -/
theorem C132_beta_default_false {a b x : ℝ} (ha : 0 < a) (hb : 0 < b) (h0 : 0 < x) (h1 : x < 1)
    (hm : cdfBeta a b 0 1 x ≠ 1 / 2) :
    ¬ (IsGradient (fun t => okVal (Closed.beta (fin x) (fin a) (fin b) t (fin 1))) 0
        (okGrad (Grad.beta (const (fin x)) (fin a) (fin b) (leaf (fin 0)) (const (fin 1)))) ∧
      IsGradient (fun t => okVal (Closed.beta (fin x) (fin a) (fin b) (fin 0) t)) 1
        (okGrad (Grad.beta (const (fin x)) (fin a) (fin b) (const (fin 0)) (leaf (fin 1))))) := by
  obtain ⟨⟨p, p'⟩, q, q'⟩ := C132_beta_false ha hb h0 h1
  rintro ⟨hp, hq⟩
  have e1 := p'.unique hp
  have e2 := q'.unique hq
  rw [p, fin_inj] at e1
  rw [q, fin_inj] at e2
  exact hm (by linarith)

/-- the uniform distribution at 1/4 -/
example : cdfBeta 1 1 0 1 (1 / 4) ≠ 1 / 2 := by
  rw [cdfBeta_eq one_pos]
  simp only [sub_zero, div_one]
  rw [bF_one_right one_pos (by norm_num) (by norm_num)]
  norm_num

end Verif
