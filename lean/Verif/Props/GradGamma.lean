import Verif.Lemmas.GradGamma
import Verif.Props.GradBeta

/-!
# C132: gradients of the gamma, log-logistic and log-Laplace scores
-/

noncomputable section

open scoped Classical Topology

namespace Verif

open XF Py Mv Node Filter Spec

/-- The scores modelled a second time, with gradients, have the same values. -/
theorem C132_gamma_values (y r d m s : Node) (a σ : XF) :
    (Grad.gamma y a r).val = Closed.gamma y.val a r.val ∧
    (Grad.csg0 y a r d).val = Closed.csg0 y.val a r.val d.val ∧
    (Grad.loglogistic y m σ).val = Closed.loglogistic y.val m.val σ ∧
    (Grad.loglaplace y m s).val = Closed.loglaplace y.val m.val s.val :=
  ⟨rfl, rfl, rfl, rfl⟩

/-- at a concrete argument -/
example : (Grad.gamma (leaf (fin 1)) (fin 2) (const (fin 3))).val = Closed.gamma (fin 1) (fin 2) (fin 3) :=
  (C132_gamma_values (leaf (fin 1)) (const (fin 3)) (const 0) (const 0) (const 0) (fin 2) 0).1

/-- The special functions: backpropagation through `expi`, `gammauinc`, `gammainc` and `betainc` multiplies by the
derivative. -/
theorem C132_special {a b : ℝ} (ha : 0 < a) (hb : 0 < b) :
    (∀ x < 0, IsGradient XF.expi x (Node.expi (leaf (fin x))).grad) ∧
    (∀ x > 0, IsGradient (XF.gammauinc (fin a)) x (Node.gammauinc (fin a) (leaf (fin x))).grad) ∧
    (∀ x > 0, IsGradient (XF.gammainc (fin a)) x (Node.gammainc (fin a) (leaf (fin x))).grad) ∧
    (∀ x > 0, x < 1 → IsGradient (XF.betainc (fin a) (fin b)) x (Node.betainc (fin a) (fin b) (leaf (fin x))).grad) :=
  ⟨fun _ h => (Tr.leaf.expi h).isGradient fun _ => rfl, fun _ h => (Tr.gammauinc ha Tr.leaf h).isGradient fun _ => rfl,
    fun _ h => (Tr.gammainc ha Tr.leaf h).isGradient fun _ => rfl,
    fun _ h h1 => (Tr.betainc Tr.leaf ha hb h h1).isGradient fun _ => rfl⟩

example : IsGradient XF.expi (-2) (Node.expi (leaf (fin (-2)))).grad :=
  (C132_special one_pos one_pos).1 _ (by norm_num)

/-- `crps_gamma` at a positive observation. -/
theorem C132_gamma_partial {y a r : ℝ} (ha : 0 < a) (hr : 0 < r) (hy : 0 < y) :
    IsGradient (fun t => Closed.gamma t (fin a) (fin r)) y (Grad.gamma (leaf (fin y)) (fin a) (const (fin r))).grad ∧
    IsGradient (fun t => Closed.gamma (fin y) (fin a) t) r (Grad.gamma (const (fin y)) (fin a) (leaf (fin r))).grad := by
  have hB := betaF_pos (show (0:ℝ) < 1 / 2 by norm_num) ha
  have key : ∀ {θ : ℝ} {Y R : ℝ → Node} {fy fr : ℝ → ℝ}, Tr Y fy θ → Tr R fr θ → 0 < fy θ → 0 < fr θ →
      ∃ f, Tr (fun t => Grad.gamma (Y t) (fin a) (R t)) f θ := by
    intro θ Y R fy fr hY hR h0 h1
    refine ⟨_, Tr.congrEv (((hY.mul ((Tr.two.mul (Tr.gammaCdf ha hY hR h0 h1)).sub Tr.one)).sub
      (((Tr.const a).div hR h1.ne').mul ((Tr.two.mul (Tr.gammaCdf (show 0 < a + 1 by linarith) hY hR h0 h1)).sub Tr.one))).sub
      (Tr.one.div (hR.mul (Tr.const (betaF (1 / 2) a))) (mul_ne_zero h1.ne' hB.ne')))
      (Eventually.of_forall fun t => ?_)⟩
    unfold Grad.gamma
    rw [beta_fin (by norm_num) ha, one_def, fin_add]
  constructor
  · obtain ⟨f, hf⟩ := key (Tr.leaf (θ := y)) (Tr.const r) hy hr
    exact hf.isGradient fun t => (C132_gamma_values _ _ (const 0) (const 0) (const 0) _ 0).1
  · obtain ⟨f, hf⟩ := key (Tr.const y) (Tr.leaf (θ := r)) hy hr
    exact hf.isGradient fun t => (C132_gamma_values _ _ (const 0) (const 0) (const 0) _ 0).1

example : IsGradient (fun t => Closed.gamma t (fin 2) (fin 3)) 1
    (Grad.gamma (leaf (fin 1)) (fin 2) (const (fin 3))).grad :=
  (C132_gamma_partial (by norm_num) (by norm_num) (by norm_num)).1

/-- `crps_gamma` at a negative observation, if the shape is above one. -/
theorem C132_gamma_below_partial {y a r : ℝ} (ha : 1 < a) (hr : 0 < r) (hy : y < 0) :
    IsGradient (fun t => Closed.gamma t (fin a) (fin r)) y (Grad.gamma (leaf (fin y)) (fin a) (const (fin r))).grad ∧
    IsGradient (fun t => Closed.gamma (fin y) (fin a) t) r (Grad.gamma (const (fin y)) (fin a) (leaf (fin r))).grad := by
  have ha0 : 0 < a := by linarith
  have hB := betaF_pos (show (0:ℝ) < 1 / 2 by norm_num) ha0
  have key : ∀ {θ : ℝ} {Y R : ℝ → Node} {fy fr : ℝ → ℝ}, Tr Y fy θ → Tr R fr θ → fy θ < 0 → 0 < fr θ →
      ∃ f, Tr (fun t => Grad.gamma (Y t) (fin a) (R t)) f θ := by
    intro θ Y R fy fr hY hR h0 h1
    refine ⟨_, Tr.congrEv (((hY.mul ((Tr.two.mul (Tr.gammaCdf_neg ha hY hR h0)).sub Tr.one)).sub
      (((Tr.const a).div hR h1.ne').mul ((Tr.two.mul (Tr.gammaCdf_neg (show 1 < a + 1 by linarith) hY hR h0)).sub Tr.one))).sub
      (Tr.one.div (hR.mul (Tr.const (betaF (1 / 2) a))) (mul_ne_zero h1.ne' hB.ne')))
      (Eventually.of_forall fun t => ?_)⟩
    unfold Grad.gamma
    rw [beta_fin (by norm_num) ha0, one_def, fin_add]
  constructor
  · obtain ⟨f, hf⟩ := key (Tr.leaf (θ := y)) (Tr.const r) hy hr
    exact hf.isGradient fun t => (C132_gamma_values _ _ (const 0) (const 0) (const 0) _ 0).1
  · obtain ⟨f, hf⟩ := key (Tr.const y) (Tr.leaf (θ := r)) hy hr
    exact hf.isGradient fun t => (C132_gamma_values _ _ (const 0) (const 0) (const 0) _ 0).1

example : IsGradient (fun t => Closed.gamma (fin (-1)) (fin 2) t) 3
    (Grad.gamma (const (fin (-1))) (fin 2) (leaf (fin 3))).grad :=
  (C132_gamma_below_partial (by norm_num) (by norm_num) (by norm_num)).2

/-- `crps_gamma` at an observation that is not positive, if the shape is at most one: the score is differentiable in
the rate, but the gradient is NaN. -/
theorem C132_gamma_false {y a r : ℝ} (ha0 : 0 < a) (ha : a ≤ 1) (hr : 0 < r) (hy : y ≤ 0) :
    HasGradient (fun t => Closed.gamma (fin y) (fin a) t) r ∧
    (Grad.gamma (const (fin y)) (fin a) (leaf (fin r))).grad = nan := by
  constructor
  · refine hasGradient_of (f := fun t => y * (2 * 0 - 1) - a / t * (2 * 0 - 1) - 1 / (t * betaF (1 / 2) a)) ?_ ?_
    · filter_upwards [lt_mem_nhds hr] with t ht
      have hB := betaF_pos (show (0:ℝ) < 1 / 2 by norm_num) ha0
      have hn : t * y ≤ 0 := mul_nonpos_of_nonneg_of_nonpos ht.le hy
      unfold Closed.gamma
      rw [one_def, fin_add, gammaCdf_fin ha0 ht, gammaCdf_fin (show 0 < a + 1 by linarith) ht, gF_neg hn, gF_neg hn,
        beta_fin (by norm_num) ha0]
      simp only [ofNat_def, fin_mul, fin_sub, fin_div ht.ne', fin_div (mul_ne_zero ht.ne' hB.ne')]
    · have hB := betaF_pos (show (0:ℝ) < 1 / 2 by norm_num) ha0
      have h1 : r ≠ 0 := hr.ne'
      have h2 : r * betaF (1 / 2) a ≠ 0 := mul_ne_zero h1 hB.ne'
      fun_prop (disch := assumption)
  · have h := bad_gammaCdf (r := r) ha ha0 hy
    exact (Bad.sub_left (Bad.sub_left (Bad.mul_right (Bad.sub_left (Bad.mul_right h))))).grad

/-- an exponential law, observation -1 -/
example : (Grad.gamma (const (fin (-1))) (fin 1) (leaf (fin 3))).grad = nan :=
  (C132_gamma_false one_pos le_rfl (by norm_num) (by norm_num)).2

/-- `crps_csg0` with a positive shift, at an observation above minus the shift. -/
theorem C132_csg0_partial {y a r d : ℝ} (ha : 0 < a) (hr : 0 < r) (hd : 0 < d) (hy : 0 < y + d) :
    IsGradient (fun t => Closed.csg0 t (fin a) (fin r) (fin d)) y
      (Grad.csg0 (leaf (fin y)) (fin a) (const (fin r)) (const (fin d))).grad ∧
    IsGradient (fun t => Closed.csg0 (fin y) (fin a) t (fin d)) r
      (Grad.csg0 (const (fin y)) (fin a) (leaf (fin r)) (const (fin d))).grad ∧
    IsGradient (fun t => Closed.csg0 (fin y) (fin a) (fin r) t) d
      (Grad.csg0 (const (fin y)) (fin a) (const (fin r)) (leaf (fin d))).grad := by
  have ha1 : 0 < a + 1 := by linarith
  have ha2 : 0 < 2 * a := by linarith
  have key : ∀ {θ : ℝ} {Y R D : ℝ → Node} {fy fr fd : ℝ → ℝ}, Tr Y fy θ → Tr R fr θ → Tr D fd θ → 0 < fy θ + fd θ →
      0 < fr θ → 0 < fd θ → ∃ f, Tr (fun t => Grad.csg0 (Y t) (fin a) (R t) (D t)) f θ := by
    intro θ Y R D fy fr fd hY hR hD h0 h1 h2
    have hS := hY.add hD
    have F1 := Tr.gammaCdf ha hS hR h0 h1
    have F2 := Tr.gammaCdf ha2 (Tr.two.mul hD) hR (mul_pos two_pos h2) h1
    have F3 := Tr.gammaCdf ha hD hR h2 h1
    have F4 := Tr.gammaCdf ha1 hD hR h2 h1
    have F5 := Tr.gammaCdf ha1 hS hR h0 h1
    refine ⟨_, Tr.congrEv ((((hS.mul ((Tr.two.mul F1).sub Tr.one)).sub
      ((((Tr.const a).div (hR.mul (Tr.const Real.pi)) (mul_ne_zero h1.ne' Real.pi_ne_zero)).mul
        (Tr.const (betaF (1 / 2) (a + 1 / 2)))).mul (Tr.one.sub F2))).add
      (((Tr.const a).div hR h1.ne').mul (((Tr.one.add ((Tr.two.mul F3).mul F4)).sub (F3.pow 2)).sub (Tr.two.mul F5)))).sub
      (hD.mul (F3.pow 2))) (Eventually.of_forall fun t => ?_)⟩
    unfold Grad.csg0
    rw [fin_add, beta_fin (by norm_num) (by linarith), one_def, fin_add, ofNat_def, fin_mul]
    rfl
  refine ⟨?_, ?_, ?_⟩
  · obtain ⟨f, hf⟩ := key (Tr.leaf (θ := y)) (Tr.const r) (Tr.const d) hy hr hd
    exact hf.isGradient fun t => (C132_gamma_values _ _ _ (const 0) (const 0) _ 0).2.1
  · obtain ⟨f, hf⟩ := key (Tr.const y) (Tr.leaf (θ := r)) (Tr.const d) hy hr hd
    exact hf.isGradient fun t => (C132_gamma_values _ _ _ (const 0) (const 0) _ 0).2.1
  · obtain ⟨f, hf⟩ := key (Tr.const y) (Tr.const r) (Tr.leaf (θ := d)) hy hr hd
    exact hf.isGradient fun t => (C132_gamma_values _ _ _ (const 0) (const 0) _ 0).2.1

example : IsGradient (fun t => Closed.csg0 (fin 1) (fin (1 / 2)) (fin 2) t) (1 / 2)
    (Grad.csg0 (const (fin 1)) (fin (1 / 2)) (const (fin 2)) (leaf (fin (1 / 2)))).grad :=
  (C132_csg0_partial (by norm_num) (by norm_num) (by norm_num) (by norm_num)).2.2

/-- `crps_csg0` without a shift, if the shape is at most one: the score is differentiable in the rate, but the
gradient is NaN. -/
theorem C132_csg0_false {y a r : ℝ} (ha0 : 0 < a) (ha : a ≤ 1) (hr : 0 < r) (hy : 0 < y) :
    HasGradient (fun t => Closed.csg0 (fin y) (fin a) t (fin 0)) r ∧
    (Grad.csg0 (const (fin y)) (fin a) (leaf (fin r)) (const (fin 0))).grad = nan := by
  have ha1 : 0 < a + 1 := by linarith
  have ha2 : 0 < 2 * a := by linarith
  constructor
  · refine hasGradient_of (f := fun t => y * (2 * gF a (t * y) - 1)
      - a / (t * Real.pi) * betaF (1 / 2) (a + 1 / 2) * (1 - 0)
      + a / t * (1 + 2 * 0 * 0 - 0 ^ 2 - 2 * gF (a + 1) (t * y)) - 0 * 0 ^ 2) ?_ ?_
    · filter_upwards [lt_mem_nhds hr] with t ht
      unfold Closed.csg0
      simp only [fin_add, beta_fin (show (0:ℝ) < 1 / 2 by norm_num) (show 0 < a + 1 / 2 by linarith), one_def, ofNat_def,
        fin_mul, gammaCdf_fin ha0 ht, gammaCdf_fin ha2 ht, gammaCdf_fin ha1 ht, mul_zero, add_zero, gF_neg le_rfl, XF.pi,
        fin_sub, fin_div ht.ne', fin_pow, fin_div (mul_ne_zero ht.ne' Real.pi_ne_zero)]
    · have h1 : r ≠ 0 := hr.ne'
      have h2 : r * Real.pi ≠ 0 := mul_ne_zero h1 Real.pi_ne_zero
      have d1 : DifferentiableAt ℝ (fun t => gF a (t * y)) r :=
        (gF_deriv ha0 (mul_pos hr hy)).differentiableAt.comp r (differentiableAt_id.mul_const y)
      have d2 : DifferentiableAt ℝ (fun t => gF (a + 1) (t * y)) r :=
        (gF_deriv ha1 (mul_pos hr hy)).differentiableAt.comp r (differentiableAt_id.mul_const y)
      fun_prop (disch := assumption)
  · have h := bad_gammaCdf (r := r) ha ha0 (le_refl (0:ℝ))
    exact (Bad.sub_right (Bad.mul_right (Bad.pow h 2))).grad

example : (Grad.csg0 (const (fin 2)) (fin (1 / 2)) (leaf (fin 3)) (const (fin 0))).grad = nan :=
  (C132_csg0_false (by norm_num) (by norm_num) (by norm_num) (by norm_num)).2

/-- `crps_loglogistic` at a positive observation. -/
theorem C132_loglogistic {y μ σ : ℝ} (hσ : 0 < σ) (hσ1 : σ < 1) (hy : 0 < y) :
    IsGradient (fun t => Closed.loglogistic t (fin μ) (fin σ)) y
      (Grad.loglogistic (leaf (fin y)) (const (fin μ)) (fin σ)).grad ∧
    IsGradient (fun t => Closed.loglogistic (fin y) t (fin σ)) μ
      (Grad.loglogistic (const (fin y)) (leaf (fin μ)) (fin σ)).grad := by
  have p1 : 0 < 1 + σ := by linarith
  have p2 : 0 < 1 - σ := by linarith
  have key : ∀ {θ : ℝ} {Y M : ℝ → Node} {fy fm : ℝ → ℝ}, Tr Y fy θ → Tr M fm θ → 0 < fy θ →
      ∃ f, Tr (fun t => Grad.loglogistic (Y t) (M t) (fin σ)) f θ := by
    intro θ Y M fy fm hY hM h0
    have hpos : 0 < Real.exp (-(Real.log (fy θ) - fm θ) / σ) := Real.exp_pos _
    have hF := Tr.one.div (Tr.one.add (((((hY.log h0).sub hM).neg).div (Tr.const σ) hσ.ne').exp)) (by positivity)
    have hIB := Tr.betainc hF p1 p2 (by positivity) (by rw [div_lt_one (by positivity)]; linarith)
    refine ⟨_, Tr.congrEv ((hY.mul ((Tr.two.mul hF).sub Tr.one)).sub ((hM.exp.mul (Tr.const (betaF (1 + σ) (1 - σ)))).mul
      (((Tr.two.mul hIB).add (Tr.const σ)).sub Tr.one))) (Eventually.of_forall fun t => ?_)⟩
    unfold Grad.loglogistic
    rw [one_def, fin_add, fin_sub, beta_fin p1 p2]
  constructor
  · obtain ⟨f, hf⟩ := key (Tr.leaf (θ := y)) (Tr.const μ) hy
    exact hf.isGradient fun t => (C132_gamma_values _ (const 0) (const 0) _ (const 0) 0 _).2.2.1
  · obtain ⟨f, hf⟩ := key (Tr.const y) (Tr.leaf (θ := μ)) hy
    exact hf.isGradient fun t => (C132_gamma_values _ (const 0) (const 0) _ (const 0) 0 _).2.2.1

example : IsGradient (fun t => Closed.loglogistic (fin 3) t (fin (1 / 2))) 1
    (Grad.loglogistic (const (fin 3)) (leaf (fin 1)) (fin (1 / 2))).grad :=
  (C132_loglogistic (by norm_num) (by norm_num) (by norm_num)).2

/-- `crps_loglaplace` at a positive observation other than the median. -/
theorem C132_loglaplace {y μ σ : ℝ} (hσ : 0 < σ) (hσ1 : σ < 1) (hy : 0 < y) (hne : y ≠ Real.exp μ) :
    IsGradient (fun t => Closed.loglaplace t (fin μ) (fin σ)) y
      (Grad.loglaplace (leaf (fin y)) (const (fin μ)) (const (fin σ))).grad ∧
    IsGradient (fun t => Closed.loglaplace (fin y) t (fin σ)) μ
      (Grad.loglaplace (const (fin y)) (leaf (fin μ)) (const (fin σ))).grad ∧
    IsGradient (fun t => Closed.loglaplace (fin y) (fin μ) t) σ
      (Grad.loglaplace (const (fin y)) (const (fin μ)) (leaf (fin σ))).grad := by
  have key : ∀ {θ : ℝ} {Y M S : ℝ → Node} {fy fm fs : ℝ → ℝ}, Tr Y fy θ → Tr M fm θ → Tr S fs θ → 0 < fy θ →
      0 < fs θ → fs θ < 1 → fy θ ≠ Real.exp (fm θ) → ∃ f, Tr (fun t => Grad.loglaplace (Y t) (M t) (S t)) f θ := by
    intro θ Y M S fy fm fs hY hM hS h0 h1 h2 h3
    have hx := ((hY.log h0).sub hM).div hS h1.ne'
    have e0 : ∀ᶠ t in 𝓝 θ, XF.ind ((Y t).val ≤ 0) = fin 0 := by
      filter_upwards [hY.1, hY.cont.eventually_const_lt h0] with t a1 a2
      exact XF.ind_false (by rw [a1, XF.zero_def, fin_le]; exact not_le.2 a2)
    have hnz : ∀ᶠ t in 𝓝 θ, ¬ (Y t).val ≤ 0 := by
      filter_upwards [hY.1, hY.cont.eventually_const_lt h0] with t a1 a2
      rw [a1, XF.zero_def, fin_le]; exact not_le.2 a2
    have hr4 : (4:ℝ) - fs θ ^ 2 ≠ 0 := by nlinarith
    have four : Tr (fun _ => Node.const 4) (fun _ => (4:ℝ)) θ := Tr.const 4
    have rest : Tr (fun t => S t / (Node.const 4 - Node.pow (S t) 2)) _ θ := hS.div (four.sub (hS.pow 2)) hr4
    have hE := hM.exp
    have hex := Real.exp_pos ((Real.log (fy θ) - fm θ) / fs θ)
    have hex' := Real.exp_pos (-((Real.log (fy θ) - fm θ) / fs θ))
    rcases lt_or_gt_of_ne h3 with hlt | hgt
    · have c1 : ∀ᶠ t in 𝓝 θ, (Y t).val < (Node.exp (M t)).val := by
        filter_upwards [hY.1, hE.1, hY.cont.eventually_lt hE.cont hlt] with t a1 a2 a3
        rw [a1, a2, fin_lt]; exact a3
      have hx0 : (Real.log (fy θ) - fm θ) / fs θ < 0 :=
        div_neg_of_neg_of_pos (by rw [sub_neg]; exact (Real.log_lt_iff_lt_exp h0).2 hlt) h1
      have hex1 : Real.exp ((Real.log (fy θ) - fm θ) / fs θ) < 1 := Real.exp_lt_one_iff.2 hx0
      have hF := (((Tr.const 0).mul (Tr.const 0)).add ((Tr.const 1).mul ((Tr.const (1 / 2)).mul hx.exp))).add
        ((Tr.const 0).mul (Tr.one.sub ((Tr.const (1 / 2)).mul hx.neg.exp)))
      have hA := ((((Tr.const 1).mul Tr.one).div (Tr.one.add hS) (by positivity)).mul
        (Tr.one.sub (Tr.tpow (Tr.two.mul hF) (Tr.one.add hS) (by simp; positivity)))).add
        ((((Tr.const 0).mul (Tr.const (-1))).div (Tr.one.sub hS) (by linarith)).mul
          (Tr.one.sub (Tr.tpow (Tr.two.mul (Tr.one.sub hF)) (Tr.one.sub hS) (by simp; linarith))))
      refine ⟨_, Tr.congrEv ((hY.mul ((Tr.two.mul hF).sub Tr.one)).add (hE.mul (hA.add rest))) ?_⟩
      filter_upwards [e0, c1, hnz] with t a0 a1 a2
      unfold Grad.loglaplace
      simp only [a0, XF.ind_true a1, XF.ind_false (not_not.2 a1), XF.ind_true (And.intro a2 a1)]
      rfl
    · have c1 : ∀ᶠ t in 𝓝 θ, ¬ (Y t).val < (Node.exp (M t)).val := by
        filter_upwards [hY.1, hE.1, hE.cont.eventually_lt hY.cont hgt] with t a1 a2 a3
        rw [a1, a2, fin_lt]; exact not_lt.2 a3.le
      have hx0 : 0 < (Real.log (fy θ) - fm θ) / fs θ :=
        div_pos (by rw [sub_pos]; exact (Real.lt_log_iff_exp_lt h0).2 hgt) h1
      have hex1 : Real.exp (-((Real.log (fy θ) - fm θ) / fs θ)) < 1 := Real.exp_lt_one_iff.2 (by linarith)
      have hF := (((Tr.const 0).mul (Tr.const 0)).add ((Tr.const 0).mul ((Tr.const (1 / 2)).mul hx.exp))).add
        ((Tr.const 1).mul (Tr.one.sub ((Tr.const (1 / 2)).mul hx.neg.exp)))
      have hA := ((((Tr.const 0).mul Tr.one).div (Tr.one.add hS) (by positivity)).mul
        (Tr.one.sub (Tr.tpow (Tr.two.mul hF) (Tr.one.add hS) (by simp; linarith)))).add
        ((((Tr.const 1).mul (Tr.const (-1))).div (Tr.one.sub hS) (by linarith)).mul
          (Tr.one.sub (Tr.tpow (Tr.two.mul (Tr.one.sub hF)) (Tr.one.sub hS) (by simp; positivity))))
      refine ⟨_, Tr.congrEv ((hY.mul ((Tr.two.mul hF).sub Tr.one)).add (hE.mul (hA.add rest))) ?_⟩
      filter_upwards [e0, c1, hnz] with t a0 a1 a2
      have e3 : XF.ind (¬ (Y t).val ≤ 0 ∧ (Y t).val < (Node.exp (M t)).val) = fin 0 := XF.ind_false fun h => a1 h.2
      unfold Grad.loglaplace
      simp only [a0, XF.ind_false a1, XF.ind_true a1, e3]
      rfl
  refine ⟨?_, ?_, ?_⟩
  · obtain ⟨f, hf⟩ := key (Tr.leaf (θ := y)) (Tr.const μ) (Tr.const σ) hy hσ hσ1 hne
    exact hf.isGradient fun t => (C132_gamma_values _ (const 0) (const 0) _ _ 0 0).2.2.2
  · obtain ⟨f, hf⟩ := key (Tr.const y) (Tr.leaf (θ := μ)) (Tr.const σ) hy hσ hσ1 hne
    exact hf.isGradient fun t => (C132_gamma_values _ (const 0) (const 0) _ _ 0 0).2.2.2
  · obtain ⟨f, hf⟩ := key (Tr.const y) (Tr.const μ) (Tr.leaf (θ := σ)) hy hσ hσ1 hne
    exact hf.isGradient fun t => (C132_gamma_values _ (const 0) (const 0) _ _ 0 0).2.2.2

example : IsGradient (fun t => Closed.loglaplace (fin 3) (fin 0) t) (1 / 2)
    (Grad.loglaplace (const (fin 3)) (const (fin 0)) (leaf (fin (1 / 2)))).grad :=
  (C132_loglaplace (by norm_num) (by norm_num) (by norm_num) (by rw [Real.exp_zero]; norm_num)).2.2

end Verif
