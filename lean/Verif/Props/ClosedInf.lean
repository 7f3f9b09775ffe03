import Verif.Lemmas.ClosedInf

/-!
# C116: closed-form CRPS of an infinite observation

The CRPS of a law with finite mean grows beyond all bounds as the observation goes to plus or minus infinity
(`C116_limit`), so the value at an infinite observation is plus infinity.  The theorems give what the code returns:
plus infinity for some families, NaN for the others.
-/

noncomputable section

open scoped Classical

open MeasureTheory Filter

namespace Verif

open XF Stats Spec

/-! ### the exact score -/

/-- C116: for every law with finite mean the CRPS tends to infinity with the observation, in both directions. -/
theorem C116_limit {P : Measure ℝ} [IsProbabilityMeasure P] (hP : Integrable (fun y => y) P) :
    Tendsto (crps (distr P)) atTop atTop ∧ Tendsto (crps (distr P)) atBot atTop := by
  have key : ∀ y, |y| + (-∫ x, |x| ∂P - crpsEntropy (distr P)) ≤ crps (distr P) y := by
    intro y
    rw [crps_distr hP y]
    have h1 : ∫ x, (|y| - |x|) ∂P ≤ ∫ x, |x - y| ∂P := by
      refine integral_mono ((integrable_const _).sub hP.abs) (hP.sub (integrable_const _)).abs fun x => ?_
      have := abs_sub_abs_le_abs_sub y x
      rw [abs_sub_comm y x] at this
      exact this
    rw [integral_sub (integrable_const _) hP.abs] at h1
    simp at h1
    linarith
  exact ⟨tendsto_atTop_mono key (tendsto_atTop_add_const_right _ _ tendsto_abs_atTop_atTop),
    tendsto_atTop_mono key (tendsto_atTop_add_const_right _ _ tendsto_abs_atBot_atTop)⟩

example : Integrable (fun y : ℝ => y) (Measure.dirac 1) := integrable_dirac (by simp)

/-! ### families with value plus infinity in both directions -/

/-- C116 for the exponential law. -/
theorem C116_exponential {r : ℝ} (h : 0 < r) :
    Closed.exponential pinf (fin r) = pinf ∧ Closed.exponential ninf (fin r) = pinf := inf_exponential h

example : Closed.exponential pinf (fin 3) = pinf := (C116_exponential (by norm_num)).1

/-- C116 for the exponential law with a point mass. -/
theorem C116_exponentialM (m l : ℝ) {s : ℝ} (h : 0 < s) :
    Closed.exponentialM pinf (fin m) (fin l) (fin s) = pinf ∧
      Closed.exponentialM ninf (fin m) (fin l) (fin s) = pinf := inf_exponentialM m l h

example : Closed.exponentialM ninf (fin (1 / 3)) (fin 2) (fin 3) = pinf := (C116_exponentialM _ _ (by norm_num)).2

/-- C116 for the two-piece exponential law. -/
theorem C116_2pexponential {a b : ℝ} (l : ℝ) (ha : 0 < a) (hb : 0 < b) :
    Closed.twopexponential pinf (fin a) (fin b) (fin l) = pinf ∧
      Closed.twopexponential ninf (fin a) (fin b) (fin l) = pinf := inf_twopexponential l ha hb

example : Closed.twopexponential pinf (fin 1) (fin 2) (fin 0) = pinf := (C116_2pexponential _ one_pos two_pos).1

/-- C116 for the Laplace law. -/
theorem C116_laplace (l : ℝ) {s : ℝ} (h : 0 < s) :
    Closed.laplace pinf (fin l) (fin s) = pinf ∧ Closed.laplace ninf (fin l) (fin s) = pinf := inf_laplace l h

example : Closed.laplace ninf (fin 1) (fin 2) = pinf := (C116_laplace _ two_pos).2

/-- C116 for the normal law. -/
theorem C116_normal (μ : ℝ) {σ : ℝ} (h : 0 < σ) :
    Closed.normal pinf (fin μ) (fin σ) = pinf ∧ Closed.normal ninf (fin μ) (fin σ) = pinf := inf_normal μ h

example : Closed.normal ninf (fin 1) (fin 2) = pinf := (C116_normal _ two_pos).2

/-- C116 for the uniform law with point masses at the ends. -/
theorem C116_uniform {a b : ℝ} (L U : ℝ) (h : a < b) :
    Closed.uniform pinf (fin a) (fin b) (fin L) (fin U) = pinf ∧
      Closed.uniform ninf (fin a) (fin b) (fin L) (fin U) = pinf := inf_uniform L U h

example : Closed.uniform pinf (fin 0) (fin 1) (fin (1 / 4)) (fin 0) = pinf := (C116_uniform _ _ one_pos).1

/-- C116 for the generalised Pareto law with finite mean. -/
theorem C116_gpd {ξ σ m : ℝ} (μ : ℝ) (hξ : ξ < 1) (hσ : 0 < σ) (h0 : 0 ≤ m) (h1 : m ≤ 1) :
    Closed.gpd pinf (fin ξ) (fin μ) (fin σ) (fin m) = pinf ∧
      Closed.gpd ninf (fin ξ) (fin μ) (fin σ) (fin m) = pinf := inf_gpd μ hξ hσ h0 h1

example : Closed.gpd pinf (fin (-1 / 2)) (fin 0) (fin 1) (fin 0) = pinf :=
  (C116_gpd _ (by norm_num) one_pos le_rfl zero_le_one).1

/-- C116 for the gamma law. -/
theorem C116_gamma {a r : ℝ} (ha : 0 < a) (hr : 0 < r) :
    Closed.gamma pinf (fin a) (fin r) = pinf ∧ Closed.gamma ninf (fin a) (fin r) = pinf := inf_gamma ha hr

example : Closed.gamma ninf (fin 2) (fin 1) = pinf := (C116_gamma two_pos one_pos).2

/-- C116 for the censored, shifted gamma law. -/
theorem C116_csg0 {a r : ℝ} (d : ℝ) (ha : 0 < a) (hr : 0 < r) :
    Closed.csg0 pinf (fin a) (fin r) (fin d) = pinf ∧ Closed.csg0 ninf (fin a) (fin r) (fin d) = pinf :=
  inf_csg0 d ha hr

example : Closed.csg0 pinf (fin 2) (fin 1) (fin (1 / 2)) = pinf := (C116_csg0 _ two_pos one_pos).1

/-- C116 for a mixture of normal laws with positive weights. -/
theorem C116_mixnorm (l : List (ℝ × ℝ × ℝ)) (hl : l ≠ []) (hs : ∀ p ∈ l, 0 < p.2.1) (hw : ∀ p ∈ l, 0 < p.2.2)
    (h1 : (l.map fun p => p.2.2).sum = 1) :
    Closed.mixnorm pinf (l.map fun p => fin p.1) (l.map fun p => fin p.2.1) (l.map fun p => fin p.2.2) = pinf ∧
    Closed.mixnorm ninf (l.map fun p => fin p.1) (l.map fun p => fin p.2.1) (l.map fun p => fin p.2.2) = pinf :=
  inf_mixnorm l hl hs hw h1

example : let l : List (ℝ × ℝ × ℝ) := [(0, 1, 1 / 3), (2, 3, 2 / 3)]
    (∀ p ∈ l, 0 < p.2.1) ∧ (∀ p ∈ l, 0 < p.2.2) ∧ (l.map fun p => p.2.2).sum = 1 := by norm_num

/-- C116 fails for a normal mixture with a component of weight zero: the product of zero and infinity is NaN. -/
theorem C116_mixnorm_false :
    Closed.mixnorm pinf [fin 0, fin 0] [fin 1, fin 1] [fin 1, fin 0] = nan ∧
      Closed.mixnorm ninf [fin 0, fin 0] [fin 1, fin 1] [fin 1, fin 0] = nan := by
  unfold Closed.mixnorm
  constructor
  · dsimp only
    rw [sum_range_nan (i := 1) (by simp), nan_sub]
    simp only [Py.idx, List.getD_cons_succ, List.getD_cons_zero, pinf_sub_fin,
      pinf_div_pos one_pos, normCdf_pinf, normPdf_pinf, ofNat_def, one_def, fin_mul, fin_sub]
    norm_num only
    rw [pinf_mul_one, pinf_add_fin, zero_mul_pinf]
  · dsimp only
    rw [sum_range_nan (i := 1) (by simp), nan_sub]
    simp only [Py.idx, List.getD_cons_succ, List.getD_cons_zero, ninf_sub_fin,
      ninf_div_pos one_pos, normCdf_ninf, normPdf_ninf, ofNat_def, one_def, fin_mul, fin_sub]
    norm_num only
    rw [ninf_mul_neg_one, pinf_add_fin, zero_mul_pinf]

/-- C116 for the binomial law, for every probability below one that a float can hold. -/
theorem C116_binomial (n : ℕ) {p : ℝ} (h0 : 0 < p) (h1 : p ≤ 1 - 1 / 10 ^ 30) :
    Closed.binomial pinf n (fin p) = pinf ∧ Closed.binomial ninf n (fin p) = pinf := inf_binomial n h0 h1

example : Closed.binomial pinf 7 (fin (1 / 2)) = pinf := (C116_binomial 7 (by norm_num) (by norm_num)).1

/-! ### families where it depends -/

/-- C116 for the logistic law at plus infinity.  Missing: minus infinity, where it is false. -/
theorem C116_logistic_partial (μ : ℝ) {σ : ℝ} (h : 0 < σ) : Closed.logistic pinf (fin μ) (fin σ) = pinf :=
  (inf_logistic μ h).1

/-- C116 fails for the logistic law at minus infinity: `ω - 2 log F(ω)` subtracts minus infinity from itself. -/
theorem C116_logistic_false (μ : ℝ) {σ : ℝ} (h : 0 < σ) : Closed.logistic ninf (fin μ) (fin σ) = nan :=
  (inf_logistic μ h).2

/-- a case of `C116_logistic_partial` and `C116_logistic_false` -/
example : Closed.logistic pinf (fin 1) (fin 2) = pinf ∧ Closed.logistic ninf (fin 1) (fin 2) = nan :=
  ⟨C116_logistic_partial _ two_pos, C116_logistic_false _ two_pos⟩

/-- C116 for the generalised extreme value law: non-zero shape below one in both directions, shape zero at minus
infinity.  Missing: shape zero at plus infinity, where it is false. -/
theorem C116_gev_partial (μ : ℝ) {σ : ℝ} (hσ : 0 < σ) :
    (∀ ξ : ℝ, ξ ≠ 0 → ξ < 1 → Closed.gev pinf (fin ξ) (fin μ) (fin σ) = pinf ∧
      Closed.gev ninf (fin ξ) (fin μ) (fin σ) = pinf) ∧
    Closed.gev ninf (fin 0) (fin μ) (fin σ) = pinf := ⟨fun _ h0 h1 => inf_gev μ h0 h1 hσ, gev_zero_ninf μ hσ⟩

/-- C116 fails for the Gumbel law (shape zero) at plus infinity: the exponential integral of zero is minus infinity
and is subtracted from minus infinity. -/
theorem C116_gev_false (μ : ℝ) {σ : ℝ} (hσ : 0 < σ) : Closed.gev pinf (fin 0) (fin μ) (fin σ) = nan :=
  gev_zero_pinf μ hσ

/-- a case of `C116_gev_partial` and `C116_gev_false` -/
example : Closed.gev pinf (fin (-1 / 2)) (fin 1) (fin 2) = pinf ∧ Closed.gev pinf (fin 0) (fin 1) (fin 2) = nan :=
  ⟨((C116_gev_partial 1 two_pos).1 (-1 / 2) (by norm_num) (by norm_num)).1, C116_gev_false _ two_pos⟩

/-- C116 for the log-normal and log-logistic laws at plus infinity.  Missing: minus infinity, where it is false. -/
theorem C116_loglaw_partial (μ : ℝ) {σ : ℝ} (h : 0 < σ) :
    Closed.lognormal pinf (fin μ) (fin σ) = pinf ∧ (σ < 1 → Closed.loglogistic pinf (fin μ) (fin σ) = pinf) :=
  ⟨(inf_lognormal μ h).1, fun h1 => (inf_loglogistic μ h h1).1⟩

/-- C116 fails for the log-normal and log-logistic laws at minus infinity, of which the logarithm is NaN, and for the
log-Laplace law in both directions. -/
theorem C116_loglaw_false (μ : ℝ) {σ : ℝ} (h : 0 < σ) :
    Closed.lognormal ninf (fin μ) (fin σ) = nan ∧ (σ < 1 → Closed.loglogistic ninf (fin μ) (fin σ) = nan) ∧
    Closed.loglaplace pinf (fin μ) (fin σ) = nan ∧ Closed.loglaplace ninf (fin μ) (fin σ) = nan :=
  ⟨(inf_lognormal μ h).2, fun h1 => (inf_loglogistic μ h h1).2, inf_loglaplace μ h⟩

/-- a case of `C116_loglaw_partial` and `C116_loglaw_false` -/
example : Closed.loglogistic pinf (fin 1) (fin (1 / 2)) = pinf ∧ Closed.loglogistic ninf (fin 1) (fin (1 / 2)) = nan :=
  ⟨(C116_loglaw_partial 1 (by norm_num)).2 (by norm_num), (C116_loglaw_false 1 (by norm_num)).2.1 (by norm_num)⟩

/-- C116 for the Poisson and negative binomial laws at minus infinity.  Missing: plus infinity, where it is false for
the Poisson law and depends on the incomplete beta function at an infinite parameter for the negative binomial law. -/
theorem C116_counts_partial {m r p : ℝ} (hm : 0 ≤ m) (hr : 0 < r) (h0 : 0 < p) (h1 : p ≤ 1) :
    Closed.poisson ninf (fin m) = pinf ∧ Closed.negbinom ninf (fin r) (fin p) = pinf :=
  ⟨(inf_poisson hm).2, inf_negbinom hr h0 h1⟩

/-- C116 fails for the Poisson law at plus infinity: the distribution function divides infinity by infinity. -/
theorem C116_poisson_false {m : ℝ} (hm : 0 ≤ m) : Closed.poisson pinf (fin m) = nan := (inf_poisson hm).1

/-- a case of `C116_counts_partial` and `C116_poisson_false` -/
example : Closed.poisson ninf (fin 3) = pinf ∧ Closed.poisson pinf (fin 3) = nan :=
  ⟨(C116_counts_partial (r := 1) (p := 1) (by norm_num) one_pos one_pos le_rfl).1, C116_poisson_false (by norm_num)⟩

/-- C116 for the hypergeometric law with as many draws as failure states and at least as many success states.
Missing: all other parameters, where it is false. -/
theorem C116_hypergeometric_partial {m n : ℕ} (h : n ≤ m) :
    Closed.hypergeometric pinf m n n = pinf ∧ Closed.hypergeometric ninf m n n = pinf := inf_hypergeometric h

/-- C116 fails for every other hypergeometric law: some value from zero to the number of failure states has no
mass, and the product of zero and infinity is NaN. -/
theorem C116_hypergeometric_false {m n K : ℕ} (h : K ≤ m + n) (h' : ¬ (K = n ∧ n ≤ m)) :
    Closed.hypergeometric pinf m n K = nan ∧ Closed.hypergeometric ninf m n K = nan := by
  rcases lt_or_ge n K with hK | hK
  · refine inf_hypergeometric_zero h (Nat.zero_le n) ?_
    rw [pmfHypergeo, if_pos (Nat.zero_le K), Nat.sub_zero, Nat.choose_eq_zero_of_lt hK]
    simp
  · refine inf_hypergeometric_zero h le_rfl ?_
    rw [pmfHypergeo]
    split_ifs with h2
    · rw [Nat.choose_eq_zero_of_lt (n := m) (by omega)]; simp
    · rfl

/-- a case of `C116_hypergeometric_partial` and `C116_hypergeometric_false` -/
example : Closed.hypergeometric pinf 5 3 3 = pinf ∧ Closed.hypergeometric pinf 5 3 2 = nan :=
  ⟨(C116_hypergeometric_partial (by norm_num)).1, (C116_hypergeometric_false (by norm_num) (by norm_num)).1⟩

/-- C116 for the truncated and censored normal, logistic and t laws with both bounds finite.  Missing: an infinite
bound on the side of the observation, where it is false. -/
theorem C116_bounds_partial {σ l u L U : ℝ} (hσ : 0 < σ) (hlu : l < u) (hLU : L + U ≠ 1) (μ : ℝ) :
    (Closed.gtcnormal pinf (fin μ) (fin σ) (fin l) (fin u) (fin L) (fin U) = pinf ∧
      Closed.gtcnormal ninf (fin μ) (fin σ) (fin l) (fin u) (fin L) (fin U) = pinf) ∧
    (Closed.gtclogistic pinf (fin μ) (fin σ) (fin l) (fin u) (fin L) (fin U) = pinf ∧
      Closed.gtclogistic ninf (fin μ) (fin σ) (fin l) (fin u) (fin L) (fin U) = pinf) ∧
    (∀ ν : ℝ, 1 < ν → l ≠ μ → u ≠ μ →
      Closed.gtct pinf (fin ν) (fin μ) (fin σ) (fin l) (fin u) (fin L) (fin U) = pinf ∧
      Closed.gtct ninf (fin ν) (fin μ) (fin σ) (fin l) (fin u) (fin L) (fin U) = pinf) :=
  ⟨inf_gtcnormal hσ hlu hLU μ, inf_gtclogistic hσ hlu hLU μ, fun _ hν hl hu => inf_gtct hν hσ hlu hLU hl hu⟩

example : Closed.gtcnormal pinf (fin 0) (fin 1) (fin (-1)) (fin 2) (fin (1 / 4)) (fin (1 / 4)) = pinf :=
  (C116_bounds_partial one_pos (by norm_num) (by norm_num) 0).1.1

/-- C116 fails for the truncated and censored laws without a bound on the side of the observation, whatever the
other arguments: `|ω - z|` subtracts infinity from itself. -/
theorem C116_bounds_false (μ : ℝ) {σ : ℝ} (h : 0 < σ) (df l u L U : XF) (hl : l ≠ nan) (hu : u ≠ nan) :
    (Closed.gtcnormal pinf (fin μ) (fin σ) l pinf L U = nan ∧ Closed.gtcnormal ninf (fin μ) (fin σ) ninf u L U = nan) ∧
    (Closed.gtclogistic pinf (fin μ) (fin σ) l pinf L U = nan ∧
      Closed.gtclogistic ninf (fin μ) (fin σ) ninf u L U = nan) ∧
    Closed.gtct pinf df (fin μ) (fin σ) l pinf L U = nan ∧ Closed.gtct ninf df (fin μ) (fin σ) ninf u L U = nan :=
  inf_unbounded μ h df l u L U hl hu

example : Closed.gtcnormal pinf (fin 0) (fin 1) (fin 0) pinf (fin 0) (fin 0) = nan :=
  (C116_bounds_false 0 one_pos nan (fin 0) pinf (fin 0) (fin 0) (by simp) (by simp)).1.1

/-- C116 fails with the default bounds of the truncated and censored families, of which the untruncated normal law
is the simplest member, although `crps_normal` gives plus infinity (`C116_normal`). -/
theorem C116_default_bounds_false (μ : ℝ) {σ : ℝ} (h : 0 < σ) (df y : XF) (hy : y = pinf ∨ y = ninf) :
    Closed.tnormal y (fin μ) (fin σ) ninf pinf = nan ∧ Closed.cnormal y (fin μ) (fin σ) ninf pinf = nan ∧
    Closed.tlogistic y (fin μ) (fin σ) ninf pinf = nan ∧ Closed.clogistic y (fin μ) (fin σ) ninf pinf = nan ∧
    Closed.tt y df (fin μ) (fin σ) ninf pinf = nan ∧ Closed.ct y df (fin μ) (fin σ) ninf pinf = nan := by
  have n1 : (ninf : XF) ≠ nan := fun h => nomatch h
  have n2 : (pinf : XF) ≠ nan := fun h => nomatch h
  have H := fun L U => inf_unbounded μ h df ninf pinf L U n1 n2
  unfold Closed.tnormal Closed.cnormal Closed.tlogistic Closed.clogistic Closed.tt Closed.ct
  rcases hy with rfl | rfl
  · exact ⟨(H _ _).1.1, (H _ _).1.1, (H _ _).2.1.1, (H _ _).2.1.1, (H _ _).2.2.1, (H _ _).2.2.1⟩
  · exact ⟨(H _ _).1.2, (H _ _).1.2, (H _ _).2.1.2, (H _ _).2.1.2, (H _ _).2.2.2, (H _ _).2.2.2⟩

example : Closed.tnormal pinf (fin 0) (fin 1) ninf pinf = nan ∧ Closed.normal pinf (fin 0) (fin 1) = pinf :=
  ⟨(C116_default_bounds_false 0 one_pos 5 pinf (.inl rfl)).1, (C116_normal 0 one_pos).1⟩

/-- C116 fails for Student's t law (zero density times infinity), the two-piece normal law (built from censored
normal laws with an infinite bound) and the beta law (incomplete beta function outside the unit interval). -/
theorem C116_others_false (μ : ℝ) {ν σ σ' l u : ℝ} (hν : 1 < ν) (h : 0 < σ) (h' : 0 < σ') (hlu : l < u) (a b y : XF)
    (hy : y = pinf ∨ y = ninf) :
    Closed.t y (fin ν) (fin μ) (fin σ) = nan ∧ Closed.twopnormal y (fin σ) (fin σ') (fin μ) = nan ∧
    Closed.beta y a b (fin l) (fin u) = .ok nan := by
  rcases hy with rfl | rfl
  · exact ⟨(inf_t μ hν h).1, (inf_twopnormal μ h h').1, (inf_beta hlu a b).1⟩
  · exact ⟨(inf_t μ hν h).2, (inf_twopnormal μ h h').2, (inf_beta hlu a b).2⟩

example : Closed.t pinf (fin 5) (fin 0) (fin 1) = nan :=
  (C116_others_false 0 (ν := 5) (σ' := 1) (l := 0) (u := 1) (by norm_num) one_pos one_pos one_pos 1 1 pinf (.inl rfl)).1

end Verif
