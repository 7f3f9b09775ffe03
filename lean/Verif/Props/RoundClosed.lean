import Verif.Lemmas.RoundClosed
import Verif.Lemmas.Nearest64
import Verif.Props.CrpsShape

/-!
# Closed-form CRPS in binary64

The computed CRPS differs from the exact one by a small multiple of `(|obs - location| + scale) / 2 ^ 51`.
-/

noncomputable section

open scoped Classical

namespace Verif

open XF Spec

/-- Without rounding the functions below are the functions of the exact model. -/
theorem C149_exact :
    Rnd.crpsLaplace fin = Closed.laplace ∧ Rnd.crpsNormal fin = Closed.normal ∧
    Rnd.crpsExponential fin = Closed.exponential ∧ Rnd.crpsLogistic fin = Closed.logistic := by
  have h : ∀ x : XF, Rnd.rd fin x = x := by intro x; cases x <;> rfl
  refine ⟨?_, ?_, ?_, ?_⟩
  · funext y l c
    simp only [Rnd.crpsLaplace, Rnd.std, Closed.laplace, h]
  · funext y l c
    simp only [Rnd.crpsNormal, Rnd.normCdf, Rnd.normPdf, Rnd.std, Closed.normal, Stats.normCdf, Stats.normPdf, h]
  · funext y l
    simp only [Rnd.crpsExponential, Rnd.expCdf, Closed.exponential, Stats.expCdf, h]
  · funext y l c
    simp only [Rnd.crpsLogistic, Rnd.logisCdf, Rnd.std, Closed.logistic, Stats.logisCdf, h]

example : Rnd.crpsLaplace fin (fin 1) (fin 0) (fin 2) = Closed.laplace (fin 1) (fin 0) (fin 2) := by
  rw [C149_exact.1]

theorem lip_of_shape {S : ℝ → XF} {F g : ℝ → ℝ} (h : CrpsShape Set.univ S F) (hg : ∀ y, S y = fin (g y)) (a b : ℝ) :
    |g a - g b| ≤ |a - b| := by
  obtain ⟨s, hs, h⟩ := h
  have e : g = s := by
    funext y
    exact XF.fin.inj ((hg y).symm.trans (hs y trivial))
  rw [e]
  rcases le_total a b with hab | hab
  · rw [abs_sub_comm, abs_sub_comm a b, abs_of_nonneg (sub_nonneg.2 hab)]
    exact (h a trivial b trivial hab).2.2
  · rw [abs_of_nonneg (sub_nonneg.2 hab)]
    exact (h b trivial a trivial hab).2.2

theorem w_le {W ω : ℝ} (hW : |W - ω| ≤ 2 * (|ω| + 1) * (1 / 2 ^ 51)) : |W| ≤ 2 * (|ω| + 1) := by
  have h1 := abs_sub_abs_le_abs_sub W ω
  have h0 := abs_nonneg ω
  have h2 : 2 * (|ω| + 1) * (1 / 2 ^ 51) ≤ |ω| + 1 := by
    rw [mul_one_div, div_le_iff₀ (by positivity)]
    linarith
  linarith

/-- `crps_laplace`: the error is at most `(|obs - location| + scale) / 2 ^ 47`. -/
theorem C149_laplace {r : ℝ → XF} (hr : Binary64 r) {y μ σ : ℝ} (h : Moderate y μ σ) :
    ∃ v, Rnd.crpsLaplace r (fin y) (fin μ) (fin σ) = fin v ∧
      |v - crps (cdfLaplace μ σ) y| ≤ (|y - μ| + σ) / 2 ^ 47 := by
  have hp := h.pos
  let f : ℝ → ℝ := fun x => |x| + Real.exp (-|x|) - 3 / 4
  have hcl : ∀ y μ σ : ℝ, 0 < σ → Closed.laplace (fin y) (fin μ) (fin σ) = fin (σ * f ((y - μ) / σ)) := by
    intro y μ σ hσ
    unfold Closed.laplace
    simp only [XF.ofNat_def, fin_sub, fin_div hσ.ne', XF.abs, fin_neg, XF.exp, fin_add, fin_mul,
      fin_div (by norm_num : (4 : ℝ) ≠ 0), f]
  have hval : crps (cdfLaplace μ σ) y = σ * f ((y - μ) / σ) :=
    XF.fin.inj ((C46_laplace hp μ y).2.symm.trans (hcl y μ σ hp))
  have hf : ∀ a b, |f a - f b| ≤ |a - b| := fun a b =>
    lip_of_shape (C119_laplace one_pos 0) (g := f) (fun y => by rw [hcl y 0 1 one_pos]; simp) a b
  obtain ⟨W, hW, hW2⟩ := std_near hr h
  have hWl := w_le hW2
  generalize hω : (y - μ) / σ = ω at *
  have hO : 1 ≤ |ω| + 1 := by linarith [abs_nonneg ω]
  have hOu : |ω| + 1 ≤ 2 ^ 801 := hω ▸ h.le
  have hex : Real.exp (-|W|) ≤ 1 := Real.exp_le_one_iff.2 (by linarith [abs_nonneg W])
  have hex0 := Real.exp_pos (-|W|)
  have m1 : Mid (1:ℝ) := by simpa using mid_mul (O := 1) le_rfl (one_le_pow₀ (by norm_num)) (le_refl (1:ℝ)) (by norm_num)
  have N1 := Near.rd hr (near_fin (Real.exp (-|W|))) m1 (by rw [abs_of_pos hex0]; exact hex) (by norm_num)
  have hW0 := abs_nonneg W
  have N2 := Near.rd hr (Near.add (near_fin |W|) N1) (mid_mul hO hOu (k := 3) (by norm_num) (by norm_num))
    (by rw [abs_le]; constructor <;> linarith) (by norm_num; linarith)
  have N3 := Near.rd hr (near_fin (3 / 4)) m1 (by norm_num [abs_of_pos]) (by norm_num)
  have N4 := Near.rd hr (Near.sub N2 N3) (mid_mul hO hOu (k := 3) (by norm_num) (by norm_num))
    (by rw [abs_le]; constructor <;> linarith) (by norm_num; linarith)
  have N5 := closed_final hr h (K := 8) hf (by
      rw [hω]; simp only [f]
      have h1 : Real.exp (-|ω|) ≤ 1 := Real.exp_le_one_iff.2 (by linarith [abs_nonneg ω])
      have h2 := Real.exp_pos (-|ω|)
      rw [abs_le]; constructor <;> linarith [abs_nonneg ω]) (W := W) (by rw [hω]; exact hW2) (N4.mono (by
        rw [hω]; norm_num; linarith)) (by norm_num)
  obtain ⟨v, hv, hv2⟩ := N5
  refine ⟨v, ?_, ?_⟩
  · rw [← hv]
    unfold Rnd.crpsLaplace
    have e34 : (3 / 4 : XF) = fin (3 / 4) := by
      rw [XF.ofNat_def, XF.ofNat_def, fin_div (by norm_num)]
    simp only [hW, XF.abs, fin_neg, XF.exp, e34]
  · rw [hval]
    rw [hω] at hv2
    refine hv2.trans (le_of_eq_of_le ?_ (?_ : 12 * (|y - μ| + σ) / 2 ^ 51 ≤ _))
    · norm_num; ring
    · rw [div_le_div_iff₀ (by positivity) (by positivity)]
      have : 0 ≤ |y - μ| + σ := by positivity
      norm_num; linarith

example : ∃ v, Rnd.crpsLaplace rn64 (fin 5) (fin 1) (fin 3) = fin v ∧ |v - crps (cdfLaplace 1 3) 5| ≤ 7 / 2 ^ 47 := by
  have h : Moderate 5 1 3 := ⟨le_trans (by rw [div_le_one (by positivity)]; exact one_le_pow₀ (by norm_num)) (by norm_num : (1:ℝ) ≤ 3),
    le_trans (by norm_num : (3:ℝ) ≤ 2 ^ 2) (pow_le_pow_right₀ (by norm_num) (by norm_num)),
    le_trans (by norm_num [abs_of_pos] : |(5:ℝ) - 1| ≤ 2 ^ 2) (pow_le_pow_right₀ (by norm_num) (by norm_num))⟩
  obtain ⟨v, h1, h2⟩ := C149_laplace rn64_nearest.toBinary64 h
  exact ⟨v, h1, h2.trans (by norm_num [abs_of_pos])⟩

/-- `crps_logistic`: the error is at most `(|obs - location| + scale) / 2 ^ 45`, for observations down to 680 scales
below the location (C129 shows that the score is infinite from 746 scales below on). -/
theorem C149_logistic {r : ℝ → XF} (hr : Binary64 r) {y μ σ : ℝ} (h : Moderate y μ σ) (hlow : -680 ≤ (y - μ) / σ) :
    ∃ v, Rnd.crpsLogistic r (fin y) (fin μ) (fin σ) = fin v ∧
      |v - crps (cdfLogistic μ σ) y| ≤ (|y - μ| + σ) / 2 ^ 45 := by
  have hp := h.pos
  let f : ℝ → ℝ := fun x => x - 2 * Real.log (logis x) - 1
  have hlp : ∀ x, 0 < logis x := fun x => by unfold logis; positivity
  have hcl : ∀ y μ σ : ℝ, 0 < σ → Closed.logistic (fin y) (fin μ) (fin σ) = fin (σ * f ((y - μ) / σ)) := by
    intro y μ σ hσ
    unfold Closed.logistic
    have hl : XF.log (fin (logis ((y - μ) / σ))) = fin (Real.log (logis ((y - μ) / σ))) := by
      simp [XF.log, hlp]
    simp only [XF.ofNat_def, XF.one_def, fin_sub, fin_div hσ.ne', logisCdf_fin, hl, fin_mul, f]
  have hval : crps (cdfLogistic μ σ) y = σ * f ((y - μ) / σ) :=
    XF.fin.inj ((C48_logistic hp μ y).2.symm.trans (hcl y μ σ hp))
  have hf : ∀ a b, |f a - f b| ≤ |a - b| := fun a b =>
    lip_of_shape (C119_logistic one_pos 0) (g := f) (fun y => by rw [hcl y 0 1 one_pos]; simp) a b
  have hlog : ∀ x, |Real.log (logis x)| ≤ |x| + 1 := by
    intro x
    have e : Real.log (logis x) = -Real.log (1 + Real.exp (-x)) := by unfold logis; rw [one_div, Real.log_inv]
    have h1 : 0 ≤ Real.log (1 + Real.exp (-x)) := Real.log_nonneg (by linarith [Real.exp_pos (-x)])
    rw [e, abs_neg, abs_of_nonneg h1, Real.log_le_iff_le_exp (by positivity), Real.exp_add]
    have h2 : Real.exp (-x) ≤ Real.exp |x| := Real.exp_le_exp.2 (neg_le_abs x)
    have h3 : 1 ≤ Real.exp |x| := Real.one_le_exp (abs_nonneg x)
    have h4 : 2 ≤ Real.exp 1 := by linarith [Real.exp_one_gt_d9]
    nlinarith
  obtain ⟨W, hW, hW2⟩ := std_near hr h
  have hWl := w_le hW2
  generalize hω : (y - μ) / σ = ω at *
  have hO : 1 ≤ |ω| + 1 := by linarith [abs_nonneg ω]
  have hOu : |ω| + 1 ≤ 2 ^ 801 := hω ▸ h.le
  have m1 : Mid (1:ℝ) := by simpa using mid_mul (O := 1) le_rfl (one_le_pow₀ (by norm_num)) (le_refl (1:ℝ)) (by norm_num)
  have hWlow : -681 ≤ W := by
    rcases le_total ω 0 with h0 | h0
    · rw [abs_of_nonpos h0] at hW2
      have h3 : 2 * (-ω + 1) * (1 / 2 ^ 51) ≤ 1 := by
        rw [mul_one_div, div_le_one (by positivity)]; linarith
      linarith [(abs_le.1 hW2).1]
    · rw [abs_of_nonneg h0] at hW2
      have h3 : 2 * (ω + 1) * (1 / 2 ^ 51) ≤ ω + 1 := by
        rw [mul_one_div, div_le_iff₀ (by positivity)]; linarith
      linarith [(abs_le.1 hW2).1]
  have hE0 := Real.exp_pos (-W)
  have hE : 1 + Real.exp (-W) ≤ 2 ^ 1000 := by
    have h2 : Real.exp (-W) ≤ Real.exp 681 := Real.exp_le_exp.2 (by linarith)
    have h3 : Real.exp 681 = (Real.exp 1 ^ 9) ^ 75 * Real.exp 1 ^ 6 := by
      rw [← pow_mul, ← pow_add, ← Real.exp_nat_mul]; norm_num
    have h4 : Real.exp 1 ^ 9 ≤ 2 ^ 13 := by
      calc Real.exp 1 ^ 9 ≤ 2.7182818286 ^ 9 := pow_le_pow_left₀ (Real.exp_pos _).le Real.exp_one_lt_d9.le 9
        _ ≤ 2 ^ 13 := by norm_num
    have h5 : Real.exp 1 ^ 6 ≤ 2 ^ 12 := by
      calc Real.exp 1 ^ 6 ≤ 2.7182818286 ^ 6 := pow_le_pow_left₀ (Real.exp_pos _).le Real.exp_one_lt_d9.le 6
        _ ≤ 2 ^ 12 := by norm_num
    have h6 : Real.exp 681 ≤ 2 ^ 987 := by
      rw [h3]
      calc (Real.exp 1 ^ 9) ^ 75 * Real.exp 1 ^ 6 ≤ ((2:ℝ) ^ 13) ^ 75 * 2 ^ 12 :=
            mul_le_mul (pow_le_pow_left₀ (by positivity) h4 75) h5 (by positivity) (by positivity)
        _ = 2 ^ 987 := by rw [← pow_mul, ← pow_add]
    have h7 : (1:ℝ) ≤ 2 ^ 987 := one_le_pow₀ (by norm_num)
    have h8 : (2:ℝ) ^ 988 = 2 ^ 987 * 2 := pow_succ _ _
    have h9 : (2:ℝ) ^ 988 ≤ 2 ^ 1000 := pow_le_pow_right₀ (by norm_num) (by norm_num)
    refine le_trans ?_ h9
    rw [h8]
    have h10 := h2.trans h6
    clear h6 h8 h9
    generalize (2:ℝ) ^ 987 = P at *
    linarith
  have hElt : |Real.exp (-W)| < 2 ^ 1023 := by
    rw [abs_of_pos hE0]
    exact (lt_of_lt_of_le (lt_one_add _) hE).trans (pow_lt_pow_right₀ (by norm_num) (by norm_num))
  have hmid : Mid |1 + Real.exp (-W)| := by
    rw [abs_of_pos (by positivity)]
    refine ⟨le_trans ?_ (by linarith : (1:ℝ) ≤ 1 + Real.exp (-W)), hE⟩
    rw [div_le_one (by positivity)]; exact one_le_pow₀ (by norm_num)
  have hmidF : Mid |1 / (1 + Real.exp (-W))| := by
    rw [abs_of_pos (by positivity)]
    refine ⟨one_div_le_one_div_of_le (by positivity) hE, ?_⟩
    refine le_trans ?_ (one_le_pow₀ (by norm_num) : (1:ℝ) ≤ 2 ^ 1000)
    rw [div_le_one (by positivity)]; linarith
  obtain ⟨δ, η, hδ, hη, eE⟩ := hr.acc hElt
  have R1 : Rel (fin 1 + Rnd.rd r (fin (Real.exp (-W)))) (1 + Real.exp (-W)) 2 := by
    refine ⟨1 + (Real.exp (-W) * (1 + δ) + η), ?_, ?_⟩
    · show fin 1 + r (Real.exp (-W)) = _
      rw [eE, fin_add]
    · have e : 1 + (Real.exp (-W) * (1 + δ) + η) - (1 + Real.exp (-W)) = Real.exp (-W) * δ + η := by ring
      have hη' : |η| ≤ 1 / 2 ^ 53 := hη.trans
        (one_div_le_one_div_of_le (by positivity) (pow_le_pow_right₀ (by norm_num) (by norm_num)))
      rw [e, abs_of_pos (by positivity : 0 < 1 + Real.exp (-W))]
      refine (abs_add_le _ _).trans ?_
      rw [abs_mul, abs_of_pos hE0]
      have := mul_le_mul_of_nonneg_left hδ hE0.le
      push_cast
      generalize (2:ℝ) ^ 53 = P at *
      have e2 : 2 / P * (1 + Real.exp (-W)) = 2 * (1 / P) + 2 * (Real.exp (-W) * (1 / P)) := by ring
      have h0 : 0 ≤ 1 / P := (abs_nonneg _).trans hδ
      have h1 : 0 ≤ Real.exp (-W) * (1 / P) := mul_nonneg hE0.le h0
      rw [e2]; linarith
  have R2 := R1.rd hr (by norm_num) hmid
  have R3 := (R2.inv (by positivity) (by norm_num)).rd hr (by norm_num) hmidF
  obtain ⟨F, hF, hF2⟩ := R3
  obtain ⟨hF0, hFl⟩ := tail_log_rel (by positivity) (by norm_num) hF2
  have hFl' : |Real.log F - Real.log (logis W)| ≤ 6 * (1 / 2 ^ 51) := hFl.trans (by norm_num)
  have hlW := hlog W
  have hB3 : |Real.log (logis W)| ≤ 3 * (|ω| + 1) := by linarith
  have N1 := Near.rd hr (⟨_, rfl, hFl'⟩ : Near (fin (Real.log F)) _ _)
    (mid_mul hO hOu (k := 3) (by norm_num) (by norm_num)) hB3 (by norm_num; linarith)
  have N2 := Near.rd hr (Near.smul 2 N1) (mid_mul hO hOu (k := 6) (by norm_num) (by norm_num))
    (by rw [abs_mul, abs_of_pos (by norm_num : (0:ℝ) < 2)]; linarith)
    (by rw [abs_of_pos (by norm_num : (0:ℝ) < 2)]; norm_num; linarith)
  have hl2 := abs_le.1 hB3
  have hWa := abs_le.1 hWl
  have N3 := Near.rd hr (Near.sub (near_fin W) N2) (mid_mul hO hOu (k := 8) (by norm_num) (by norm_num))
    (by rw [abs_le]; constructor <;> linarith [hl2.1, hl2.2, hWa.1, hWa.2])
    (by rw [abs_of_pos (by norm_num : (0:ℝ) < 2)]; norm_num; linarith)
  have N4 := Near.rd hr (Near.sub N3 (near_fin 1)) (mid_mul hO hOu (k := 9) (by norm_num) (by norm_num))
    (by rw [abs_le]; constructor <;> linarith [hl2.1, hl2.2, hWa.1, hWa.2])
    (by rw [abs_of_pos (by norm_num : (0:ℝ) < 2)]; norm_num; linarith)
  have N5 := closed_final hr h (K := 41) hf (by
      rw [hω]
      have h0 := hf ω 0
      have e0 : f 0 = 2 * Real.log 2 - 1 := by
        simp only [f, logis, neg_zero, Real.exp_zero]
        rw [show (1:ℝ) / (1 + 1) = 2⁻¹ by norm_num, Real.log_inv]; ring
      rw [sub_zero] at h0
      have h1 := abs_sub_abs_le_abs_sub (f ω) (f 0)
      have h2 : |f 0| ≤ 1 := by
        rw [e0, abs_le]; constructor <;> linarith [Real.log_two_gt_d9, Real.log_two_lt_d9]
      linarith [abs_nonneg ω]) (W := W) (by rw [hω]; exact hW2) (N4.mono (by
        rw [hω, abs_of_pos (by norm_num : (0:ℝ) < 2)]; norm_num; linarith)) (by norm_num)
  obtain ⟨v, hv, hv2⟩ := N5
  refine ⟨v, ?_, ?_⟩
  · rw [← hv]
    have hc : Rnd.logisCdf r (fin W) = fin F := by
      rw [← hF]
      unfold Rnd.logisCdf
      simp only [XF.one_def, fin_neg, XF.exp]
    have hl : XF.log (fin F) = fin (Real.log F) := by simp [XF.log, hF0]
    unfold Rnd.crpsLogistic
    simp only [hW, hc, hl, XF.one_def, XF.ofNat_def]
  · rw [hval]
    rw [hω] at hv2
    refine hv2.trans (le_of_eq_of_le ?_ (?_ : 45 * (|y - μ| + σ) / 2 ^ 51 ≤ _))
    · norm_num; ring
    · rw [div_le_div_iff₀ (by positivity) (by positivity)]
      have : 0 ≤ |y - μ| + σ := by positivity
      norm_num; linarith

example : ∃ v, Rnd.crpsLogistic rn64 (fin 5) (fin 1) (fin 3) = fin v ∧ |v - crps (cdfLogistic 1 3) 5| ≤ 7 / 2 ^ 45 := by
  have h : Moderate 5 1 3 := ⟨le_trans (by rw [div_le_one (by positivity)]; exact one_le_pow₀ (by norm_num)) (by norm_num : (1:ℝ) ≤ 3),
    le_trans (by norm_num : (3:ℝ) ≤ 2 ^ 2) (pow_le_pow_right₀ (by norm_num) (by norm_num)),
    le_trans (by norm_num [abs_of_pos] : |(5:ℝ) - 1| ≤ 2 ^ 2) (pow_le_pow_right₀ (by norm_num) (by norm_num))⟩
  obtain ⟨v, h1, h2⟩ := C149_logistic rn64_nearest.toBinary64 h (by norm_num)
  exact ⟨v, h1, h2.trans (by norm_num [abs_of_pos])⟩

/-- `crps_normal`: the error is at most `(|obs - location| + scale) / 2 ^ 44`. -/
theorem C149_normal {r : ℝ → XF} (hr : Binary64 r) {y μ σ : ℝ} (h : Moderate y μ σ) (hfar : |(y - μ) / σ| ≤ 2 ^ 400) :
    ∃ v, Rnd.crpsNormal r (fin y) (fin μ) (fin σ) = fin v ∧
      |v - crps (cdfNormal μ σ) y| ≤ (|y - μ| + σ) / 2 ^ 44 := by
  have hp := h.pos
  let f : ℝ → ℝ := fun x => x * (2 * Φ x - 1) + 2 * φ x - 1 / Real.sqrt Real.pi
  have hcl : ∀ y μ σ : ℝ, 0 < σ → Closed.normal (fin y) (fin μ) (fin σ) = fin (σ * f ((y - μ) / σ)) := by
    intro y μ σ hσ
    unfold Closed.normal
    simp only [XF.ofNat_def, XF.one_def, fin_sub, fin_div hσ.ne', normCdf_fin, normPdf_fin, fin_mul, fin_add, XF.pi,
      fin_sqrt Real.pi_pos.le, fin_div (Real.sqrt_pos.2 Real.pi_pos).ne', f]
  have hval : crps (cdfNormal μ σ) y = σ * f ((y - μ) / σ) :=
    XF.fin.inj ((C50_normal hp μ y).2.symm.trans (hcl y μ σ hp))
  have hf : ∀ a b, |f a - f b| ≤ |a - b| := fun a b =>
    lip_of_shape (C119_normal one_pos 0) (g := f) (fun y => by rw [hcl y 0 1 one_pos]; simp) a b
  obtain ⟨W, hW, hW2⟩ := std_near hr h
  have hWl := w_le hW2
  generalize hω : (y - μ) / σ = ω at *
  have hO : 1 ≤ |ω| + 1 := by linarith [abs_nonneg ω]
  have hOu : |ω| + 1 ≤ 2 ^ 801 := hω ▸ h.le
  have m1 : Mid (1:ℝ) := by simpa using mid_mul (O := 1) le_rfl (one_le_pow₀ (by norm_num)) (le_refl (1:ℝ)) (by norm_num)
  have m2 : Mid (2:ℝ) := by simpa using mid_mul (O := 1) le_rfl (one_le_pow₀ (by norm_num)) (by norm_num : (1:ℝ) ≤ 2) (by norm_num)
  have hWb : |W| ≤ 2 ^ 402 := by
    have h1 : (1:ℝ) ≤ 2 ^ 400 := one_le_pow₀ (by norm_num)
    have h2 : (2:ℝ) ^ 402 = 2 ^ 400 * 4 := by rw [show (402:ℕ) = 400 + 2 from rfl, pow_add]; norm_num
    rw [h2]
    clear h2 hOu
    generalize (2:ℝ) ^ 400 = P at *
    linarith
  have hΦ0 : 0 ≤ Φ W := Φ_nonneg W
  have hΦ1 : Φ W ≤ 1 := Φ_le_one W
  have N3 := normCdf_near hr hWb
  have t2 : |(2:ℝ)| = 2 := abs_of_pos (by norm_num)
  have N4 := Near.rd hr (Near.smul 2 N3) m2 (by rw [abs_le]; constructor <;> linarith) (by rw [t2]; norm_num)
  have N5 := Near.rd hr (Near.sub N4 (near_fin 1)) m1 (by rw [abs_le]; constructor <;> linarith) (by rw [t2]; norm_num)
  have N5' := N5.mono (e' := 17 * (1 / 2 ^ 51)) (by rw [t2]; norm_num)
  have hcl1 : |2 * Φ W - 1| ≤ 1 := by rw [abs_le]; constructor <;> linarith
  have N6 := Near.rd hr ((Near.smul W N5').mono (e' := 34 * (|ω| + 1) * (1 / 2 ^ 51)) (by
      have := mul_le_mul_of_nonneg_right hWl (by positivity : (0:ℝ) ≤ 17 * (1 / 2 ^ 51))
      linarith)) (mid_mul hO hOu (k := 2) (by norm_num) (by norm_num))
    (by rw [abs_mul]; exact (mul_le_of_le_one_right (abs_nonneg _) hcl1).trans hWl) (by norm_num; linarith)
  obtain ⟨hφ0, hφ1, N9⟩ := normPdf_near hr hWb
  have N10 := Near.rd hr (Near.smul 2 N9) m2 (by rw [abs_mul, t2, abs_of_nonneg hφ0]; linarith) (by rw [t2]; norm_num)
  have N10' := N10.mono (e' := 40 * (1 / 2 ^ 51)) (by rw [t2]; norm_num)
  have hA := (abs_mul W (2 * Φ W - 1)).le.trans ((mul_le_of_le_one_right (abs_nonneg _) hcl1).trans hWl)
  have hA' := abs_le.1 hA
  have N11 := Near.rd hr (Near.add N6 N10') (mid_mul hO hOu (k := 4) (by norm_num) (by norm_num))
    (by rw [abs_le]; constructor <;> linarith [hA'.1, hA'.2]) (by norm_num; linarith)
  obtain ⟨hj1, hj2, R6'⟩ := inv_sqrt_pi_near hr
  have N12 := Near.rd hr (Near.sub N11 R6') (mid_mul hO hOu (k := 5) (by norm_num) (by norm_num))
    (by rw [abs_le]; constructor <;> linarith [hA'.1, hA'.2]) (by norm_num; linarith)
  have N13 := closed_final hr h (K := 90) hf (by
      rw [hω]
      have h0 := hf ω 0
      have e0 : f 0 = 2 * φ 0 - 1 / Real.sqrt Real.pi := by
        simp only [f]; ring
      have h3 := normPdf_near hr (W := 0) (by simp)
      rw [sub_zero] at h0
      have h1 := abs_sub_abs_le_abs_sub (f ω) (f 0)
      have h2 : |f 0| ≤ 2 := by
        rw [e0, abs_le]; constructor <;> linarith [h3.1, h3.2.1]
      linarith [abs_nonneg ω]) (W := W) (by rw [hω]; exact hW2) (N12.mono (by
        rw [hω]; norm_num; linarith)) (by norm_num)
  obtain ⟨v, hv, hv2⟩ := N13
  refine ⟨v, ?_, ?_⟩
  · rw [← hv]
    unfold Rnd.crpsNormal
    simp only [hW, XF.one_def, XF.ofNat_def, XF.pi]
  · rw [hval]
    rw [hω] at hv2
    refine hv2.trans (le_of_eq_of_le ?_ (?_ : 94 * (|y - μ| + σ) / 2 ^ 51 ≤ _))
    · norm_num; ring
    · rw [div_le_div_iff₀ (by positivity) (by positivity)]
      have : 0 ≤ |y - μ| + σ := by positivity
      norm_num; linarith

example : ∃ v, Rnd.crpsNormal rn64 (fin 5) (fin 1) (fin 3) = fin v ∧ |v - crps (cdfNormal 1 3) 5| ≤ 7 / 2 ^ 44 := by
  have h : Moderate 5 1 3 := ⟨le_trans (by rw [div_le_one (by positivity)]; exact one_le_pow₀ (by norm_num)) (by norm_num : (1:ℝ) ≤ 3),
    le_trans (by norm_num : (3:ℝ) ≤ 2 ^ 2) (pow_le_pow_right₀ (by norm_num) (by norm_num)),
    le_trans (by norm_num [abs_of_pos] : |(5:ℝ) - 1| ≤ 2 ^ 2) (pow_le_pow_right₀ (by norm_num) (by norm_num))⟩
  obtain ⟨v, h1, h2⟩ := C149_normal rn64_nearest.toBinary64 h
    (le_trans (by norm_num [abs_of_pos] : |((5:ℝ) - 1) / 3| ≤ 2 ^ 2) (pow_le_pow_right₀ (by norm_num) (by norm_num)))
  exact ⟨v, h1, h2.trans (by norm_num [abs_of_pos])⟩

/-- The computed exponential distribution function below zero is exactly zero. -/
theorem C149_exp_cdf_neg {r : ℝ → XF} (hr : Binary64 r) {rate y : ℝ} (h : 0 < rate) (hy : y < 0) :
    Rnd.expCdf r (fin y) (fin rate) = fin 0 := by
  have h0 : fin ((0:ℕ):ℝ) ≤ Rnd.rd r (-fin rate * fin y) := by
    refine hr.rd_ge (by norm_num) ?_
    rw [fin_neg, fin_mul, fin_le]
    push_cast
    nlinarith
  have h1 : fin ((1:ℕ):ℝ) ≤ Rnd.rd r (XF.exp (Rnd.rd r (-fin rate * fin y))) := by
    refine hr.rd_ge (by norm_num) ?_
    cases e : Rnd.rd r (-fin rate * fin y) with
    | nan => rw [e] at h0; simp at h0
    | ninf => rw [e] at h0; simp at h0
    | pinf => simp [XF.exp]
    | fin a =>
      rw [e, fin_le] at h0
      push_cast at h0
      simp only [XF.exp, fin_le]
      push_cast
      exact Real.one_le_exp h0
  have h2 : Rnd.rd r (1 - Rnd.rd r (XF.exp (Rnd.rd r (-fin rate * fin y)))) ≤ fin ((0:ℕ):ℝ) := by
    refine hr.rd_le (by norm_num) ?_
    cases e : Rnd.rd r (XF.exp (Rnd.rd r (-fin rate * fin y))) with
    | nan => rw [e] at h1; simp at h1
    | ninf => rw [e] at h1; simp at h1
    | pinf => show (ninf : XF) ≤ _; simp
    | fin a =>
      rw [e, fin_le] at h1
      push_cast at h1
      rw [XF.one_def, fin_sub, fin_le]
      push_cast; linarith
  unfold Rnd.expCdf
  cases e : Rnd.rd r (1 - Rnd.rd r (XF.exp (Rnd.rd r (-fin rate * fin y)))) with
  | nan => rw [e] at h2; simp at h2
  | pinf => rw [e] at h2; simp at h2
  | ninf => simp [XF.max, XF.zero_def]
  | fin a =>
    rw [e, fin_le] at h2
    push_cast at h2
    rw [XF.zero_def, fin_max, max_eq_right h2]

example : Rnd.expCdf rn64 (fin (-3)) (fin 2) = fin 0 := C149_exp_cdf_neg rn64_nearest.toBinary64 (by norm_num) (by norm_num)

/-- The computed exponential distribution function is within `3 / 2 ^ 51` of the exact one. -/
theorem C149_exp_cdf {r : ℝ → XF} (hr : Binary64 r) {rate y : ℝ} (h : 0 < rate) (hB : rate * |y| < 2 ^ 1023) :
    ∃ v, Rnd.expCdf r (fin y) (fin rate) = fin v ∧ |v - cdfExp rate y| ≤ 3 * (1 / 2 ^ 51) := by
  by_cases hy : y < 0
  · exact ⟨0, C149_exp_cdf_neg hr h hy, by rw [cdfExp, if_pos hy]; norm_num⟩
  push Not at hy
  have hq : 0 ≤ rate * y := by positivity
  rw [abs_of_nonneg hy] at hB
  obtain ⟨δ, η, hδ, hη, e⟩ := hr.acc (a := -rate * y) (by rw [neg_mul, abs_neg, abs_of_nonneg hq]; exact hB)
  have m1 : Mid (1:ℝ) := by simpa using mid_mul (O := 1) le_rfl (one_le_pow₀ (by norm_num)) (le_refl (1:ℝ)) (by norm_num)
  have hex : Real.exp (-(rate * y)) ≤ 1 := Real.exp_le_one_iff.2 (by linarith)
  have hex0 := Real.exp_pos (-(rate * y))
  have hE : Near (XF.exp (Rnd.rd r (-fin rate * fin y))) (Real.exp (-(rate * y))) (1 / 2 ^ 51) := by
    refine ⟨Real.exp (-rate * y * (1 + δ) + η), ?_, ?_⟩
    · rw [fin_neg, fin_mul]
      show XF.exp (r (-rate * y)) = _
      rw [e]; rfl
    · have := exp_rel_arg hq (ρ := 1 + δ) (η := η) (ε := 1 / 2 ^ 53) (by simpa using hδ)
        (hη.trans (one_div_le_one_div_of_le (by positivity) (pow_le_pow_right₀ (by norm_num) (by norm_num)))) (by norm_num)
      rw [show -rate * y * (1 + δ) + η = -(rate * y * (1 + δ)) + η by ring]
      refine this.trans (by norm_num)
  have N1 := Near.rd hr hE m1 (by rw [abs_of_pos hex0]; exact hex) (by norm_num)
  have N2 := Near.rd hr (Near.sub (near_fin 1) N1) m1 (by rw [abs_le]; constructor <;> linarith) (by norm_num)
  obtain ⟨b, hb, hb2⟩ := N2
  refine ⟨max b 0, ?_, ?_⟩
  · unfold Rnd.expCdf
    simp only [XF.one_def, XF.zero_def, hb, fin_max]
  · rw [cdfExp, if_neg (not_lt.2 hy)]
    have h3 : (1 - Real.exp (-(rate * y))) = max (1 - Real.exp (-(rate * y))) 0 := (max_eq_left (by linarith)).symm
    rw [h3]
    refine (abs_max_sub_max_le_abs _ _ _).trans (hb2.trans (by norm_num))

example : ∃ v, Rnd.expCdf rn64 (fin 5) (fin 2) = fin v ∧ |v - cdfExp 2 5| ≤ 3 * (1 / 2 ^ 51) :=
  C149_exp_cdf rn64_nearest.toBinary64 (by norm_num)
    (lt_of_lt_of_le (by norm_num [abs_of_pos] : (2:ℝ) * |5| < 2 ^ 4) (pow_le_pow_right₀ (by norm_num) (by norm_num)))

/-- `crps_exponential`: the error is at most `(|obs| + 1 / rate) / 2 ^ 46`. -/
theorem C149_exponential {r : ℝ → XF} (hr : Binary64 r) {rate y : ℝ} (h1 : 1 / 2 ^ 400 ≤ rate) (h2 : rate ≤ 2 ^ 400)
    (hy : |y| ≤ 2 ^ 400) :
    ∃ v, Rnd.crpsExponential r (fin y) (fin rate) = fin v ∧
      |v - crps (cdfExp rate) y| ≤ (|y| + 1 / rate) / 2 ^ 46 := by
  have h : 0 < rate := lt_of_lt_of_le (by positivity) h1
  have hB : rate * |y| < 2 ^ 1023 := by
    calc rate * |y| ≤ 2 ^ 400 * 2 ^ 400 := mul_le_mul h2 hy (abs_nonneg _) (by positivity)
      _ = 2 ^ 800 := by rw [← pow_add]
      _ < 2 ^ 1023 := pow_lt_pow_right₀ (by norm_num) (by norm_num)
  have hF : Near (Rnd.expCdf r (fin y) (fin rate)) (cdfExp rate y) (3 * (1 / 2 ^ 51)) := C149_exp_cdf hr h hB
  have hval : crps (cdfExp rate) y = |y| - 2 * cdfExp rate y / rate + 1 / (2 * rate) := by
    have e := (C44_exponential h y).2
    unfold Closed.exponential at e
    have ec : Stats.expCdf (fin y) (fin rate) = fin (cdfExp rate y) := by
      unfold Stats.expCdf
      rw [fin_neg, fin_mul]
      simp only [XF.exp, XF.one_def, XF.zero_def, fin_sub, fin_max, cdfExp]
      congr 1
      split_ifs with hn
      · refine max_eq_right ?_
        have : 1 ≤ Real.exp (-rate * y) := Real.one_le_exp (by nlinarith)
        linarith
      · push Not at hn
        rw [neg_mul]
        refine max_eq_left ?_
        have : Real.exp (-(rate * y)) ≤ 1 := Real.exp_le_one_iff.2 (by nlinarith)
        linarith
    rw [ec] at e
    simp only [XF.ofNat_def, XF.one_def, fin_mul, fin_div h.ne', fin_abs, fin_sub,
      fin_div (by positivity : (2 * rate) ≠ 0), fin_add] at e
    exact (XF.fin.inj e).symm
  have hc0 : 0 ≤ cdfExp rate y := by
    unfold cdfExp; split_ifs with hn
    · exact le_rfl
    · push Not at hn
      have : Real.exp (-(rate * y)) ≤ 1 := Real.exp_le_one_iff.2 (by nlinarith)
      linarith
  have hc1 : cdfExp rate y ≤ 1 := by
    unfold cdfExp; split_ifs with hn
    · norm_num
    · have := Real.exp_pos (-(rate * y)); linarith
  have hi : 0 < 1 / rate := by positivity
  have p400 : (0:ℝ) < 2 ^ 400 := by positivity
  have hil : 1 / 2 ^ 400 ≤ 1 / rate := one_div_le_one_div_of_le h h2
  have hiu : 1 / rate ≤ 2 ^ 400 := by
    rw [div_le_iff₀ h]
    rw [div_le_iff₀ p400] at h1
    rwa [mul_comm] at h1
  have hi' : 0 < rate⁻¹ := by positivity
  have hiu2 : 1 / rate ≤ 2 * 2 ^ 400 := hiu.trans (le_mul_of_one_le_left p400.le (by norm_num))
  have mk : ∀ a k : ℝ, 1 / 2 ^ 400 ≤ a → a ≤ 2 * 2 ^ 400 → 1 ≤ k → k ≤ 2 ^ 50 → Mid (k * a) := by
    intro a k ha hb hk hk'
    refine Mid.of (le_trans ?_ ha) (hb.trans ?_) hk hk'
    · exact one_div_le_one_div_of_le (by positivity) (pow_le_pow_right₀ (by norm_num) (by norm_num))
    · rw [← pow_succ']
      exact pow_le_pow_right₀ (by norm_num) (by norm_num)
  have m2 : Mid (2:ℝ) := by simpa using mid_mul (O := 1) le_rfl (one_le_pow₀ (by norm_num)) (by norm_num : (1:ℝ) ≤ 2) (by norm_num)
  have t2 : |(2:ℝ)| = 2 := abs_of_pos (by norm_num)
  obtain ⟨D, hD⟩ : ∃ D, D = |y| + 1 / rate := ⟨_, rfl⟩
  have hDl : 1 / 2 ^ 400 ≤ D := by rw [hD]; linarith [abs_nonneg y]
  have hDu : D ≤ 2 * 2 ^ 400 := by rw [hD, two_mul]; exact add_le_add hy hiu
  have hD0 : 0 < D := lt_of_lt_of_le (by positivity) hDl
  have hiD : 1 / rate ≤ D := by rw [hD]; linarith [abs_nonneg y]
  have hyD : |y| ≤ D := by rw [hD]; linarith
  have N1 := Near.rd hr (Near.smul 2 hF) m2 (by rw [abs_of_nonneg (by positivity)]; linarith) (by rw [t2]; norm_num)
  have N1' := (N1.mono (e' := 8 * (1 / 2 ^ 51)) (by rw [t2]; norm_num))
  have hle : 2 * cdfExp rate y / rate ≤ 2 * (1 / rate) := by
    rw [mul_one_div]; exact div_le_div_of_nonneg_right (by linarith) h.le
  have hle0 : 0 ≤ 2 * cdfExp rate y / rate := by positivity
  have N2 := Near.rd hr ((Near.div h N1').mono (e' := 8 * (1 / rate) * (1 / 2 ^ 51)) (le_of_eq (by ring)))
    (mk (1 / rate) 2 hil hiu2 (by norm_num) (by norm_num))
    (by rw [abs_of_nonneg hle0]; exact hle) (by norm_num; linarith)
  have N2' := N2.mono (e' := 10 * D * (1 / 2 ^ 51)) (by norm_num; norm_num at hiD; linarith)
  have N3 := Near.rd hr (Near.sub (near_fin |y|) N2') (mk D 2 hDl hDu (by norm_num) (by norm_num))
    (by rw [abs_le]; constructor <;> linarith [abs_nonneg y]) (by norm_num; linarith)
  have msz : ∀ a : ℝ, 1 / 2 ^ 401 ≤ a → a ≤ 2 ^ 401 → Mid |a| := by
    intro a ha hb
    rw [abs_of_pos (lt_of_lt_of_le (by positivity) ha)]
    exact ⟨le_trans (one_div_le_one_div_of_le (by positivity) (pow_le_pow_right₀ (by norm_num) (by norm_num))) ha,
      hb.trans (pow_le_pow_right₀ (by norm_num) (by norm_num))⟩
  have e401 : (2:ℝ) ^ 401 = 2 * 2 ^ 400 := pow_succ' _ _
  have R1 : Rel (fin 2 * fin rate) (2 * rate) 0 := ⟨2 * rate, fin_mul _ _, by simp⟩
  have R2 := R1.rd hr (by norm_num) (msz (2 * rate) (by
      refine le_trans ?_ (by linarith : rate ≤ 2 * rate)
      exact le_trans (one_div_le_one_div_of_le (by positivity) (pow_le_pow_right₀ (by norm_num) (by norm_num))) h1)
    (by rw [e401]; exact mul_le_mul_of_nonneg_left h2 (by norm_num)))
  have hhalf : 1 / (2 * rate) ≤ 1 / rate := one_div_le_one_div_of_le h (by linarith)
  have R3 := (R2.inv (by positivity) (by norm_num)).rd hr (by norm_num) (msz (1 / (2 * rate)) (by
      refine one_div_le_one_div_of_le (by positivity) ?_
      rw [e401]; exact mul_le_mul_of_nonneg_left h2 (by norm_num)) (by rw [e401]; exact hhalf.trans hiu2))
  have R3' : Near (Rnd.rd r (fin 1 / Rnd.rd r (fin 2 * fin rate))) (1 / (2 * rate)) (3 * D * (1 / 2 ^ 51)) := by
    refine Near.mono R3 ?_
    rw [abs_of_pos (by positivity)]
    refine (mul_le_mul_of_nonneg_left (hhalf.trans hiD) (by positivity)).trans ?_
    norm_num; linarith
  have hh0 : 0 < 1 / (2 * rate) := by positivity
  have N4 := Near.rd hr (Near.add N3 R3') (mk D 3 hDl hDu (by norm_num) (by norm_num))
    (by rw [abs_le]; constructor <;> linarith [abs_nonneg y]) (by norm_num; linarith)
  obtain ⟨v, hv, hv2⟩ := N4
  refine ⟨v, ?_, ?_⟩
  · rw [← hv]
    unfold Rnd.crpsExponential
    simp only [XF.one_def, XF.ofNat_def, fin_abs]
  · rw [hval, ← hD]
    refine hv2.trans ?_
    norm_num; linarith

example : ∃ v, Rnd.crpsExponential rn64 (fin 5) (fin 2) = fin v ∧ |v - crps (cdfExp 2) 5| ≤ (5 + 1 / 2) / 2 ^ 46 := by
  obtain ⟨v, a, b⟩ := C149_exponential rn64_nearest.toBinary64 (rate := 2) (y := 5)
    (le_trans (by rw [div_le_one (by positivity)]; exact one_le_pow₀ (by norm_num)) (by norm_num : (1:ℝ) ≤ 2))
    (le_trans (by norm_num : (2:ℝ) ≤ 2 ^ 2) (pow_le_pow_right₀ (by norm_num) (by norm_num)))
    (le_trans (by norm_num [abs_of_pos] : |(5:ℝ)| ≤ 2 ^ 3) (pow_le_pow_right₀ (by norm_num) (by norm_num)))
  exact ⟨v, a, b.trans (by norm_num [abs_of_pos])⟩

end Verif
