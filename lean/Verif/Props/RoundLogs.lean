import Verif.Lemmas.RoundLogs
import Verif.Lemmas.Nearest64
import Verif.Props.Rounding

/-!
# C151: accuracy of log scores in binary64

The functions of `Model/Rounding.lean` without rounding are those of the exact model (`C129_exact`).
-/

noncomputable section

open scoped Classical

namespace Verif

open XF Spec

variable {r : ℝ → XF} (hr : Binary64 r)
include hr

omit hr in
theorem moderate_example : Moderate 5 1 2 :=
  ⟨le_trans (by rw [div_le_one (by positivity)]; exact one_le_pow₀ (by norm_num)) (by norm_num : (1:ℝ) ≤ 2),
    le_self_pow₀ (by norm_num) (by norm_num), by
      have : (2:ℝ) ^ 2 ≤ 2 ^ 400 := pow_le_pow_right₀ (by norm_num) (by norm_num)
      norm_num at this ⊢; exact this⟩

/-- What is proved of C151 for `logs_laplace`.  Missing: observations so far away that the density is near the
smallest number, where it is false (`C151_false`). -/
theorem C151_laplace_partial {y μ σ : ℝ} (h : Moderate y μ σ) (hz : |(y - μ) / σ| + |Real.log σ| ≤ 680) :
    ∃ s : ℝ, Rnd.logsLaplace r (fin y) (fin μ) (fin σ) = fin s ∧
      |s - -Real.log (densLaplace μ σ y)| ≤ (|(y - μ) / σ| + 2 + |Real.log σ|) / 2 ^ 47 := by
  have hp := h.pos
  set z := (y - μ) / σ with hzd
  have hz0 := abs_nonneg z
  have hl0 := abs_nonneg (Real.log σ)
  obtain ⟨S, hS⟩ : ∃ S, S = |z| + 2 + |Real.log σ| := ⟨_, rfl⟩
  have l2 : |Real.log 2| ≤ 1 := by
    rw [abs_of_pos (Real.log_pos (by norm_num))]; linarith [Real.log_two_lt_d9]
  obtain ⟨W, hW, hWz⟩ := std_nearS hr h (S := S) (by rw [hS]; linarith)
  have n1 : Near (-XF.abs (fin W)) (-|z|) (2 * S * (1 / 2 ^ 51)) := by
    refine ⟨-|W|, by simp, ?_⟩
    rw [show -|W| - -|z| = -(|W| - |z|) by ring, abs_neg]
    exact (abs_abs_sub_abs_le _ _).trans hWz
  have n2 := LNear.rdS hr (LNear.exp n1) (by linarith) (by linarith) (by rw [abs_neg, abs_abs]; linarith) (by norm_num)
  have n3 := (n2.div (LNear.fin two_pos)).mono (e' := 4 * S * (1 / 2 ^ 51)) (by rw [add_zero]; norm_num)
  have n4 := LNear.rdS hr n3 (by linarith) (by linarith)
    (by refine (abs_sub _ _).trans ?_; rw [abs_neg, abs_abs]; linarith) (by norm_num)
  have n5 := logs_final hr hp n4 (by linarith) (by linarith)
    (by have := abs_sub (-|z|) (Real.log 2); rw [abs_neg, abs_abs] at this; linarith) (by norm_num)
  obtain ⟨b, hb, hb2⟩ := n5
  refine ⟨-b, ?_, ?_⟩
  · unfold Rnd.logsLaplace Rnd.laplacePdf
    rw [hW, XF.ofNat_def, hb, fin_neg]
  · have e : Real.log (densLaplace μ σ y) = -|z| - Real.log 2 - Real.log σ := by
      unfold densLaplace
      rw [Real.log_div (Real.exp_pos _).ne' (by positivity), Real.log_exp, Real.log_mul two_ne_zero hp.ne']
      ring
    rw [e, show -b - -(-|z| - Real.log 2 - Real.log σ) = -(b - (-|z| - Real.log 2 - Real.log σ)) by ring, abs_neg, ← hS]
    refine hb2.trans ?_
    rw [show S / 2 ^ 47 = 16 * (S * (1 / 2 ^ 51)) by ring]
    have : 0 ≤ S * (1 / 2 ^ 51) := mul_nonneg (by linarith) (by positivity)
    linarith

omit hr in
/-- The hypotheses hold for observation 5, location 1 and scale 2, with rounding to nearest. -/
example : ∃ s : ℝ, Rnd.logsLaplace rn64 (fin 5) (fin 1) (fin 2) = fin s ∧
    |s - -Real.log (densLaplace 1 2 5)| ≤ (|(5 - 1) / 2| + 2 + |Real.log 2|) / 2 ^ 47 :=
  C151_laplace_partial rn64_nearest.toBinary64 moderate_example
    (by rw [abs_of_pos (Real.log_pos (by norm_num : (1:ℝ) < 2))]; norm_num; linarith [Real.log_two_lt_d9])

/-- What is proved of C151 for `logs_logistic`.  Missing: observations so far away that the square in the density
is near the largest number, where it is false (`C151_false`). -/
theorem C151_logistic_partial {y μ σ : ℝ} (h : Moderate y μ σ) (hz : 2 * |(y - μ) / σ| + |Real.log σ| ≤ 680) :
    ∃ s : ℝ, Rnd.logsLogistic r (fin y) (fin μ) (fin σ) = fin s ∧
      |s - -Real.log (densLogistic μ σ y)| ≤ (2 * |(y - μ) / σ| + 3 + |Real.log σ|) / 2 ^ 46 := by
  have hp := h.pos
  set z := (y - μ) / σ with hzd
  have hz0 := abs_nonneg z
  have hl0 := abs_nonneg (Real.log σ)
  obtain ⟨S, hS⟩ : ∃ S, S = 2 * |z| + 3 + |Real.log σ| := ⟨_, rfl⟩
  obtain ⟨W, hW, hWz⟩ := std_nearS hr h (S := S) (by rw [hS]; linarith)
  have n1 : Near (-fin W) (-z) (2 * S * (1 / 2 ^ 51)) := by
    refine ⟨-W, by simp, ?_⟩
    rw [show -W - -z = -(W - z) by ring, abs_neg]
    exact hWz
  have n2 := LNear.rdS hr (LNear.exp n1) (by linarith) (by linarith) (by rw [abs_neg]; linarith) (by norm_num)
  -- the logarithm of `1 + exp (-z)` lies between 0 and `|z| + 1`
  have hz1 := neg_abs_le z
  have hz2 := le_abs_self z
  have hL0 : 0 ≤ Real.log (1 + Real.exp (-z)) := Real.log_nonneg (by linarith [Real.exp_pos (-z)])
  have hL1 : Real.log (1 + Real.exp (-z)) ≤ |z| + 1 := by
    have h1 := (log_one_add_exp_lip (p := 0) (q := |z|) hz0).2
    have h2 := (log_one_add_exp_lip (p := -z) (q := |z|) (by linarith)).1
    rw [Real.exp_zero, show (1:ℝ) + 1 = 2 by norm_num] at h1
    linarith [Real.log_two_lt_d9]
  obtain ⟨L, hL⟩ : ∃ L, L = Real.log (1 + Real.exp (-z)) := ⟨_, rfl⟩
  rw [← hL] at hL0 hL1
  have n3 := n2.one_add
  rw [← hL] at n3
  have n4 := LNear.rdS hr n3 (by linarith) (by linarith) (by rw [abs_of_nonneg hL0]; linarith) (by norm_num)
  have n5 := n4.sq.mono (e' := 12 * S * (1 / 2 ^ 51)) (le_of_eq (by ring))
  have n6 := LNear.rdS hr n5 (by linarith) (by linarith)
    (by rw [abs_of_nonneg (by linarith)]; linarith) (by norm_num)
  have n7 := (n2.div n6).mono (e' := 18 * S * (1 / 2 ^ 51)) (le_of_eq (by ring))
  -- the logarithm of the standard density
  have hq : |-z - 2 * L| ≤ |z| + 2 := by
    have hs : z + L = Real.log (1 + Real.exp z) := by
      rw [hL]
      nth_rw 1 [← Real.log_exp z]
      rw [← Real.log_mul (Real.exp_pos _).ne' (by linarith [Real.exp_pos (-z)])]
      congr 1
      rw [mul_add, ← Real.exp_add]; simp; ring
    have h1 : 0 ≤ z + L := by rw [hs]; exact Real.log_nonneg (by linarith [Real.exp_pos z])
    rw [show -z - 2 * L = -((z + L) + L) by ring, abs_neg, abs_of_nonneg (by linarith)]
    have h3 := (log_one_add_exp_lip (p := 0) (q := |z|) hz0).2
    rw [Real.exp_zero, show (1:ℝ) + 1 = 2 by norm_num] at h3
    have h4 := Real.log_two_lt_d9
    rcases le_total 0 z with hp' | hp'
    · have h5 : L ≤ Real.log 2 := by
        rw [hL]; apply Real.log_le_log (by linarith [Real.exp_pos (-z)])
        linarith [Real.exp_le_one_iff.2 (neg_nonpos.2 hp')]
      rw [abs_of_nonneg hp']; linarith
    · have h5 : z + L ≤ Real.log 2 := by
        rw [hs]; apply Real.log_le_log (by linarith [Real.exp_pos z])
        linarith [Real.exp_le_one_iff.2 hp']
      rw [abs_of_nonpos hp']; linarith
  have n8 := LNear.rdS hr n7 (by linarith) (by linarith) (by linarith) (by norm_num)
  have n9 := logs_final hr hp n8 (by linarith) (by linarith) (by linarith) (by norm_num)
  obtain ⟨b, hb, hb2⟩ := n9
  refine ⟨-b, ?_, ?_⟩
  · unfold Rnd.logsLogistic Rnd.logisPdf
    rw [hW, XF.one_def, hb, fin_neg]
  · have e : Real.log (densLogistic μ σ y) = -z - 2 * L - Real.log σ := by
      unfold densLogistic
      have h1 : 0 < 1 + Real.exp (-z) := by linarith [Real.exp_pos (-z)]
      rw [Real.log_div (Real.exp_pos _).ne' (by positivity), Real.log_exp,
        Real.log_mul hp.ne' (by positivity), Real.log_pow, hL]
      push_cast; ring
    rw [e, show -b - -(-z - 2 * L - Real.log σ) = -(b - (-z - 2 * L - Real.log σ)) by ring, abs_neg, ← hS]
    refine hb2.trans ?_
    rw [show S / 2 ^ 46 = 32 * (S * (1 / 2 ^ 51)) by ring]
    have : 0 ≤ S * (1 / 2 ^ 51) := mul_nonneg (by linarith) (by positivity)
    linarith

omit hr in
/-- The hypotheses hold for observation 5, location 1 and scale 2, with rounding to nearest. -/
example : ∃ s : ℝ, Rnd.logsLogistic rn64 (fin 5) (fin 1) (fin 2) = fin s ∧
    |s - -Real.log (densLogistic 1 2 5)| ≤ (2 * |(5 - 1) / 2| + 3 + |Real.log 2|) / 2 ^ 46 :=
  C151_logistic_partial rn64_nearest.toBinary64 moderate_example
    (by rw [abs_of_pos (Real.log_pos (by norm_num : (1:ℝ) < 2))]; norm_num; linarith [Real.log_two_lt_d9])

/-- The logarithm of the constant in the normal density. -/
theorem norm_const_near : LNear (Rnd.rd r (1 / Rnd.rd r (XF.sqrt (Rnd.rd r (2 * Rnd.rd r XF.pi)))))
    (-(Real.log (2 * Real.pi) / 2)) (6 * (1 / 2 ^ 51)) := by
  have hpi3 := Real.pi_gt_three
  have hpi4 := Real.pi_le_four
  have b1 : |Real.log Real.pi| ≤ 4 := by
    rw [abs_of_nonneg (Real.log_nonneg (by linarith))]
    linarith [Real.log_le_sub_one_of_pos Real.pi_pos]
  have b2 : 0 ≤ Real.log (2 * Real.pi) := Real.log_nonneg (by linarith)
  have b3 : Real.log (2 * Real.pi) ≤ 8 := by
    linarith [Real.log_le_sub_one_of_pos (by positivity : 0 < 2 * Real.pi)]
  have h1 := LNear.rd hr (LNear.fin Real.pi_pos) (by linarith) zero_le_one
  have h2 := ((LNear.fin (two_pos : (0:ℝ) < 2)).mul h1).congr (Real.log_mul two_ne_zero Real.pi_ne_zero).symm
  have h3 := LNear.rd hr h2 (by rw [abs_of_nonneg b2]; linarith) (by norm_num)
  have h4 := LNear.rd hr h3.sqrt (by rw [abs_of_nonneg (by linarith)]; linarith) (by norm_num)
  have h5 := (LNear.fin (one_pos : (0:ℝ) < 1)).div h4
  rw [Real.log_one, zero_sub] at h5
  have h6 := LNear.rd hr h5 (by rw [abs_neg, abs_of_nonneg (by linarith)]; linarith) (by norm_num)
  exact h6.mono (by norm_num)

/-- What is proved of C151 for `logs_normal`.  Missing: observations so far away that the density is near the
smallest number, where it is false (`C151_false`). -/
theorem C151_normal_partial {y μ σ : ℝ} (h : Moderate y μ σ) (hz : ((y - μ) / σ) ^ 2 + |Real.log σ| ≤ 680) :
    ∃ s : ℝ, Rnd.logsNormal r (fin y) (fin μ) (fin σ) = fin s ∧
      |s - -Real.log (densNormal μ σ y)| ≤ (((y - μ) / σ) ^ 2 + 5 + |Real.log σ|) / 2 ^ 46 := by
  have hp := h.pos
  set z := (y - μ) / σ with hzd
  have hz0 := abs_nonneg z
  have hsq := sq_abs z
  have hl0 := abs_nonneg (Real.log σ)
  obtain ⟨S, hS⟩ : ∃ S, S = z ^ 2 + 5 + |Real.log σ| := ⟨_, rfl⟩
  have hε : (0:ℝ) < 1 / 2 ^ 51 := by positivity
  have hε1 : (1:ℝ) / 2 ^ 51 ≤ 1 / 1000 := by norm_num
  have hpi3 := Real.pi_gt_three
  have hpi4 := Real.pi_le_four
  have b2 : 0 ≤ Real.log (2 * Real.pi) := Real.log_nonneg (by linarith)
  have b3 : Real.log (2 * Real.pi) ≤ 8 := by
    linarith [Real.log_le_sub_one_of_pos (by positivity : 0 < 2 * Real.pi)]
  obtain ⟨W, hW, hWz⟩ := std_near hr h
  have z1 : |z| ≤ 30 := by nlinarith
  have n1 : Near (fin W ^ 2) (z ^ 2) (8 * S * (1 / 2 ^ 51)) := by
    refine ⟨W ^ 2, fin_pow _ _, ?_⟩
    rw [show W ^ 2 - z ^ 2 = (W - z) * ((W - z) + 2 * z) by ring, abs_mul]
    have h1 : |(W - z) + 2 * z| ≤ 2 * (|z| + 1) := by
      refine (abs_add_le _ _).trans ?_
      rw [abs_mul, abs_of_pos (two_pos : (0:ℝ) < 2)]
      have : |W - z| ≤ 2 := by
        refine hWz.trans ?_
        nlinarith
      linarith
    calc |W - z| * |W - z + 2 * z| ≤ (2 * (|z| + 1) * (1 / 2 ^ 51)) * (2 * (|z| + 1)) :=
          mul_le_mul hWz h1 (abs_nonneg _) (by positivity)
      _ = (4 * (|z| + 1) ^ 2) * (1 / 2 ^ 51) := by ring
      _ ≤ _ := mul_le_mul_of_nonneg_right (by nlinarith [sq_nonneg (|z| - 1)]) hε.le
  have S1 : 1 ≤ S := by rw [hS]; nlinarith
  have S2 : S ≤ 690 := by linarith
  have n2 := Near.rd hr n1 (mid_S S1 S2) (by rw [abs_of_nonneg (sq_nonneg z), hS]; linarith) (by nlinarith)
  have n3 : Near (-Rnd.rd r (fin W ^ 2) / fin 2) (-(z ^ 2 / 2)) (5 * S * (1 / 2 ^ 51)) := by
    obtain ⟨b, hb, hb2⟩ := n2
    rw [hb, fin_neg, fin_div two_ne_zero]
    refine ⟨_, rfl, ?_⟩
    rw [show -b / 2 - -(z ^ 2 / 2) = -((b - z ^ 2) / 2) by ring, abs_neg, abs_div, abs_of_pos (two_pos : (0:ℝ) < 2),
      div_le_iff₀ two_pos]
    nlinarith
  have n4 := Near.rd hr n3 (mid_S S1 S2) (by rw [abs_neg, abs_of_nonneg (by positivity), hS]; linarith [sq_nonneg z])
    (by nlinarith)
  have n5 := (LNear.exp n4).mono (e' := 6 * S * (1 / 2 ^ 51)) (le_of_eq (by ring))
  have n6 := LNear.rdS hr n5 S1 S2 (by rw [abs_neg, abs_of_nonneg (by positivity), hS]; linarith [sq_nonneg z])
    (by norm_num)
  have n7 := ((norm_const_near hr).mul n6).mono (e' := 14 * S * (1 / 2 ^ 51)) (by nlinarith)
  have hq : |-(Real.log (2 * Real.pi) / 2) + -(z ^ 2 / 2)| ≤ z ^ 2 + 4 := by
    rw [← neg_add, abs_neg, abs_of_nonneg (by positivity)]
    linarith [sq_nonneg z]
  have n8 := LNear.rdS hr n7 S1 S2 (by linarith) (by norm_num)
  have n9 := logs_final hr hp n8 S1 S2 (by linarith) (by norm_num)
  obtain ⟨b, hb, hb2⟩ := n9
  refine ⟨-b, ?_, ?_⟩
  · unfold Rnd.logsNormal Rnd.normPdf
    rw [hW]
    simp only [XF.ofNat_def, XF.one_def] at hb ⊢
    rw [hb, fin_neg, fin_mul, neg_one_mul]
  · have e : Real.log (densNormal μ σ y) = -(Real.log (2 * Real.pi) / 2) + -(z ^ 2 / 2) - Real.log σ := by
      unfold densNormal φ
      rw [Real.log_div (by positivity) hp.ne', Real.log_div (Real.exp_pos _).ne' (by positivity), Real.log_exp,
        Real.log_sqrt (by positivity)]
      ring
    rw [e]
    rw [show -b - -(-(Real.log (2 * Real.pi) / 2) + -(z ^ 2 / 2) - Real.log σ)
      = -(b - (-(Real.log (2 * Real.pi) / 2) + -(z ^ 2 / 2) - Real.log σ)) by ring, abs_neg, ← hS]
    refine hb2.trans ?_
    rw [show S / 2 ^ 46 = 32 * (S * (1 / 2 ^ 51)) by ring]
    have : 0 ≤ S * (1 / 2 ^ 51) := mul_nonneg (by linarith) (by positivity)
    linarith

omit hr in
/-- The hypotheses hold for observation 5, mean 1 and standard deviation 2, with rounding to nearest. -/
example : ∃ s : ℝ, Rnd.logsNormal rn64 (fin 5) (fin 1) (fin 2) = fin s ∧
    |s - -Real.log (densNormal 1 2 5)| ≤ (((5 - 1) / 2) ^ 2 + 5 + |Real.log 2|) / 2 ^ 46 :=
  C151_normal_partial rn64_nearest.toBinary64 moderate_example
    (by rw [abs_of_pos (Real.log_pos (by norm_num : (1:ℝ) < 2))]; norm_num; linarith [Real.log_two_lt_d9])

/-- What is proved of C151 for `logs_exponential`.  Missing: observations so far away that the density is near the
smallest number, where it is false (`C151_false`). -/
theorem C151_exponential_partial {y lam : ℝ} (hy : 0 ≤ y) (hl : 0 < lam) (hz : lam * y + |Real.log lam| ≤ 680) :
    ∃ s : ℝ, Rnd.logsExponential r (fin y) (fin lam) = fin s ∧
      |s - -Real.log (densExp lam y)| ≤ (lam * y + 1 + |Real.log lam|) / 2 ^ 48 := by
  have hz0 : 0 ≤ lam * y := by positivity
  have hl0 := abs_nonneg (Real.log lam)
  obtain ⟨S, hS⟩ : ∃ S, S = lam * y + 1 + |Real.log lam| := ⟨_, rfl⟩
  have S1 : 1 ≤ S := by linarith
  have S2 : S ≤ 690 := by linarith
  have hε : (0:ℝ) < 1 / 2 ^ 51 := by positivity
  have hε1 : (1:ℝ) / 2 ^ 51 ≤ 1 / 1000 := by norm_num
  have n0 := Near.rd hr (near_fin (-lam * y)) (mid_S S1 S2) (by rw [neg_mul, abs_neg, abs_of_nonneg hz0]; linarith)
    (by linarith)
  have n1 := (LNear.exp n0).mono (e' := 1 * S * (1 / 2 ^ 51)) (le_of_eq (by ring))
  have n2 := LNear.rdS hr n1 S1 S2 (by rw [neg_mul, abs_neg, abs_of_nonneg hz0]; linarith) (by norm_num)
  have n3 := ((LNear.fin hl).mul n2).mono (e' := 3 * S * (1 / 2 ^ 51)) (le_of_eq (by ring))
  have hq : |Real.log lam + -lam * y| ≤ S := by
    refine (abs_add_le _ _).trans ?_
    rw [neg_mul, abs_neg, abs_of_nonneg hz0]; linarith
  have n4 := LNear.rdS hr n3 S1 S2 hq (by norm_num)
  have n5 := Near.rd hr n4.log (mid_S S1 S2) hq (by nlinarith)
  obtain ⟨b, hb, hb2⟩ := n5
  refine ⟨-b, ?_, ?_⟩
  · unfold Rnd.logsExponential Rnd.expPdf
    simp only [XF.zero_def, fin_lt, not_lt.2 hy, if_false, fin_neg, fin_mul]
    rw [hb, fin_neg]
  · have e : Real.log (densExp lam y) = Real.log lam + -lam * y := by
      unfold densExp
      rw [if_neg (not_lt.2 hy), Real.log_mul hl.ne' (Real.exp_pos _).ne', Real.log_exp]; ring
    rw [e, show -b - -(Real.log lam + -lam * y) = -(b - (Real.log lam + -lam * y)) by ring, abs_neg, ← hS]
    refine hb2.trans ?_
    rw [show S / 2 ^ 48 = 8 * (S * (1 / 2 ^ 51)) by ring]
    have : 0 ≤ S * (1 / 2 ^ 51) := mul_nonneg (by linarith) (by positivity)
    linarith

omit hr in
/-- The hypotheses hold for observation 3 and rate 2, with rounding to nearest. -/
example : ∃ s : ℝ, Rnd.logsExponential rn64 (fin 3) (fin 2) = fin s ∧
    |s - -Real.log (densExp 2 3)| ≤ (2 * 3 + 1 + |Real.log 2|) / 2 ^ 48 :=
  C151_exponential_partial rn64_nearest.toBinary64 (by norm_num) (by norm_num)
    (by rw [abs_of_pos (Real.log_pos (by norm_num : (1:ℝ) < 2))]; linarith [Real.log_two_lt_d9])

/-- C151 fails far from the location: the computed scores are not numbers at all, although the law has a positive
density there. -/
theorem C151_false {y μ σ : ℝ} (h : Moderate y μ σ) :
    (40 * σ ≤ |y - μ| → 0 < densNormal μ σ y ∧ ¬ ∃ s : ℝ, Rnd.logsNormal r (fin y) (fin μ) (fin σ) = fin s) ∧
    (747 * σ ≤ |y - μ| → 0 < densLaplace μ σ y ∧ ¬ ∃ s : ℝ, Rnd.logsLaplace r (fin y) (fin μ) (fin σ) = fin s) ∧
    (358 * σ ≤ μ - y → μ - y ≤ 708 * σ →
      0 < densLogistic μ σ y ∧ ¬ ∃ s : ℝ, Rnd.logsLogistic r (fin y) (fin μ) (fin σ) = fin s) ∧
    (∀ {x lam : ℝ}, 0 < lam → 746 ≤ lam * x →
      0 < densExp lam x ∧ ¬ ∃ s : ℝ, Rnd.logsExponential r (fin x) (fin lam) = fin s) := by
  have h1 : 1 / 2 ^ 1000 ≤ σ :=
    (one_div_le_one_div_of_le (by positivity) (pow_le_pow_right₀ (by norm_num) (by norm_num))).trans h.1
  have h2 : σ ≤ 2 ^ 1000 := h.2.1.trans (pow_le_pow_right₀ (by norm_num) (by norm_num))
  refine ⟨fun hf => ?_, fun hf => ?_, fun hf hf' => ?_, fun hl hf => ?_⟩
  · obtain ⟨a, b⟩ := C129_normal_false hr h1 h2 hf
    exact ⟨a, by rw [b]; rintro ⟨s, hs⟩; cases hs⟩
  · obtain ⟨a, b⟩ := C129_laplace_false hr h1 h2 hf
    exact ⟨a, by rw [b]; rintro ⟨s, hs⟩; cases hs⟩
  · obtain ⟨a, -, b, -⟩ := C129_logistic_false hr (y := y) (μ := μ) h1 h2
    exact ⟨a, by rw [b hf hf']; rintro ⟨s, hs⟩; cases hs⟩
  · obtain ⟨a, b⟩ := C129_exponential_false hr hl hf
    exact ⟨a, by rw [b]; rintro ⟨s, hs⟩; cases hs⟩

omit hr in
/-- The standard normal law at 50. -/
example : 0 < densNormal 0 1 50 ∧ ¬ ∃ s : ℝ, Rnd.logsNormal rn64 (fin 50) (fin 0) (fin 1) = fin s :=
  (C151_false rn64_nearest.toBinary64 (y := 50) (μ := 0) (σ := 1)
    ⟨by rw [div_le_one (by positivity)]; exact one_le_pow₀ (by norm_num), one_le_pow₀ (by norm_num), by
      have : (2:ℝ) ^ 6 ≤ 2 ^ 400 := pow_le_pow_right₀ (by norm_num) (by norm_num)
      norm_num at this ⊢; exact le_trans (by norm_num) this⟩).1 (by norm_num)

end Verif
