import Verif.Lemmas.RoundBrier

/-! The logarithmic scores with rounding. -/

noncomputable section

open scoped Classical

namespace Verif

open XF Py Spec

theorem Sized.neg {x : XF} {a c k : ℝ} (h : Sized x a c k) : Sized (-x) (-a) c k := by
  obtain ⟨h1, h2, b, rfl, hb⟩ := h
  exact ⟨by rw [abs_neg]; exact h1, h2, -b, rfl, by rw [neg_sub_neg, abs_sub_comm]; exact hb⟩

/-- rounding a number of moderate size -/
theorem rd_mid {r : ℝ → XF} (hr : Binary64 r) {z : ℝ} (hz : |z| ≤ 7 / 2) : ∃ b : ℝ, Rnd.rd r (fin z) = fin b ∧ |b - z| ≤ 1 / 2 ^ 51 := by
  obtain ⟨δ, η, hδ, hη, e⟩ := hr.acc (a := z) (hz.trans_lt (by
    calc (7:ℝ) / 2 < 2 ^ 2 := by norm_num
      _ ≤ 2 ^ 1023 := pow_le_pow_right₀ (by norm_num) (by norm_num)))
  refine ⟨_, e, ?_⟩
  have h1 : |z * δ| ≤ 7 / 2 * (1 / 2 ^ 53) := by
    rw [abs_mul]; exact mul_le_mul hz hδ (abs_nonneg _) (by norm_num)
  have h2 : |η| ≤ 1 / 2 * (1 / 2 ^ 53) := by
    refine hη.trans ?_
    rw [one_div_mul_one_div, ← pow_succ']
    exact one_div_le_one_div_of_le (by positivity) (pow_le_pow_right₀ (by norm_num) (by norm_num))
  rw [show z * (1 + δ) + η - z = z * δ + η by ring]
  refine (abs_add_le _ _).trans ((add_le_add h1 h2).trans (le_of_eq ?_))
  norm_num

theorem log_sub_le {x p E : ℝ} (hp : 0 < p) (hx : |x - p| ≤ E) (hE : E ≤ p / 2) :
    0 < x ∧ |Real.log x - Real.log p| ≤ 2 * E / p := by
  obtain ⟨h1, h2⟩ := abs_le.1 hx
  have hx0 : p / 2 ≤ x := by linarith
  have hx1 : 0 < x := by linarith
  have hE0 : 0 ≤ E := (abs_nonneg _).trans hx
  refine ⟨hx1, abs_le.2 ⟨?_, ?_⟩⟩
  · have := Real.log_le_sub_one_of_pos (div_pos hp hx1)
    rw [Real.log_div hp.ne' hx1.ne'] at this
    have e : p / x - 1 ≤ 2 * E / p := by
      rw [div_sub_one hx1.ne', div_le_div_iff₀ hx1 hp]
      nlinarith
    linarith
  · have := Real.log_le_sub_one_of_pos (div_pos hx1 hp)
    rw [Real.log_div hx1.ne' hp.ne'] at this
    have e : x / p - 1 ≤ 2 * E / p := by
      rw [div_sub_one hp.ne']
      exact div_le_div_of_nonneg_right (by linarith) hp.le
    linarith

/-- the logarithm of a probability that is not small -/
theorem log_size {p : ℝ} (hd : 1 / 2 ^ 49 ≤ p) (hp3 : p ≤ 2) : |Real.log p| + 1 ≤ 2 ^ 50 := by
  have hp0 : 0 < p := lt_of_lt_of_le (by positivity) hd
  have h1 : Real.log p ≤ 2 := (Real.log_le_sub_one_of_pos hp0).trans (by linarith)
  have h2 : -Real.log p ≤ 2 ^ 49 := by
    rw [← Real.log_inv]
    refine (Real.log_le_sub_one_of_pos (inv_pos.2 hp0)).trans ?_
    have : p⁻¹ ≤ 2 ^ 49 := by
      rw [inv_le_comm₀ hp0 (by positivity), ← one_div]; exact hd
    linarith
  have : |Real.log p| ≤ 2 ^ 49 := abs_le.2 ⟨by linarith, h1.trans (by norm_num)⟩
  calc |Real.log p| + 1 ≤ 2 ^ 49 + 1 := by linarith
    _ ≤ 2 ^ 50 := by norm_num

/-- one logarithm -/
theorem log1_near {r : ℝ → XF} (hr : Binary64 r) {u w F O e1 e2 p δ k : ℝ} (hu : |u - F| ≤ e1) (hw : |w - O| ≤ e2)
    (hF0 : 0 ≤ F) (hF : F ≤ 2) (hO0 : 0 ≤ O) (hO : O ≤ 1) (hp : |F + O - 1| = p) (hd : 1 / 2 ^ 49 ≤ δ) (hdp : δ ≤ p)
    (hE : e1 + e2 + 1 / 2 ^ 50 ≤ δ / 2) (hE2 : e1 + e2 ≤ 1 / 4) (hk : 2 * (e1 + e2 + 1 / 2 ^ 50) / δ ≤ k * (1 / 2 ^ 51))
    (hk2 : k ≤ 2 ^ 50) : Sized (Rnd.log1 r (fin w) (fin u)) (-Real.log p) (|Real.log p| + 1) (k + 1) := by
  have hd0 : 0 < δ := lt_of_lt_of_le (by positivity) hd
  have hp0 : 0 < p := hd0.trans_le hdp
  obtain ⟨u1, u2⟩ := abs_le.1 hu
  obtain ⟨w1, w2⟩ := abs_le.1 hw
  have he1 : 0 ≤ e1 := (abs_nonneg _).trans hu
  have he2 : 0 ≤ e2 := (abs_nonneg _).trans hw
  have q : (1:ℝ) / 2 ^ 51 + 1 / 2 ^ 51 = 1 / 2 ^ 50 := by norm_num
  have q1 : (1:ℝ) / 2 ^ 51 ≤ 1 / 4 := by norm_num
  obtain ⟨a, ea, ha⟩ := rd_mid hr (z := u + w) (by rw [abs_le]; constructor <;> linarith)
  obtain ⟨a1, a2⟩ := abs_le.1 ha
  obtain ⟨b, eb, hb⟩ := rd_mid hr (z := a - 1) (by rw [abs_le]; constructor <;> linarith)
  have hbp : |(|b|) - p| ≤ e1 + e2 + 1 / 2 ^ 50 := by
    rw [← hp]
    refine (abs_abs_sub_abs_le _ _).trans ?_
    rw [show b - (F + O - 1) = (b - (a - 1)) + ((a - (u + w)) + ((u - F) + (w - O))) by ring]
    refine (abs_add_le _ _).trans (le_trans (add_le_add hb ((abs_add_le _ _).trans (add_le_add ha
      ((abs_add_le _ _).trans (add_le_add hu hw))))) ?_)
    linarith
  obtain ⟨hb0, hl⟩ := log_sub_le hp0 hbp (hE.trans (by linarith))
  have hE0 : 0 ≤ e1 + e2 + 1 / 2 ^ 50 := (abs_nonneg _).trans hbp
  have hl2 : |Real.log |b| - Real.log p| ≤ k * (1 / 2 ^ 51) :=
    (hl.trans (div_le_div_of_nonneg_left (by linarith) hd0 hdp)).trans hk
  have s : Sized (XF.log (XF.abs (fin b))) (Real.log p) (|Real.log p| + 1) k := by
    refine ⟨by linarith, ?_, Real.log |b|, ?_, ?_⟩
    · have : (1:ℝ) / 2 ^ 1000 ≤ 1 := by rw [div_le_one (by positivity)]; exact one_le_pow₀ (by norm_num)
      have h0 := abs_nonneg (Real.log p)
      linarith only [this, h0]
    · show XF.log (fin |b|) = _
      simp only [XF.log]
      rw [if_pos hb0]
    · refine hl2.trans (le_mul_of_one_le_right ((abs_nonneg _).trans hl2) ?_)
      linarith [abs_nonneg (Real.log p)]
  have big : |Real.log p| + 1 ≤ 2 ^ 1000 :=
    (log_size (hd.trans hdp) (by rw [← hp, abs_le]; constructor <;> linarith)).trans
      (pow_le_pow_right₀ (by norm_num) (by norm_num))
  unfold Rnd.log1
  rw [fin_add, ea, one_fin, fin_sub, eb]
  exact (s.rd hr big hk2).neg

end Verif
