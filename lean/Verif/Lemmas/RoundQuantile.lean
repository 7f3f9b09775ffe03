import Verif.Model.RoundQuantile
import Verif.Lemmas.RoundCrpsInt
import Verif.Props.Quantile

/-! The terms of the quantile form and their sums. -/

noncomputable section

open scoped Classical

namespace Verif

open XF Py Spec

/-- the rounded term of one quantile; the factors `o`, `o'` are the two indicators -/
def pinE (r : ℝ → XF) (y q α : ℝ) (o o' : XF) : XF :=
  Rnd.rd r (Rnd.rd r (Rnd.rd r (o * fin α) * Rnd.rd r (fin y - fin q))
    + Rnd.rd r (Rnd.rd r (o' * Rnd.rd r (1 - fin α)) * Rnd.rd r (fin q - fin y)))

section
variable {r : ℝ → XF} (hr : Nearest64 r)
include hr

theorem rd_isfin {a : ℝ} (h : |a| ≤ 2 ^ 960) : ∃ b, Rnd.rd r (fin a) = fin b := by
  obtain ⟨δ, η, _, _, e⟩ := hr.acc (h.trans_lt (pow_lt_pow_right₀ (by norm_num) (by norm_num)))
  exact ⟨_, e⟩

/-- a term that is switched off -/
theorem off_term {F : XF} {u : ℝ} (hF : ∃ b, F = fin b) (hu : |u| ≤ 2 ^ 960) :
    Rnd.rd r (Rnd.rd r (fin 0 * F) * Rnd.rd r (fin u)) = fin 0 := by
  obtain ⟨b, rfl⟩ := hF
  obtain ⟨c, hc⟩ := rd_isfin hr hu
  rw [fin_mul, zero_mul, rd_zero hr, hc, fin_mul, zero_mul, rd_zero hr]

theorem pinE_near {y q α : ℝ} {o o' : XF} (h : (q ≤ y ∧ o = fin 1 ∧ o' = fin 0) ∨ (y ≤ q ∧ o = fin 0 ∧ o' = fin 1))
    (h1 : 1 / 2 ^ 900 ≤ α) (h2 : α ≤ 1 - 1 / 2 ^ 900) (hd : |q - y| ≤ 2 ^ 960) :
    0 ≤ Spec.pinball α q y ∧ Spec.pinball α q y ≤ 2 ^ 960 ∧ SqNear (1 / 2 ^ 1073) (pinE r y q α o o') (Spec.pinball α q y) 8 4 := by
  have t0 : (0:ℝ) < 1 / 2 ^ 900 := by positivity
  have a0 : 0 ≤ α := t0.le.trans h1
  have h2' : 1 / 2 ^ 900 ≤ 1 - α := by
    generalize (1:ℝ) / 2 ^ 900 = w at *
    linarith
  have a1 : 0 ≤ 1 - α := t0.le.trans h2'
  have u1 : (2:ℝ) ^ 960 ≤ 2 ^ 1000 := pow_le_pow_right₀ (by norm_num) (by norm_num)
  have hd' : |y - q| ≤ 2 ^ 960 := by rw [abs_sub_comm]; exact hd
  have n1 : RelNear (fin α) α 0 := ⟨α, rfl, a0, by simp⟩
  have n2 : RelNear (fin (1 - α)) (1 - α) 0 := ⟨1 - α, rfl, a1, by simp⟩
  have n2' := n2.rd hr (Or.inr h2') (by linarith) (by norm_num)
  unfold pinE
  rw [fin_sub, fin_sub, one_fin, fin_sub]
  rcases h with ⟨hq, rfl, rfl⟩ | ⟨hq, rfl, rfl⟩
  · have e : Spec.pinball α q y = α * (y - q) := by
      unfold Spec.pinball
      exact max_eq_left (by nlinarith)
    rw [off_term hr ⟨_, (n2'.choose_spec).1⟩ hd, fin_mul, one_mul, e]
    have g := intTerm_near hr (u := y - q) (n1.rd hr (Or.inr h1) (by linarith) (by norm_num)) a0 (by linarith) (Or.inr (by linarith)) hd'
      (by norm_num)
    have b : α * (y - q) ≤ 2 ^ 960 := by
      rw [abs_of_nonneg (by linarith)] at hd'
      exact (mul_le_of_le_one_left (by linarith) (by linarith)).trans hd'
    refine ⟨g.1, b, ?_⟩
    obtain ⟨v, e', v0, hv⟩ := g.2
    rw [e', fin_add, add_zero]
    have n3 : SqNear (1 / 2 ^ 1073) (fin v) (α * (y - q)) (0 + 2 + 3) 3 := ⟨v, rfl, v0, hv⟩
    exact (n3.rd hr.toBinary64 unit_abs g.1 (b.trans u1) (by norm_num) (by norm_num)).mono unit_abs.nonneg g.1 (by norm_num) (by norm_num)
  · have e : Spec.pinball α q y = (1 - α) * (q - y) := by
      unfold Spec.pinball
      exact max_eq_right (by nlinarith)
    rw [off_term hr ⟨_, rfl⟩ hd', e]
    have n4 : RelNear (fin 1 * Rnd.rd r (fin (1 - α))) (1 - α) (0 + 2) := by
      obtain ⟨b, hb, hb'⟩ := n2'
      rw [hb, fin_mul, one_mul]
      exact ⟨b, rfl, hb'⟩
    have g := intTerm_near hr (u := q - y) (n4.rd hr (Or.inr h2') (by linarith) (by norm_num)) a1 (by linarith) (Or.inr (by linarith)) hd
      (by norm_num)
    have b : (1 - α) * (q - y) ≤ 2 ^ 960 := by
      rw [abs_of_nonneg (by linarith)] at hd
      exact (mul_le_of_le_one_left (by linarith) (by linarith)).trans hd
    refine ⟨g.1, b, ?_⟩
    obtain ⟨v, e', v0, hv⟩ := g.2
    rw [e', fin_add, zero_add]
    have n3 : SqNear (1 / 2 ^ 1073) (fin v) ((1 - α) * (q - y)) (0 + 2 + 2 + 3) 3 := ⟨v, rfl, v0, hv⟩
    exact (n3.rd hr.toBinary64 unit_abs g.1 (b.trans u1) (by norm_num) (by norm_num)).mono unit_abs.nonneg g.1 (by norm_num) (by norm_num)

/-- sum, mean and doubling -/
theorem pinMean_near {l : List (ℝ × ℝ)} {as : List ℝ} {y : ℝ} {E : List XF} {s : XF} {n : ℝ} (hs : RSum r E s)
    (hE : List.Forall₂ (fun x a => 0 ≤ a ∧ SqNear (1 / 2 ^ 1073) x a 8 4) E as)
    (hsum : as.sum = (l.map fun p => Spec.pinball p.2 p.1 y).sum) (hl : l ≠ []) (hlen : l.length ≤ 2 ^ 20)
    (hn : (E.length : ℝ) = n) (hn2 : n ≤ l.length + 1) (hb : ∀ p ∈ l, 0 ≤ Spec.pinball p.2 p.1 y ∧ Spec.pinball p.2 p.1 y ≤ 2 ^ 960) :
    SqNear (1 / 2 ^ 1073) (Rnd.rd r (2 * Rnd.rd r (s / fin l.length)))
      (2 * ((l.map fun p => Spec.pinball p.2 p.1 y).sum / l.length)) (l.length + 11) 23 := by
  have hM' : (l.length : ℝ) ≤ 2 ^ 20 := by exact_mod_cast hlen
  have hM1 : (1:ℝ) ≤ l.length := by exact_mod_cast List.length_pos_iff.mpr hl
  have hM0 : (0:ℝ) < l.length := by linarith
  have s0 : 0 ≤ (l.map fun p => Spec.pinball p.2 p.1 y).sum := list_sum_nonneg' fun p hp => (hb p hp).1
  have s1 : (l.map fun p => Spec.pinball p.2 p.1 y).sum ≤ (l.length : ℝ) * 2 ^ 960 := sum_map_le fun p hp => (hb p hp).2
  have s2 : (l.map fun p => Spec.pinball p.2 p.1 y).sum ≤ 2 ^ 1000 := by
    refine s1.trans ?_
    calc (l.length : ℝ) * 2 ^ 960 ≤ 2 ^ 20 * 2 ^ 960 := mul_le_mul_of_nonneg_right hM' (by positivity)
      _ = 2 ^ 980 := by rw [← pow_add]
      _ ≤ 2 ^ 1000 := pow_le_pow_right₀ (by norm_num) (by norm_num)
  have m1 : (l.map fun p => Spec.pinball p.2 p.1 y).sum / l.length ≤ 2 ^ 960 := by
    rw [div_le_iff₀ hM0, mul_comm]; exact s1
  have m0 : 0 ≤ (l.map fun p => Spec.pinball p.2 p.1 y).sum / l.length := by positivity
  have k1 : (8:ℝ) + (2 ^ 20 + 1) + 3 ≤ 2 ^ 50 := by norm_num
  have k2 : (5:ℝ) * (2 ^ 20 + 1) ≤ 2 ^ 50 := by norm_num
  have n1 := hs.sqNear hr.toBinary64 unit_abs (by norm_num) hE (by rw [hsum]; exact s2) (by rw [hn]; linarith only [hn2, hM', k1])
    (by rw [hn]; linarith only [hn2, hM', k2])
  rw [hsum, hn] at n1
  have n2 := (n1.div hM0).mono unit_abs.nonneg m0 (k' := l.length + 9) (m' := 10) (by linarith only [hn2])
    (by rw [div_le_iff₀ hM0]; linarith only [hn2, hM1])
  have n3 := (n2.rd hr.toBinary64 unit_abs m0 (m1.trans (pow_le_pow_right₀ (by norm_num) (by norm_num))) (by linarith only [hM', k1])
    (by norm_num)).mulc (c := 2) (by norm_num)
  have b2 : 2 * ((l.map fun p => Spec.pinball p.2 p.1 y).sum / l.length) ≤ 2 ^ 1000 := by
    calc 2 * ((l.map fun p => Spec.pinball p.2 p.1 y).sum / l.length) ≤ 2 * 2 ^ 960 := mul_le_mul_of_nonneg_left m1 (by norm_num)
      _ = 2 ^ 961 := (pow_succ' _ _).symm
      _ ≤ 2 ^ 1000 := pow_le_pow_right₀ (by norm_num) (by norm_num)
  rw [two_fin]
  exact (n3.rd hr.toBinary64 unit_abs (by positivity) b2 (by linarith only [hM', k1]) (by norm_num)).mono unit_abs.nonneg (by positivity)
    (by linarith) (by norm_num)

end

end Verif
