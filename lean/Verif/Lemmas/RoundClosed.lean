import Verif.Model.RoundClosed
import Verif.Lemmas.RoundTail
import Verif.Lemmas.ClosedScale
import Mathlib.Analysis.Real.Pi.Bounds

/-!
# Lemmas on rounded closed forms
-/

noncomputable section

open scoped Classical

namespace Verif

open XF Spec

/-- `exp (-q)` moves little when `q` is changed by a small factor and a small summand. -/
theorem exp_rel_arg {q ρ η ε : ℝ} (hq : 0 ≤ q) (hρ : |ρ - 1| ≤ ε) (hη : |η| ≤ ε) (hε : ε ≤ 1 / 2) :
    |Real.exp (-(q * ρ) + η) - Real.exp (-q)| ≤ 4 * ε := by
  have hε0 : 0 ≤ ε := (abs_nonneg _).trans hη
  have hmv : ∀ a b : ℝ, a ≤ b → Real.exp b - Real.exp a ≤ (b - a) * Real.exp b := by
    intro a b _
    have h1 : Real.exp a = Real.exp b * Real.exp (a - b) := by rw [← Real.exp_add]; congr 1; ring
    have h2 := Real.add_one_le_exp (a - b)
    have h3 := Real.exp_pos b
    rw [h1]; nlinarith
  have hmax : ∀ c : ℝ, c ≤ -q / 2 + ε → (q + 1) * ε * Real.exp c ≤ 4 * ε := by
    intro c hc
    have h1 : Real.exp c ≤ Real.exp (-q / 2) * Real.exp ε := by
      rw [← Real.exp_add]; exact Real.exp_le_exp.2 hc
    have h2 : Real.exp ε ≤ 2 := by
      have := Real.exp_le_exp.2 hε
      refine this.trans ?_
      have h4 := Real.exp_one_lt_d9
      have h5 : Real.exp (1 / 2) * Real.exp (1 / 2) = Real.exp 1 := by rw [← Real.exp_add]; norm_num
      have h6 := Real.exp_pos (1 / 2 : ℝ)
      nlinarith
    have h3 : (q + 1) * Real.exp (-q / 2) ≤ 2 := by
      have h4 := Real.add_one_le_exp (q / 2)
      have h5 : Real.exp (q / 2) * Real.exp (-q / 2) = 1 := by rw [← Real.exp_add]; norm_num [neg_div]
      have h6 := Real.exp_pos (-q / 2)
      nlinarith
    have h7 := Real.exp_pos (-q / 2)
    have h8 := Real.exp_pos ε
    calc (q + 1) * ε * Real.exp c ≤ (q + 1) * ε * (Real.exp (-q / 2) * Real.exp ε) :=
          mul_le_mul_of_nonneg_left h1 (by positivity)
      _ = ε * ((q + 1) * Real.exp (-q / 2)) * Real.exp ε := by ring
      _ ≤ ε * 2 * 2 := by
          refine mul_le_mul (mul_le_mul_of_nonneg_left h3 hε0) h2 h8.le (by positivity)
      _ = 4 * ε := by ring
  have hd : |(-(q * ρ) + η) - -q| ≤ (q + 1) * ε := by
    have e : (-(q * ρ) + η) - -q = -(q * (ρ - 1)) + η := by ring
    rw [e]
    refine (abs_add_le _ _).trans ?_
    rw [abs_neg, abs_mul, abs_of_nonneg hq]
    nlinarith [mul_le_mul_of_nonneg_left hρ hq]
  have hup : -(q * ρ) + η ≤ -q / 2 + ε := by
    have h1 := (abs_le.1 hρ).1
    have h2 := (abs_le.1 hη).2
    nlinarith
  rcases le_total (-(q * ρ) + η) (-q) with h | h
  · rw [abs_sub_comm, abs_of_nonneg (sub_nonneg.2 (Real.exp_le_exp.2 h))]
    refine (hmv _ _ h).trans ?_
    refine le_trans (mul_le_mul_of_nonneg_right ?_ (Real.exp_pos _).le) (hmax (-q) (by linarith))
    rw [abs_sub_comm] at hd
    exact (le_abs_self _).trans hd
  · rw [abs_of_nonneg (sub_nonneg.2 (Real.exp_le_exp.2 h))]
    refine (hmv _ _ h).trans ?_
    exact le_trans (mul_le_mul_of_nonneg_right ((le_abs_self _).trans hd) (Real.exp_pos _).le) (hmax _ hup)

/-- The normal distribution function moves little when its argument is changed by a small factor and a small
summand. -/
theorem Φ_rel_arg {x ρ η ε : ℝ} (hρ : |ρ - 1| ≤ ε) (hη : |η| ≤ ε) (hε : ε ≤ 1 / 2) :
    |Φ (x * ρ + η) - Φ x| ≤ 2 * ε := by
  have hε0 : 0 ≤ ε := (abs_nonneg _).trans hη
  have hs : 0 < Real.sqrt (2 * Real.pi) := by positivity
  have hs2 : 2 ≤ Real.sqrt (2 * Real.pi) := by
    rw [Real.le_sqrt (by norm_num) (by positivity)]
    linarith [Real.pi_gt_three]
  have hmv : ∀ (a b c : ℝ), (∀ t ∈ Set.uIcc a b, φ t ≤ c) → |Φ b - Φ a| ≤ c * |b - a| := by
    intro a b c h
    have := Convex.norm_image_sub_le_of_norm_hasDerivWithin_le (f := Φ) (f' := φ) (C := c) (s := Set.uIcc a b)
      (x := a) (y := b) (fun t _ => (Φ_deriv t).hasDerivWithinAt)
      (fun t ht => by
        rw [Real.norm_eq_abs, abs_of_nonneg (by unfold φ; positivity)]
        exact h t ht) (convex_uIcc a b) Set.left_mem_uIcc Set.right_mem_uIcc
    simpa [Real.norm_eq_abs] using this
  have hφ : ∀ t z : ℝ, 0 ≤ z → z ≤ |t| → φ t ≤ Real.exp (-z ^ 2 / 2) / 2 := by
    intro t z hz ht
    unfold φ
    have h1 : z ^ 2 ≤ t ^ 2 := by rw [← sq_abs t]; exact pow_le_pow_left₀ hz ht 2
    exact div_le_div₀ (Real.exp_pos _).le (Real.exp_le_exp.2 (by linarith)) (by norm_num) hs2
  have h1 : |Φ (x * ρ) - Φ x| ≤ ε := by
    have hb : ∀ t ∈ Set.uIcc x (x * ρ), φ t ≤ Real.exp (-(|x| / 2) ^ 2 / 2) / 2 := by
      intro t ht
      refine hφ t _ (by positivity) ?_
      have h2 : |t - x| ≤ |x * ρ - x| := Set.abs_sub_left_of_mem_uIcc ht
      have h3 : |x * ρ - x| ≤ |x| * (1 / 2) := by
        rw [show x * ρ - x = x * (ρ - 1) by ring, abs_mul]
        exact mul_le_mul_of_nonneg_left (hρ.trans hε) (abs_nonneg _)
      have h4 := abs_sub_abs_le_abs_sub x t
      rw [abs_sub_comm] at h2
      linarith
    refine (hmv _ _ _ hb).trans ?_
    rw [show x * ρ - x = x * (ρ - 1) by ring, abs_mul]
    have h5 : |x| * Real.exp (-(|x| / 2) ^ 2 / 2) ≤ 2 := by
      have h6 := Real.add_one_le_exp ((|x| / 2) ^ 2 / 2)
      have h7 : Real.exp ((|x| / 2) ^ 2 / 2) * Real.exp (-(|x| / 2) ^ 2 / 2) = 1 := by
        rw [← Real.exp_add, neg_div, add_neg_cancel, Real.exp_zero]
      have h8 := Real.exp_pos (-(|x| / 2) ^ 2 / 2)
      have h9 : |x| ≤ 2 * ((|x| / 2) ^ 2 / 2 + 1) := by nlinarith [sq_nonneg (|x| - 2)]
      calc |x| * Real.exp (-(|x| / 2) ^ 2 / 2) ≤ 2 * ((|x| / 2) ^ 2 / 2 + 1) * Real.exp (-(|x| / 2) ^ 2 / 2) :=
            mul_le_mul_of_nonneg_right h9 h8.le
        _ ≤ 2 * Real.exp ((|x| / 2) ^ 2 / 2) * Real.exp (-(|x| / 2) ^ 2 / 2) :=
            mul_le_mul_of_nonneg_right (by linarith) h8.le
        _ = 2 := by rw [mul_assoc, h7, mul_one]
    have h10 : Real.exp (-(|x| / 2) ^ 2 / 2) / 2 * (|x| * |ρ - 1|)
        = (|x| * Real.exp (-(|x| / 2) ^ 2 / 2)) / 2 * |ρ - 1| := by ring
    rw [h10]
    calc (|x| * Real.exp (-(|x| / 2) ^ 2 / 2)) / 2 * |ρ - 1| ≤ 1 * ε :=
          mul_le_mul (by linarith) hρ (abs_nonneg _) (by norm_num)
      _ = ε := one_mul ε
  have h2 : |Φ (x * ρ + η) - Φ (x * ρ)| ≤ ε := by
    refine (hmv (x * ρ) (x * ρ + η) 1 fun t _ => ?_).trans ?_
    · have := hφ t 0 le_rfl (abs_nonneg _)
      refine this.trans ?_
      norm_num
    · rw [add_sub_cancel_left, one_mul]; exact hη
  have h3 := abs_sub_le (Φ (x * ρ + η)) (Φ (x * ρ)) (Φ x)
  linarith

theorem Rel.sqrt {x : XF} {a : ℝ} {k : ℕ} (h : Rel x a k) (ha : 0 < a) (hk : k ≤ 1000) :
    Rel (XF.sqrt x) (Real.sqrt a) k := by
  obtain ⟨b, rfl, hb⟩ := h
  obtain ⟨hb0, _⟩ := tail_log_rel ha hk hb
  refine ⟨Real.sqrt b, fin_sqrt hb0.le, ?_⟩
  have hsa := Real.sqrt_pos.2 ha
  have hsb := Real.sqrt_pos.2 hb0
  rw [abs_of_pos ha] at hb
  rw [abs_of_pos hsa]
  have e : b - a = (Real.sqrt b - Real.sqrt a) * (Real.sqrt b + Real.sqrt a) := by
    have h1 := Real.mul_self_sqrt hb0.le
    have h2 := Real.mul_self_sqrt ha.le
    linear_combination h2 - h1
  rw [e, abs_mul, abs_of_pos (by positivity : 0 < Real.sqrt b + Real.sqrt a)] at hb
  have h2 := Real.mul_self_sqrt ha.le
  have h3 : |Real.sqrt b - Real.sqrt a| * Real.sqrt a ≤ k / 2 ^ 53 * Real.sqrt a * Real.sqrt a := by
    calc |Real.sqrt b - Real.sqrt a| * Real.sqrt a ≤ |Real.sqrt b - Real.sqrt a| * (Real.sqrt b + Real.sqrt a) :=
          mul_le_mul_of_nonneg_left (by linarith) (abs_nonneg _)
      _ ≤ k / 2 ^ 53 * a := hb
      _ = _ := by rw [mul_assoc, h2]
  exact le_of_mul_le_mul_right h3 hsa

theorem Rel.inv {x : XF} {a : ℝ} {k : ℕ} (h : Rel x a k) (ha : 0 < a) (hk : k ≤ 1000) :
    Rel (XF.fin 1 / x) (1 / a) (k + 1) := by
  obtain ⟨b, rfl, hb⟩ := h
  obtain ⟨hb0, _⟩ := tail_log_rel ha hk hb
  refine ⟨1 / b, fin_div hb0.ne' 1, ?_⟩
  rw [abs_of_pos ha] at hb
  rw [abs_of_pos (by positivity : 0 < 1 / a)]
  have hk' : (k : ℝ) ≤ 1000 := by exact_mod_cast hk
  have hk0 : (0:ℝ) ≤ k := Nat.cast_nonneg k
  have e : 1 / b - 1 / a = -(b - a) / (a * b) := by field_simp; ring
  rw [e, abs_div, abs_neg, abs_of_pos (by positivity : 0 < a * b), div_le_iff₀ (by positivity)]
  have e2 : ((k + 1 : ℕ) : ℝ) / 2 ^ 53 * (1 / a) * (a * b) = (k + 1) / 2 ^ 53 * b := by
    push_cast; field_simp
  rw [e2]
  refine hb.trans ?_
  have h1 := (abs_le.1 hb).1
  have h2 : a * (1 - k / 2 ^ 53) ≤ b := by linarith
  refine le_trans ?_ (mul_le_mul_of_nonneg_left h2 (by positivity))
  have h3 : (k : ℝ) / 2 ^ 53 ≤ (k + 1) / 2 ^ 53 * (1 - k / 2 ^ 53) := by
    rw [div_mul_eq_mul_div, div_le_div_iff_of_pos_right (by positivity)]
    have : (k + 1) * (k / 2 ^ 53 : ℝ) ≤ 1 := by
      rw [mul_div_assoc', div_le_one (by positivity)]
      nlinarith
    linarith
  calc (k : ℝ) / 2 ^ 53 * a ≤ (k + 1) / 2 ^ 53 * (1 - k / 2 ^ 53) * a := mul_le_mul_of_nonneg_right h3 ha.le
    _ = _ := by ring

theorem Near.mul_le {x y : XF} {a b e f A B : ℝ} (h : Near x a e) (h' : Near y b f) (hA : |a| ≤ A) (hB : |b| ≤ B)
    (hf : f ≤ B) : Near (x * y) (a * b) (2 * B * e + A * f) := by
  obtain ⟨c, rfl, h2⟩ := h
  obtain ⟨d, rfl, h4⟩ := h'
  refine ⟨c * d, fin_mul _ _, ?_⟩
  have e1 : c * d - a * b = (c - a) * d + a * (d - b) := by ring
  rw [e1]
  refine (abs_add_le _ _).trans ?_
  rw [abs_mul, abs_mul]
  have hd : |d| ≤ 2 * B := by
    have := abs_sub_abs_le_abs_sub d b
    linarith
  have hA0 := (abs_nonneg a).trans hA
  have h5 : |c - a| * |d| ≤ e * (2 * B) := mul_le_mul h2 hd (abs_nonneg _) ((abs_nonneg _).trans h2)
  have h6 : |a| * |d - b| ≤ A * f := mul_le_mul hA h4 (abs_nonneg _) hA0
  linarith

section
variable {r : ℝ → XF} (hr : Binary64 r)
include hr

/-- scales and distances that are neither huge nor tiny -/
def Moderate (y μ σ : ℝ) : Prop := 1 / 2 ^ 400 ≤ σ ∧ σ ≤ 2 ^ 400 ∧ |y - μ| ≤ 2 ^ 400

omit hr in
theorem Moderate.pos {y μ σ : ℝ} (h : Moderate y μ σ) : 0 < σ := lt_of_lt_of_le (by positivity) h.1

omit hr in
theorem Moderate.le {y μ σ : ℝ} (h : Moderate y μ σ) : |(y - μ) / σ| + 1 ≤ 2 ^ 801 := by
  have hp := h.pos
  have h1 : |(y - μ) / σ| ≤ 2 ^ 800 := by
    rw [abs_div, abs_of_pos hp, div_le_iff₀ hp]
    calc |y - μ| ≤ 2 ^ 400 := h.2.2
      _ = 2 ^ 800 * (1 / 2 ^ 400) := by
          rw [mul_one_div, eq_div_iff (by positivity), ← pow_add]
      _ ≤ 2 ^ 800 * σ := mul_le_mul_of_nonneg_left h.1 (by positivity)
  have h2 : (1:ℝ) ≤ 2 ^ 800 := one_le_pow₀ (by norm_num)
  have h3 : (2:ℝ) ^ 801 = 2 ^ 800 * 2 := pow_succ _ _
  rw [h3]
  clear h3
  generalize (2:ℝ) ^ 800 = P at *
  linarith

omit hr in
theorem mid_mul {O k : ℝ} (h1 : 1 ≤ O) (h2 : O ≤ 2 ^ 801) (hk : 1 ≤ k) (hk' : k ≤ 2 ^ 50) : Mid (k * O) := by
  refine Mid.of (le_trans ?_ h1) (h2.trans (pow_le_pow_right₀ (by norm_num) (by norm_num))) hk hk'
  rw [div_le_one (by positivity)]; exact one_le_pow₀ (by norm_num)

omit hr in
theorem Moderate.mid {y μ σ k : ℝ} (h : Moderate y μ σ) (hk : 1 ≤ k) (hk' : k ≤ 2 ^ 50) : Mid (k * (|y - μ| + σ)) := by
  refine Mid.of ?_ ?_ hk hk'
  · have h2 : (1:ℝ) / 2 ^ 1000 ≤ 1 / 2 ^ 400 :=
      one_div_le_one_div_of_le (by positivity) (pow_le_pow_right₀ (by norm_num) (by norm_num))
    exact h2.trans (h.1.trans (le_add_of_nonneg_left (abs_nonneg _)))
  · have h3 : (2:ℝ) ^ 401 = 2 ^ 400 * 2 := pow_succ _ _
    have h4 : (2:ℝ) ^ 401 ≤ 2 ^ 900 := pow_le_pow_right₀ (by norm_num) (by norm_num)
    refine le_trans ?_ h4
    rw [h3]
    obtain ⟨_, h5, h6⟩ := h
    generalize (2:ℝ) ^ 400 = P at *
    linarith

/-- The standardised observation. -/
theorem std_near {y μ σ : ℝ} (h : Moderate y μ σ) :
    ∃ W : ℝ, Rnd.std r (fin y) (fin μ) (fin σ) = fin W ∧
      |W - (y - μ) / σ| ≤ 2 * (|(y - μ) / σ| + 1) * (1 / 2 ^ 51) := by
  have hp := h.pos
  have N1 := Near.rd hr (near_fin (y - μ)) (h.mid le_rfl (by norm_num)) (by rw [one_mul]; linarith)
    (by have := abs_nonneg (y - μ); linarith)
  have N2 := Near.rd hr (Near.div hp N1) (mid_mul (O := |(y - μ) / σ| + 1) (by linarith [abs_nonneg ((y - μ) / σ)]) h.le
    le_rfl (by norm_num)) (by linarith)
    (by
      have e0 : 1 * (|(y - μ) / σ| + 1) * σ = |y - μ| + σ := by rw [abs_div, abs_of_pos hp]; field_simp
      rw [zero_add, one_mul, div_le_iff₀ hp, e0]
      have h0 : 0 ≤ |y - μ| + σ := by positivity
      exact mul_le_of_le_one_right h0 (by norm_num))
  obtain ⟨W, h1, h2⟩ := N2
  refine ⟨W, ?_, h2.trans (le_of_eq ?_)⟩
  · rw [← h1]; unfold Rnd.std; rw [fin_sub]
  · have e : |(y - μ) / σ| = |y - μ| / σ := by rw [abs_div, abs_of_pos hp]
    rw [e]; field_simp; ring

/-- From the error of the standardised score to the error of the score. -/
theorem closed_final {y μ σ K : ℝ} (h : Moderate y μ σ) {f : ℝ → ℝ} (hf : ∀ a b, |f a - f b| ≤ |a - b|)
    (hb : |f ((y - μ) / σ)| ≤ 2 * (|(y - μ) / σ| + 1)) {W : ℝ}
    (hW : |W - (y - μ) / σ| ≤ 2 * (|(y - μ) / σ| + 1) * (1 / 2 ^ 51)) {x : XF}
    (hx : Near x (f W) (K * (|(y - μ) / σ| + 1) * (1 / 2 ^ 51))) (hK : K ≤ 2 ^ 20) :
    Near (Rnd.rd r (fin σ * x)) (σ * f ((y - μ) / σ)) ((K + 4) * (|y - μ| + σ) * (1 / 2 ^ 51)) := by
  have hp := h.pos
  obtain ⟨v, rfl, hv⟩ := hx
  have hO : 1 ≤ |(y - μ) / σ| + 1 := by linarith [abs_nonneg ((y - μ) / σ)]
  have eD : σ * (|(y - μ) / σ| + 1) = |y - μ| + σ := by
    rw [abs_div, abs_of_pos hp]; field_simp
  have N0 : Near (fin v) (f ((y - μ) / σ)) ((K + 2) * (|(y - μ) / σ| + 1) * (1 / 2 ^ 51)) := by
    refine ⟨v, rfl, ?_⟩
    have h1 := abs_sub_le v (f W) (f ((y - μ) / σ))
    have h2 := hf W ((y - μ) / σ)
    linarith
  have N1 := Near.smul σ N0
  have hD : 0 ≤ |y - μ| + σ := by positivity
  have e1 : |σ| * ((K + 2) * (|(y - μ) / σ| + 1) * (1 / 2 ^ 51)) = (K + 2) * (|y - μ| + σ) * (1 / 2 ^ 51) := by
    rw [abs_of_pos hp, ← eD]; ring
  rw [e1] at N1
  refine (Near.rd hr N1 (h.mid (k := 2) (by norm_num) (by norm_num)) ?_ ?_).mono (le_of_eq (by ring))
  · rw [abs_mul, abs_of_pos hp, ← eD]
    calc σ * |f ((y - μ) / σ)| ≤ σ * (2 * (|(y - μ) / σ| + 1)) := mul_le_mul_of_nonneg_left hb hp.le
      _ = _ := by ring
  · have h3 : (K + 2) * (1 / 2 ^ 51 : ℝ) ≤ 2 := by
      rw [mul_one_div, div_le_iff₀ (by positivity)]
      linarith [hK.trans (by norm_num : (2:ℝ) ^ 20 ≤ 2 ^ 51)]
    calc (K + 2) * (|y - μ| + σ) * (1 / 2 ^ 51) = (K + 2) * (1 / 2 ^ 51) * (|y - μ| + σ) := by ring
      _ ≤ 2 * (|y - μ| + σ) := mul_le_mul_of_nonneg_right h3 hD

end

/-- Numbers of ordinary size. -/
theorem mid_size : ∀ a : ℝ, 1 / 4 ≤ a → a ≤ 8 → Mid |a| := by
    intro a h1 h2
    rw [abs_of_pos (by linarith)]
    refine ⟨le_trans ?_ h1, h2.trans ?_⟩
    · rw [show (4:ℝ) = 2 ^ 2 by norm_num]
      exact one_div_le_one_div_of_le (by positivity) (pow_le_pow_right₀ (by norm_num) (by norm_num))
    · rw [show (8:ℝ) = 2 ^ 3 by norm_num]
      exact pow_le_pow_right₀ (by norm_num) (by norm_num)

/-- The computed standard normal distribution function. -/
theorem normCdf_near {r : ℝ → XF} (hr : Binary64 r) {W : ℝ} (hWb : |W| ≤ 2 ^ 402) :
    Near (Rnd.normCdf r (fin W)) (Φ W) (13 / 2 * (1 / 2 ^ 51)) := by
  have m1 : Mid (1:ℝ) := by simpa using mid_mul (O := 1) le_rfl (one_le_pow₀ (by norm_num)) (le_refl (1:ℝ)) (by norm_num)
  have m2 : Mid (2:ℝ) := by simpa using mid_mul (O := 1) le_rfl (one_le_pow₀ (by norm_num)) (by norm_num : (1:ℝ) ≤ 2) (by norm_num)
  -- the argument of the error function
  have hs2 : 0 < Real.sqrt 2 := Real.sqrt_pos.2 two_pos
  have hs2l : 1 ≤ Real.sqrt 2 := by rw [Real.le_sqrt (by norm_num) (by norm_num)]; norm_num
  have hs2u : Real.sqrt 2 ≤ 2 := by rw [Real.sqrt_le_left (by norm_num)]; norm_num
  obtain ⟨b2, hb2, hb2e⟩ := (rd_rel hr (mid_size (Real.sqrt 2) (by linarith) (by linarith)))
  obtain ⟨hb20, _⟩ := tail_log_rel hs2 (by norm_num) hb2e
  obtain ⟨b3, hb3, hb3e⟩ : Rel (fin 1 / fin b2) (1 / Real.sqrt 2) 5 := Rel.inv ⟨b2, rfl, hb2e⟩ hs2 (by norm_num)
  rw [fin_div hb20.ne'] at hb3
  have hb3' : b3 = 1 / b2 := (XF.fin.inj hb3).symm
  have hq : |Real.sqrt 2 / b2 - 1| ≤ 5 / 2 ^ 53 := by
    rw [hb3', abs_of_pos (by positivity : 0 < 1 / Real.sqrt 2)] at hb3e
    have e : Real.sqrt 2 / b2 - 1 = Real.sqrt 2 * (1 / b2 - 1 / Real.sqrt 2) := by field_simp
    rw [e, abs_mul, abs_of_pos hs2]
    calc Real.sqrt 2 * |1 / b2 - 1 / Real.sqrt 2| ≤ Real.sqrt 2 * (((5:ℕ):ℝ) / 2 ^ 53 * (1 / Real.sqrt 2)) :=
          mul_le_mul_of_nonneg_left hb3e hs2.le
      _ = 5 / 2 ^ 53 := by push_cast; field_simp
  have hTlt : |W / b2| < 2 ^ 1023 := by
    have h1 : 1 / 2 ≤ b2 := by
      have h2 : |b2 - Real.sqrt 2| ≤ 1 / 2 := by
        refine hb2e.trans ?_
        rw [abs_of_pos hs2]
        calc ((4:ℕ):ℝ) / 2 ^ 53 * Real.sqrt 2 ≤ ((4:ℕ):ℝ) / 2 ^ 53 * 2 := mul_le_mul_of_nonneg_left hs2u (by positivity)
          _ ≤ 1 / 2 := by norm_num
      linarith [(abs_le.1 h2).1]
    rw [abs_div, abs_of_pos hb20, div_lt_iff₀ hb20]
    calc |W| ≤ 2 ^ 402 := hWb
      _ < 2 ^ 1022 := pow_lt_pow_right₀ (by norm_num) (by norm_num)
      _ = 2 ^ 1023 * (1 / 2) := by
          rw [pow_succ (2:ℝ) 1022, mul_assoc, show (2:ℝ) * (1 / 2) = 1 by norm_num, mul_one]
      _ ≤ 2 ^ 1023 * b2 := mul_le_mul_of_nonneg_left h1 (by positivity)
  obtain ⟨δ, η, hδ, hη, eT⟩ := hr.acc hTlt
  have tiny : (1:ℝ) / 2 ^ 1075 ≤ 1 / 2 ^ 60 :=
    one_div_le_one_div_of_le (by positivity) (pow_le_pow_right₀ (by norm_num) (by norm_num))
  have hη' : |η| ≤ 1 / 2 ^ 60 := hη.trans tiny
  have hΦ : |Φ (Real.sqrt 2 * (W / b2 * (1 + δ) + η)) - Φ W| ≤ 2 * (2 * (1 / 2 ^ 51)) := by
    have e : Real.sqrt 2 * (W / b2 * (1 + δ) + η) = W * (Real.sqrt 2 / b2 * (1 + δ)) + Real.sqrt 2 * η := by
      field_simp
    rw [e]
    refine Φ_rel_arg ?_ ?_ (by norm_num)
    · have e2 : Real.sqrt 2 / b2 * (1 + δ) - 1 = (Real.sqrt 2 / b2 - 1) * (1 + δ) + δ := by ring
      rw [e2]
      refine (abs_add_le _ _).trans ?_
      rw [abs_mul]
      have h1 : |1 + δ| ≤ 6 / 5 := by
        have : |δ| ≤ 1 / 5 := hδ.trans (by norm_num)
        rw [abs_le] at this ⊢; constructor <;> linarith [this.1, this.2]
      have h2 := mul_le_mul hq h1 (abs_nonneg _) (by positivity)
      refine (add_le_add h2 hδ).trans ?_
      norm_num
    · rw [abs_mul, abs_of_pos hs2]
      calc Real.sqrt 2 * |η| ≤ 2 * (1 / 2 ^ 60) := mul_le_mul hs2u hη' (abs_nonneg _) (by norm_num)
        _ ≤ _ := by norm_num
  have herf : Near (XF.erf (Rnd.rd r (fin W / Rnd.rd r (XF.sqrt 2)))) (2 * Φ W - 1) (8 * (1 / 2 ^ 51)) := by
    refine ⟨2 * Φ (Real.sqrt 2 * (W / b2 * (1 + δ) + η)) - 1, ?_, ?_⟩
    · rw [sqrt2_fin, hb2, fin_div hb20.ne']
      show XF.erf (r (W / b2)) = _
      rw [eT]
      rw [← erf_Φ, mul_comm (Real.sqrt 2), mul_div_assoc, div_self hs2.ne', mul_one]
      simp only [XF.erf]
      congr 1; ring
    · rw [show 2 * Φ (Real.sqrt 2 * (W / b2 * (1 + δ) + η)) - 1 - (2 * Φ W - 1)
        = 2 * (Φ (Real.sqrt 2 * (W / b2 * (1 + δ) + η)) - Φ W) by ring, abs_mul, abs_of_pos (by norm_num : (0:ℝ) < 2)]
      linarith
  have hΦ0 : 0 ≤ Φ W := Φ_nonneg W
  have hΦ1 : Φ W ≤ 1 := Φ_le_one W
  have N1 := Near.rd hr herf m1 (by rw [abs_le]; constructor <;> linarith) (by norm_num)
  have N2 := Near.rd hr (Near.add (near_fin 1) N1) m2 (by rw [abs_le]; constructor <;> linarith) (by norm_num)
  have N3 := Near.rd hr (Near.div two_pos N2) m1 (by rw [abs_le]; constructor <;> linarith) (by norm_num)
  rw [show (1 + (2 * Φ W - 1)) / 2 = Φ W by ring] at N3
  unfold Rnd.normCdf
  simp only [XF.one_def, XF.ofNat_def] at N3 ⊢
  exact N3.mono (by norm_num)

/-- The computed standard normal density. -/
theorem normPdf_near {r : ℝ → XF} (hr : Binary64 r) {W : ℝ} (hWb : |W| ≤ 2 ^ 402) :
    0 ≤ φ W ∧ φ W ≤ 1 ∧ Near (Rnd.normPdf r (fin W)) (φ W) (16 * (1 / 2 ^ 51)) := by
  have m1 : Mid (1:ℝ) := by simpa using mid_mul (O := 1) le_rfl (one_le_pow₀ (by norm_num)) (le_refl (1:ℝ)) (by norm_num)
  have m2 : Mid (2:ℝ) := by simpa using mid_mul (O := 1) le_rfl (one_le_pow₀ (by norm_num)) (by norm_num : (1:ℝ) ≤ 2) (by norm_num)
  have hpi3 := Real.pi_gt_three
  have hpi4 := Real.pi_le_four
  have t2 : |(2:ℝ)| = 2 := abs_of_pos (by norm_num)
  have tiny : (1:ℝ) / 2 ^ 1075 ≤ 1 / 2 ^ 60 :=
    one_div_le_one_div_of_le (by positivity) (pow_le_pow_right₀ (by norm_num) (by norm_num))
  -- the density
  have hsp : 0 < Real.sqrt (2 * Real.pi) := by positivity
  have hsp2 : 2 ≤ Real.sqrt (2 * Real.pi) := by rw [Real.le_sqrt (by norm_num) (by positivity)]; linarith
  have hsp3 : Real.sqrt (2 * Real.pi) ≤ 3 := by rw [Real.sqrt_le_left (by norm_num)]; linarith
  have R1 := rd_rel hr (mid_size Real.pi (by linarith) (by linarith))
  have R2 := (Rel.mul (Rel.fin 2) R1 (by norm_num) (by norm_num)).rd hr (by norm_num)
    (mid_size (2 * Real.pi) (by linarith) (by linarith))
  have R3 := (R2.sqrt (by positivity) (by norm_num)).rd hr (by norm_num) (mid_size _ (by linarith) (by linarith))
  have hi1 : 1 / 4 ≤ 1 / Real.sqrt (2 * Real.pi) := one_div_le_one_div_of_le hsp (by linarith)
  have hi2 : 1 / Real.sqrt (2 * Real.pi) ≤ 1 := by rw [div_le_one hsp]; linarith
  have R4 := (R3.inv hsp (by norm_num)).rd hr (by norm_num) (mid_size _ hi1 (by linarith))
  have R4' : Near (Rnd.rd r (fin 1 / Rnd.rd r (XF.sqrt (Rnd.rd r (fin 2 * Rnd.rd r (fin Real.pi))))))
      (1 / Real.sqrt (2 * Real.pi)) (5 * (1 / 2 ^ 51)) := by
    refine Near.mono R4 ?_
    rw [abs_of_pos (by positivity)]
    refine (mul_le_mul_of_nonneg_left hi2 (by positivity)).trans ?_
    norm_num
  have hW2lt : |W ^ 2| < 2 ^ 1023 := by
    rw [abs_pow]
    calc |W| ^ 2 ≤ (2 ^ 402) ^ 2 := pow_le_pow_left₀ (abs_nonneg _) hWb 2
      _ = 2 ^ 804 := by rw [← pow_mul]
      _ < 2 ^ 1023 := pow_lt_pow_right₀ (by norm_num) (by norm_num)
  obtain ⟨δ1, η1, hδ1, hη1, e1⟩ := hr.acc hW2lt
  have hη1' : |η1| ≤ 1 / 2 ^ 60 := hη1.trans tiny
  have hδ1' : |1 + δ1| ≤ 2 := by
    have : |δ1| ≤ 1 := hδ1.trans (by norm_num)
    rw [abs_le] at this ⊢; constructor <;> linarith [this.1, this.2]
  have hZlt : |-(W ^ 2 * (1 + δ1) + η1) / 2| < 2 ^ 1023 := by
    rw [abs_div, abs_neg, t2, div_lt_iff₀ (by norm_num)]
    refine (abs_add_le _ _).trans_lt ?_
    have h1 : |W ^ 2 * (1 + δ1)| ≤ 2 ^ 804 * 2 := by
      rw [abs_mul]
      refine mul_le_mul ?_ hδ1' (abs_nonneg _) (by positivity)
      rw [abs_pow]
      calc |W| ^ 2 ≤ (2 ^ 402) ^ 2 := pow_le_pow_left₀ (abs_nonneg _) hWb 2
        _ = 2 ^ 804 := by rw [← pow_mul]
    have h2 : |η1| ≤ 2 ^ 804 := hη1'.trans ((by norm_num : (1:ℝ) / 2 ^ 60 ≤ 1).trans (one_le_pow₀ (by norm_num)))
    have h3 : (2:ℝ) ^ 804 < 2 ^ 1022 := pow_lt_pow_right₀ (by norm_num) (by norm_num)
    have h4 : (2:ℝ) ^ 1023 = 2 ^ 1022 * 2 := pow_succ _ _
    rw [h4]
    have hP : (0:ℝ) < 2 ^ 804 := by positivity
    clear h4 hW2lt
    generalize (2:ℝ) ^ 804 = P at *
    generalize (2:ℝ) ^ 1022 = Q at *
    linarith
  obtain ⟨δ3, η3, hδ3, hη3, e3⟩ := hr.acc hZlt
  have hη3' : |η3| ≤ 1 / 2 ^ 60 := hη3.trans tiny
  have hE : Near (XF.exp (Rnd.rd r (-(Rnd.rd r (fin W ^ 2)) / 2))) (Real.exp (-W ^ 2 / 2)) (4 * (1 / 2 ^ 51)) := by
    refine ⟨Real.exp (-(W ^ 2 * (1 + δ1) + η1) / 2 * (1 + δ3) + η3), ?_, ?_⟩
    · rw [fin_pow]
      show XF.exp (Rnd.rd r (-(r (W ^ 2)) / 2)) = _
      rw [e1, fin_neg, XF.ofNat_def, fin_div (by norm_num)]
      show XF.exp (r (-(W ^ 2 * (1 + δ1) + η1) / 2)) = _
      rw [e3]
      rfl
    · have e : -(W ^ 2 * (1 + δ1) + η1) / 2 * (1 + δ3) + η3
          = -(W ^ 2 / 2 * ((1 + δ1) * (1 + δ3))) + (η3 - η1 / 2 * (1 + δ3)) := by ring
      rw [e, neg_div]
      refine exp_rel_arg (by positivity) ?_ ?_ (by norm_num)
      · rw [show (1 + δ1) * (1 + δ3) - 1 = (1 + δ1) * δ3 + δ1 by ring]
        refine (abs_add_le _ _).trans ?_
        rw [abs_mul]
        have h2 := mul_le_mul hδ1' hδ3 (abs_nonneg _) (by norm_num)
        refine (add_le_add h2 hδ1).trans ?_
        norm_num
      · have h1 : |1 + δ3| ≤ 2 := by
          have : |δ3| ≤ 1 := hδ3.trans (by norm_num)
          rw [abs_le] at this ⊢; constructor <;> linarith [this.1, this.2]
        refine (abs_sub _ _).trans ?_
        rw [abs_mul, abs_div, t2]
        have h2 := mul_le_mul (div_le_div_of_nonneg_right hη1' (by norm_num : (0:ℝ) ≤ 2)) h1 (abs_nonneg _) (by positivity)
        refine (add_le_add hη3' h2).trans ?_
        norm_num
  have hex : Real.exp (-W ^ 2 / 2) ≤ 1 := Real.exp_le_one_iff.2 (by nlinarith [sq_nonneg W])
  have hex0 := Real.exp_pos (-W ^ 2 / 2)
  have N7 := Near.rd hr hE m1 (by rw [abs_of_pos hex0]; exact hex) (by norm_num)
  have N8 := Near.mul_le R4' N7 (A := 1) (B := 1) (by rw [abs_of_pos (by positivity)]; exact hi2)
    (by rw [abs_of_pos hex0]; exact hex) (by norm_num)
  have eφ : 1 / Real.sqrt (2 * Real.pi) * Real.exp (-W ^ 2 / 2) = φ W := by unfold φ; ring
  rw [eφ] at N8
  have hφ0 : 0 ≤ φ W := by unfold φ; positivity
  have hφ1 : φ W ≤ 1 := by
    rw [← eφ]
    calc 1 / Real.sqrt (2 * Real.pi) * Real.exp (-W ^ 2 / 2) ≤ 1 * 1 := mul_le_mul hi2 hex hex0.le (by norm_num)
      _ = 1 := one_mul 1
  have N9 := Near.rd hr N8 m1 (by rw [abs_of_nonneg hφ0]; exact hφ1) (by norm_num)
  refine ⟨hφ0, hφ1, ?_⟩
  unfold Rnd.normPdf
  simp only [XF.one_def, XF.ofNat_def, XF.pi] at N9 ⊢
  exact N9.mono (by norm_num)

/-- The computed `1 / √π`. -/
theorem inv_sqrt_pi_near {r : ℝ → XF} (hr : Binary64 r) : 1 / 4 ≤ 1 / Real.sqrt Real.pi ∧ 1 / Real.sqrt Real.pi ≤ 1 ∧
    Near (Rnd.rd r (fin 1 / Rnd.rd r (XF.sqrt (Rnd.rd r (fin Real.pi))))) (1 / Real.sqrt Real.pi)
      (4 * (1 / 2 ^ 51)) := by
  have hpi3 := Real.pi_gt_three
  have hpi4 := Real.pi_le_four
  have R1 := rd_rel hr (mid_size Real.pi (by linarith) (by linarith))
  -- the constant
  have hsq : 1 ≤ Real.sqrt Real.pi := by rw [Real.le_sqrt (by norm_num) (by positivity)]; linarith
  have hsq2 : Real.sqrt Real.pi ≤ 2 := by rw [Real.sqrt_le_left (by norm_num)]; linarith
  have hsq0 : 0 < Real.sqrt Real.pi := by linarith
  have hj1 : 1 / 4 ≤ 1 / Real.sqrt Real.pi := one_div_le_one_div_of_le hsq0 (by linarith)
  have hj2 : 1 / Real.sqrt Real.pi ≤ 1 := by rw [div_le_one hsq0]; exact hsq
  have R5 := (R1.sqrt Real.pi_pos (by norm_num)).rd hr (by norm_num) (mid_size _ (by linarith) (by linarith))
  have R6 := (R5.inv hsq0 (by norm_num)).rd hr (by norm_num) (mid_size _ hj1 (by linarith))
  have R6' : Near (Rnd.rd r (fin 1 / Rnd.rd r (XF.sqrt (Rnd.rd r (fin Real.pi))))) (1 / Real.sqrt Real.pi)
      (4 * (1 / 2 ^ 51)) := by
    refine Near.mono R6 ?_
    rw [abs_of_pos (by positivity)]
    refine (mul_le_mul_of_nonneg_left hj2 (by positivity)).trans ?_
    norm_num
  exact ⟨hj1, hj2, R6'⟩

end Verif
