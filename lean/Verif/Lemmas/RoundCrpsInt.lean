import Verif.Lemmas.RoundCrpsLoop3

/-! The integral form of the numba path: errors relative to the terms of the integral. -/

noncomputable section

open scoped Classical

namespace Verif

open XF Py Spec

/-- a number with a relative error of `k` units -/
def RelNear (x : XF) (a k : ℝ) : Prop := SqNear (1 / 2 ^ 1073) x a k 0

theorem RelNear.zero {x : XF} {k : ℝ} (h : RelNear x 0 k) : x = fin 0 := by
  obtain ⟨b, rfl, _, hb⟩ := h
  rw [mul_zero, zero_mul, add_zero, sub_zero] at hb
  rw [abs_nonpos_iff.1 hb]

theorem RelNear.mono {x : XF} {a k k' : ℝ} (h : RelNear x a k) (ha : 0 ≤ a) (hk : k ≤ k') : RelNear x a k' :=
  SqNear.mono unit_abs.nonneg h ha hk (le_refl _)

theorem RelNear.add {x y : XF} {a b k : ℝ} (h : RelNear x a k) (g : RelNear y b k) : RelNear (x + y) (a + b) k := by
  obtain ⟨u, rfl, u0, hu⟩ := h
  obtain ⟨v, rfl, v0, hv⟩ := g
  refine ⟨u + v, fin_add _ _, by positivity, ?_⟩
  rw [show u + v - (a + b) = (u - a) + (v - b) by ring]
  refine (abs_add_le _ _).trans ?_
  linarith

theorem RelNear.sq {x : XF} {a k : ℝ} (h : RelNear x a k) (ha : 0 ≤ a) (hk0 : 0 ≤ k) (hk : k ≤ 2 ^ 50) :
    RelNear (x ^ 2) (a ^ 2) (3 * k) := by
  obtain ⟨u, rfl, u0, hu⟩ := h
  refine ⟨u ^ 2, fin_pow _ _, by positivity, ?_⟩
  have hkq : k * (1 / 2 ^ 51) ≤ 1 := by
    rw [mul_one_div, div_le_one (by positivity)]; exact hk.trans (pow_le_pow_right₀ (by norm_num) (by norm_num))
  have hkq0 : 0 ≤ k * (1 / 2 ^ 51) := by positivity
  rw [zero_mul, add_zero] at hu ⊢
  rw [show 3 * k * (1 / 2 ^ 51) = 3 * (k * (1 / 2 ^ 51)) by ring]
  generalize k * (1 / 2 ^ 51) = q at *
  rw [show u ^ 2 - a ^ 2 = (u - a) * (u - a + 2 * a) by ring, abs_mul]
  have e1 : |u - a + 2 * a| ≤ q * a + 2 * a := (abs_add_le _ _).trans (by rw [abs_of_nonneg (by linarith : 0 ≤ 2 * a)]; linarith)
  calc |u - a| * |u - a + 2 * a| ≤ (q * a) * (q * a + 2 * a) := mul_le_mul hu e1 (abs_nonneg _) (by positivity)
    _ = (q * q + 2 * q) * a ^ 2 := by ring
    _ ≤ 3 * q * a ^ 2 := mul_le_mul_of_nonneg_right (by nlinarith) (by positivity)

/-- a factor with a relative error times a term -/
theorem SqNear.mulnear {x F : XF} {a f k K m : ℝ} (h : SqNear (1 / 2 ^ 1073) x a k m) (g : RelNear F f K) (ha : 0 ≤ a)
    (hf : 0 ≤ f) (hf1 : f ≤ 1) (hK : K ≤ 2 ^ 50) (hm : 0 ≤ m) :
    SqNear (1 / 2 ^ 1073) (F * x) (f * a) (2 * k + K) (2 * m) := by
  obtain ⟨u, rfl, u0, hu⟩ := h
  obtain ⟨v, rfl, v0, hv⟩ := g
  refine ⟨v * u, fin_mul _ _, by positivity, ?_⟩
  have hKq : K * (1 / 2 ^ 51) ≤ 1 := by
    rw [mul_one_div, div_le_one (by positivity)]; exact hK.trans (pow_le_pow_right₀ (by norm_num) (by norm_num))
  rw [zero_mul, add_zero] at hv
  have t0 : (0:ℝ) ≤ 1 / 2 ^ 1073 := by positivity
  have q0 : (0:ℝ) ≤ 1 / 2 ^ 51 := by positivity
  generalize (1:ℝ) / 2 ^ 1073 = t at *
  generalize (1:ℝ) / 2 ^ 51 = q at *
  have v1 : v ≤ 2 * f := by
    have := (abs_le.1 hv).2
    have : K * q * f ≤ 1 * f := mul_le_mul_of_nonneg_right hKq hf
    linarith
  rw [show v * u - f * a = v * (u - a) + (v - f) * a by ring]
  refine (abs_add_le _ _).trans ?_
  rw [abs_mul, abs_mul, abs_of_nonneg v0, abs_of_nonneg ha]
  have e1 : v * |u - a| ≤ 2 * f * (k * q * a + m * t) := mul_le_mul v1 hu (abs_nonneg _) (by positivity)
  have e2 : |v - f| * a ≤ K * q * f * a := mul_le_mul_of_nonneg_right hv ha
  have e3 : f * (m * t) ≤ 1 * (m * t) := mul_le_mul_of_nonneg_right hf1 (by positivity)
  nlinarith

section
variable {r : ℝ → XF} (hr : Nearest64 r)
include hr

theorem rd_zero : Rnd.rd r (fin 0) = fin 0 := int_rd hr (n := 0) (by norm_num) (by norm_num)

theorem RelNear.rd {x : XF} {a k : ℝ} (h : RelNear x a k) (ha : a = 0 ∨ 1 / 2 ^ 900 ≤ a) (hA : a ≤ 2) (hk : k ≤ 2 ^ 50) :
    RelNear (Rnd.rd r x) a (k + 2) := by
  rcases ha with rfl | ha
  · rw [h.zero, rd_zero hr]
    exact ⟨0, rfl, le_refl _, by simp⟩
  · have ha0 : 0 ≤ a := le_trans (by positivity) ha
    have h2 : (2:ℝ) ≤ 2 ^ 1000 := by
      calc (2:ℝ) = 2 ^ 1 := by norm_num
        _ ≤ 2 ^ 1000 := pow_le_pow_right₀ (by norm_num) (by norm_num)
    obtain ⟨b, e, b0, hb⟩ := SqNear.rd hr.toBinary64 unit_abs h ha0 (hA.trans h2) hk (by norm_num)
    refine ⟨b, e, b0, hb.trans ?_⟩
    have : (1:ℝ) / 2 ^ 1073 ≤ 1 / 2 ^ 51 * a := by
      calc (1:ℝ) / 2 ^ 1073 ≤ 1 / 2 ^ 951 := one_div_le_one_div_of_le (by positivity) (pow_le_pow_right₀ (by norm_num) (by norm_num))
        _ = 1 / 2 ^ 51 * (1 / 2 ^ 900) := by rw [one_div_mul_one_div, ← pow_add]
        _ ≤ 1 / 2 ^ 51 * a := mul_le_mul_of_nonneg_left ha (by positivity)
    rw [zero_mul, add_zero, zero_add, one_mul]
    generalize (1:ℝ) / 2 ^ 1073 = t at *
    generalize (1:ℝ) / 2 ^ 51 = q at *
    linarith

/-- a term of the integral -/
theorem intTerm_near {F : XF} {f K u : ℝ} (g : RelNear F f K) (hf : 0 ≤ f) (hf1 : f ≤ 1) (hu : f = 0 ∨ 0 ≤ u)
    (hu2 : |u| ≤ 2 ^ 960) (hK : K ≤ 2 ^ 49) :
    0 ≤ f * u ∧ SqNear (1 / 2 ^ 1073) (Rnd.rd r (F * Rnd.rd r (fin u))) (f * u) (K + 3) 3 := by
  have u1 : (2:ℝ) ^ 960 ≤ 2 ^ 1000 := pow_le_pow_right₀ (by norm_num) (by norm_num)
  have k50 : (2:ℝ) ^ 49 + 2 ≤ 2 ^ 50 := by norm_num
  by_cases h0 : f = 0
  · subst h0
    rw [g.zero, zero_mul]
    obtain ⟨δ, η, _, _, e⟩ := hr.acc (hu2.trans_lt (pow_lt_pow_right₀ (by norm_num) (by norm_num)))
    refine ⟨le_refl _, ?_⟩
    show SqNear _ (Rnd.rd r (fin 0 * r u)) _ _ _
    rw [e, fin_mul, zero_mul, rd_zero hr]
    exact SqNear.zero (by positivity)
  · have hu := hu.resolve_left h0
    rw [abs_of_nonneg hu] at hu2
    have h1 := (pos_near hr hu hu2).mulnear g hu hf hf1 (hK.trans (by linarith)) (by norm_num)
    have h2 : 0 ≤ f * u := by positivity
    have h3 : f * u ≤ 2 ^ 1000 := (mul_le_of_le_one_left hu hf1).trans (hu2.trans u1)
    have h4 := h1.rd hr.toBinary64 unit_abs h2 h3 (by linarith) (by norm_num)
    exact ⟨h2, h4.mono unit_abs.nonneg h2 (by linarith) (by norm_num)⟩

/-- the distance of the rounded distribution function to one -/
theorem compl_near {c : XF} {i M : ℕ} (hi : i < M) (hM : M ≤ 2 ^ 20) (h : RelNear c (i / M) (2 * (i + 1))) :
    ∃ d : XF, Rnd.rd r (c - 1) = -d ∧ RelNear d (1 - i / M) (2 * M ^ 2 + 2) := by
  obtain ⟨b, rfl, b0, hb⟩ := h
  have hM0 : (0:ℝ) < M := by exact_mod_cast (by omega : 0 < M)
  have hM1 : (1:ℝ) ≤ M := by exact_mod_cast (by omega : 1 ≤ M)
  have hi' : (i:ℝ) + 1 ≤ M := by exact_mod_cast hi
  have hM' : (M:ℝ) ≤ 2 ^ 20 := by exact_mod_cast hM
  have hMM : (M:ℝ) ^ 2 ≤ 2 ^ 40 := by
    calc (M:ℝ) ^ 2 ≤ (2 ^ 20) ^ 2 := pow_le_pow_left₀ (Nat.cast_nonneg _) hM' 2
      _ = 2 ^ 40 := by rw [← pow_mul]
  have f1 : (i:ℝ) / M ≤ 1 := by rw [div_le_one hM0]; linarith
  have f0 : (0:ℝ) ≤ i / M := by positivity
  have g1 : 1 ≤ (M:ℝ) * (1 - i / M) := by rw [mul_sub, mul_div_cancel₀ _ hM0.ne']; linarith
  have g0 : 0 < 1 - (i:ℝ) / M := by
    by_contra hc
    nlinarith
  rw [zero_mul, add_zero] at hb
  have key : |(1 - b) - (1 - i / M)| ≤ 2 * (M:ℝ) ^ 2 * (1 / 2 ^ 51) * (1 - i / M) := by
    rw [show (1 - b) - (1 - (i:ℝ) / M) = -(b - i / M) by ring, abs_neg]
    refine hb.trans ?_
    calc 2 * ((i:ℝ) + 1) * (1 / 2 ^ 51) * (i / M) ≤ 2 * (M:ℝ) * (1 / 2 ^ 51) * 1 := by gcongr
      _ ≤ 2 * (M:ℝ) * (1 / 2 ^ 51) * (M * (1 - i / M)) := by gcongr
      _ = _ := by ring
  have pos : 0 ≤ 1 - b := by
    have h1 := (abs_le.1 key).1
    have h2 : 2 * (M:ℝ) ^ 2 * (1 / 2 ^ 51) ≤ 1 := by
      rw [mul_one_div, div_le_one (by positivity)]
      calc 2 * (M:ℝ) ^ 2 ≤ 2 * 2 ^ 40 := by linarith
        _ ≤ 2 ^ 51 := by norm_num
    have h3 := mul_le_mul_of_nonneg_right h2 g0.le
    linarith
  have n1 : RelNear (fin (1 - b)) (1 - i / M) (2 * M ^ 2) := ⟨1 - b, rfl, pos, by rw [zero_mul, add_zero]; exact key⟩
  refine ⟨Rnd.rd r (fin (1 - b)), ?_, n1.rd hr (Or.inr ?_) (by linarith) ?_⟩
  · rw [one_fin, fin_sub, show b - 1 = -(1 - b) by ring]
    exact hr.neg _
  · have h1 : (1:ℝ) / 2 ^ 900 ≤ 1 / 2 ^ 20 := one_div_le_one_div_of_le (by positivity) (pow_le_pow_right₀ (by norm_num) (by norm_num))
    refine h1.trans ?_
    rw [div_le_iff₀ (by positivity), mul_comm]
    exact g1.trans (mul_le_mul_of_nonneg_right hM' g0.le)
  · calc 2 * (M:ℝ) ^ 2 ≤ 2 * 2 ^ 40 := by linarith
      _ ≤ 2 ^ 50 := by norm_num

omit hr in
theorem neg_sq_XF (d : XF) (h : ∃ b, d = fin b) : (-d) ^ 2 = d ^ 2 := by
  obtain ⟨b, rfl⟩ := h
  show (fin (-b)) ^ 2 = _
  rw [fin_pow, fin_pow, neg_sq]

/-- the squared distance to one -/
theorem compl_sq_near {c : XF} {i M : ℕ} (hi : i < M) (hM : M ≤ 2 ^ 20) (h : RelNear c (i / M) (2 * (i + 1))) :
    RelNear (Rnd.rd r (Rnd.rd r (c - 1) ^ 2)) ((i / M - 1) ^ 2) (6 * M ^ 2 + 8) := by
  have hM0 : (0:ℝ) < M := by exact_mod_cast (by omega : 0 < M)
  have hi' : (i:ℝ) + 1 ≤ M := by exact_mod_cast hi
  have hM' : (M:ℝ) ≤ 2 ^ 20 := by exact_mod_cast hM
  have hMM : (M:ℝ) ^ 2 ≤ 2 ^ 40 := by
    calc (M:ℝ) ^ 2 ≤ (2 ^ 20) ^ 2 := pow_le_pow_left₀ (Nat.cast_nonneg _) hM' 2
      _ = 2 ^ 40 := by rw [← pow_mul]
  have hMM0 : (0:ℝ) ≤ (M:ℝ) ^ 2 := sq_nonneg _
  have f1 : (i:ℝ) / M ≤ 1 := by rw [div_le_one hM0]; linarith
  have f0 : (0:ℝ) ≤ i / M := by positivity
  have g1 : 1 ≤ (M:ℝ) * (1 - i / M) := by rw [mul_sub, mul_div_cancel₀ _ hM0.ne']; linarith
  obtain ⟨d, e, hd⟩ := compl_near hr hi hM h
  have fd : ∃ b, d = fin b := by obtain ⟨b, hb, _⟩ := hd; exact ⟨b, hb⟩
  rw [e, neg_sq_XF d fd, show ((i:ℝ) / M - 1) ^ 2 = (1 - (i:ℝ) / M) ^ 2 by ring]
  have n2 := hd.sq (by linarith) (by linarith) (by
    generalize (M:ℝ) ^ 2 = m at *
    clear hM' hM
    norm_num at *; linarith)
  refine (n2.rd hr (Or.inr ?_) ?_ ?_).mono (sq_nonneg _) (by linarith)
  · have h1 : (1:ℝ) / 2 ^ 900 ≤ 1 / 2 ^ 40 := one_div_le_one_div_of_le (by positivity) (pow_le_pow_right₀ (by norm_num) (by norm_num))
    refine h1.trans ?_
    rw [div_le_iff₀ (by positivity), mul_comm]
    have : 1 ≤ ((M:ℝ) * (1 - i / M)) ^ 2 := one_le_pow₀ g1
    rw [mul_pow] at this
    exact this.trans (mul_le_mul_of_nonneg_right hMM (sq_nonneg _))
  · have : (1 - (i:ℝ) / M) ^ 2 ≤ 1 ^ 2 := pow_le_pow_left₀ (by linarith) (by linarith) 2
    linarith
  · clear n2 hd
    generalize (M:ℝ) ^ 2 = m at *
    clear hM' hM
    norm_num at *; linarith

/-- the squared rounded distribution function -/
theorem cdf_sq_near {c : XF} {i M : ℕ} {k : ℝ} (hi : i < M) (hM : M ≤ 2 ^ 20) (hk0 : 0 ≤ k) (hk : k ≤ 2 ^ 40)
    (h : RelNear c (i / M) k) : RelNear (Rnd.rd r (c ^ 2)) ((i / M) ^ 2) (3 * k + 2) := by
  have hM0 : (0:ℝ) < M := by exact_mod_cast (by omega : 0 < M)
  have hi' : (i:ℝ) + 1 ≤ M := by exact_mod_cast hi
  have hM' : (M:ℝ) ≤ 2 ^ 20 := by exact_mod_cast hM
  have f1 : (i:ℝ) / M ≤ 1 := by rw [div_le_one hM0]; linarith
  have f0 : (0:ℝ) ≤ i / M := by positivity
  have k1 : (2:ℝ) ^ 40 ≤ 2 ^ 50 := by norm_num
  have k3 : 3 * (2:ℝ) ^ 40 ≤ 2 ^ 50 := by norm_num
  refine (h.sq f0 hk0 (hk.trans k1)).rd hr ?_ ?_ (by linarith)
  · rcases Nat.eq_zero_or_pos i with h0 | h0
    · left; subst h0; simp
    · right
      have h1 : (1:ℝ) / 2 ^ 900 ≤ 1 / 2 ^ 40 := one_div_le_one_div_of_le (by positivity) (pow_le_pow_right₀ (by norm_num) (by norm_num))
      refine h1.trans ?_
      have h2 : (1:ℝ) ≤ i := by exact_mod_cast h0
      rw [show (1:ℝ) / 2 ^ 40 = (1 / 2 ^ 20) ^ 2 by norm_num]
      refine pow_le_pow_left₀ (by positivity) ?_ 2
      exact div_le_div₀ (by positivity) h2 hM0 hM'
  · have : ((i:ℝ) / M) ^ 2 ≤ 1 ^ 2 := pow_le_pow_left₀ f0 f1 2
    linarith

/-- one more member -/
theorem cdf_step {c w : XF} {i M : ℕ} (hi : i < M) (hM : M ≤ 2 ^ 20) (h : RelNear c (i / M) (2 * (i + 1)))
    (hw : RelNear w (1 / M) 2) : RelNear (Rnd.rd r (c + w)) ((i + 1 : ℕ) / M) (2 * ((i + 1 : ℕ) + 1)) := by
  have hM0 : (0:ℝ) < M := by exact_mod_cast (by omega : 0 < M)
  have hi' : (i:ℝ) + 1 ≤ M := by exact_mod_cast hi
  have hM' : (M:ℝ) ≤ 2 ^ 20 := by exact_mod_cast hM
  have i0 : (0:ℝ) ≤ i := Nat.cast_nonneg _
  have e : ((i + 1 : ℕ) : ℝ) / M = i / M + 1 / M := by push_cast; rw [add_div]
  have n := h.add (hw.mono (by positivity) (by linarith : (2:ℝ) ≤ 2 * ((i:ℝ) + 1)))
  rw [← e] at n
  refine (n.rd hr (Or.inr ?_) ?_ ?_).mono (by positivity) (by push_cast; linarith)
  · have h1 : (1:ℝ) / 2 ^ 900 ≤ 1 / 2 ^ 20 := one_div_le_one_div_of_le (by positivity) (pow_le_pow_right₀ (by norm_num) (by norm_num))
    refine h1.trans (div_le_div₀ (by positivity) ?_ hM0 hM')
    push_cast; linarith
  · rw [div_le_iff₀ hM0]; push_cast; linarith
  · have : (2:ℝ) ^ 20 * 2 ≤ 2 ^ 50 := by norm_num
    linarith

/-- an entry of the loop and its real value -/
def Ent (M : ℕ) (x : XF) (a : ℝ) : Prop := 0 ≤ a ∧ SqNear (1 / 2 ^ 1073) x a (6 * (M:ℝ) ^ 2 + 11) 3

theorem ent_compl {c : XF} {i M : ℕ} {u : ℝ} (hi : i < M) (hM : M ≤ 2 ^ 20) (h : RelNear c (i / M) (2 * (i + 1)))
    (hu : 0 ≤ u) (hu2 : |u| ≤ 2 ^ 960) :
    Ent M (Rnd.rd r (Rnd.rd r (Rnd.rd r (c - 1) ^ 2) * Rnd.rd r (fin u))) ((i / M - 1) ^ 2 * u) := by
  have hM0 : (0:ℝ) < M := by exact_mod_cast (by omega : 0 < M)
  have hi' : (i:ℝ) + 1 ≤ M := by exact_mod_cast hi
  have hM' : (M:ℝ) ≤ 2 ^ 20 := by exact_mod_cast hM
  have hMM : (M:ℝ) ^ 2 ≤ 2 ^ 40 := by
    calc (M:ℝ) ^ 2 ≤ (2 ^ 20) ^ 2 := pow_le_pow_left₀ (Nat.cast_nonneg _) hM' 2
      _ = 2 ^ 40 := by rw [← pow_mul]
  have f1 : (i:ℝ) / M ≤ 1 := by rw [div_le_one hM0]; linarith
  have f0 : (0:ℝ) ≤ i / M := by positivity
  have k1 : 6 * (2:ℝ) ^ 40 + 8 ≤ 2 ^ 49 := by norm_num
  have := intTerm_near hr (compl_sq_near hr hi hM h) (sq_nonneg _) (by nlinarith) (Or.inr hu) hu2 (by linarith)
  rw [show 6 * (M:ℝ) ^ 2 + 8 + 3 = 6 * (M:ℝ) ^ 2 + 11 by ring] at this
  exact this

theorem ent_cdf {c : XF} {i M : ℕ} {k u : ℝ} (hi : i < M) (hM : M ≤ 2 ^ 20) (hk0 : 0 ≤ k) (hk : k ≤ 2 * (i + 1) + 2)
    (h : RelNear c (i / M) k) (hu : i = 0 ∨ 0 ≤ u) (hu2 : |u| ≤ 2 ^ 960) :
    Ent M (Rnd.rd r (Rnd.rd r (c ^ 2) * Rnd.rd r (fin u))) ((i / M) ^ 2 * u) := by
  have hM0 : (0:ℝ) < M := by exact_mod_cast (by omega : 0 < M)
  have hi' : (i:ℝ) + 1 ≤ M := by exact_mod_cast hi
  have i0 : (0:ℝ) ≤ i := Nat.cast_nonneg _
  have hM' : (M:ℝ) ≤ 2 ^ 20 := by exact_mod_cast hM
  have f1 : (i:ℝ) / M ≤ 1 := by rw [div_le_one hM0]; linarith
  have f0 : (0:ℝ) ≤ i / M := by positivity
  have k1 : 2 * (2:ℝ) ^ 20 + 2 ≤ 2 ^ 40 := by norm_num
  have k2 : 3 * (2 * (2:ℝ) ^ 20 + 2) + 2 ≤ 2 ^ 49 := by norm_num
  have := intTerm_near hr (cdf_sq_near hr hi hM hk0 (by linarith) h) (sq_nonneg _) (by nlinarith) (by
    rcases hu with hu | hu
    · left; subst hu; simp
    · exact Or.inr hu) hu2 (by linarith)
  refine ⟨this.1, this.2.mono unit_abs.nonneg this.1 ?_ (le_refl _)⟩
  nlinarith

omit hr in
theorem dist960 {a b : ℝ} (ha : |a| ≤ 2 ^ 959) (hb : |b| ≤ 2 ^ 959) : |a - b| ≤ 2 ^ 960 := by
  refine (abs_sub _ _).trans ((add_le_add ha hb).trans (le_of_eq ?_))
  rw [← two_mul, ← pow_succ']

/-- the loop after the observation has been passed -/
theorem intLoopR_passed {M : ℕ} (hM : M ≤ 2 ^ 20) {w : XF} (hw : RelNear w (1 / M) 2) (y : XF) (l : List ℝ) :
    ∀ {i : ℕ} {c : XF} {p : ℝ} {L : List XF} {I f : XF}, l.Pairwise (· ≤ ·) → (∀ x ∈ l, p ≤ x) → |p| ≤ 2 ^ 959 →
      (∀ x ∈ l, |x| ≤ 2 ^ 959) → i + l.length ≤ M → RelNear c (i / M) (2 * (i + 1)) → RSum r L I → L ≠ [] →
    ∃ (s : Gufunc.IntSt) (E : List XF) (as : List ℝ), l.foldlM (fun s x => RndLoop.intStep r w y (fin x) s)
        (⟨true, c, fin p, I, f⟩ : Gufunc.IntSt) = some s ∧ s.obsCdf = true ∧ RSum r (L ++ E) s.integral ∧
      List.Forall₂ (Ent M) E as ∧ as.sum = int1 (i / M) p (l.map fun x => (x, 1 / (M:ℝ))) ∧ E.length = l.length := by
  induction l with
  | nil => intro i c p L I f _ _ _ _ _ _ h _; exact ⟨_, [], [], rfl, rfl, by simpa using h, .nil, rfl, rfl⟩
  | cons x l ih =>
    intro i c p L I f hs hp hpb hb hi hc hL hne
    have hh := List.pairwise_cons.1 hs
    rw [List.length_cons] at hi
    have hxb := hb x (by simp)
    have ent := ent_compl hr (i := i) (u := x - p) (by omega) hM hc (by linarith [hp x (by simp)]) (dist960 hxb hpb)
    obtain ⟨s, E, as, e1, e2, e3, e4, e5, e6⟩ := ih (i := i + 1) (c := Rnd.rd r (c + w)) (p := x) (f := fin x) hh.2 hh.1 hxb
      (fun z hz => hb z (by simp [hz])) (by omega) (cdf_step hr (by omega) hM hc hw) (hL.snoc hne _) (by simp)
    refine ⟨s, _ :: E, _ :: as, ?_, e2, by simpa [List.append_assoc] using e3, .cons ent e4, ?_, by simp [e6]⟩
    · rw [List.foldlM_cons, ← e1]
      simp [RndLoop.intStep, Gufunc.IntSt.obsCdfX]
    · rw [List.sum_cons, e5, List.map_cons, int1]
      push_cast
      rw [add_div]

/-- the loop before the observation has been passed, with the last step -/
theorem intLoopR_before {M : ℕ} (hM : M ≤ 2 ^ 20) {w : XF} (hw : RelNear w (1 / M) 2) {y : ℝ} (hyb : |y| ≤ 2 ^ 959)
    (l : List ℝ) :
    ∀ {i : ℕ} {c : XF} {p : ℝ} {L : List XF} {I f : XF}, l.Pairwise (· ≤ ·) → (i = 0 ∨ (p ≤ y ∧ ∀ x ∈ l, p ≤ x)) → |p| ≤ 2 ^ 959 →
      (∀ x ∈ l, |x| ≤ 2 ^ 959) → i + l.length = M → 0 < M → (l = [] → f = fin p) → RelNear c (i / M) (2 * (i + 1)) →
      RSum r L I → L ≠ [] →
    ∃ (s : Gufunc.IntSt) (E : List XF) (as : List ℝ), l.foldlM (fun s x => RndLoop.intStep r w (fin y) (fin x) s)
        (⟨false, c, fin p, I, f⟩ : Gufunc.IntSt) = some s ∧
      RSum r (L ++ E) (if s.obsCdf = false then Rnd.rd r (s.integral + Rnd.rd r (fin y - s.forecast)) else s.integral) ∧
      List.Forall₂ (Ent M) E as ∧ as.sum = int0 y (i / M) p (l.map fun x => (x, 1 / (M:ℝ))) ∧ E.length ≤ l.length + 1 := by
  induction l with
  | nil =>
    intro i c p L I f _ hp hpb _ hi h0 hf hc hL hne
    have hi0 : i ≠ 0 := by simp at hi; omega
    have hp := hp.resolve_left hi0
    have d := dist960 hyb hpb
    have d0 : 0 ≤ y - p := by linarith [hp.1]
    have M0 : (0:ℝ) ≤ (M:ℝ) ^ 2 := sq_nonneg _
    refine ⟨_, [Rnd.rd r (fin y - fin p)], [y - p], rfl, ?_, .cons ⟨d0, ?_⟩ .nil, by simp [int0], by simp⟩
    · simp only [if_true, hf rfl]
      exact hL.snoc hne _
    · rw [fin_sub]
      exact (pos_near hr d0 (by rwa [abs_of_nonneg d0] at d)).mono unit_abs.nonneg d0 (by linarith) (by norm_num)
  | cons x l ih =>
    intro i c p L I f hs hp hpb hb hi h0 _ hc hL hne
    have hh := List.pairwise_cons.1 hs
    rw [List.length_cons] at hi
    have hxb := hb x (by simp)
    have i0 : (0:ℝ) ≤ i := Nat.cast_nonneg _
    by_cases hy : y < x
    · have ent1 := ent_cdf hr (i := i) (u := y - p) (by omega) hM (by linarith) (by linarith : 2 * ((i:ℝ) + 1) ≤ 2 * ((i:ℝ) + 1) + 2) hc
        (hp.imp_right fun h => by linarith [h.1]) (dist960 hyb hpb)
      have ent2 := ent_compl hr (i := i) (u := x - y) (by omega) hM hc (by linarith) (dist960 hxb hyb)
      obtain ⟨s, E, as, e1, e2, e3, e4, e5, e6⟩ := intLoopR_passed hr hM hw (fin y) l (i := i + 1) (c := Rnd.rd r (c + w)) (p := x)
        (f := fin x) hh.2 hh.1 hxb
        (fun z hz => hb z (by simp [hz])) (by omega) (cdf_step hr (by omega) hM hc hw)
        ((hL.snoc hne (Rnd.rd r (Rnd.rd r (c ^ 2) * Rnd.rd r (fin (y - p))))).snoc (by simp)
          (Rnd.rd r (Rnd.rd r (Rnd.rd r (c - 1) ^ 2) * Rnd.rd r (fin (x - y))))) (by simp)
      refine ⟨s, _ :: _ :: E, _ :: _ :: as, ?_, ?_, .cons ent1 (.cons ent2 e4), ?_, by simp [e6]⟩
      · rw [List.foldlM_cons, ← e1]
        simp [RndLoop.intStep, hy, mul_comm]
      · rw [if_neg (by simp [e2])]
        simpa [List.append_assoc] using e3
      · rw [List.sum_cons, List.sum_cons, e5, List.map_cons, int0, if_pos hy]
        push_cast
        rw [add_div]
        ring
    · have hc' : RelNear (Rnd.rd r (c - 0)) (i / M) (2 * ((i:ℝ) + 1) + 2) := by
        obtain ⟨b, rfl, hb⟩ := hc
        rw [zero_fin, fin_sub, sub_zero]
        have hM0 : (0:ℝ) < M := by exact_mod_cast h0
        have hM' : (M:ℝ) ≤ 2 ^ 20 := by exact_mod_cast hM
        have hi' : (i:ℝ) + 1 ≤ M := by exact_mod_cast (by omega : i + 1 ≤ M)
        refine RelNear.rd hr ⟨b, rfl, hb⟩ ?_ ?_ ?_
        · rcases Nat.eq_zero_or_pos i with h0 | h0
          · left; subst h0; simp
          · right
            have h1 : (1:ℝ) / 2 ^ 900 ≤ 1 / 2 ^ 20 := one_div_le_one_div_of_le (by positivity) (pow_le_pow_right₀ (by norm_num) (by norm_num))
            exact h1.trans (div_le_div₀ (by positivity) (by exact_mod_cast h0) hM0 hM')
        · rw [div_le_iff₀ hM0]; linarith
        · have : (2:ℝ) ^ 20 * 2 ≤ 2 ^ 50 := by norm_num
          linarith
      have ent := ent_cdf hr (i := i) (u := x - p) (by omega) hM (by linarith) (le_refl _) hc'
        (hp.imp_right fun h => by linarith [h.2 x (by simp)]) (dist960 hxb hpb)
      obtain ⟨s, E, as, e1, e3, e4, e5, e6⟩ := ih (i := i + 1) (c := Rnd.rd r (c + w)) (p := x) (f := fin x) hh.2
        (Or.inr ⟨not_lt.1 hy, hh.1⟩) hxb (fun z hz => hb z (by simp [hz])) (by omega) h0 (fun _ => rfl)
        (cdf_step hr (by omega) hM hc hw) (hL.snoc hne _) (by simp)
      refine ⟨s, _ :: E, _ :: as, ?_, by simpa [List.append_assoc] using e3, .cons ent e4, ?_, by simpa using e6⟩
      · rw [List.foldlM_cons, ← e1]
        simp [RndLoop.intStep, Gufunc.IntSt.obsCdfX, hy]
      · rw [List.sum_cons, e5, List.map_cons, int0, if_neg hy]
        push_cast
        rw [add_div]

theorem loopInt_near {y : ℝ} {xs : List ℝ} (hne : xs ≠ []) (hM : xs.length ≤ 2 ^ 20) (hs : xs.Pairwise (· ≤ ·))
    (hy : |y| ≤ 2 ^ 959) (hx : ∀ x ∈ xs, |x| ≤ 2 ^ 959) (hb : int0 y 0 0 (uw xs) ≤ 2 ^ 1000) :
    SqNear (1 / 2 ^ 1073) (RndLoop.int r (fin y) (xs.map fin)) (int0 y 0 0 (uw xs)) (6 * (xs.length : ℝ) ^ 2 + 11 + (xs.length + 2))
      (4 * (xs.length + 2)) := by
  have hM' : (xs.length : ℝ) ≤ 2 ^ 20 := by exact_mod_cast hM
  have hl : 0 < xs.length := List.length_pos_iff.mpr hne
  have hM0 : (0:ℝ) < xs.length := by exact_mod_cast hl
  have hMM : (xs.length : ℝ) ^ 2 ≤ 2 ^ 40 := by
    calc (xs.length : ℝ) ^ 2 ≤ (2 ^ 20) ^ 2 := pow_le_pow_left₀ (Nat.cast_nonneg _) hM' 2
      _ = 2 ^ 40 := by rw [← pow_mul]
  have hw : RelNear (Rnd.rd r (fin (1 / (xs.length : ℝ)))) (1 / xs.length) 2 := by
    have h0 : RelNear (fin (1 / (xs.length : ℝ))) (1 / xs.length) 0 := ⟨_, rfl, by positivity, by simp⟩
    have := h0.rd hr (Or.inr ?_) ?_ (by norm_num)
    · exact this.mono (by positivity) (by norm_num)
    · have h1 : (1:ℝ) / 2 ^ 900 ≤ 1 / 2 ^ 20 := one_div_le_one_div_of_le (by positivity) (pow_le_pow_right₀ (by norm_num) (by norm_num))
      exact h1.trans (one_div_le_one_div_of_le hM0 hM')
    · have : (1:ℝ) ≤ xs.length := by exact_mod_cast hl
      rw [div_le_iff₀ hM0]; linarith
  obtain ⟨s, E, as, e1, e3, e4, e5, e6⟩ := intLoopR_before hr hM hw hy xs (i := 0) (c := 0) (p := 0) (L := [fin 0]) (I := 0) (f := nan)
    hs (Or.inl rfl) (by simp) hx (by simp) hl (fun h => absurd h hne) ⟨0, rfl, le_refl _, by simp⟩ (.one _) (by simp)
  have e : RndLoop.int r (fin y) (xs.map fin)
      = if s.obsCdf = false then Rnd.rd r (s.integral + Rnd.rd r (fin y - s.forecast)) else s.integral := by
    unfold RndLoop.int
    rw [if_neg (by simp), List.length_map, natCast_fin, one_fin, fin_div hM0.ne',
      forEnumM_map xs fin _ _ (fun x s => RndLoop.intStep r (Rnd.rd r (fin (1 / (xs.length : ℝ)))) (fin y) (fin x) s)
        (fun _ _ _ _ => rfl)]
    rw [show ((⟨false, 0, 0, 0, nan⟩ : Gufunc.IntSt)) = ⟨false, 0, fin 0, 0, nan⟩ from rfl, e1]
  rw [e]
  have e5' : (0 :: as).sum = int0 y 0 0 (uw xs) := by
    rw [List.sum_cons, zero_add, e5]; simp [uw]
  have e6' : (E.length : ℝ) ≤ xs.length + 1 := by exact_mod_cast e6
  have E0 : (0:ℝ) ≤ E.length := Nat.cast_nonneg _
  have n := e3.sqNear hr.toBinary64 unit_abs (k := 6 * (xs.length : ℝ) ^ 2 + 11) (m := 3) (by norm_num) (as := 0 :: as) ?_ ?_ ?_ ?_
  · rw [e5'] at n
    have nn : 0 ≤ int0 y 0 0 (uw xs) := by
      rw [← e5', List.sum_cons, zero_add]
      refine List.sum_nonneg fun a ha => ?_
      obtain ⟨i, hi, rfl⟩ := List.getElem_of_mem ha
      exact (e4.get (by rw [e4.length_eq]; exact hi) hi).1
    refine n.mono unit_abs.nonneg nn ?_ ?_
    · rw [List.length_append, List.length_singleton]; push_cast; linarith
    · rw [List.length_append, List.length_singleton]; push_cast; linarith
  · exact .cons ⟨le_refl _, SqNear.zero (by positivity)⟩ e4
  · rw [e5']; exact hb
  · rw [List.length_append, List.length_singleton]; push_cast
    have : 6 * (2:ℝ) ^ 40 + 11 + (2 + 2 ^ 20) ≤ 2 ^ 50 := by norm_num
    linarith
  · rw [List.length_append, List.length_singleton]; push_cast
    have : (4:ℝ) * (2 + 2 ^ 20) ≤ 2 ^ 50 := by norm_num
    linarith

end

end Verif
