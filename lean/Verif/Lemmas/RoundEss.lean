import Verif.Lemmas.RoundDss2

/-! The range of the error-spread score in binary64. -/

noncomputable section

open scoped Classical

namespace Verif

open XF Py Spec

section
variable {r : ℝ → XF} (hr : Nearest64 r)
include hr

/-- rounding keeps a bound that is a power of two -/
theorem Nearest64.absTwo {k : ℤ} (h1 : -1000 ≤ k) (h2 : k ≤ 900) {c : ℝ} (h : |c| ≤ (2:ℝ) ^ k) :
    ∃ v : ℝ, Rnd.rd r (fin c) = fin v ∧ |v| ≤ (2:ℝ) ^ k := by
  have := hr.absLe (n := 1) (by norm_num) h1 h2 (c := c) (by rwa [Nat.cast_one, one_mul])
  rwa [Nat.cast_one, one_mul] at this

/-- the rounded difference of two numbers below a power of two -/
theorem Nearest64.subTwo {k : ℤ} (h1 : -1000 ≤ k) (h2 : k < 900) {a b : ℝ} (ha : |a| ≤ (2:ℝ) ^ k) (hb : |b| ≤ (2:ℝ) ^ k) :
    ∃ v : ℝ, Rnd.rd r (fin a - fin b) = fin v ∧ |v| ≤ (2:ℝ) ^ (k + 1) := by
  rw [fin_sub]
  refine hr.absTwo (by omega) (by omega) ?_
  have := abs_sub a b
  rw [zpow_add_one₀ two_ne_zero]
  linarith

/-- the rounded product of two numbers below powers of two -/
theorem Nearest64.mulTwo {j k : ℤ} (h1 : -1000 ≤ j + k) (h2 : j + k ≤ 900) {a b : ℝ} (ha : |a| ≤ (2:ℝ) ^ j) (hb : |b| ≤ (2:ℝ) ^ k) :
    ∃ v : ℝ, Rnd.rd r (fin a * fin b) = fin v ∧ |v| ≤ (2:ℝ) ^ (j + k) := by
  rw [fin_mul]
  refine hr.absTwo h1 h2 ?_
  rw [abs_mul, zpow_add₀ two_ne_zero]
  exact mul_le_mul ha hb (abs_nonneg _) (two_zpow_pos _).le

/-- the rounded power of a number below a power of two -/
theorem Nearest64.powTwo (n : ℕ) {k : ℤ} (h1 : -1000 ≤ k * n) (h2 : k * n ≤ 900) {a : ℝ} (ha : |a| ≤ (2:ℝ) ^ k) :
    ∃ v : ℝ, Rnd.rd r (fin a ^ n) = fin v ∧ |v| ≤ (2:ℝ) ^ (k * n) := by
  rw [fin_pow]
  refine hr.absTwo h1 h2 ?_
  rw [abs_pow, zpow_mul, zpow_natCast]
  exact pow_le_pow_left₀ (abs_nonneg _) ha n

/-- a sum of at most `2 ^ 20` numbers below a power of two, divided by a number that is at least one -/
theorem sum_div_band {k : ℤ} (h1 : -1000 ≤ k) (h2 : k ≤ 880) {L : List XF} {s : XF} (h : RSum r L s) (hl : L.length ≤ 2 ^ 20)
    (hx : ∀ x ∈ L, ∃ a : ℝ, x = fin a ∧ |a| ≤ (2:ℝ) ^ k) {f : ℕ} (hf : 1 ≤ f) :
    ∃ v : ℝ, Rnd.rd r (s / (f : XF)) = fin v ∧ |v| ≤ (2:ℝ) ^ (k + 20) := by
  obtain ⟨v, rfl, hv⟩ := h.absBand hr h1 (by omega) (lt_of_le_of_lt hl (by norm_num)) hx
  have f1 : (1:ℝ) ≤ f := by exact_mod_cast hf
  have f0 : (0:ℝ) < f := by linarith
  have hL : (L.length:ℝ) ≤ (2:ℝ) ^ (20 : ℤ) := by exact_mod_cast hl
  rw [natCast_fin, fin_div f0.ne']
  refine hr.absTwo (by omega) (by omega) ?_
  rw [abs_div, abs_of_pos f0, zpow_add₀ two_ne_zero, mul_comm]
  calc |v| / f ≤ |v| := div_le_self (abs_nonneg _) f1
    _ ≤ L.length * (2:ℝ) ^ k := hv
    _ ≤ _ := mul_le_mul_of_nonneg_right hL (two_zpow_pos _).le

/-- a sum of numbers below a power of two and at most one zero, divided by the number of them -/
theorem mean_bandZ {k : ℤ} (h1 : -1000 ≤ k) (h2 : k ≤ 880) {z L : List XF} {s : XF} (hz : ∀ x ∈ z, x = fin 0) (hz1 : z.length ≤ 1)
    (hne : L ≠ []) (h : RSum r (z ++ L) s) (hl : z.length + L.length ≤ 2 ^ 20)
    (hx : ∀ x ∈ L, ∃ a : ℝ, x = fin a ∧ |a| ≤ (2:ℝ) ^ k) :
    ∃ v : ℝ, Rnd.rd r (s / (L.length : XF)) = fin v ∧ |v| ≤ (2:ℝ) ^ (k + 1) := by
  obtain ⟨v, rfl, hv⟩ := h.absBand hr h1 (by omega) (by rw [List.length_append]; exact lt_of_le_of_lt hl (by norm_num))
    (fun x h => by
      rcases List.mem_append.1 h with h | h
      · exact ⟨0, hz x h, by rw [abs_zero]; exact (two_zpow_pos _).le⟩
      · exact hx x h)
  have n1 : 1 ≤ L.length := List.length_pos_iff.mpr hne
  have f0 : (0:ℝ) < L.length := by exact_mod_cast n1
  have f2 : (((z ++ L).length : ℕ):ℝ) ≤ 2 * L.length := by
    rw [List.length_append]
    have : z.length + L.length ≤ 2 * L.length := by omega
    exact_mod_cast this
  rw [natCast_fin, fin_div f0.ne']
  refine hr.absTwo (by omega) (by omega) ?_
  rw [abs_div, abs_of_pos f0, div_le_iff₀ f0, zpow_add_one₀ two_ne_zero]
  have := mul_le_mul_of_nonneg_right f2 (two_zpow_pos k).le
  linarith

/-- the last line of the error-spread score -/
theorem essLast_band {s g e : ℝ} (hs : |s| ≤ (2:ℝ) ^ (52 : ℤ)) (hg : |g| ≤ (2:ℝ) ^ (302 : ℤ)) (he : |e| ≤ (2:ℝ) ^ (42 : ℤ)) :
    ∃ v : ℝ, Rnd.essLast r (fin s) (fin g) (fin e) = fin v := by
  have up : ∀ {a : ℝ} {j k : ℤ}, j ≤ k → |a| ≤ (2:ℝ) ^ j → |a| ≤ (2:ℝ) ^ k :=
    fun h h' => h'.trans (zpow_le_zpow_right₀ (by norm_num) h)
  obtain ⟨a, ea, ha⟩ := hr.powTwo 2 (by norm_num) (by norm_num) hs
  obtain ⟨b, eb, hb⟩ := hr.powTwo 2 (by norm_num) (by norm_num) he
  obtain ⟨c, ec, hc⟩ := hr.mulTwo (by norm_num) (by norm_num) he hs
  obtain ⟨d, ed, hd⟩ := hr.mulTwo (by norm_num) (by norm_num) hc hg
  obtain ⟨p, ep, hp⟩ := hr.subTwo (k := 104) (by norm_num) (by norm_num) (up (by norm_num) ha) (up (by norm_num) hb)
  obtain ⟨q, eq, hq⟩ := hr.subTwo (k := 396) (by norm_num) (by norm_num) (up (by norm_num) hp) (up (by norm_num) hd)
  obtain ⟨v, ev, _⟩ := hr.powTwo 2 (by norm_num) (by norm_num) hq
  refine ⟨v, ?_⟩
  unfold Rnd.essLast
  rw [ea, eb, ec, ed, ep, eq, ev]

/-- the spread and the skewness of the error-spread score; `z` holds the zero a loop starts from -/
theorem ess_moments {xs : List ℝ} {z : List XF} (hz : ∀ x ∈ z, x = fin 0) (hM : z.length + xs.length ≤ 2 ^ 20)
    (h3 : 3 ≤ xs.length) (hx : ∀ x ∈ xs, |x| ≤ (2:ℝ) ^ (40 : ℤ)) {a b m : ℝ} (ha : a ∈ xs) (hb : b ∈ xs)
    (hab : (2:ℝ) ^ (-40 : ℤ) ≤ |a - b|) (hm : |m| ≤ (2:ℝ) ^ (41 : ℤ)) {S : XF}
    (hS : RSum r (z ++ (xs.map fin).map fun x => Rnd.rd r (Rnd.rd r (x - fin m) ^ 2)) S) :
    ∃ s : ℝ, Rnd.rd r (XF.sqrt (Rnd.rd r (S / ((xs.length - 1 : ℕ) : XF)))) = fin s ∧ |s| ≤ (2:ℝ) ^ (52 : ℤ) ∧
      ∀ G : XF, RSum r (z ++ (xs.map fin).map fun x => Rnd.rd r (Rnd.rd r (Rnd.rd r (x - fin m) / fin s) ^ 3)) G →
        ∃ g : ℝ, Rnd.rd r (G / (((xs.length - 1) * (xs.length - 2) : ℕ) : XF)) = fin g ∧ |g| ≤ (2:ℝ) ^ (302 : ℤ) := by
  have hx' : ∀ x ∈ xs, |x| ≤ (2:ℝ) ^ (41 : ℤ) := fun x h =>
    (hx x h).trans (zpow_le_zpow_right₀ (by norm_num) (by norm_num))
  obtain ⟨s, es, s1, s2⟩ := var_bandZ hr (K := 41) (by norm_num) (by norm_num) hz hM hx' ha hb
    ((zpow_le_zpow_right₀ (by norm_num) (by norm_num)).trans hab) hm (f := xs.length - 1) (by omega) (by omega) hS
  have s0 : 0 < s := (two_zpow_pos _).trans_le s1
  refine ⟨s, es, by rw [abs_of_pos s0]; exact s2, fun G hG => ?_⟩
  refine sum_div_band hr (k := 282) (by norm_num) (by norm_num) hG
    (by rw [List.length_append, List.length_map, List.length_map]; exact hM) (fun x h => ?_)
    (Nat.one_le_iff_ne_zero.2 (Nat.mul_ne_zero (by omega) (by omega)))
  rcases List.mem_append.1 h with h | h
  · exact ⟨0, hz x h, by rw [abs_zero]; exact (two_zpow_pos _).le⟩
  rw [List.map_map] at h
  obtain ⟨c, hc, rfl⟩ := List.mem_map.1 h
  obtain ⟨d, ed, hd⟩ := hr.subTwo (k := 41) (by norm_num) (by norm_num) (hx' c hc) hm
  obtain ⟨q, eq, hq⟩ := hr.absTwo (k := 94) (by norm_num) (by norm_num) (c := d / s) (by
    rw [abs_div, abs_of_pos s0, div_le_iff₀ s0]
    calc |d| ≤ (2:ℝ) ^ (41 + 1 : ℤ) := hd
      _ = (2:ℝ) ^ (94 : ℤ) * (2:ℝ) ^ (-(41 + 11) : ℤ) := by rw [← zpow_add₀ two_ne_zero]; norm_num
      _ ≤ (2:ℝ) ^ (94 : ℤ) * s := mul_le_mul_of_nonneg_left s1 (two_zpow_pos _).le)
  obtain ⟨w, ew, hw⟩ := hr.powTwo 3 (by norm_num) (by norm_num) hq
  refine ⟨w, ?_, hw⟩
  show Rnd.rd r (Rnd.rd r (Rnd.rd r (fin c - fin m) / fin s) ^ 3) = fin w
  rw [ed, fin_div s0.ne', eq, ew]

end

/-- a loop that adds up a function of the members -/
theorem RSum.loop (r : ℝ → XF) (f : XF → XF) (xs : List XF) :
    RSum r ([fin 0] ++ xs.map f) (forRange 0 xs.length (0 : XF) fun i m => Rnd.rd r (m + f (idx xs i))) := by
  have h := RSum.fold (r := r) (fun i : ℕ => f (idx xs i)) (List.range xs.length) (L := [fin 0]) (s := 0) (.one _) (by simp)
  have e : (List.range xs.length).map (fun i : ℕ => f (idx xs i)) = xs.map f := by
    refine List.ext_getElem (by simp) fun i h1 h2 => ?_
    have hi : i < xs.length := by simpa using h2
    simp [idx, hi]
  rw [e] at h
  unfold forRange
  rwa [Nat.sub_zero, ← List.range_eq_range']

end Verif
