import Verif.Lemmas.RoundDss

/-! The range of the Dawid-Sebastiani score in binary64. -/

noncomputable section

open scoped Classical

namespace Verif

open XF Py Spec

section
variable {r : ℝ → XF} (hr : Nearest64 r)
include hr

/-- small integers times a power of two are kept -/
theorem Nearest64.kept {n : ℕ} (hn : n < 2 ^ 53) {k : ℤ} (h1 : -1000 ≤ k) (h2 : k ≤ 900) :
    r (n * (2:ℝ) ^ k) = fin (n * (2:ℝ) ^ k) := by
  rcases Nat.eq_zero_or_pos n with rfl | h0
  · rw [Nat.cast_zero, zero_mul]
    exact hr.under (by rw [abs_zero]; positivity)
  · have j1 : 2 ^ Nat.log 2 n ≤ n := Nat.pow_log_le_self 2 h0.ne'
    have j2 : n < 2 ^ (Nat.log 2 n + 1) := Nat.lt_pow_succ_log_self (by norm_num) n
    have j3 : Nat.log 2 n ≤ 52 := by
      have : Nat.log 2 n < 53 := Nat.log_lt_of_lt_pow h0.ne' hn
      omega
    generalize Nat.log 2 n = j at *
    have hk := two_zpow_pos k
    have e1 : (2:ℝ) ^ ((j:ℤ) + k) = (2:ℝ) ^ j * (2:ℝ) ^ k := by rw [zpow_add₀ two_ne_zero, zpow_natCast]
    have e2 : (2:ℝ) ^ ((j:ℤ) + k + 1) = (2:ℝ) ^ (j + 1) * (2:ℝ) ^ k := by
      rw [show (j:ℤ) + k + 1 = ((j + 1 : ℕ) : ℤ) + k by push_cast; ring, zpow_add₀ two_ne_zero, zpow_natCast]
    have e3 : ((n * 2 ^ (52 - j) : ℕ) : ℝ) * (2:ℝ) ^ ((j:ℤ) + k - 52) = n * (2:ℝ) ^ k := by
      push_cast
      rw [mul_assoc, ← zpow_natCast, ← zpow_add₀ two_ne_zero, show ((52 - j : ℕ) : ℤ) + ((j:ℤ) + k - 52) = k by omega]
    have := hr.eq (a := n * (2:ℝ) ^ k) ((j:ℤ) + k) ((n * 2 ^ (52 - j) : ℕ) : ℤ) (by omega) (by omega)
      (by rw [e1]; exact mul_le_mul_of_nonneg_right (by exact_mod_cast j1) hk.le)
      (by rw [e2]; exact mul_lt_mul_of_pos_right (by exact_mod_cast j2) hk)
      (by rw [Int.cast_natCast, e3, sub_self, abs_zero]; exact two_zpow_pos _)
    rw [this, Int.cast_natCast, e3]

/-- powers of two are kept -/
theorem Nearest64.two {k : ℤ} (h1 : -1000 ≤ k) (h2 : k ≤ 900) : r ((2:ℝ) ^ k) = fin ((2:ℝ) ^ k) := by
  have := hr.kept (n := 1) (by norm_num) h1 h2
  rwa [Nat.cast_one, one_mul] at this

/-- rounding keeps a bound that is a small multiple of a power of two -/
theorem Nearest64.absLe {n : ℕ} (hn : n < 2 ^ 53) {k : ℤ} (h1 : -1000 ≤ k) (h2 : k ≤ 900) {c : ℝ} (h : |c| ≤ n * (2:ℝ) ^ k) :
    ∃ v : ℝ, r c = fin v ∧ |v| ≤ n * (2:ℝ) ^ k := by
  have e := hr.kept hn h1 h2
  have h' := abs_le.1 h
  obtain ⟨v, e, g1, g2⟩ := between_kept hr.toBinary64 (a := -(n * (2:ℝ) ^ k)) (b := n * (2:ℝ) ^ k)
    (by rw [hr.neg, e, fin_neg]) e h'.1 h'.2
  exact ⟨v, e, abs_le.2 ⟨g1, g2⟩⟩

/-- sums of numbers below a power of two -/
theorem RSum.absBand {k : ℤ} (h1 : -1000 ≤ k) (h2 : k ≤ 900) {xs : List XF} {s : XF} (h : RSum r xs s) :
    xs.length < 2 ^ 53 → (∀ x ∈ xs, ∃ a : ℝ, x = fin a ∧ |a| ≤ (2:ℝ) ^ k) →
      ∃ v : ℝ, s = fin v ∧ |v| ≤ xs.length * (2:ℝ) ^ k := by
  induction h with
  | nil => intro _ _; exact ⟨0, rfl, by simp⟩
  | one x =>
    intro _ hx
    obtain ⟨a, e, ha⟩ := hx x (by simp)
    exact ⟨a, e, by simpa using ha⟩
  | @append xs ys s t _ _ _ _ ih1 ih2 =>
    intro hl hx
    rw [List.length_append] at hl
    obtain ⟨a, ea, ha⟩ := ih1 (by omega) fun x h => hx x (by simp [h])
    obtain ⟨b, eb, hb⟩ := ih2 (by omega) fun x h => hx x (by simp [h])
    rw [ea, eb, fin_add, List.length_append]
    refine hr.absLe (n := xs.length + ys.length) hl h1 h2 ?_
    have := abs_add_le a b
    push_cast
    linarith
  | perm hp _ ih =>
    intro hl hx
    rw [← hp.length_eq] at hl ⊢
    exact ih hl fun x h => hx x (hp.mem_iff.1 h)

/-- sums of nonnegative numbers below a power of two, one of which is at least a number that is kept -/
theorem RSum.posBand {k : ℤ} (h1 : -1000 ≤ k) (h2 : k ≤ 900) {a : ℝ} (ha : r a = fin a) {xs : List XF} {s : XF} (h : RSum r xs s) :
    xs.length < 2 ^ 53 → (∀ x ∈ xs, ∃ b : ℝ, x = fin b ∧ 0 ≤ b ∧ b ≤ (2:ℝ) ^ k) →
      ∃ v : ℝ, s = fin v ∧ 0 ≤ v ∧ v ≤ xs.length * (2:ℝ) ^ k ∧ ((∃ b : ℝ, fin b ∈ xs ∧ a ≤ b) → a ≤ v) := by
  induction h with
  | nil => intro _ _; exact ⟨0, rfl, le_rfl, by simp, by simp⟩
  | one x =>
    intro _ hx
    obtain ⟨b, e, hb⟩ := hx x (by simp)
    refine ⟨b, e, hb.1, by simpa using hb.2, ?_⟩
    rintro ⟨c, hc, h⟩
    rw [List.mem_singleton, e, fin.injEq] at hc
    rwa [← hc]
  | @append xs ys s t _ _ _ _ ih1 ih2 =>
    intro hl hx
    rw [List.length_append] at hl
    obtain ⟨p, ep, p0, p1, p2⟩ := ih1 (by omega) fun x h => hx x (by simp [h])
    obtain ⟨q, eq, q0, q1, q2⟩ := ih2 (by omega) fun x h => hx x (by simp [h])
    have z := rd_zero' hr.toBinary64
    have up : p + q ≤ (xs.length + ys.length : ℕ) * (2:ℝ) ^ k := by push_cast; linarith
    obtain ⟨v, ev, v0, v1⟩ := between_kept hr.toBinary64 z (hr.kept hl h1 h2) (add_nonneg p0 q0) up
    rw [ep, eq, fin_add, List.length_append]
    refine ⟨v, ev, v0, v1, ?_⟩
    rintro ⟨c, hc, h⟩
    have low : a ≤ p + q := by
      rcases List.mem_append.1 hc with hc | hc
      · linarith [p2 ⟨c, hc, h⟩]
      · linarith [q2 ⟨c, hc, h⟩]
    have := hr.mono low
    rw [ha, ev, fin_le] at this
    exact this
  | perm hp _ ih =>
    intro hl hx
    rw [← hp.length_eq] at hl ⊢
    obtain ⟨v, ev, v0, v1, v2⟩ := ih hl fun x h => hx x (hp.mem_iff.1 h)
    exact ⟨v, ev, v0, v1, fun ⟨c, hc, h⟩ => v2 ⟨c, hp.mem_iff.2 hc, h⟩⟩

end

section
variable {r : ℝ → XF} (hr : Nearest64 r) {S : List XF → XF} (hS : ∀ xs, RSum r xs (S xs))
include hr hS

/-- the computed mean of numbers below a power of two -/
theorem avg_band {K : ℤ} (hK0 : 0 ≤ K) (hK : K ≤ 200) {xs : List ℝ} (hne : xs ≠ []) (hM : xs.length ≤ 2 ^ 20) (hx : ∀ x ∈ xs, |x| ≤ (2:ℝ) ^ K) :
    ∃ m : ℝ, Rnd.avg r S (xs.map fin) = fin m ∧ |m| ≤ (2:ℝ) ^ K := by
  have hM0 : (0:ℝ) < xs.length := by exact_mod_cast List.length_pos_iff.mpr hne
  obtain ⟨s, es, hs⟩ := (hS (xs.map fin)).absBand hr (k := K) (by omega) (by omega)
    (by rw [List.length_map]; exact lt_of_le_of_lt hM (by norm_num)) (fun x h => by
      obtain ⟨a, ha, rfl⟩ := List.mem_map.1 h
      exact ⟨a, rfl, hx a ha⟩)
  rw [List.length_map] at hs
  unfold Rnd.avg
  rw [List.length_map, es, natCast_fin, fin_div hM0.ne']
  have := hr.absLe (n := 1) (by norm_num) (k := K) (by omega) (by omega) (c := s / xs.length) (by
    rw [abs_div, abs_of_pos hM0, div_le_iff₀ hM0, Nat.cast_one, one_mul, mul_comm]; exact hs)
  rwa [Nat.cast_one, one_mul] at this

omit hS in
/-- the computed sum of squares, divided by a number between one and the number of members; `z` holds the zero a loop
starts from -/
theorem var_bandZ {K : ℤ} (hK0 : 0 ≤ K) (hK : K ≤ 200) {xs : List ℝ} {z : List XF} (hz : ∀ x ∈ z, x = fin 0) (hM : z.length + xs.length ≤ 2 ^ 20) (hx : ∀ x ∈ xs, |x| ≤ (2:ℝ) ^ K)
    {a b m : ℝ} (ha : a ∈ xs) (hb : b ∈ xs) (hab : (2:ℝ) ^ (-K) ≤ |a - b|) (hm : |m| ≤ (2:ℝ) ^ K) {f : ℕ}
    (hf : 1 ≤ f) (hf2 : f ≤ xs.length) {S : XF}
    (hS : RSum r (z ++ (xs.map fin).map fun x => Rnd.rd r (Rnd.rd r (x - fin m) ^ 2)) S) :
    ∃ v : ℝ, Rnd.rd r (XF.sqrt (Rnd.rd r (S / (f : XF))))
      = fin v ∧ (2:ℝ) ^ (-(K + 11)) ≤ v ∧ v ≤ (2:ℝ) ^ (K + 11) := by
  have p401 : (2:ℝ) ^ (K + 1) = 2 * (2:ℝ) ^ K := by rw [zpow_add_one₀ two_ne_zero, mul_comm]
  have dv : ∀ x ∈ xs, ∃ d : ℝ, r (x - m) = fin d ∧ |d| ≤ (2:ℝ) ^ (K + 1) := by
    intro x h
    have := hr.absLe (n := 1) (by norm_num) (k := K + 1) (by omega) (by omega) (c := x - m) (by
      have h1 := abs_sub x m
      have h2 := hx x h
      rw [Nat.cast_one, one_mul, p401]
      linarith)
    rwa [Nat.cast_one, one_mul] at this
  have sqv : ∀ x ∈ xs, ∃ q : ℝ, Rnd.rd r (Rnd.rd r (fin x - fin m) ^ 2) = fin q ∧ 0 ≤ q ∧ q ≤ (2:ℝ) ^ (2 * K + 2) ∧
      ((2:ℝ) ^ (-(K + 1)) ≤ |x - m| → (2:ℝ) ^ (-(2 * K + 2)) ≤ q) := by
    intro x h
    obtain ⟨d, ed, hd⟩ := dv x h
    have z := rd_zero' hr.toBinary64
    have up : d ^ 2 ≤ (2:ℝ) ^ (2 * K + 2) := by
      rw [← sq_abs, show 2 * K + 2 = (K + 1) * ((2 : ℕ) : ℤ) by push_cast; ring, zpow_mul, zpow_natCast]
      exact pow_le_pow_left₀ (abs_nonneg _) hd 2
    obtain ⟨q, eq, q0, q1⟩ := between_kept hr.toBinary64 z (hr.two (k := 2 * K + 2) (by omega) (by omega)) (sq_nonneg d) up
    have e : Rnd.rd r (Rnd.rd r (fin x - fin m) ^ 2) = fin q := by
      rw [fin_sub, show Rnd.rd r (fin (x - m)) = fin d from ed, fin_pow]; exact eq
    refine ⟨q, e, q0, q1, fun hl => ?_⟩
    have k1 := hr.two (k := -(K + 1)) (by omega) (by omega)
    have dl : (2:ℝ) ^ (-(K + 1)) ≤ |d| := by
      rcases le_abs.1 hl with h1 | h1
      · have := hr.mono h1
        rw [k1, ed, fin_le] at this
        exact this.trans (le_abs_self d)
      · have := hr.mono h1
        rw [k1, hr.neg, ed, fin_neg, fin_le] at this
        exact this.trans (neg_le_abs d)
    have dq : (2:ℝ) ^ (-(2 * K + 2)) ≤ d ^ 2 := by
      rw [← sq_abs, show -(2 * K + 2) = -(K + 1) * ((2 : ℕ) : ℤ) by push_cast; ring, zpow_mul, zpow_natCast]
      exact pow_le_pow_left₀ (two_zpow_pos _).le dl 2
    have := hr.mono dq
    rw [hr.two (k := -(2 * K + 2)) (by omega) (by omega), eq, fin_le] at this
    exact this
  have far : ∃ x ∈ xs, (2:ℝ) ^ (-(K + 1)) ≤ |x - m| := by
    by_contra hc
    push Not at hc
    have h1 := hc a ha
    have h2 := hc b hb
    have h3 : |a - b| ≤ |a - m| + |b - m| := by
      rw [show a - b = (a - m) - (b - m) by ring]; exact abs_sub _ _
    have h4 : (2:ℝ) ^ (-K) = 2 * (2:ℝ) ^ (-(K + 1)) := by
      rw [show -K = -(K + 1) + 1 by ring, zpow_add_one₀ two_ne_zero, mul_comm]
    linarith
  obtain ⟨s, es, s0, s1, s2⟩ := hS.posBand hr (k := 2 * K + 2)
    (by omega) (by omega) (hr.two (k := -(2 * K + 2)) (by omega) (by omega))
    (by rw [List.length_append, List.length_map, List.length_map]; exact lt_of_le_of_lt hM (by norm_num))
    (fun x h => by
      rcases List.mem_append.1 h with h | h
      · exact ⟨0, hz x h, le_rfl, (two_zpow_pos _).le⟩
      rw [List.map_map] at h
      obtain ⟨c, hc, rfl⟩ := List.mem_map.1 h
      obtain ⟨q, e, q0, q1, _⟩ := sqv c hc
      exact ⟨q, e, q0, q1⟩)
  have sl : (2:ℝ) ^ (-(2 * K + 2)) ≤ s := by
    obtain ⟨x, hx, hl⟩ := far
    obtain ⟨q, e, _, _, q2⟩ := sqv x hx
    refine s2 ⟨q, ?_, q2 hl⟩
    rw [List.map_map]
    exact List.mem_append_right _ (List.mem_map.2 ⟨x, hx, e⟩)
  rw [List.length_append, List.length_map, List.length_map] at s1
  have f1 : (1:ℝ) ≤ f := by exact_mod_cast hf
  have f2 : (f:ℝ) ≤ (2:ℝ) ^ (20 : ℤ) := by
    have : f ≤ 2 ^ 20 := by omega
    exact_mod_cast this
  have M2 : ((z.length + xs.length : ℕ):ℝ) ≤ (2:ℝ) ^ (20 : ℤ) := by exact_mod_cast hM
  have f0 : (0:ℝ) < f := by linarith
  have v1 : (2:ℝ) ^ (-(2 * K + 22)) ≤ s / f := by
    rw [le_div_iff₀ f0]
    calc (2:ℝ) ^ (-(2 * K + 22)) * f ≤ (2:ℝ) ^ (-(2 * K + 22)) * (2:ℝ) ^ (20 : ℤ) := mul_le_mul_of_nonneg_left f2 (two_zpow_pos _).le
      _ = (2:ℝ) ^ (-(2 * K + 2)) := by rw [← zpow_add₀ two_ne_zero]; congr 1; ring
      _ ≤ s := sl
  have v2 : s / f ≤ (2:ℝ) ^ (2 * K + 22) := by
    calc s / f ≤ s := div_le_self s0 f1
      _ ≤ (z.length + xs.length : ℕ) * (2:ℝ) ^ (2 * K + 2) := s1
      _ ≤ (2:ℝ) ^ (20 : ℤ) * (2:ℝ) ^ (2 * K + 2) := mul_le_mul_of_nonneg_right M2 (two_zpow_pos _).le
      _ = (2:ℝ) ^ (2 * K + 22) := by rw [← zpow_add₀ two_ne_zero]; congr 1; ring
  obtain ⟨w, ew, w1, w2⟩ := between_kept hr.toBinary64 (hr.two (k := -(2 * K + 22)) (by omega) (by omega))
    (hr.two (k := 2 * K + 22) (by omega) (by omega)) v1 v2
  rw [es, natCast_fin, fin_div f0.ne', show Rnd.rd r (fin (s / f)) = fin w from ew,
    fin_sqrt ((two_zpow_pos _).le.trans w1)]
  refine between_kept hr.toBinary64 (hr.two (k := -(K + 11)) (by omega) (by omega))
    (hr.two (k := K + 11) (by omega) (by omega)) ?_ ?_
  · refine Real.le_sqrt_of_sq_le ?_
    rw [← zpow_natCast, ← zpow_mul, show -(K + 11) * ((2 : ℕ) : ℤ) = -(2 * K + 22) by push_cast; ring]
    exact w1
  · refine Real.sqrt_le_iff.2 ⟨(two_zpow_pos _).le, ?_⟩
    rw [← zpow_natCast, ← zpow_mul, show (K + 11) * ((2 : ℕ) : ℤ) = 2 * K + 22 by push_cast; ring]
    exact w2

/-- the computed sum of squares, divided by a number between one and the number of members -/
theorem var_band {K : ℤ} (hK0 : 0 ≤ K) (hK : K ≤ 200) {xs : List ℝ} (hM : xs.length ≤ 2 ^ 20) (hx : ∀ x ∈ xs, |x| ≤ (2:ℝ) ^ K)
    {a b m : ℝ} (ha : a ∈ xs) (hb : b ∈ xs) (hab : (2:ℝ) ^ (-K) ≤ |a - b|) (hm : |m| ≤ (2:ℝ) ^ K) {f : ℕ}
    (hf : 1 ≤ f) (hf2 : f ≤ xs.length) :
    ∃ v : ℝ, Rnd.rd r (XF.sqrt (Rnd.rd r (S ((xs.map fin).map fun x => Rnd.rd r (Rnd.rd r (x - fin m) ^ 2)) / (f : XF))))
      = fin v ∧ (2:ℝ) ^ (-(K + 11)) ≤ v ∧ v ≤ (2:ℝ) ^ (K + 11) :=
  var_bandZ hr hK0 hK (z := []) (by simp) (by simpa using hM) hx ha hb hab hm hf hf2 (hS _)

omit hS in
/-- the last steps of the score -/
theorem dssTail_band {y m v : ℝ} (hy : |y| ≤ (2:ℝ) ^ (200 : ℤ)) (hm : |m| ≤ (2:ℝ) ^ (200 : ℤ)) (h1 : (2:ℝ) ^ (-211 : ℤ) ≤ v)
    (h2 : v ≤ (2:ℝ) ^ (211 : ℤ)) :
    ∃ w : ℝ, Rnd.rd r (Rnd.rd r (Rnd.rd r (Rnd.rd r (fin y - fin m) / fin v) ^ 2)
      + Rnd.rd r (2 * Rnd.rd r (XF.log (fin v)))) = fin w := by
  have hb := hr.toBinary64
  have v0 : 0 < v := (two_zpow_pos _).trans_le h1
  have p201 : (2:ℝ) ^ (201 : ℤ) = 2 * (2:ℝ) ^ (200 : ℤ) := by norm_num
  obtain ⟨d, ed, hd⟩ := hr.absLe (n := 1) (by norm_num) (k := 201) (by norm_num) (by norm_num) (c := y - m) (by
    have := abs_sub y m
    rw [Nat.cast_one, one_mul, p201]; linarith)
  rw [Nat.cast_one, one_mul] at hd
  obtain ⟨q, eq, hq⟩ := hr.absLe (n := 1) (by norm_num) (k := 412) (by norm_num) (by norm_num) (c := d / v) (by
    rw [Nat.cast_one, one_mul, abs_div, abs_of_pos v0, div_le_iff₀ v0]
    calc |d| ≤ (2:ℝ) ^ (201 : ℤ) := hd
      _ = (2:ℝ) ^ (412 : ℤ) * (2:ℝ) ^ (-211 : ℤ) := by rw [← zpow_add₀ two_ne_zero]; norm_num
      _ ≤ (2:ℝ) ^ (412 : ℤ) * v := mul_le_mul_of_nonneg_left h1 (two_zpow_pos _).le)
  rw [Nat.cast_one, one_mul] at hq
  obtain ⟨p, ep, hp⟩ := hr.absLe (n := 1) (by norm_num) (k := 824) (by norm_num) (by norm_num) (c := q ^ 2) (by
    rw [Nat.cast_one, one_mul, abs_pow, show (824 : ℤ) = 412 * ((2 : ℕ) : ℤ) by norm_num, zpow_mul, zpow_natCast]
    exact pow_le_pow_left₀ (abs_nonneg _) hq 2)
  have l2 := Real.log_two_lt_d9
  have l20 : 0 < Real.log 2 := Real.log_pos (by norm_num)
  obtain ⟨l, el, hl⟩ := abs_kept hb (n := 211) (by norm_num) (c := Real.log v) (by
    have a1 := Real.log_le_log (two_zpow_pos _) h1
    have a2 := Real.log_le_log v0 h2
    rw [Real.log_zpow] at a1 a2
    push_cast at a1 a2 ⊢
    rw [abs_le]; constructor <;> linarith)
  obtain ⟨t, et, ht⟩ := abs_kept hb (n := 422) (by norm_num) (c := 2 * l) (by
    rw [abs_mul, abs_of_pos (by norm_num : (0:ℝ) < 2)]
    push_cast at hl ⊢; linarith)
  obtain ⟨w, ew, _⟩ := hr.absLe (n := 2) (by norm_num) (k := 824) (by norm_num) (by norm_num) (c := p + t) (by
    have := abs_add_le p t
    have big : (422:ℝ) ≤ (2:ℝ) ^ (824 : ℤ) :=
      le_trans (by norm_num : (422:ℝ) ≤ (2:ℝ) ^ (9 : ℤ)) (zpow_le_zpow_right₀ (by norm_num) (by norm_num))
    push_cast at ht hp ⊢
    generalize (2:ℝ) ^ (824 : ℤ) = Q at *
    linarith only [this, big, ht, hp])
  refine ⟨w, ?_⟩
  rw [fin_sub, show Rnd.rd r (fin (y - m)) = fin d from ed, fin_div v0.ne', show Rnd.rd r (fin (d / v)) = fin q from eq, fin_pow,
    show Rnd.rd r (fin (q ^ 2)) = fin p from ep, fin_log v0, show Rnd.rd r (fin (Real.log v)) = fin l from el, two_fin, fin_mul,
    show Rnd.rd r (fin (2 * l)) = fin t from et, fin_add]
  exact ew

end
end Verif
