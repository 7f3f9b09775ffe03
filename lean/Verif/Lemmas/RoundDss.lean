import Verif.Model.RoundDss
import Verif.Lemmas.RoundCrps2
import Verif.Lemmas.RoundCrpsIntA
import Verif.Lemmas.RoundBrier
import Verif.Lemmas.RoundCrpsLoop
import Verif.Props.Comb64
import Verif.Props.NoSpread

/-! Rounding in the scores built from mean and spread. -/

noncomputable section

open scoped Classical

namespace Verif

open XF Py Spec

section
variable {r : ℝ → XF} (hr : Binary64 r)
include hr

/-- rounding keeps a number between two numbers that are kept -/
theorem between_kept {a b c : ℝ} (ha : r a = fin a) (hb : r b = fin b) (h1 : a ≤ c) (h2 : c ≤ b) :
    ∃ v : ℝ, r c = fin v ∧ a ≤ v ∧ v ≤ b := by
  have g1 := hr.mono h1
  have g2 := hr.mono h2
  have g3 := hr.noNan c
  rw [ha] at g1
  rw [hb] at g2
  cases h : r c with
  | nan => exact absurd h g3
  | pinf => rw [h] at g2; exact absurd g2 (by simp)
  | ninf => rw [h] at g1; exact absurd g1 (by simp)
  | fin v => rw [h] at g1 g2; exact ⟨v, rfl, (fin_le ..).1 g1, (fin_le ..).1 g2⟩

/-- rounding keeps the bound of an absolute value -/
theorem abs_kept {n : ℕ} (hn : n ≤ 2 ^ 53) {c : ℝ} (h : |c| ≤ n) : ∃ v : ℝ, r c = fin v ∧ |v| ≤ n := by
  have h' := abs_le.1 h
  obtain ⟨v, e, h1, h2⟩ := between_kept hr (a := -(n:ℝ)) (b := n) (by rw [hr.neg, hr.nat n hn, fin_neg]) (hr.nat n hn) h'.1 h'.2
  exact ⟨v, e, abs_le.2 ⟨h1, h2⟩⟩

omit hr in
/-- a square of a quotient by zero and minus infinity have no sum -/
theorem sq_div_zero_add (z : XF) : Rnd.rd r (Rnd.rd r (Rnd.rd r (z / fin 0) ^ 2) + ninf) = nan := by
  have h : z / fin 0 = nan ∨ z / fin 0 = pinf ∨ z / fin 0 = ninf := by
    cases z with
    | nan => left; rfl
    | pinf => right; left; simp [div_def, XF.div]
    | ninf => right; right; simp [div_def, XF.div]
    | fin a =>
      rcases lt_trichotomy a 0 with h | h | h
      · right; right; simp [div_def, XF.div, h.ne, h.not_gt]
      · left; simp [div_def, XF.div, h]
      · right; left; simp [div_def, XF.div, h, h.ne']
  rcases h with h | h | h <;> rw [h]
  · rfl
  · have : Rnd.rd r pinf ^ 2 = pinf := by rw [pow_two]; rfl
    rw [this]; rfl
  · have : Rnd.rd r ninf ^ 2 = pinf := by rw [pow_two]; rfl
    rw [this]; rfl

theorem rd_zero' : Rnd.rd r (fin 0) = fin 0 := hr.under (by rw [abs_zero]; positivity)

/-- the mean of equal members that are small integers -/
theorem sum_const {M n : ℕ} (hM : M ≠ 0) (h : M * n ≤ 2 ^ 53) {s : XF}
    (hs : RSum r (List.replicate M (fin (n:ℝ))) s ∨ RSum r ([fin 0] ++ List.replicate M (fin (n:ℝ))) s) :
    Rnd.rd r (s / (M : XF)) = fin n := by
  have e : s = fin ((M * n : ℕ) : ℝ) := by
    rcases hs with hs | hs
    · have := RSum.nats hr (ns := List.replicate M n) (s := s) (by rwa [List.map_replicate]) (by simpa using h)
      simpa using this
    · have := RSum.nats hr (ns := 0 :: List.replicate M n) (s := s) (by
        rw [List.map_cons, List.map_replicate, Nat.cast_zero]; exact hs) (by simpa using h)
      simpa using this
  have hM' : (M:ℝ) ≠ 0 := by exact_mod_cast hM
  rw [e, natCast_fin, fin_div hM', Nat.cast_mul, mul_div_cancel_left₀ _ hM']
  exact hr.nat n (le_trans (Nat.le_mul_of_pos_left n (Nat.pos_of_ne_zero hM)) h)

end

/-- the binary64 number nearest to `0.1` -/
def tenth : ℝ := 7205759403792794 / 2 ^ 56

section
variable {r : ℝ → XF} (hr : Nearest64 r)
include hr

/-- the rounded mean of three members `0.1` is one unit in the last place beside `0.1` -/
theorem mean_tenth : Rnd.rd r (fin tenth + fin tenth) = fin (2 * tenth) ∧
    ∃ δ : ℝ, (δ = 1 / 2 ^ 56 ∨ δ = -(1 / 2 ^ 56)) ∧
      Rnd.rd r (Rnd.rd r (fin tenth + fin (2 * tenth)) / fin 3) = fin (tenth + δ) := by
  have h2 : Rnd.rd r (fin tenth + fin tenth) = fin (2 * tenth) := by
    rw [fin_add]
    have := hr.eq (a := tenth + tenth) (-3) 7205759403792794 (by norm_num) (by norm_num) (by norm_num [tenth])
      (by norm_num [tenth]) (by norm_num [tenth])
    show r _ = _
    rw [this]
    congr 1
    norm_num [tenth]
  refine ⟨h2, ?_⟩
  obtain ⟨n, e, hn⟩ := hr.grid (a := tenth + 2 * tenth) (e := -2) (by norm_num) (by norm_num) (by norm_num [tenth])
    (by norm_num [tenth])
  have hn' : n = 5404319552844595 ∨ n = 5404319552844596 := by
    have h := abs_le.1 hn
    norm_num [tenth] at h
    obtain ⟨h1, h3⟩ := h
    have a1 : (5404319552844594 : ℝ) < n := by linarith only [h1, h3]
    have a2 : (n : ℝ) < 5404319552844597 := by linarith only [h1, h3]
    have b1 : 5404319552844594 < n := by exact_mod_cast a1
    have b2 : n < 5404319552844597 := by exact_mod_cast a2
    omega
  have e' : Rnd.rd r (fin tenth + fin (2 * tenth)) = fin (n * (2:ℝ) ^ ((-2 : ℤ) - 52)) := by rw [fin_add]; exact e
  rw [e', fin_div (by norm_num)]
  rcases hn' with rfl | rfl
  · refine ⟨-(1 / 2 ^ 56), .inr rfl, ?_⟩
    have := hr.eq (a := (5404319552844595 : ℤ) * (2:ℝ) ^ ((-2 : ℤ) - 52) / 3) (-4) 7205759403792793 (by norm_num) (by norm_num)
      (by norm_num) (by norm_num) (by norm_num [abs_lt])
    show r _ = _
    rw [this]
    congr 1
    norm_num [tenth]
  · refine ⟨1 / 2 ^ 56, .inl rfl, ?_⟩
    have := hr.eq (a := (5404319552844596 : ℤ) * (2:ℝ) ^ ((-2 : ℤ) - 52) / 3) (-4) 7205759403792795 (by norm_num) (by norm_num)
      (by norm_num) (by norm_num) (by norm_num [abs_lt])
    show r _ = _
    rw [this]
    congr 1
    norm_num [tenth]

theorem kept_tenth : r tenth = fin tenth := by
  rw [hr.eq (a := tenth) (-4) 7205759403792794 (by norm_num) (by norm_num) (by norm_num [tenth])
    (by norm_num [tenth]) (by norm_num [tenth])]
  congr 1

theorem kept_56 : r (1 / 2 ^ 56) = fin (1 / 2 ^ 56) := by
  rw [hr.eq (a := 1 / 2 ^ 56) (-56) (2 ^ 52) (by norm_num) (by norm_num) (by norm_num) (by norm_num) (by norm_num)]
  congr 1
  norm_num

theorem kept_55 : r (1 / 2 ^ 55) = fin (1 / 2 ^ 55) := by
  rw [hr.eq (a := 1 / 2 ^ 55) (-55) (2 ^ 52) (by norm_num) (by norm_num) (by norm_num) (by norm_num) (by norm_num)]
  congr 1
  norm_num

theorem kept_112 : r (1 / 2 ^ 112) = fin (1 / 2 ^ 112) := by
  rw [hr.eq (a := 1 / 2 ^ 112) (-112) (2 ^ 52) (by norm_num) (by norm_num) (by norm_num) (by norm_num) (by norm_num)]
  congr 1
  norm_num

theorem kept_111 : r (2 / 2 ^ 112) = fin (2 / 2 ^ 112) := by
  rw [hr.eq (a := 2 / 2 ^ 112) (-111) (2 ^ 52) (by norm_num) (by norm_num) (by norm_num) (by norm_num) (by norm_num)]
  congr 1
  norm_num

theorem kept_3_112 : r (3 / 2 ^ 112) = fin (3 / 2 ^ 112) := by
  rw [hr.eq (a := 3 / 2 ^ 112) (-111) (3 * 2 ^ 51) (by norm_num) (by norm_num) (by norm_num) (by norm_num) (by norm_num)]
  congr 1
  norm_num

theorem kept_3_113 : r (3 / 2 ^ 113) = fin (3 / 2 ^ 113) := by
  rw [hr.eq (a := 3 / 2 ^ 113) (-112) (3 * 2 ^ 51) (by norm_num) (by norm_num) (by norm_num) (by norm_num) (by norm_num)]
  congr 1
  norm_num

/-- the deviation of one unit in the last place and its square -/
theorem dev_tenth {δ : ℝ} (h : δ = 1 / 2 ^ 56 ∨ δ = -(1 / 2 ^ 56)) :
    r δ = fin δ ∧ r (-δ) = fin (-δ) ∧ δ ^ 2 = 1 / 2 ^ 112 ∧ |δ| = 1 / 2 ^ 56 := by
  have k := kept_56 hr
  rcases h with rfl | rfl
  · refine ⟨k, by rw [hr.neg, k, fin_neg], by norm_num, by norm_num⟩
  · refine ⟨by rw [hr.neg, k, fin_neg], by rw [neg_neg, k], by norm_num, by norm_num⟩

/-- the computed spread -/
theorem sig_tenth : ∃ s : ℝ, Rnd.rd r (XF.sqrt (fin (3 / 2 ^ 113))) = fin s ∧ 1 / 2 ^ 56 ≤ s ∧ s ≤ 1 / 2 ^ 55 := by
  rw [fin_sqrt (by positivity)]
  refine between_kept hr.toBinary64 (kept_56 hr) (kept_55 hr) ?_ ?_
  · exact Real.le_sqrt_of_sq_le (by norm_num)
  · exact Real.sqrt_le_iff.2 ⟨by positivity, by norm_num⟩

/-- the last steps of the Dawid-Sebastiani score -/
theorem dssTail_tenth {s δ : ℝ} (h1 : 1 / 2 ^ 56 ≤ s) (h2 : s ≤ 1 / 2 ^ 55) (hδ : |δ| = 1 / 2 ^ 56) :
    ∃ v : ℝ, Rnd.rd r (Rnd.rd r (Rnd.rd r (fin δ / fin s) ^ 2) + Rnd.rd r (2 * Rnd.rd r (XF.log (fin s)))) = fin v ∧
      -78 ≤ v ∧ v ≤ -75 := by
  have hb := hr.toBinary64
  have s0 : 0 < s := lt_of_lt_of_le (by positivity) h1
  have q1 : |δ / s| ≤ (1:ℕ) := by
    rw [abs_div, hδ, abs_of_pos s0, Nat.cast_one, div_le_one s0]; exact h1
  obtain ⟨q, eq, hq⟩ := abs_kept hb (by norm_num) q1
  have hq2 : q ^ 2 ≤ (1:ℕ) := by
    rw [← sq_abs, Nat.cast_one]; exact pow_le_one₀ (abs_nonneg _) (by simpa using hq)
  obtain ⟨p, ep, p0, p1⟩ := hb.between (m := 0) (n := 1) (by norm_num) (a := q ^ 2) (by simpa using sq_nonneg q) hq2
  have l2a := Real.log_two_gt_d9
  have l2b := Real.log_two_lt_d9
  have L1 : (38:ℕ) ≤ -Real.log s := by
    have := Real.log_le_log s0 h2
    rw [one_div, Real.log_inv, Real.log_pow] at this
    push_cast at this ⊢
    linarith
  have L2 : -Real.log s ≤ (39:ℕ) := by
    have := Real.log_le_log (by positivity) h1
    rw [one_div, Real.log_inv, Real.log_pow] at this
    push_cast at this ⊢
    linarith
  obtain ⟨l, el, l0, l1⟩ := hb.between' (by norm_num) L1 L2
  push_cast at l0 l1
  obtain ⟨k, ek, k0, k1⟩ := hb.between' (m := 76) (n := 78) (by norm_num) (a := 2 * l) (by push_cast; linarith) (by push_cast; linarith)
  push_cast at k0 k1 p0 p1
  obtain ⟨v, ev, v0, v1⟩ := hb.between' (m := 75) (n := 78) (by norm_num) (a := p + k) (by push_cast; linarith) (by push_cast; linarith)
  push_cast at v0 v1
  refine ⟨v, ?_, by linarith, by linarith⟩
  rw [fin_div s0.ne', show Rnd.rd r (fin (δ / s)) = fin q from eq, fin_pow, show Rnd.rd r (fin (q ^ 2)) = fin p from ep,
    fin_log s0, show Rnd.rd r (fin (Real.log s)) = fin l from el, two_fin, fin_mul,
    show Rnd.rd r (fin (2 * l)) = fin k from ek, fin_add]
  exact ev

/-- the last line of the error-spread score is a number -/
theorem essTail_kept {s g e : ℝ} (hs : |s| ≤ 1) (hg : |g| ≤ 3) (he : |e| ≤ 1) :
    ∃ v : ℝ, Rnd.essLast r (fin s) (fin g) (fin e) = fin v ∧ |v| ≤ 25 := by
  have hb := hr.toBinary64
  have sq : ∀ {x : ℝ}, |x| ≤ 1 → |x ^ 2| ≤ (1:ℕ) := fun {x} h => by
    rw [abs_pow, Nat.cast_one]; exact pow_le_one₀ (abs_nonneg _) h
  obtain ⟨a, ea, ha⟩ := abs_kept hb (by norm_num) (sq hs)
  obtain ⟨b, eb, hb'⟩ := abs_kept hb (by norm_num) (sq he)
  obtain ⟨c, ec, hc⟩ := abs_kept hb (n := 1) (by norm_num) (c := e * s) (by
    rw [abs_mul, Nat.cast_one]; exact mul_le_one₀ he (abs_nonneg _) hs)
  push_cast at ha hb' hc
  obtain ⟨d, ed, hd⟩ := abs_kept hb (n := 3) (by norm_num) (c := c * g) (by
    rw [abs_mul]; push_cast
    calc |c| * |g| ≤ 1 * 3 := mul_le_mul hc hg (abs_nonneg _) (by norm_num)
      _ = 3 := by norm_num)
  obtain ⟨f, ef, hf⟩ := abs_kept hb (n := 2) (by norm_num) (c := a - b) (by
    have := abs_sub a b
    push_cast; linarith)
  push_cast at hd hf
  obtain ⟨w, ew, hw⟩ := abs_kept hb (n := 5) (by norm_num) (c := f - d) (by
    have := abs_sub f d
    push_cast; linarith)
  push_cast at hw
  obtain ⟨v, ev, hv⟩ := abs_kept hb (n := 25) (by norm_num) (c := w ^ 2) (by
    rw [abs_pow]; push_cast
    calc |w| ^ 2 ≤ 5 ^ 2 := pow_le_pow_left₀ (abs_nonneg _) hw 2
      _ = 25 := by norm_num)
  refine ⟨v, ?_, by exact_mod_cast hv⟩
  unfold Rnd.essLast
  rw [fin_pow, show Rnd.rd r (fin (s ^ 2)) = fin a from ea, fin_pow, show Rnd.rd r (fin (e ^ 2)) = fin b from eb, fin_mul,
    show Rnd.rd r (fin (e * s)) = fin c from ec, fin_mul, show Rnd.rd r (fin (c * g)) = fin d from ed, fin_sub,
    show Rnd.rd r (fin (a - b)) = fin f from ef, fin_sub, show Rnd.rd r (fin (f - d)) = fin w from ew, fin_pow]
  exact ev

/-- a cube of a number of at most one -/
theorem cube_kept {s δ : ℝ} (h1 : 1 / 2 ^ 56 ≤ s) (hδ : |δ| = 1 / 2 ^ 56) :
    ∃ c : ℝ, Rnd.rd r (Rnd.rd r (fin δ / fin s) ^ 3) = fin c ∧ |c| ≤ 1 := by
  have hb := hr.toBinary64
  have s0 : 0 < s := lt_of_lt_of_le (by positivity) h1
  obtain ⟨q, eq, hq⟩ := abs_kept hb (n := 1) (by norm_num) (c := δ / s) (by
    rw [abs_div, hδ, abs_of_pos s0, Nat.cast_one, div_le_one s0]; exact h1)
  obtain ⟨c, ec, hc⟩ := abs_kept hb (n := 1) (by norm_num) (c := q ^ 3) (by
    rw [abs_pow, Nat.cast_one]; exact pow_le_one₀ (abs_nonneg _) (by simpa using hq))
  refine ⟨c, ?_, by simpa using hc⟩
  rw [fin_div s0.ne', show Rnd.rd r (fin (δ / s)) = fin q from eq, fin_pow]
  exact ec

/-- the sum of three equal small numbers, divided by two -/
theorem three_kept {c : ℝ} (hc : |c| ≤ 1) {t : XF}
    (ht : t = Rnd.rd r (fin c + Rnd.rd r (fin c + fin c)) ∨
      t = Rnd.rd r (Rnd.rd r (Rnd.rd r (fin 0 + fin c) + fin c) + fin c)) :
    ∃ g : ℝ, Rnd.rd r (t / fin 2) = fin g ∧ |g| ≤ 3 := by
  have hb := hr.toBinary64
  have key : ∀ {x y : ℝ} (n : ℕ), n ≤ 100 → |x| ≤ n → |y| ≤ 1 → ∃ z : ℝ, Rnd.rd r (fin x + fin y) = fin z ∧ |z| ≤ (n + 1 : ℕ) := by
    intro x y n hn hx hy
    rw [fin_add]
    exact abs_kept hb (n := n + 1) (by omega) (by
      have := abs_add_le x y
      push_cast; linarith)
  obtain ⟨z, ez, hz⟩ : ∃ z : ℝ, t = fin z ∧ |z| ≤ 4 := by
    rcases ht with rfl | rfl
    · obtain ⟨a, ea, ha⟩ := key (x := c) (y := c) 1 (by norm_num) (by simpa using hc) hc
      rw [ea, add_comm]
      obtain ⟨b, eb, hb'⟩ := key (x := a) (y := c) 2 (by norm_num) (by simpa using ha) hc
      exact ⟨b, eb, hb'.trans (by norm_num)⟩
    · obtain ⟨a, ea, ha⟩ := key (x := 0) (y := c) 0 (by norm_num) (by simp) hc
      rw [ea]
      obtain ⟨b, eb, hb'⟩ := key (x := a) (y := c) 1 (by norm_num) (by simpa using ha) hc
      rw [eb]
      obtain ⟨d, ed, hd⟩ := key (x := b) (y := c) 2 (by norm_num) (by simpa using hb') hc
      exact ⟨d, ed, hd.trans (by norm_num)⟩
  rw [ez, fin_div (by norm_num)]
  obtain ⟨g, eg, hg⟩ := abs_kept hb (n := 2) (by norm_num) (c := z / 2) (by
    rw [abs_div, abs_of_pos (by norm_num : (0:ℝ) < 2)]; push_cast; linarith)
  exact ⟨g, eg, hg.trans (by norm_num)⟩

end
end Verif
