import Verif.Lemmas.RoundingEns
import Verif.Lemmas.Nearest64
import Verif.Lemmas.CrpsApi
import Verif.Spec.Brier
import Verif.Spec.Quantile
import Verif.Spec.Crps

/-!
# Property C131: how far rounding moves a score

Brier, quantile and interval scores computed in binary64 have a relative error of at most `2 ^ -48`, and the energy
and fair forms of the ensemble CRPS an absolute error of at most `M ^ 2 / 2 ^ 46` times the size of the data.
-/

noncomputable section

open scoped Classical

namespace Verif

open XF Py

/-- Without rounding the functions of this file are those of the exact model. -/
theorem C131_exact :
    Rnd.brier fin = Brier.brier1 ∧ Rnd.quantile fin = Quantile.score1 ∧ Rnd.interval fin = Interval.score1 ∧
    Rnd.nrg fin = Gufunc.nrg ∧ Rnd.fair fin = Gufunc.fair := by
  have h : ∀ x : XF, Rnd.rd fin x = x := by intro x; cases x <;> rfl
  refine ⟨?_, ?_, ?_, ?_, ?_⟩
  · funext o f; simp only [Rnd.brier, Brier.brier1, h]
  · funext o f a; simp only [Rnd.quantile, Quantile.score1, h]
  · funext o l u a; simp only [Rnd.interval, Interval.score1, h]
  · funext y xs; simp only [Rnd.nrg, Rnd.nrgLoop, Gufunc.nrg, h]
  · funext y xs; simp only [Rnd.fair, Rnd.nrgLoop, Gufunc.fair, h]

/-- The Brier score has a small relative error, for a probability that equals the outcome or differs from it by
`2 ^ -400` or more. -/
theorem C131_brier {r : ℝ → XF} (hr : Binary64 r) (o : Bool) {p : ℝ} (h0 : 0 ≤ p) (h1 : p ≤ 1)
    (h : p = (if o then 1 else 0) ∨ 1 / 2 ^ 400 ≤ |p - (if o then 1 else 0)|) :
    ∃ v : ℝ, Rnd.brier r (fin (if o then 1 else 0)) (fin p) = fin v ∧
      |v - Spec.brier p o| ≤ 1 / 2 ^ 49 * Spec.brier p o := by
  have e : Spec.brier p o = (p - (if o then 1 else 0)) ^ 2 := by
    cases o <;> simp [Spec.brier]; ring
  have hle : |p - (if o then 1 else 0)| ≤ 1 := by
    rw [abs_le]; cases o <;> simp <;> constructor <;> linarith
  rw [e]
  generalize (if o then (1:ℝ) else 0) = q at *
  unfold Rnd.brier
  rw [fin_sub]
  rcases h with rfl | h
  · refine ⟨0, ?_, by simp⟩
    rw [sub_self, hr.rd_zero, pow_two, fin_mul, mul_zero, hr.rd_zero]
  · have hs : Size 400 |p - q| := ⟨h, hle.trans (one_le_pow₀ (by norm_num))⟩
    have a1 := rd_rel hr (hs.mid (by norm_num))
    have a2 := (a1.mul a1 (by norm_num) (by norm_num)).rd hr (by norm_num)
      (by rw [abs_mul]; exact (hs.mul hs).mid (by norm_num))
    rw [← pow_two, ← pow_two] at a2
    obtain ⟨v, hv, hv'⟩ := a2.mono (show 4 + 4 + 1 + 4 ≤ 16 by norm_num)
    refine ⟨v, hv, hv'.trans (le_of_eq ?_)⟩
    rw [abs_of_nonneg (sq_nonneg (p - q))]
    norm_num

example : ∃ r, Binary64 r := ⟨rn64, rn64_nearest.toBinary64⟩

example : (0:ℝ) ≤ 1 / 4 ∧ (1 / 4 : ℝ) ≤ 1 ∧ 1 / 2 ^ 400 ≤ |(1 / 4 : ℝ) - (if true then 1 else 0)| := by
  refine ⟨by norm_num, by norm_num, ?_⟩
  have : (1:ℝ) / 2 ^ 400 ≤ 1 / 2 ^ 1 :=
    one_div_le_one_div_of_le (by positivity) (pow_le_pow_right₀ (by norm_num) (by norm_num))
  refine this.trans ?_
  rw [abs_of_nonpos] <;> norm_num

/-- The quantile score has a small relative error, for a forecast that equals the observation or differs from it by
between `2 ^ -400` and `2 ^ 400`. -/
theorem C131_quantile {r : ℝ → XF} (hr : Binary64 r) {α q y : ℝ} (h0 : 1 / 2 ^ 400 ≤ α) (h1 : 1 / 2 ^ 400 ≤ 1 - α)
    (h : q = y ∨ 1 / 2 ^ 400 ≤ |q - y| ∧ |q - y| ≤ 2 ^ 400) :
    ∃ v : ℝ, Rnd.quantile r (fin y) (fin q) (fin α) = fin v ∧
      |v - Spec.pinball α q y| ≤ 1 / 2 ^ 49 * Spec.pinball α q y := by
  have p0 : 0 < α := lt_of_lt_of_le (by positivity) h0
  have p1 : 0 < 1 - α := lt_of_lt_of_le (by positivity) h1
  have s0 : Size 400 α := ⟨h0, (by linarith : α ≤ 1).trans (one_le_pow₀ (by norm_num))⟩
  have s1 : Size 400 (1 - α) := ⟨h1, (by linarith : 1 - α ≤ 1).trans (one_le_pow₀ (by norm_num))⟩
  clear h0 h1
  unfold Rnd.quantile
  rcases h with rfl | h
  · refine ⟨0, ?_, by simp [Spec.pinball]⟩
    have : ¬ fin q < fin q := by simp
    rw [ind, if_neg this, zero_fin, fin_sub, fin_sub, sub_self, hr.rd_zero, zero_sub]
    have e := rd_rel hr (a := -α) (by rw [abs_neg, abs_of_pos p0]; exact s0.mid (by norm_num))
    obtain ⟨b, hb, -⟩ := e
    rw [hb, fin_mul, mul_zero, hr.rd_zero]
  · have hs : Size 400 |q - y| := h
    have a1 := rd_rel hr (hs.mid (by norm_num))
    have hc : ∃ c : ℝ, ind (fin y < fin q) - fin α = fin c ∧ Size 400 |c| ∧ Spec.pinball α q y = c * (q - y) ∧
        0 ≤ c * (q - y) := by
      by_cases hq : y < q
      · refine ⟨1 - α, ?_, by rwa [abs_of_pos p1], ?_, by nlinarith⟩
        · rw [ind, if_pos (by simpa using hq), one_fin, fin_sub]
        · rw [Spec.pinball, max_eq_right]; nlinarith
      · refine ⟨-α, ?_, by rwa [abs_neg, abs_of_pos p0], ?_, by nlinarith⟩
        · rw [ind, if_neg (by simpa using hq), zero_fin, fin_sub, zero_sub]
        · rw [Spec.pinball, max_eq_left]
          · ring
          · nlinarith
    obtain ⟨c, e1, hc, e2, hn⟩ := hc
    rw [e1, e2, fin_sub]
    have a3 := ((rd_rel hr (hc.mid (by norm_num))).mul a1 (by norm_num) (by norm_num)).rd hr (by norm_num)
      (by rw [abs_mul]; exact (hc.mul hs).mid (by norm_num))
    obtain ⟨v, hv, hv'⟩ := a3.mono (show 4 + 4 + 1 + 4 ≤ 16 by norm_num)
    refine ⟨v, hv, hv'.trans (le_of_eq ?_)⟩
    rw [abs_of_nonneg hn]
    norm_num

theorem small_400 : (1:ℝ) / 2 ^ 400 ≤ 1 / 4 := by
  have : (1:ℝ) / 2 ^ 400 ≤ 1 / 2 ^ 2 :=
    one_div_le_one_div_of_le (by positivity) (pow_le_pow_right₀ (by norm_num) (by norm_num))
  exact this.trans (by norm_num)

example : (1:ℝ) / 2 ^ 400 ≤ 1 / 4 ∧ (1:ℝ) / 2 ^ 400 ≤ 1 - 1 / 4 ∧ 1 / 2 ^ 400 ≤ |(3:ℝ) - 2| ∧ |(3:ℝ) - 2| ≤ 2 ^ 400 := by
  have e : |(3:ℝ) - 2| = 1 := by norm_num
  rw [e]
  exact ⟨small_400, small_400.trans (by norm_num), small_400.trans (by norm_num), one_le_pow₀ (by norm_num)⟩

/-- The interval score has a small relative error, for an interval whose width, and a penalty whose distance, lies
between `2 ^ -400` and `2 ^ 400`. -/
theorem C131_interval {r : ℝ → XF} (hr : Binary64 r) {α l u y : ℝ} (h0 : 1 / 2 ^ 100 ≤ α) (h1 : α ≤ 1)
    (hw : 1 / 2 ^ 400 ≤ u - l) (hw' : u - l ≤ 2 ^ 400)
    (hl : y < l → 1 / 2 ^ 400 ≤ l - y ∧ l - y ≤ 2 ^ 400) (hu : u < y → 1 / 2 ^ 400 ≤ y - u ∧ y - u ≤ 2 ^ 400) :
    ∃ v : ℝ, Rnd.interval r (fin y) (fin l) (fin u) (fin α) = fin v ∧
      |v - Spec.intervalScore α l u y| ≤ 1 / 2 ^ 48 * Spec.intervalScore α l u y := by
  have p0 : 0 < α := lt_of_lt_of_le (by positivity) h0
  have s0 : Size 101 (2 / α) := by
    constructor
    · refine le_trans (b := 1) ?_ ?_
      · rw [div_le_one (by positivity)]; exact one_le_pow₀ (by norm_num)
      · rw [le_div_iff₀ p0]; linarith
    · rw [div_le_iff₀ p0, pow_succ, mul_comm ((2:ℝ) ^ 100) 2, mul_assoc]
      have : 1 ≤ 2 ^ 100 * α := by
        rw [div_le_iff₀ (by positivity)] at h0
        linarith
      linarith
  have sw : Size 400 (u - l) := ⟨hw, hw'⟩
  have pw := sw.pos
  clear h0 hw hw'
  have t1 := rd_rel hr (a := 2 / α) (by rw [abs_of_pos s0.pos]; exact s0.mid (by norm_num))
  have t2 := rd_rel hr (a := u - l) (by rw [abs_of_pos pw]; exact sw.mid (by norm_num))
  unfold Rnd.interval
  simp only [two_fin, fin_div p0.ne', fin_sub]
  -- a penalty of distance `d`
  have pen : ∀ d : ℝ, Size 400 d → Rel (Rnd.rd r (Rnd.rd r (1 * Rnd.rd r (fin (2 / α))) * Rnd.rd r (fin d)))
      (2 / α * d) 17 ∧ Size 501 (2 / α * d) := by
    intro d hd
    have hs := s0.mul hd
    refine ⟨?_, hs⟩
    have a1 : Rel (1 * Rnd.rd r (fin (2 / α))) (2 / α) 4 := by
      obtain ⟨b, hb, hb'⟩ := t1
      exact ⟨b, by rw [hb, one_fin, fin_mul, one_mul], hb'⟩
    have a2 := a1.rd hr (by norm_num) (by rw [abs_of_pos s0.pos]; exact s0.mid (by norm_num))
    have a3 := rd_rel hr (a := d) (by rw [abs_of_pos hd.pos]; exact hd.mid (by norm_num))
    exact (a2.mul a3 (by norm_num) (by norm_num)).rd hr (by norm_num)
      (by rw [abs_of_pos hs.pos]; exact hs.mid (by norm_num))
  -- no penalty
  have nopen : ∀ d : ℝ, |d| ≤ 2 ^ 401 →
      Rnd.rd r (Rnd.rd r (0 * Rnd.rd r (fin (2 / α))) * Rnd.rd r (fin d)) = fin 0 := by
    intro d hd
    obtain ⟨b, hb, -⟩ := t1
    have : ∃ c, Rnd.rd r (fin d) = fin c := by
      obtain ⟨δ, η, -, -, e⟩ := hr.acc (hd.trans_lt (pow_lt_pow_right₀ (by norm_num) (by norm_num)))
      exact ⟨_, e⟩
    obtain ⟨c, hc⟩ := this
    rw [hb, hc, zero_fin, fin_mul, zero_mul, hr.rd_zero, fin_mul, zero_mul, hr.rd_zero]
  have fin_ : ∀ {x : XF} {a : ℝ}, Rel x a 32 → 0 ≤ a → ∃ v : ℝ, x = fin v ∧ |v - a| ≤ 1 / 2 ^ 48 * a := by
    rintro x a ⟨v, hv, hv'⟩ ha
    refine ⟨v, hv, hv'.trans (le_of_eq ?_)⟩
    rw [abs_of_nonneg ha]; norm_num
  have z : Rel (fin 0) 0 4 := Rel.zero 4
  have sw2 : u - l ≤ 2 ^ 400 := sw.2
  have e401 : (2:ℝ) ^ 401 = 2 ^ 400 + 2 ^ 400 := by rw [pow_succ, mul_two]
  have p400 : (0:ℝ) < 2 ^ 400 := by positivity
  have far : ∀ {a b : ℝ}, 0 ≤ a → 0 ≤ b → a ≤ 2 ^ 400 → b ≤ 2 ^ 400 → |(-(a + b))| ≤ 2 ^ 401 := by
    intro a b ha hb ha' hb'
    rw [e401, abs_neg, abs_of_nonneg (add_nonneg ha hb)]
    exact add_le_add ha' hb'
  by_cases hly : y < l
  · have huy : ¬ u < y := by linarith
    have hsl : Size 400 (l - y) := hl hly
    have hsu : |y - u| ≤ 2 ^ 401 := by
      have := far (a := u - l) (b := l - y) pw.le hsl.pos.le sw2 hsl.2
      rwa [show -((u - l) + (l - y)) = y - u by ring] at this
    have e : Spec.intervalScore α l u y = (u - l) + 2 / α * (l - y) + 0 := by
      rw [Spec.intervalScore, max_eq_left (by linarith), max_eq_right (by linarith)]; ring
    rw [e, ind, ind, if_pos (by simpa using hly : fin y < fin l), if_neg (by simpa using huy : ¬ fin u < fin y), nopen _ hsu]
    obtain ⟨a1, a2⟩ := pen _ hsl
    have a3 := (sw.mono (by norm_num : 400 ≤ 501)).add a2
    have b1 := ((t2.mono (by norm_num : 4 ≤ 17)).add a1 pw.le a2.pos.le).rd hr (by norm_num)
      (by rw [abs_of_pos a3.pos]; exact a3.mid (by norm_num))
    have b2 := (b1.add (z.mono (by norm_num : 4 ≤ 21)) a3.pos.le (le_refl 0)).rd hr (by norm_num)
      (by rw [add_zero, abs_of_pos a3.pos]; exact a3.mid (by norm_num))
    exact fin_ (b2.mono (by norm_num)) (by rw [add_zero]; exact a3.pos.le)
  · have hsl : |l - y| ≤ 2 ^ 401 := by
      by_cases huy : u < y
      · have hsu : Size 400 (y - u) := hu huy
        have := far (a := u - l) (b := y - u) pw.le hsu.pos.le sw2 hsu.2
        rwa [show -((u - l) + (y - u)) = l - y by ring] at this
      · have := far (a := y - l) (b := 0) (by linarith) le_rfl ((by linarith : y - l ≤ u - l).trans sw2) p400.le
        rwa [show -((y - l) + 0) = l - y by ring] at this
    have b1 := ((t2.add z pw.le (le_refl 0))).rd hr (by norm_num)
      (by rw [add_zero, abs_of_pos pw]; exact sw.mid (by norm_num))
    rw [add_zero] at b1
    by_cases huy : u < y
    · have hsu : Size 400 (y - u) := hu huy
      have e : Spec.intervalScore α l u y = (u - l) + 2 / α * (y - u) := by
        rw [Spec.intervalScore, max_eq_right (by linarith), max_eq_left (by linarith)]; ring
      rw [e, ind, ind, if_neg (by simpa using hly : ¬ fin y < fin l), if_pos (by simpa using huy : fin u < fin y), nopen _ hsl]
      obtain ⟨a1, a2⟩ := pen _ hsu
      have a3 := (sw.mono (by norm_num : 400 ≤ 501)).add a2
      have b2 := ((b1.mono (by norm_num : 8 ≤ 17)).add a1 pw.le a2.pos.le).rd hr (by norm_num)
        (by rw [abs_of_pos a3.pos]; exact a3.mid (by norm_num))
      exact fin_ (b2.mono (by norm_num)) a3.pos.le
    · have hsu : |y - u| ≤ 2 ^ 401 := by
        have := far (a := u - y) (b := 0) (by linarith) le_rfl ((by linarith : u - y ≤ u - l).trans sw2) p400.le
        rwa [show -((u - y) + 0) = y - u by ring] at this
      have e : Spec.intervalScore α l u y = (u - l) + 0 := by
        rw [Spec.intervalScore, max_eq_right (by linarith), max_eq_right (by linarith)]; ring
      rw [e, ind, ind, if_neg (by simpa using hly : ¬ fin y < fin l), if_neg (by simpa using huy : ¬ fin u < fin y), nopen _ hsl, nopen _ hsu]
      have b2 := (b1.add (z.mono (by norm_num : 4 ≤ 8)) pw.le (le_refl 0)).rd hr (by norm_num)
        (by rw [add_zero, abs_of_pos pw]; exact sw.mid (by norm_num))
      exact fin_ (b2.mono (by norm_num)) (by rw [add_zero]; exact pw.le)

example : (1:ℝ) / 2 ^ 100 ≤ 1 / 2 ∧ (1 / 2 : ℝ) ≤ 1 ∧ (1:ℝ) / 2 ^ 400 ≤ 3 - 1 ∧ (3:ℝ) - 1 ≤ 2 ^ 400 ∧
    ((0:ℝ) < 1 → 1 / 2 ^ 400 ≤ (1:ℝ) - 0 ∧ (1:ℝ) - 0 ≤ 2 ^ 400) ∧
    ((3:ℝ) < 0 → 1 / 2 ^ 400 ≤ (0:ℝ) - 3 ∧ (0:ℝ) - 3 ≤ 2 ^ 400) := by
  have e : (2:ℝ) ≤ 2 ^ 400 := by simpa using pow_le_pow_right₀ (a := (2:ℝ)) (by norm_num) (show 1 ≤ 400 by norm_num)
  refine ⟨by norm_num, by norm_num, small_400.trans (by norm_num), le_trans (by norm_num) e, fun _ => ⟨small_400.trans (by norm_num), le_trans (by norm_num) e⟩,
    fun h => absurd h (by norm_num)⟩

/-- what remains after the loops, for the divisor `D` of the second sum -/
theorem nrg_final {r : ℝ → XF} (hr : Binary64 r) {R : ℝ} (h1 : 1 / 2 ^ 1000 ≤ R) (h2 : R ≤ 2 ^ 900) {y : ℝ}
    (hy : |y| ≤ R) {xs : List ℝ} (hx : ∀ x ∈ xs, |x| ≤ R) (hne : xs ≠ []) (hM : xs.length ≤ 2 ^ 20) {D : ℝ}
    (hD : (xs.length : ℝ) ^ 2 ≤ 2 * D) :
    Near (Rnd.rd r (Rnd.rd r ((Rnd.nrgLoop r (fin y) (xs.map fin)).1 / fin xs.length)
      - Rnd.rd r (Rnd.rd r (fin (1 / 2) * (Rnd.nrgLoop r (fin y) (xs.map fin)).2) / fin D)))
      (sabs y xs / xs.length - spair xs / (2 * D)) (xs.length ^ 2 * R / 2 ^ 46) := by
  obtain ⟨⟨b1, e1, p1, q1, n1⟩, ⟨b2, e2, p2, q2, n2⟩⟩ := nrgLoop_near hr h1 h2 hy hx hM
  have hR : 0 < R := lt_of_lt_of_le (by positivity) h1
  have mid : ∀ k : ℝ, 1 ≤ k → k ≤ 2 ^ 50 → Mid (k * R) := fun k a b => Mid.of h1 h2 a b
  clear h1 h2
  have e1 : sabs y xs = b1 := by simpa using e1
  have e2 : spair xs = b2 := by simpa using e2
  rw [e1, e2]
  have hM' : (xs.length : ℝ) ≤ 1048576 := by exact_mod_cast hM.trans (by norm_num)
  have hm1 : (1:ℝ) ≤ xs.length := by exact_mod_cast List.length_pos_iff.mpr hne
  generalize (xs.length : ℝ) = M at *
  have hM0 : 0 < M := by linarith
  have hMM : M ≤ M ^ 2 := by nlinarith
  have hD0 : 0 < D := by nlinarith
  have hM2 : M ^ 2 ≤ 1048576 ^ 2 := pow_le_pow_left₀ hM0.le hM' 2
  have hMR : M * R ≤ M ^ 2 * R := mul_le_mul_of_nonneg_right hMM hR.le
  have hRM : R ≤ M * R := le_mul_of_one_le_left hR.le hm1
  have a1 : M * R * (1 / 2 ^ 51) ≤ M ^ 2 * R * (1 / 2 ^ 51) := mul_le_mul_of_nonneg_right hMR (by positivity)
  have a2 : R * (1 / 2 ^ 51) ≤ M * R * (1 / 2 ^ 51) := mul_le_mul_of_nonneg_right hRM (by positivity)
  have a3 : M ^ 2 * R * (1 / 2 ^ 51) ≤ 1048576 ^ 2 * R * (1 / 2 ^ 51) :=
    mul_le_mul_of_nonneg_right (mul_le_mul_of_nonneg_right hM2 hR.le) (by positivity)
  have c1 := (n1.div hM0).rd hr (B := 2 * R) (mid 2 (by norm_num) (by norm_num))
    (by rw [abs_of_nonneg (by positivity), div_le_iff₀ hM0]; linarith)
    (by rw [mul_div_cancel_left₀ _ hM0.ne']; linarith)
  rw [mul_div_cancel_left₀ _ hM0.ne'] at c1
  have c2 := (n2.smul (1 / 2)).rd hr (B := 2 * M ^ 2 * R) (mid _ (by nlinarith) (by linarith))
    (by rw [abs_of_nonneg (by positivity)]; linarith)
    (by
      rw [abs_of_pos (by norm_num : (0:ℝ) < 1 / 2)]
      have : (1 / 2 : ℝ) * (M ^ 2 * (12 * M ^ 2 * R * (1 / 2 ^ 51))) = (M ^ 2 * R) * (6 * M ^ 2 * (1 / 2 ^ 51)) := by ring
      rw [this, show 2 * M ^ 2 * R = (M ^ 2 * R) * 2 by ring]
      refine mul_le_mul_of_nonneg_left ?_ (by positivity)
      linarith)
  rw [abs_of_pos (by norm_num : (0:ℝ) < 1 / 2)] at c2
  have e3 : ((1 / 2 : ℝ) * (M ^ 2 * (12 * M ^ 2 * R * (1 / 2 ^ 51))) + 2 * M ^ 2 * R * (1 / 2 ^ 51)) / D
      ≤ 12 * (M ^ 2 * R * (1 / 2 ^ 51)) + 4 * (R * (1 / 2 ^ 51)) := by
    rw [div_le_iff₀ hD0]
    have : (0:ℝ) ≤ 6 * (M ^ 2 * R * (1 / 2 ^ 51)) + 2 * (R * (1 / 2 ^ 51)) := by positivity
    have := mul_le_mul_of_nonneg_left hD this
    linarith
  have c3 := (c2.div hD0).mono e3
  have e4 : 1 / 2 * b2 / D ≤ 4 * R := by
    rw [div_le_iff₀ hD0]
    have := mul_le_mul_of_nonneg_right hD hR.le
    linarith
  have c4 := c3.rd hr (B := 4 * R) (mid 4 (by norm_num) (by norm_num))
    (by rw [abs_of_nonneg (by positivity)]; exact e4) (by linarith)
  have e5 : b1 / M ≤ 2 * R := by rw [div_le_iff₀ hM0]; linarith
  have c5 := (c1.sub c4).rd hr (B := 6 * R) (mid 6 (by norm_num) (by norm_num))
    (by
      have : 0 ≤ b1 / M := by positivity
      have : 0 ≤ 1 / 2 * b2 / D := by positivity
      rw [abs_le]; constructor <;> linarith)
    (by linarith)
  rw [show b2 / (2 * D) = 1 / 2 * b2 / D by field_simp]
  refine c5.mono ?_
  rw [show M ^ 2 * R / 2 ^ 46 = 32 * (M ^ 2 * R * (1 / 2 ^ 51)) by ring]
  linarith

/-- The energy form of the ensemble CRPS is off by at most `M ^ 2 / 2 ^ 46` times a bound on the data, for ensembles of
up to `2 ^ 20` members. -/
theorem C131_nrg {r : ℝ → XF} (hr : Binary64 r) {R : ℝ} (h1 : 1 / 2 ^ 1000 ≤ R) (h2 : R ≤ 2 ^ 900) {y : ℝ}
    (hy : |y| ≤ R) {xs : List ℝ} (hx : ∀ x ∈ xs, |x| ≤ R) (hne : xs ≠ []) (hM : xs.length ≤ 2 ^ 20) :
    ∃ v : ℝ, Rnd.nrg r (fin y) (xs.map fin) = fin v ∧
      |v - Spec.crps (Spec.ecdf xs) y| ≤ xs.length ^ 2 * R / 2 ^ 46 := by
  have key := nrg_final hr h1 h2 hy hx hne hM (D := (xs.length : ℝ) ^ 2) (by nlinarith [sq_nonneg (xs.length : ℝ)])
  rw [crps_ecdf_eq_energy y hne, energy, wabs_uw, wpair_uw, div_div, mul_comm _ (2:ℝ)]
  unfold Rnd.nrg
  rw [if_neg (by simp), List.length_map]
  simp only [natCast_fin, half_fin]
  rw [Nat.cast_pow]
  exact key

theorem ordinary_one : (1:ℝ) / 2 ^ 1000 ≤ 4 ∧ (4:ℝ) ≤ 2 ^ 900 := by
  constructor
  · refine le_trans ?_ (by norm_num : (1:ℝ) ≤ 4)
    rw [div_le_one (by positivity)]; exact one_le_pow₀ (by norm_num)
  · calc (4:ℝ) = 2 ^ 2 := by norm_num
      _ ≤ 2 ^ 900 := pow_le_pow_right₀ (by norm_num) (by norm_num)

example : (1:ℝ) / 2 ^ 1000 ≤ 4 ∧ (4:ℝ) ≤ 2 ^ 900 ∧ |(2:ℝ)| ≤ 4 ∧ (∀ x ∈ ([1, 3, 4] : List ℝ), |x| ≤ 4) ∧
    ([1, 3, 4] : List ℝ) ≠ [] ∧ ([1, 3, 4] : List ℝ).length ≤ 2 ^ 20 :=
  ⟨ordinary_one.1, ordinary_one.2, by norm_num, by simp; norm_num, by simp, by norm_num⟩

/-- The fair form of the ensemble CRPS is off by at most `M ^ 2 / 2 ^ 46` times a bound on the data, for ensembles of
two up to `2 ^ 20` members. -/
theorem C131_fair {r : ℝ → XF} (hr : Binary64 r) {R : ℝ} (h1 : 1 / 2 ^ 1000 ≤ R) (h2 : R ≤ 2 ^ 900) {y : ℝ}
    (hy : |y| ≤ R) {xs : List ℝ} (hx : ∀ x ∈ xs, |x| ≤ R) (h : 2 ≤ xs.length) (hM : xs.length ≤ 2 ^ 20) :
    ∃ v : ℝ, Rnd.fair r (fin y) (xs.map fin) = fin v ∧
      |v - Spec.fairCrps y xs| ≤ xs.length ^ 2 * R / 2 ^ 46 := by
  have hne : xs ≠ [] := by intro e; simp [e] at h
  have h' : (2 : ℝ) ≤ xs.length := by exact_mod_cast h
  have key := nrg_final hr h1 h2 hy hx hne hM (D := (xs.length : ℝ) * ((xs.length : ℝ) - 1)) (by nlinarith)
  unfold Rnd.fair
  rw [if_neg (by simp), List.length_map]
  simp only [natCast_fin, half_fin]
  rw [natPred_cast h]
  exact key

example : |(2:ℝ)| ≤ 4 ∧ (∀ x ∈ ([1, 3, 4] : List ℝ), |x| ≤ 4) ∧ 2 ≤ ([1, 3, 4] : List ℝ).length ∧
    ([1, 3, 4] : List ℝ).length ≤ 2 ^ 20 :=
  ⟨by norm_num, by simp; norm_num, by norm_num, by norm_num⟩

end Verif
