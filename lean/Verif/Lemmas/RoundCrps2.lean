import Verif.Lemmas.RoundCrps
import Verif.Lemmas.CrpsAkr
import Verif.Lemmas.RoundVariogram2

/-! The probability weighted moment form of the ensemble CRPS: its error, and the sums of three entries. -/

noncomputable section

open scoped Classical

namespace Verif

open XF Py Spec

/-- the sum of two entries -/
theorem RSum.two {r : ℝ → XF} {xs : List XF} {s : XF} (h : RSum r xs s) :
    ∀ {a b : XF}, xs.Perm [a, b] → s = Rnd.rd r (a + b) := by
  induction h with
  | nil => intro a b h; have := h.length_eq; simp at this
  | one x => intro a b h; have := h.length_eq; simp at this
  | perm hp _ ih => intro a b h; exact ih (hp.trans h)
  | @append xs ys s t hx hy h1 h2 _ _ =>
    intro a b h
    have hl := h.length_eq
    rw [List.length_append] at hl
    have l1 := List.length_pos_iff.mpr hx
    have l2 := List.length_pos_iff.mpr hy
    simp only [List.length_cons, List.length_nil] at hl
    obtain ⟨x, rfl⟩ := List.length_eq_one_iff.1 (show xs.length = 1 by omega)
    obtain ⟨y, rfl⟩ := List.length_eq_one_iff.1 (show ys.length = 1 by omega)
    rw [h1.eq_one rfl, h2.eq_one rfl]
    have hm : x ∈ [a, b] := h.mem_iff.1 (by simp)
    simp only [List.mem_cons, List.not_mem_nil, or_false] at hm
    rcases hm with rfl | rfl
    · have := (List.perm_cons _).1 h
      have := List.singleton_perm_singleton.1 this
      rw [this]
    · have := (List.perm_cons _).1 (h.trans (List.Perm.swap _ _ _))
      have := List.singleton_perm_singleton.1 this
      rw [this, add_comm]

/-- the sum of three entries: two of them are added first -/
theorem RSum.three {r : ℝ → XF} {xs : List XF} {s : XF} (h : RSum r xs s) :
    ∀ {a b c : XF}, xs.Perm [a, b, c] → s = Rnd.rd r (a + Rnd.rd r (b + c)) ∨ s = Rnd.rd r (b + Rnd.rd r (a + c)) ∨
      s = Rnd.rd r (c + Rnd.rd r (a + b)) := by
  induction h with
  | nil => intro a b c h; have := h.length_eq; simp at this
  | one x => intro a b c h; have := h.length_eq; simp at this
  | perm hp _ ih => intro a b c h; exact ih (hp.trans h)
  | @append xs ys s t hx hy h1 h2 _ _ =>
    intro a b c h
    have key : ∀ {x : XF} {l : List XF} {u : XF}, RSum r l u → (x :: l).Perm [a, b, c] →
        Rnd.rd r (x + u) = Rnd.rd r (a + Rnd.rd r (b + c)) ∨ Rnd.rd r (x + u) = Rnd.rd r (b + Rnd.rd r (a + c)) ∨
          Rnd.rd r (x + u) = Rnd.rd r (c + Rnd.rd r (a + b)) := by
      intro x l u hu hp
      have hm : x ∈ [a, b, c] := hp.mem_iff.1 (by simp)
      simp only [List.mem_cons, List.not_mem_nil, or_false] at hm
      rcases hm with rfl | rfl | rfl
      · left; rw [hu.two ((List.perm_cons _).1 hp)]
      · right; left
        rw [hu.two ((List.perm_cons _).1 (hp.trans (List.Perm.swap _ _ _)))]
      · right; right
        have q : [a, b, x].Perm [x, a, b] := List.perm_append_comm (l₁ := [a, b]) (l₂ := [x])
        rw [hu.two ((List.perm_cons _).1 (hp.trans q))]
    have hl := h.length_eq
    rw [List.length_append] at hl
    have l1 := List.length_pos_iff.mpr hx
    have l2 := List.length_pos_iff.mpr hy
    simp only [List.length_cons, List.length_nil] at hl
    by_cases hc : xs.length = 1
    · obtain ⟨x, rfl⟩ := List.length_eq_one_iff.1 hc
      rw [h1.eq_one rfl]
      exact key h2 h
    · obtain ⟨y, rfl⟩ := List.length_eq_one_iff.1 (show ys.length = 1 by omega)
      rw [h2.eq_one rfl, add_comm]
      exact key h1 (List.perm_append_comm.trans h)

/-- a number close to the grid of its binade is rounded to the grid -/
theorem Nearest64.near_grid {r : ℝ → XF} (hr : Nearest64 r) {a : ℝ} {e : ℤ} (h1 : -1022 ≤ e) (h2 : e ≤ 1022)
    (h3 : (2:ℝ) ^ e ≤ a) (h4 : a < (2:ℝ) ^ (e + 1)) {u : ℝ} (hu : (2:ℝ) ^ (e - 52) = u) (k : ℤ) (hk : |a - k * u| < u / 2) :
    r a = fin (k * u) := by
  obtain ⟨n, hn, hd⟩ := hr.grid h1 h2 h3 h4
  have hu0 : 0 < u := by rw [← hu]; positivity
  have hu2 : (2:ℝ) ^ (e - 53) = u / 2 := by
    rw [show e - 53 = e - 52 - 1 by ring, zpow_sub_one₀ two_ne_zero, hu]; ring
  rw [hu, hu2] at hd
  rw [hn, hu]
  have h5 : |((n:ℝ) - k) * u| < 1 * u := by
    rw [show ((n:ℝ) - k) * u = (a - k * u) - (a - n * u) by ring]
    refine (abs_sub _ _).trans_lt ?_
    linarith
  rw [abs_mul, abs_of_pos hu0] at h5
  have h6 := lt_of_mul_lt_mul_right h5 hu0.le
  rw [← Int.cast_sub, ← Int.cast_abs] at h6
  have h7 : |n - k| < 1 := by exact_mod_cast h6
  rw [sub_eq_zero.1 (Int.abs_lt_one_iff.1 h7)]

section
variable {r : ℝ → XF} (hr : Nearest64 r) {S : List XF → XF} (hS : ∀ xs, RSum r xs (S xs))
include hr

theorem int_rd {n : ℕ} (h : n ≤ 2 ^ 53) {x : ℝ} (hx : x = n) : Rnd.rd r (fin x) = fin x := by
  rw [hx]; exact hr.nat n h

/-- even numbers up to `2 ^ 54` are kept -/
theorem even_rd {n : ℕ} (h0 : 2 ^ 52 ≤ n) (h : n < 2 ^ 53) {x : ℝ} (hx : x = 2 * n) : Rnd.rd r (fin x) = fin x := by
  have h0' : (2:ℝ) ^ 52 ≤ n := by exact_mod_cast h0
  have h' : (n:ℝ) < 2 ^ 53 := by exact_mod_cast h
  have g1 : (2:ℝ) ^ (53 : ℤ) ≤ x := by
    rw [hx, show (2:ℝ) ^ (53 : ℤ) = 2 * 2 ^ 52 by norm_num]; linarith
  have g2 : x < (2:ℝ) ^ ((53 : ℤ) + 1) := by
    rw [hx, show (2:ℝ) ^ ((53 : ℤ) + 1) = 2 * 2 ^ 53 by norm_num]; linarith
  have := hr.near_grid (a := x) (e := 53) (by norm_num) (by norm_num) g1 g2 (u := 2) (by norm_num) n (by rw [hx]; push_cast; rw [mul_comm]; simp)
  show r x = _
  rw [this, hx]; push_cast; congr 1; ring

include hS

/-- Full counterexample: two members equal to the observation and one two units above it. -/
theorem pwm_bad : Rnd.crpsPwm r S (fin 9007199254740985) [fin 9007199254740985, fin 9007199254740985, fin 9007199254740987]
    = fin (-1) := by
  -- the sum of the members
  have t1 : Rnd.rd r (fin 27021597764222957) = fin 27021597764222956 := by
    have := hr.near_grid (a := 27021597764222957) (e := 54) (by norm_num) (by norm_num) (by norm_num) (by norm_num) (u := 4)
      (by norm_num) 6755399441055739 (by norm_num)
    show r _ = _
    rw [this]; norm_num
  have t2 : Rnd.rd r (fin 27021597764222959) = fin 27021597764222960 := by
    have := hr.near_grid (a := 27021597764222959) (e := 54) (by norm_num) (by norm_num) (by norm_num) (by norm_num) (u := 4)
      (by norm_num) 6755399441055740 (by norm_num)
    show r _ = _
    rw [this]; norm_num
  have t3 : Rnd.rd r (fin 27021597764222960) = fin 27021597764222960 := by
    have := hr.near_grid (a := 27021597764222960) (e := 54) (by norm_num) (by norm_num) (by norm_num) (by norm_num) (u := 4)
      (by norm_num) 6755399441055740 (by norm_num)
    show r _ = _
    rw [this]; norm_num
  have a1 : Rnd.rd r (fin 18014398509481970) = fin 18014398509481970 := even_rd hr (n := 9007199254740985) (by norm_num) (by norm_num) (by norm_num)
  have a2 : Rnd.rd r (fin 18014398509481972) = fin 18014398509481972 := even_rd hr (n := 9007199254740986) (by norm_num) (by norm_num) (by norm_num)
  have a3 : Rnd.rd r (fin 18014398509481974) = fin 18014398509481974 := even_rd hr (n := 9007199254740987) (by norm_num) (by norm_num) (by norm_num)
  have a4 : Rnd.rd r (fin 9007199254740985) = fin 9007199254740985 := int_rd hr (n := 9007199254740985) (by norm_num) (by norm_num)
  have a5 : Rnd.rd r (fin 0) = fin 0 := int_rd hr (n := 0) (by norm_num) (by norm_num)
  have a6 : Rnd.rd r (fin 2) = fin 2 := int_rd hr (n := 2) (by norm_num) (by norm_num)
  have a7 : Rnd.rd r (fin 6) = fin 6 := int_rd hr (n := 6) (by norm_num) (by norm_num)
  have a8 : Rnd.rd r (fin (-2)) = fin (-2) := by
    show r _ = _
    rw [hr.neg]; show -Rnd.rd r (fin 2) = _; rw [a6]; rfl
  have s1 : S [fin 9007199254740985, fin 9007199254740985, fin 9007199254740987] = fin 27021597764222956 := by
    rcases (hS [fin 9007199254740985, fin 9007199254740985, fin 9007199254740987]).three (List.Perm.refl _) with h | h | h <;>
    · rw [h]; simp only [fin_add]; norm_num; simp only [a1, a2, fin_add]; norm_num; exact t1
  have s2 : S [fin 0, fin 9007199254740985, fin 18014398509481974] = fin 27021597764222960 := by
    rcases (hS [fin 0, fin 9007199254740985, fin 18014398509481974]).three (List.Perm.refl _) with h | h | h <;>
    · rw [h]; simp only [fin_add]; norm_num; simp only [t2, a3, a4, fin_add]; norm_num; first | exact t2 | exact t3
  have s3 : S [fin 0, fin 0, fin 2] = fin 2 := by
    rcases (hS [fin 0, fin 0, fin 2]).three (List.Perm.refl _) with h | h | h <;>
    · rw [h]; simp only [fin_add]; norm_num; simp only [a5, a6, fin_add]; norm_num; first | exact a6
  have b0 : Rnd.rd r (fin (27021597764222956 / 3)) = fin 9007199254740985 := by
    have := hr.near_grid (a := 27021597764222956 / 3) (e := 52) (by norm_num) (by norm_num) (by norm_num) (by norm_num) (u := 1)
      (by norm_num) 9007199254740985 (by norm_num [abs_of_pos])
    show r _ = _
    rw [this]; norm_num
  have b1 : Rnd.rd r (fin (27021597764222960 / 6)) = fin (9007199254740987 / 2) := by
    have := hr.near_grid (a := 27021597764222960 / 6) (e := 51) (by norm_num) (by norm_num) (by norm_num) (by norm_num) (u := 1 / 2)
      (by norm_num) 9007199254740987 (by norm_num [abs_of_pos, abs_of_neg])
    show r _ = _
    rw [this]; norm_num
  obtain ⟨q, hq, hq1, hq2⟩ : ∃ q : ℝ, Rnd.rd r (fin (2 / 3)) = fin q ∧ 1 / 2 < q ∧ q < 1 := by
    obtain ⟨δ, η, hδ, hη, e⟩ := hr.acc (a := 2 / 3) (by
      rw [abs_of_pos (by norm_num)]
      exact lt_of_lt_of_le (by norm_num) (one_le_pow₀ (by norm_num : (1:ℝ) ≤ 2)))
    refine ⟨_, e, ?_⟩
    have h1 : |η| ≤ 1 / 2 ^ 53 := hη.trans (one_div_le_one_div_of_le (by positivity) (pow_le_pow_right₀ (by norm_num) (by norm_num)))
    rw [abs_le] at hδ h1
    norm_num at hδ h1
    constructor <;> linarith
  have b2 : Rnd.rd r (fin (q + 9007199254740985)) = fin 9007199254740986 := by
    have := hr.near_grid (a := q + 9007199254740985) (e := 52) (by norm_num) (by norm_num) (by norm_num; linarith) (by norm_num; linarith) (u := 1)
      (by norm_num) 9007199254740986 (by rw [abs_lt]; constructor <;> push_cast <;> linarith)
    show r _ = _
    rw [this]; norm_num
  have b3 : Rnd.rd r (fin 9007199254740987) = fin 9007199254740987 := int_rd hr (n := 9007199254740987) (by norm_num) (by norm_num)
  have b4 : Rnd.rd r (fin (-1)) = fin (-1) := by
    show r _ = _
    rw [hr.neg]; show -Rnd.rd r (fin 1) = _; rw [int_rd hr (n := 1) (by norm_num) (by norm_num)]; rfl
  have e1 : Rnd.crpsE1 r S (fin 9007199254740985) [fin 9007199254740985, fin 9007199254740985, fin 9007199254740987] = fin q := by
    unfold Rnd.crpsE1 Rnd.adiff
    simp only [List.map_cons, List.map_nil, fin_sub, List.length_cons, List.length_nil, natCast_fin]
    norm_num
    rw [a5, a8, fin_abs, fin_abs]
    norm_num
    rw [s3, fin_div (by norm_num), hq]
  unfold Rnd.crpsPwm
  rw [e1]
  simp only [List.length_cons, List.length_nil, zip2, List.range_succ, List.range_zero, List.nil_append, List.cons_append,
    List.map_cons, List.map_nil, List.zipWith_cons_cons, List.zipWith_nil_right, natCast_fin, one_fin, two_fin, fin_mul, fin_sub,
    s1]
  norm_num
  rw [a4, a5, a3, s2, a6]
  norm_num
  rw [a7, fin_div (by norm_num), fin_div (by norm_num), b0, b1, fin_mul, fin_add, b2]
  norm_num
  rw [b3]
  norm_num
  exact b4

end

theorem Sized.mulw {x : XF} {a c k w : ℝ} (h : Sized x a c k) (hw : 1 ≤ w) : Sized (fin w * x) (w * a) (w * c) k := by
  have hc := h.nonneg
  obtain ⟨h1, hl, b, rfl, h3⟩ := h
  have hw0 : 0 ≤ w := by linarith
  refine ⟨?_, hl.trans (by nlinarith), w * b, fin_mul _ _, ?_⟩
  · rw [abs_mul, abs_of_nonneg hw0]; exact mul_le_mul_of_nonneg_left h1 hw0
  · rw [← mul_sub, abs_mul, abs_of_nonneg hw0]
    exact (mul_le_mul_of_nonneg_left h3 hw0).trans (le_of_eq (by ring))

theorem Sized.add {x y : XF} {a b c d k : ℝ} (h : Sized x a c k) (g : Sized y b d k) :
    Sized (x + y) (a + b) (c + d) k := by
  have hd := g.nonneg
  obtain ⟨h1, hl, u, rfl, h3⟩ := h
  obtain ⟨g1, _, v, rfl, g3⟩ := g
  refine ⟨?_, hl.trans (by linarith), u + v, fin_add _ _, ?_⟩
  · exact (abs_add_le _ _).trans (add_le_add h1 g1)
  · rw [show u + v - (a + b) = (u - a) + (v - b) by ring]
    refine (abs_add_le _ _).trans ?_
    linarith

section
variable {r : ℝ → XF} (hr : Binary64 r) {S : List XF → XF} (hS : ∀ xs, RSum r xs (S xs))
include hr hS

/-- the probability weighted moment form, against a bound on the data -/
theorem crpsPwm_near {y B : ℝ} {xs : List ℝ} (h2 : 2 ≤ xs.length) (hM : xs.length ≤ 2 ^ 20) (hB : 1 / 2 ^ 900 ≤ B)
    (hB2 : B ≤ 2 ^ 900) (hy : |y| ≤ B) (hx : ∀ x ∈ xs, |x| ≤ B) :
    Sized (Rnd.crpsPwm r S (fin y) (xs.map fin))
      (meanAbs y xs + xs.sum / xs.length - 2 * (pwmU 0 xs / ((xs.length : ℝ) * ((xs.length : ℝ) - 1)))) (5 * B)
      (xs.length + 4) := by
  have hM' : (xs.length : ℝ) ≤ 2 ^ 20 := by exact_mod_cast hM
  have hM2 : (2:ℝ) ≤ xs.length := by exact_mod_cast h2
  have hM0 : (0:ℝ) < xs.length := by linarith
  have hM1 : (0:ℝ) < (xs.length : ℝ) - 1 := by linarith
  have hne : xs ≠ [] := by intro e; simp [e] at h2
  have hB0 : 0 < B := lt_of_lt_of_le (by positivity) hB
  have low : 1 / 2 ^ 1000 ≤ B :=
    le_trans (one_div_le_one_div_of_le (by positivity) (pow_le_pow_right₀ (by norm_num) (by norm_num))) hB
  have big : 2 ^ 40 * B ≤ 2 ^ 1000 := by
    calc 2 ^ 40 * B ≤ 2 ^ 40 * 2 ^ 900 := mul_le_mul_of_nonneg_left hB2 (by positivity)
      _ = 2 ^ 940 := by rw [← pow_add]
      _ ≤ 2 ^ 1000 := pow_le_pow_right₀ (by norm_num) (by norm_num)
  have kk : (xs.length : ℝ) + 6 ≤ 2 ^ 50 := by
    clear big low
    generalize (xs.length : ℝ) = M at *
    norm_num at hM' ⊢; linarith
  have up : ∀ {t : ℝ}, t ≤ 2 ^ 40 → t * B ≤ 2 ^ 1000 := fun h => (mul_le_mul_of_nonneg_right h hB0.le).trans big
  have id0 : ∀ {x c : ℝ}, |x| ≤ c → 1 / 2 ^ 1000 ≤ c → Sized (fin x) x c 0 := fun h h' => ⟨h, h', _, rfl, by simp⟩
  -- the mean distance
  have E1 : Sized (Rnd.crpsE1 r S (fin y) (xs.map fin)) (meanAbs y xs) (2 * B) (xs.length + 2) := by
    have s := Sized.sum hr (l := xs) (f := fun x => Rnd.adiff r (fin y) (fin x)) (g := fun x => |x - y|) (c := fun _ => 2 * B)
      (k := 1) (hS _) hne ?_ ?_ ?_
    · have e : (xs.map fun _ => 2 * B).sum = xs.length * (2 * B) := by simp
      rw [e] at s
      have d := s.div hM0 (by rw [mul_div_cancel_left₀ _ hM0.ne']; linarith)
      rw [mul_div_cancel_left₀ _ hM0.ne'] at d
      have := d.rd hr (up (by norm_num)) (by linarith)
      unfold Rnd.crpsE1
      rw [List.length_map, List.map_map, natCast_fin]
      exact this.mono (by linarith)
    · intro x h
      have h1 : |x - y| ≤ 2 * B := (abs_sub _ _).trans (by linarith [hx x h])
      have := (id0 (x := y - x) (c := 2 * B) (by rw [abs_sub_comm]; exact h1) (by linarith)).rd hr (up (by norm_num)) (by norm_num)
      obtain ⟨_, _, b, e, hb⟩ := this
      refine ⟨by rw [abs_abs]; exact h1, by linarith, |b|, ?_, ?_⟩
      · unfold Rnd.adiff
        rw [fin_sub, e, fin_abs]
      · rw [abs_sub_comm x y]
        refine (abs_abs_sub_abs_le _ _).trans (hb.trans (le_of_eq (by ring)))
    · rw [show (xs.map fun _ => 2 * B).sum = (xs.length * 2) * B by simp; ring]
      refine up ?_
      clear big low up
      generalize (xs.length : ℝ) = M at *
      norm_num at hM' ⊢; linarith
    · linarith
  -- the two moments
  have B0 : Sized (Rnd.rd r (S (xs.map fin) / (xs.length : XF))) (xs.sum / xs.length) B (xs.length + 2) := by
    have s := Sized.sum hr (l := xs) (f := fin) (g := fun x => x) (c := fun _ => B) (k := 0) (hS _) hne
      (fun x h => id0 (hx x h) low) ?_ (by linarith)
    · rw [show (xs.map fun _ => B).sum = xs.length * B by simp, List.map_id'] at s
      have d := s.div hM0 (by rw [mul_div_cancel_left₀ _ hM0.ne']; linarith)
      rw [mul_div_cancel_left₀ _ hM0.ne'] at d
      rw [natCast_fin]
      exact (d.rd hr (by have := up (t := 1) (by norm_num); rwa [one_mul] at this) (by linarith)).mono (by linarith)
    · rw [show (xs.map fun _ => B).sum = xs.length * B by simp]
      refine up ?_
      clear big low up
      generalize (xs.length : ℝ) = M at *
      norm_num at hM' ⊢; linarith
  have len1 : ((xs.length - 1 : ℕ) : ℝ) = (xs.length : ℝ) - 1 := by rw [Nat.cast_sub (by omega)]; simp
  have hQ : (0:ℝ) < (xs.length : ℝ) * ((xs.length : ℝ) - 1) := mul_pos hM0 hM1
  have sq40 : xs.length * (xs.length - 1) ≤ 2 ^ 40 := by
    calc xs.length * (xs.length - 1) ≤ 2 ^ 20 * 2 ^ 20 := Nat.mul_le_mul hM (by omega)
      _ = 2 ^ 40 := by norm_num
  have sq40' : (xs.length : ℝ) * ((xs.length : ℝ) - 1) ≤ 2 ^ 40 := by
    rw [← len1]; exact_mod_cast sq40
  have den : Rnd.rd r ((xs.length : XF) * Rnd.rd r ((xs.length : XF) - 1))
      = fin ((xs.length : ℝ) * ((xs.length : ℝ) - 1)) := by
    rw [natCast_fin, one_fin, fin_sub, ← len1]
    have e1 : Rnd.rd r (fin ((xs.length - 1 : ℕ) : ℝ)) = fin ((xs.length - 1 : ℕ) : ℝ) :=
      hr.nat _ ((Nat.sub_le _ _).trans (hM.trans (by norm_num)))
    rw [e1, fin_mul, ← Nat.cast_mul]
    exact hr.nat _ (sq40.trans (by norm_num))
  have B1 : Sized (Rnd.rd r (S (zip2 (fun x i => Rnd.rd r (x * i)) (xs.map fin) ((List.range xs.length).map fun i : ℕ => (i : XF)))
      / Rnd.rd r ((xs.length : XF) * Rnd.rd r ((xs.length : XF) - 1))))
      (pwmU 0 xs / ((xs.length : ℝ) * ((xs.length : ℝ) - 1))) B (xs.length + 2) := by
    rw [sum_zip_range, den]
    have s := Sized.sum hr (l := xs.zipIdx) (f := fun p => Rnd.rd r (fin p.1 * (p.2 : XF))) (g := fun p => p.1 * (p.2 : ℝ))
      (c := fun _ => ((xs.length : ℝ) - 1) * B) (k := 1) (hS _) (by simpa using hne) ?_ ?_ ?_
    · rw [show (xs.zipIdx.map fun _ => ((xs.length : ℝ) - 1) * B).sum = (xs.length : ℝ) * ((xs.length : ℝ) - 1) * B by
        simp [mul_assoc], pwmU_zipIdx, List.length_zipIdx] at s
      have d := s.div hQ (by rw [mul_div_cancel_left₀ _ hQ.ne']; exact low)
      rw [mul_div_cancel_left₀ _ hQ.ne'] at d
      exact (d.rd hr (by have := up (t := 1) (by norm_num); rwa [one_mul] at this) (by linarith)).mono (by linarith)
    · intro p hp
      have hp' := List.mem_zipIdx hp
      have m1 : p.1 ∈ xs := by rw [hp'.2.2]; exact List.getElem_mem _
      have m2 : (p.2 : ℝ) ≤ (xs.length : ℝ) - 1 := by
        rw [← len1]; exact_mod_cast (by omega : p.2 ≤ xs.length - 1)
      have c1 : |p.1 * (p.2 : ℝ)| ≤ ((xs.length : ℝ) - 1) * B := by
        rw [abs_mul, mul_comm, abs_of_nonneg (Nat.cast_nonneg (α := ℝ) p.2)]
        exact mul_le_mul m2 (hx _ m1) (abs_nonneg _) hM1.le
      rw [natCast_fin, fin_mul]
      have := (id0 c1 (low.trans (by nlinarith))).rd hr (up ?_) (by norm_num)
      · exact this.mono (by norm_num)
      · clear big low up
        generalize (xs.length : ℝ) = M at *
        norm_num at hM' ⊢; linarith
    · rw [show (xs.zipIdx.map fun _ => ((xs.length : ℝ) - 1) * B).sum = (xs.length : ℝ) * ((xs.length : ℝ) - 1) * B by
        simp [mul_assoc]]
      exact up sq40'
    · rw [List.length_zipIdx]; linarith
  have C1 := ((E1.add B0).rd hr (by rw [show 2 * B + B = 3 * B by ring]; exact up (by norm_num)) (by linarith)).sub
    ((B1.mulw (w := 2) (by norm_num)).rd hr (up (by norm_num)) (by linarith))
  rw [show 2 * B + B + 2 * B = 5 * B by ring] at C1
  have C2 := (C1.rd hr (up (by norm_num)) (by linarith)).mono (k' := xs.length + 4) (by linarith)
  unfold Rnd.crpsPwm
  simp only [List.length_map]
  rw [two_fin]
  exact C2

/-- the forms that pair every member with the one `s` places before it -/
theorem crpsRoll_near {y : ℝ} {xs : List ℝ} (hne : xs ≠ []) (hM : xs.length ≤ 2 ^ 20) (hy : |y| ≤ 2 ^ 959)
    (hx : ∀ x ∈ xs, |x| ≤ 2 ^ 959) (s : ℕ) :
    ∃ v : ℝ, Rnd.rd r (Rnd.crpsE1 r S (fin y) (xs.map fin) - Rnd.rd r (half * Rnd.rd r
        (S (zip2 (fun a b => Rnd.adiff r a b) (xs.map fin) (roll (xs.map fin) s)) / ((xs.map fin).length : XF)))) = fin v ∧
      |v - (meanAbs y xs - 1 / 2 * (((List.range xs.length).map fun i =>
          |xs.getD i 0 - xs.getD ((i + (xs.length - s % xs.length)) % xs.length) 0|).sum / xs.length))|
        ≤ (xs.length + 4) * (1 / 2 ^ 51) * (meanAbs y xs + 1 / 2 * (((List.range xs.length).map fun i =>
          |xs.getD i 0 - xs.getD ((i + (xs.length - s % xs.length)) % xs.length) 0|).sum / xs.length)) + 10 * (1 / 2 ^ 1073) := by
  have hM' : (xs.length : ℝ) ≤ 2 ^ 20 := by exact_mod_cast hM
  have hM0 : 0 < xs.length := List.length_pos_iff.mpr hne
  have hM1 : (1:ℝ) ≤ xs.length := by exact_mod_cast hM0
  obtain ⟨n1, b1⟩ := crpsE1_near hr hS hne hM hy hx
  have hg : ∀ i < xs.length, |xs.getD i 0| ≤ 2 ^ 959 := by
    intro i hi
    rw [show xs.getD i 0 = xs[i] by simp [hi]]
    exact hx _ (List.getElem_mem hi)
  have hf : ∀ i < xs.length, idx (xs.map fin) i = fin (xs.getD i 0) := by
    intro i hi
    unfold idx
    simp [hi]
  have hmod : ∀ i, (i + (xs.length - s % xs.length)) % xs.length < xs.length := fun i => Nat.mod_lt _ hM0
  have n2 := dmean_near hr hS (l := (List.range xs.length).map fun i =>
      (xs.getD i 0, xs.getD ((i + (xs.length - s % xs.length)) % xs.length) 0)) (d := xs.length)
    (by rw [List.length_map, List.length_range]; exact hM.trans (by norm_num)) hM1
    (by rw [List.length_map, List.length_range]; linarith) (by
      intro q hq
      obtain ⟨i, hi, rfl⟩ := List.mem_map.1 hq
      refine (abs_sub _ _).trans ((add_le_add (hg i (List.mem_range.1 hi)) (hg _ (hmod i))).trans (le_of_eq ?_))
      rw [← two_mul, ← pow_succ'])
  rw [List.map_map, List.map_map, List.length_map, List.length_range] at n2
  simp only [Function.comp_def] at n2
  have el : zip2 (fun a b => Rnd.adiff r a b) (xs.map fin) (roll (xs.map fin) s) = (List.range xs.length).map fun i =>
      Rnd.adiff r (fin (xs.getD i 0)) (fin (xs.getD ((i + (xs.length - s % xs.length)) % xs.length) 0)) := by
    rw [zip_roll_sum, List.length_map]
    refine List.map_congr_left fun i hi => ?_
    rw [hf i (List.mem_range.1 hi), hf _ (hmod i)]
  rw [← el] at n2
  obtain ⟨n2, b2⟩ := n2
  have p1 := meanAbs_nonneg' y xs
  have p2 : 0 ≤ ((List.range xs.length).map fun i =>
      |xs.getD i 0 - xs.getD ((i + (xs.length - s % xs.length)) % xs.length) 0|).sum / (xs.length : ℝ) :=
    div_nonneg (list_sum_nonneg' fun _ _ => abs_nonneg _) (by linarith)
  rw [List.length_map, natCast_fin, half_fin]
  generalize ((List.range xs.length).map fun i =>
      |xs.getD i 0 - xs.getD ((i + (xs.length - s % xs.length)) % xs.length) 0|).sum / (xs.length : ℝ) = T at *
  have u1 : (2:ℝ) ^ 961 ≤ 2 ^ 1000 := pow_le_pow_right₀ (by norm_num) (by norm_num)
  have u2 : (2:ℝ) ^ 961 + 2 ^ 961 ≤ 2 ^ 1000 := by
    rw [← two_mul, ← pow_succ']; exact pow_le_pow_right₀ (by norm_num) (by norm_num)
  have hk : (xs.length : ℝ) + 3 ≤ 2 ^ 50 := by
    clear n1 n2 b1 b2 u1 u2
    generalize (xs.length : ℝ) = m at *
    norm_num at hM' ⊢; linarith
  have b3 : 1 / 2 * T ≤ 2 ^ 961 := le_trans (by linarith) b2
  have n4 := n2.half.rd hr unit_abs (by positivity) (b3.trans u1) (by linarith) (by norm_num)
  have n1' := n1.mono unit_abs.nonneg p1 (k' := (xs.length : ℝ) + 3) (m' := 5) (by linarith) (le_refl _)
  have n4' := n4.mono unit_abs.nonneg (by positivity) (k' := (xs.length : ℝ) + 3) (m' := 4) (by linarith) (by norm_num)
  obtain ⟨v, e, hv⟩ := sub_near hr unit_abs n1' n4' p1 (by positivity) hk (by norm_num) ((add_le_add b1 b3).trans u2)
  refine ⟨v, e, hv.trans (le_of_eq ?_)⟩
  norm_num
  left
  ring

end

end Verif
