import Verif.Lemmas.RoundCrpsLoop2

/-! The moment form of the numba path. -/

noncomputable section

open scoped Classical

namespace Verif

open XF Py Spec

/-- a loop with three sums -/
theorem RSum.fold3 {α : Type} {r : ℝ → XF} (a b c : α → XF) (l : List α) :
    ∀ {L1 L2 L3 : List XF} {s : XF × XF × XF}, RSum r L1 s.1 → L1 ≠ [] → RSum r L2 s.2.1 → L2 ≠ [] → RSum r L3 s.2.2 → L3 ≠ [] →
    RSum r (L1 ++ l.map a) (l.foldl (fun (s : XF × XF × XF) i => (Rnd.rd r (s.1 + a i), Rnd.rd r (s.2.1 + b i),
        Rnd.rd r (s.2.2 + c i))) s).1 ∧
    RSum r (L2 ++ l.map b) (l.foldl (fun (s : XF × XF × XF) i => (Rnd.rd r (s.1 + a i), Rnd.rd r (s.2.1 + b i),
        Rnd.rd r (s.2.2 + c i))) s).2.1 ∧
    RSum r (L3 ++ l.map c) (l.foldl (fun (s : XF × XF × XF) i => (Rnd.rd r (s.1 + a i), Rnd.rd r (s.2.1 + b i),
        Rnd.rd r (s.2.2 + c i))) s).2.2 := by
  induction l with
  | nil => intro L1 L2 L3 s h1 _ h2 _ h3 _; simpa using ⟨h1, h2, h3⟩
  | cons x l ih =>
    intro L1 L2 L3 s h1 n1 h2 n2 h3 n3
    have := ih (L1 := L1 ++ [a x]) (L2 := L2 ++ [b x]) (L3 := L3 ++ [c x])
      (s := (Rnd.rd r (s.1 + a x), Rnd.rd r (s.2.1 + b x), Rnd.rd r (s.2.2 + c x)))
      (h1.snoc n1 _) (by simp) (h2.snoc n2 _) (by simp) (h3.snoc n3 _) (by simp)
    simpa [List.append_assoc] using this

theorem Sized.wide {x : XF} {a c c' k : ℝ} (h : Sized x a c k) (hk : 0 ≤ k) (hc : c ≤ c') : Sized x a c' k := by
  obtain ⟨h1, h2, b, e, h3⟩ := h
  refine ⟨h1.trans hc, h2.trans hc, b, e, h3.trans ?_⟩
  gcongr

/-- a sum that starts from zero -/
theorem Sized.sum0 {α : Type} {r : ℝ → XF} (hr : Binary64 r) {l : List α} {f : α → XF} {g : α → ℝ} {C k : ℝ} {s : XF}
    (h : RSum r ([fin 0] ++ l.map f) s) (hf : ∀ a ∈ l, Sized (f a) (g a) C k) (hk0 : 0 ≤ k) (hl : 1 / 2 ^ 1000 ≤ C)
    (hC : (l.length + 1) * C ≤ 2 ^ 1000) (hk : k + (l.length + 1) ≤ 2 ^ 50) :
    Sized s (l.map g).sum ((l.length + 1) * C) (k + (l.length + 1)) := by
  have C0 : 0 ≤ C := le_trans (by positivity) hl
  have e : ((none :: l.map some : List (Option α)).map fun _ => C).sum = (l.length + 1) * C := by
    simp [Function.comp_def]; ring
  have := Sized.sum hr (l := (none :: l.map some : List (Option α))) (f := fun o => o.elim (fin 0) f)
    (g := fun o => o.elim 0 g) (c := fun _ => C) (k := k) (s := s) (by simpa [Function.comp_def] using h) (by simp) ?_ ?_ ?_
  · rw [e] at this
    simpa [Function.comp_def] using this
  · intro o ho
    cases o with
    | none => exact ⟨by simpa using C0, hl, 0, rfl, by simp; positivity⟩
    | some a => exact hf a (by simpa using ho)
  · rw [e]; exact hC
  · simpa using hk

section
variable {r : ℝ → XF} (hr : Binary64 r)
include hr

/-- the probability weighted moment form, against a bound on the data -/
theorem loopPwm_near {y B : ℝ} {xs : List ℝ} (h2 : 2 ≤ xs.length) (hM : xs.length ≤ 2 ^ 20) (hB : 1 / 2 ^ 900 ≤ B)
    (hB2 : B ≤ 2 ^ 900) (hy : |y| ≤ B) (hx : ∀ x ∈ xs, |x| ≤ B) :
    Sized (RndLoop.pwm r (fin y) (xs.map fin))
      (meanAbs y xs + xs.sum / xs.length - 2 * pwmU 0 xs / ((xs.length : ℝ) * ((xs.length : ℝ) - 1))) (8 * B)
      (xs.length + 5) := by
  have hM' : (xs.length : ℝ) ≤ 2 ^ 20 := by exact_mod_cast hM
  have hM2 : (2:ℝ) ≤ xs.length := by exact_mod_cast h2
  have hM0 : (0:ℝ) < xs.length := by linarith
  have hM1 : (0:ℝ) < (xs.length : ℝ) - 1 := by linarith
  have hne : xs ≠ [] := by intro e; simp [e] at h2
  have hB0 : 0 < B := lt_of_lt_of_le (by positivity) hB
  have low : 1 / 2 ^ 1000 ≤ B :=
    le_trans (one_div_le_one_div_of_le (by positivity) (pow_le_pow_right₀ (by norm_num) (by norm_num))) hB
  have big : 2 ^ 43 * B ≤ 2 ^ 1000 := by
    calc 2 ^ 43 * B ≤ 2 ^ 43 * 2 ^ 900 := mul_le_mul_of_nonneg_left hB2 (by positivity)
      _ = 2 ^ 943 := by rw [← pow_add]
      _ ≤ 2 ^ 1000 := pow_le_pow_right₀ (by norm_num) (by norm_num)
  have kk : (xs.length : ℝ) + 8 ≤ 2 ^ 50 := by
    clear big low
    generalize (xs.length : ℝ) = M at *
    norm_num at hM' ⊢; linarith
  have up : ∀ {t : ℝ}, t ≤ 2 ^ 43 → t * B ≤ 2 ^ 1000 := fun h => (mul_le_mul_of_nonneg_right h hB0.le).trans big
  have id0 : ∀ {x c : ℝ}, |x| ≤ c → 1 / 2 ^ 1000 ≤ c → Sized (fin x) x c 0 := fun h h' => ⟨h, h', _, rfl, by simp⟩
  obtain ⟨r1, r2, r3⟩ := RSum.fold3 (r := r) (fun p : ℝ × ℕ => Rnd.adiff r (fin p.1) (fin y)) (fun p => fin p.1)
    (fun p => Rnd.rd r (fin p.1 * (p.2 : XF))) xs.zipIdx (L1 := [fin 0]) (L2 := [fin 0]) (L3 := [fin 0])
    (s := ((0, 0, 0) : XF × XF × XF)) (.one _) (by simp) (.one _) (by simp) (.one _) (by simp)
  have hl : xs.zipIdx.length = xs.length := List.length_zipIdx
  have hmem : ∀ p ∈ xs.zipIdx, p.1 ∈ xs := by
    intro p hp
    have hp' := List.mem_zipIdx hp
    rw [hp'.2.2]; exact List.getElem_mem _
  have zmap : ∀ g : ℝ → ℝ, (xs.zipIdx.map fun p => g p.1) = xs.map g := by
    intro g
    rw [show (fun p : ℝ × ℕ => g p.1) = g ∘ Prod.fst from rfl, ← List.map_map, List.zipIdx_map_fst]
  have q1 : ((xs.length : ℝ) + 1) * (2 * B) / xs.length ≤ 3 * B := by
    rw [div_le_iff₀ hM0]; nlinarith
  have q2 : ((xs.length : ℝ) + 1) * B / xs.length ≤ 2 * B := by
    rw [div_le_iff₀ hM0]; nlinarith
  have low1 : 1 / 2 ^ 1000 ≤ ((xs.length : ℝ) + 1) * B / xs.length := by
    refine low.trans ?_
    rw [le_div_iff₀ hM0]; nlinarith
  have low2 : 1 / 2 ^ 1000 ≤ ((xs.length : ℝ) + 1) * (2 * B) / xs.length := by
    refine low.trans ?_
    rw [le_div_iff₀ hM0]; nlinarith
  have s43 : ((xs.length : ℝ) + 1) * 2 ≤ 2 ^ 43 := by
    clear big low up q1 q2 low1 low2
    generalize (xs.length : ℝ) = M at *
    norm_num at hM' ⊢; linarith
  have sq43 : ((xs.length : ℝ) + 1) * ((xs.length : ℝ) - 1) * 2 ≤ 2 ^ 43 := by
    clear big low up q1 q2 low1 low2
    generalize (xs.length : ℝ) = M at *
    norm_num at hM' ⊢; nlinarith
  set st := xs.zipIdx.foldl (fun (s : XF × XF × XF) p => (Rnd.rd r (s.1 + Rnd.adiff r (fin p.1) (fin y)), Rnd.rd r (s.2.1 + fin p.1),
        Rnd.rd r (s.2.2 + Rnd.rd r (fin p.1 * (p.2 : XF))))) ((0, 0, 0) : XF × XF × XF) with hst
  -- the mean distance
  have E1 : Sized (Rnd.rd r (st.1 / fin xs.length)) (meanAbs y xs) (3 * B) (xs.length + 3) := by
    have s := Sized.sum0 hr (g := fun p : ℝ × ℕ => |p.1 - y|) (C := 2 * B) (k := 1) r1 ?_ (by norm_num) (by linarith) ?_ ?_
    · rw [hl, zmap (fun x => |x - y|)] at s
      have d := (s.div hM0 low2).wide (by linarith) q1
      exact (d.rd hr (up (by norm_num)) (by linarith)).mono (by linarith)
    · intro p hp
      have h1 : |p.1 - y| ≤ 2 * B := (abs_sub _ _).trans (by linarith [hx _ (hmem p hp)])
      have := (id0 (x := p.1 - y) (c := 2 * B) h1 (by linarith)).rd hr (up (by norm_num)) (by norm_num)
      obtain ⟨_, _, b, e, hb⟩ := this
      refine ⟨by rw [abs_abs]; exact h1, by linarith, |b|, ?_, ?_⟩
      · unfold Rnd.adiff
        rw [fin_sub, e, fin_abs]
      · refine (abs_abs_sub_abs_le _ _).trans (hb.trans (le_of_eq (by ring)))
    · rw [hl, ← mul_assoc]; exact up s43
    · rw [hl]; linarith
  -- the two moments
  have B0 : Sized (Rnd.rd r (st.2.1 / fin xs.length)) (xs.sum / xs.length) (2 * B) (xs.length + 3) := by
    have s := Sized.sum0 hr (g := fun p : ℝ × ℕ => p.1) (C := B) (k := 0) r2 (fun p hp => id0 (hx _ (hmem p hp)) low) (le_refl _)
      low ?_ ?_
    · rw [hl, zmap (fun x => x), List.map_id'] at s
      have d := (s.div hM0 low1).wide (by linarith) q2
      exact (d.rd hr (up (by norm_num)) (by linarith)).mono (by linarith)
    · rw [hl]; exact up (by linarith)
    · rw [hl]; linarith
  have len1 : ((xs.length - 1 : ℕ) : ℝ) = (xs.length : ℝ) - 1 := by rw [Nat.cast_sub (by omega)]; simp
  have hQ : (0:ℝ) < (xs.length : ℝ) * ((xs.length : ℝ) - 1) := mul_pos hM0 hM1
  have B1 : Sized (Rnd.rd r (Rnd.rd r (fin 2 * st.2.2) / fin ((xs.length : ℝ) * ((xs.length : ℝ) - 1))))
      (2 * pwmU 0 xs / ((xs.length : ℝ) * ((xs.length : ℝ) - 1))) (3 * B) (xs.length + 4) := by
    have s := Sized.sum0 hr (g := fun p : ℝ × ℕ => p.1 * (p.2 : ℝ)) (C := ((xs.length : ℝ) - 1) * B) (k := 1) r3 ?_ (by norm_num)
      (low.trans (by nlinarith)) ?_ ?_
    · rw [hl, pwmU_zipIdx] at s
      have u := (s.mulw (w := 2) (by norm_num)).rd hr (by
        rw [show 2 * (((xs.length : ℝ) + 1) * (((xs.length : ℝ) - 1) * B)) = ((xs.length : ℝ) + 1) * ((xs.length : ℝ) - 1) * 2 * B by ring]
        exact up sq43) (by linarith)
      have e : 2 * (((xs.length : ℝ) + 1) * (((xs.length : ℝ) - 1) * B)) / ((xs.length : ℝ) * ((xs.length : ℝ) - 1))
          = ((xs.length : ℝ) + 1) * (2 * B) / xs.length := by
        field_simp
      have d := u.div hQ (by rw [e]; exact low2)
      rw [e] at d
      exact ((d.wide (by linarith) q1).rd hr (up (by norm_num)) (by linarith)).mono (by linarith)
    · intro p hp
      have hp' := List.mem_zipIdx hp
      have m2 : (p.2 : ℝ) ≤ (xs.length : ℝ) - 1 := by
        rw [← len1]; exact_mod_cast (by omega : p.2 ≤ xs.length - 1)
      have c1 : |p.1 * (p.2 : ℝ)| ≤ ((xs.length : ℝ) - 1) * B := by
        rw [abs_mul, mul_comm, abs_of_nonneg (Nat.cast_nonneg (α := ℝ) p.2)]
        exact mul_le_mul m2 (hx _ (hmem p hp)) (abs_nonneg _) hM1.le
      rw [natCast_fin, fin_mul]
      have := (id0 c1 (low.trans (by nlinarith))).rd hr (up (by linarith)) (by norm_num)
      exact this.mono (by norm_num)
    · rw [hl, ← mul_assoc]
      exact up (by nlinarith)
    · rw [hl]; linarith
  have C1 := ((E1.add B0).rd hr (by rw [show 3 * B + 2 * B = 5 * B by ring]; exact up (by norm_num)) (by linarith)).sub
    (B1.mono (by linarith))
  rw [show 3 * B + 2 * B + 3 * B = 8 * B by ring] at C1
  have C2 := (C1.rd hr (up (by norm_num)) (by linarith)).mono (k' := xs.length + 5) (by linarith)
  unfold RndLoop.pwm
  simp only [List.length_map]
  rw [if_neg (by simp), two_fin, natCast_fin, natCast_fin, natPred_cast h2]
  have hf : forEnum (xs.map fin) ((0, 0, 0) : XF × XF × XF) (fun i forecast s =>
      (Rnd.rd r (s.1 + Rnd.adiff r forecast (fin y)), Rnd.rd r (s.2.1 + forecast), Rnd.rd r (s.2.2 + Rnd.rd r (forecast * (i : XF)))))
      = st := by
    unfold forEnum
    rw [List.zipIdx_map, List.foldl_map]
    rfl
  rw [hf]
  exact C2

end

section
variable {r : ℝ → XF} (hr : Nearest64 r)
include hr

/-- Two members equal to the observation and one two units above it. -/
theorem loopPwm_bad : RndLoop.pwm r (fin 9007199254740985) [fin 9007199254740985, fin 9007199254740985, fin 9007199254740987]
    = fin (-1) := by
  have t1 : Rnd.rd r (fin 27021597764222957) = fin 27021597764222956 := by
    have := hr.near_grid (a := 27021597764222957) (e := 54) (by norm_num) (by norm_num) (by norm_num) (by norm_num) (u := 4)
      (by norm_num) 6755399441055739 (by norm_num)
    show r _ = _
    rw [this]; norm_num
  have t2 : Rnd.rd r (fin 27021597764222959) = fin 27021597764222960 := by
    have := hr.near_grid (a := 27021597764222959) (e := 54) (by norm_num) (by norm_num) (by norm_num) (by norm_num) (u := 4)
      (by norm_num) 6755399441055740 (by norm_num)
    show r _ = _
    rw [this]; norm_num
  have t3 : Rnd.rd r (fin 54043195528445920) = fin 54043195528445920 := by
    have := hr.near_grid (a := 54043195528445920) (e := 55) (by norm_num) (by norm_num) (by norm_num) (by norm_num) (u := 8)
      (by norm_num) 6755399441055740 (by norm_num)
    show r _ = _
    rw [this]; norm_num
  have a1 : Rnd.rd r (fin 18014398509481970) = fin 18014398509481970 := even_rd hr (n := 9007199254740985) (by norm_num) (by norm_num) (by norm_num)
  have a3 : Rnd.rd r (fin 18014398509481974) = fin 18014398509481974 := even_rd hr (n := 9007199254740987) (by norm_num) (by norm_num) (by norm_num)
  have a4 : Rnd.rd r (fin 9007199254740985) = fin 9007199254740985 := int_rd hr (n := 9007199254740985) (by norm_num) (by norm_num)
  have a5 : Rnd.rd r (fin 0) = fin 0 := int_rd hr (n := 0) (by norm_num) (by norm_num)
  have a6 : Rnd.rd r (fin 2) = fin 2 := int_rd hr (n := 2) (by norm_num) (by norm_num)
  have b0 : Rnd.rd r (fin (27021597764222956 / 3)) = fin 9007199254740985 := by
    have := hr.near_grid (a := 27021597764222956 / 3) (e := 52) (by norm_num) (by norm_num) (by norm_num) (by norm_num) (u := 1)
      (by norm_num) 9007199254740985 (by norm_num [abs_of_pos])
    show r _ = _
    rw [this]; norm_num
  have b1 : Rnd.rd r (fin (54043195528445920 / 6)) = fin 9007199254740987 := by
    have := hr.near_grid (a := 54043195528445920 / 6) (e := 52) (by norm_num) (by norm_num) (by norm_num) (by norm_num) (u := 1)
      (by norm_num) 9007199254740987 (by norm_num [abs_of_pos, abs_of_neg])
    show r _ = _
    rw [this]; norm_num
  obtain ⟨q, hq, hq1, hq2⟩ : ∃ q : ℝ, Rnd.rd r (fin (2 / 3)) = fin q ∧ 1 / 2 < q ∧ q < 1 := by
    obtain ⟨δ, η, hδ, hη, e⟩ := hr.acc (a := 2 / 3) (by
      rw [abs_of_pos (by norm_num)]
      exact lt_of_lt_of_le (by norm_num) (one_le_pow₀ (by norm_num : (1:ℝ) ≤ 2)))
    refine ⟨_, e, ?_⟩
    have h1 : |η| ≤ 1 / 2 ^ 53 := hη.trans (one_div_le_one_div_of_le (by positivity) (pow_le_pow_right₀ (by norm_num) (by norm_num)))
    rw [abs_le] at hδ h1
    norm_num at hδ h1
    constructor <;> linarith
  have b2 : Rnd.rd r (fin (q + 9007199254740985)) = fin 9007199254740986 := by
    have := hr.near_grid (a := q + 9007199254740985) (e := 52) (by norm_num) (by norm_num) (by norm_num; linarith) (by norm_num; linarith) (u := 1)
      (by norm_num) 9007199254740986 (by rw [abs_lt]; constructor <;> push_cast <;> linarith)
    show r _ = _
    rw [this]; norm_num
  have b4 : Rnd.rd r (fin (-1)) = fin (-1) := by
    show r _ = _
    rw [hr.neg]; show -Rnd.rd r (fin 1) = _; rw [int_rd hr (n := 1) (by norm_num) (by norm_num)]; rfl
  have d0 : Rnd.adiff r (fin 9007199254740985) (fin 9007199254740985) = fin 0 := by
    unfold Rnd.adiff; rw [fin_sub, sub_self, a5, fin_abs, abs_zero]
  have d1 : Rnd.adiff r (fin 9007199254740987) (fin 9007199254740985) = fin 2 := by
    unfold Rnd.adiff; rw [fin_sub]; norm_num; rw [a6, fin_abs]; norm_num
  unfold RndLoop.pwm forEnum
  simp only [List.length_cons, List.length_nil, List.zipIdx_cons, List.zipIdx_nil, List.foldl_cons, List.foldl_nil, d0, d1,
    zero_fin, natCast_fin, two_fin, fin_mul, fin_add]
  rw [if_neg (by simp)]
  norm_num
  simp only [a3, a4, a5, fin_add]
  norm_num
  simp only [a1, a5, fin_add]
  norm_num
  simp only [a6, t1]
  rw [a4, fin_add]
  norm_num
  rw [t2, fin_mul]
  norm_num
  rw [t3, fin_div (by norm_num), fin_div (by norm_num), fin_div (by norm_num), hq, b0, b1, fin_add, b2]
  norm_num
  exact b4

end

end Verif
