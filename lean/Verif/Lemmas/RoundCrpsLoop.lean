import Verif.Model.RoundCrpsLoop
import Verif.Lemmas.RoundCrps2

/-! Loops that add one rounded entry at a time, and the kernels of the numba path. -/

noncomputable section

open scoped Classical

namespace Verif

open XF Py Spec

theorem RSum.snoc {r : ℝ → XF} {L : List XF} {s : XF} (h : RSum r L s) (hL : L ≠ []) (x : XF) :
    RSum r (L ++ [x]) (Rnd.rd r (s + x)) := .append hL (by simp) h (.one x)

theorem RSum.fold {α : Type} {r : ℝ → XF} (f : α → XF) (l : List α) : ∀ {L : List XF} {s : XF}, RSum r L s → L ≠ [] →
    RSum r (L ++ l.map f) (l.foldl (fun a x => Rnd.rd r (a + f x)) s) := by
  induction l with
  | nil => intro L s h _; simpa using h
  | cons x l ih =>
    intro L s h hL
    have := ih (h.snoc hL (f x)) (by simp)
    simpa using this

/-- a loop with two sums, the second one over an inner loop -/
theorem RSum.fold2 {r : ℝ → XF} (a : ℕ → XF) (J : ℕ → List ℕ) (b : ℕ → ℕ → XF) (l : List ℕ) :
    ∀ {L1 L2 : List XF} {s : XF × XF}, RSum r L1 s.1 → L1 ≠ [] → RSum r L2 s.2 → L2 ≠ [] →
    RSum r (L1 ++ l.map a) (l.foldl (fun (s : XF × XF) i => (Rnd.rd r (s.1 + a i),
        (J i).foldl (fun e j => Rnd.rd r (e + b i j)) s.2)) s).1 ∧
    RSum r (L2 ++ l.flatMap fun i => (J i).map (b i)) (l.foldl (fun (s : XF × XF) i => (Rnd.rd r (s.1 + a i),
        (J i).foldl (fun e j => Rnd.rd r (e + b i j)) s.2)) s).2 := by
  induction l with
  | nil => intro L1 L2 s h1 _ h2 _; simpa using ⟨h1, h2⟩
  | cons x l ih =>
    intro L1 L2 s h1 n1 h2 n2
    have := ih (L1 := L1 ++ [a x]) (L2 := L2 ++ (J x).map (b x))
      (s := (Rnd.rd r (s.1 + a x), (J x).foldl (fun e j => Rnd.rd r (e + b x j)) s.2))
      (h1.snoc n1 _) (by simp) (h2.fold (b x) (J x) n2) (by simp [n2])
    simpa [List.append_assoc] using this

/-- the entries of the quantile loop -/
theorem qdLoopR {r : ℝ → XF} (y : ℝ) (M : ℕ) (l : List ℝ) : ∀ (k : ℕ) (o : ℝ) {L : List XF} {s : XF},
    l.Pairwise (· ≤ ·) → (o = 0 ∨ (o = 1 ∧ ∀ x ∈ l, y < x)) → RSum r L s → L ≠ [] →
    ∃ (o' : XF) (s' : XF), ((l.map fin).zipIdx k).foldlM (fun (s : XF × XF) (p : XF × ℕ) =>
        if p.1.isnan then none
        else
          let obsCdf := if fin y < p.1 then 1 else s.1
          some (obsCdf, Rnd.rd r (s.2 + Rnd.rd r (Rnd.rd r (p.1 - fin y)
            * Rnd.rd r (Rnd.rd r (Rnd.rd r ((M : XF) * obsCdf) - ((p.2 + 1 : ℕ) : XF)) + half)))))
        ((fin o, s) : XF × XF) = some (o', s') ∧
      RSum r (L ++ (l.zipIdx k).map fun p => Rnd.rd r (Rnd.rd r (fin p.1 - fin y)
            * Rnd.rd r (Rnd.rd r (Rnd.rd r ((M : XF) * fin (if y < p.1 then 1 else 0)) - ((p.2 + 1 : ℕ) : XF)) + half))) s' := by
  induction l with
  | nil => intro k o L s _ _ h _; exact ⟨fin o, s, rfl, by simpa using h⟩
  | cons x l ih =>
    intro k o L s h ho hs hL
    have hh := List.pairwise_cons.1 h
    by_cases hy : y < x
    · obtain ⟨o', s', h', hr'⟩ := ih (k + 1) 1 hh.2 (Or.inr ⟨rfl, fun q hq => lt_of_lt_of_le hy (hh.1 q hq)⟩)
        (hs.snoc hL (Rnd.rd r (Rnd.rd r (fin x - fin y)
            * Rnd.rd r (Rnd.rd r (Rnd.rd r ((M : XF) * fin 1) - ((k + 1 : ℕ) : XF)) + half)))) (by simp)
      refine ⟨o', s', ?_, ?_⟩
      · simp only [List.map_cons, List.zipIdx_cons, List.foldlM_cons]
        rw [← h']
        simp [hy, one_fin]
      · simp only [List.zipIdx_cons, List.map_cons, if_pos hy]
        simpa only [List.append_assoc, List.singleton_append] using hr'
    · have : o = 0 := by
        rcases ho with h | h
        · exact h
        · exact absurd (h.2 x (by simp)) hy
      subst this
      obtain ⟨o', s', h', hr'⟩ := ih (k + 1) 0 hh.2 (Or.inl rfl)
        (hs.snoc hL (Rnd.rd r (Rnd.rd r (fin x - fin y)
            * Rnd.rd r (Rnd.rd r (Rnd.rd r ((M : XF) * fin 0) - ((k + 1 : ℕ) : XF)) + half)))) (by simp)
      refine ⟨o', s', ?_, ?_⟩
      · simp only [List.map_cons, List.zipIdx_cons, List.foldlM_cons]
        rw [← h']
        simp [hy]
      · simp only [List.zipIdx_cons, List.map_cons, if_neg hy]
        simpa only [List.append_assoc, List.singleton_append] using hr'

theorem SqNear.zero {t k m : ℝ} (h : 0 ≤ m * t) : SqNear t (fin 0) 0 k m := ⟨0, rfl, le_refl _, by simpa using h⟩

/-- multiplication by a number with a small relative error -/
theorem SqNear.mulrel {t : ℝ} {x : XF} {a k m b c : ℝ} (ha : 0 ≤ a) (ht : 0 ≤ t) (hk2 : k ≤ 2 ^ 50) (hm : 0 ≤ m)
    (hb : 0 ≤ b) (hc : 0 ≤ c) (hbc : |b - c| ≤ 1 / 2 ^ 51 * c) (h : SqNear t x a k m) :
    SqNear t (fin b * x) (c * a) (k + 2) (2 * c * m) := by
  obtain ⟨s, rfl, h2, h3⟩ := h
  refine ⟨b * s, fin_mul _ _, by positivity, ?_⟩
  have hkq : k * (1 / 2 ^ 51) ≤ 1 := by
    rw [mul_one_div, div_le_one (by positivity)]; exact hk2.trans (pow_le_pow_right₀ (by norm_num) (by norm_num))
  have hq1 : (1:ℝ) / 2 ^ 51 ≤ 1 := by norm_num
  have hq0 : (0:ℝ) ≤ 1 / 2 ^ 51 := by positivity
  generalize (1:ℝ) / 2 ^ 51 = q at *
  have hb2 : b ≤ c * (1 + q) := by have := (abs_le.1 hbc).2; linarith
  have hmt : 0 ≤ m * t := by positivity
  rw [show b * s - c * a = b * (s - a) + (b - c) * a by ring]
  refine (abs_add_le _ _).trans ?_
  rw [abs_mul, abs_mul, abs_of_nonneg hb, abs_of_nonneg ha]
  have e1 : b * |s - a| ≤ c * (1 + q) * (k * q * a + m * t) := mul_le_mul hb2 h3 (abs_nonneg _) (by positivity)
  have e2 : |b - c| * a ≤ q * c * a := mul_le_mul_of_nonneg_right hbc ha
  have e3 : q * (k * q) * (c * a) ≤ q * 1 * (c * a) := by gcongr
  have e4 : q * (c * (m * t)) ≤ 1 * (c * (m * t)) := by gcongr
  nlinarith

section
variable {r : ℝ → XF} (hr : Nearest64 r)
include hr

theorem cmul_near {c u : ℝ} (hc : 0 ≤ c) (hc2 : c ≤ 2 ^ 20) (hu : 0 ≤ u) (hu2 : u ≤ 2 ^ 960) :
    SqNear (1 / 2 ^ 1073) (Rnd.rd r (fin c * Rnd.rd r (fin u))) (u * c) 2 (2 ^ 21) ∧ 0 ≤ u * c ∧ u * c ≤ 2 ^ 980 := by
  have h1 := (pos_near hr hu hu2).mulc hc
  have p : 0 ≤ c * u := mul_nonneg hc hu
  have b : c * u ≤ 2 ^ 980 := by
    calc c * u ≤ 2 ^ 20 * 2 ^ 960 := mul_le_mul hc2 hu2 hu (by positivity)
      _ = 2 ^ 980 := by rw [← pow_add]
  have b' : c * u ≤ 2 ^ 1000 := b.trans (pow_le_pow_right₀ (by norm_num) (by norm_num))
  norm_num at hc2
  have h2 := h1.rd hr.toBinary64 unit_abs p b' (by norm_num) (by norm_num; linarith)
  rw [mul_comm u c]
  exact ⟨h2.mono unit_abs.nonneg p (by norm_num) (by norm_num; linarith), p, b⟩

theorem half_rd {n : ℕ} (h0 : 0 < n) (hn : n < 2 ^ 53) {x : ℝ} (hx : x = n / 2) : Rnd.rd r (fin x) = fin x := by
  rw [hx]; exact hr.half_int h0 hn

omit hr in
theorem neg_rd (hr : Binary64 r) {x : ℝ} (h : Rnd.rd r (fin x) = fin x) : Rnd.rd r (fin (-x)) = fin (-x) := by
  show r (-x) = _
  rw [hr.neg]
  show -Rnd.rd r (fin x) = _
  rw [h]; rfl

/-- one entry of the quantile loop -/
theorem qdEntry_near {y x : ℝ} {i M : ℕ} (hi : i < M) (hM : M ≤ 2 ^ 20) (h : |x - y| ≤ 2 ^ 960) :
    SqNear (1 / 2 ^ 1073)
      (Rnd.rd r (Rnd.rd r (fin x - fin y)
        * Rnd.rd r (Rnd.rd r (Rnd.rd r ((M : XF) * fin (if y < x then 1 else 0)) - ((i + 1 : ℕ) : XF)) + half)))
      ((x - y) * ((M : ℝ) * (if y < x then 1 else 0) - ((i : ℝ) + 1) + 1 / 2)) 2 (2 ^ 21) ∧
    0 ≤ (x - y) * ((M : ℝ) * (if y < x then 1 else 0) - ((i : ℝ) + 1) + 1 / 2) ∧
    (x - y) * ((M : ℝ) * (if y < x then 1 else 0) - ((i : ℝ) + 1) + 1 / 2) ≤ 2 ^ 980 := by
  have hM' : (M : ℝ) ≤ 2 ^ 20 := by exact_mod_cast hM
  have hi' : (i : ℝ) + 1 ≤ M := by exact_mod_cast hi
  have hi0 : (0 : ℝ) ≤ i := Nat.cast_nonneg i
  rw [natCast_fin, natCast_fin, fin_mul, fin_sub]
  by_cases hy : y < x
  · rw [if_pos hy, mul_one, int_rd hr (n := M) (by omega) rfl, fin_sub,
      int_rd hr (n := M - (i + 1)) (x := (M : ℝ) - ((i + 1 : ℕ) : ℝ)) (by omega) (by rw [Nat.cast_sub (by omega)]), half_fin, fin_add,
      half_rd hr (n := 2 * (M - (i + 1)) + 1) (x := (M : ℝ) - ((i + 1 : ℕ) : ℝ) + 1 / 2) (by omega) (by omega)
        (by push_cast [Nat.cast_sub (show i + 1 ≤ M by omega)]; ring), mul_comm (Rnd.rd r _)]
    have hu : 0 ≤ x - y := by linarith
    rw [abs_of_nonneg hu] at h
    have e : (M : ℝ) - ((i + 1 : ℕ) : ℝ) + 1 / 2 = (M : ℝ) - ((i : ℝ) + 1) + 1 / 2 := by push_cast; ring
    rw [e]
    exact cmul_near hr (by linarith) (by linarith) hu h
  · have z : Rnd.rd r (fin ((0:ℝ))) = fin 0 := int_rd hr (n := 0) (by norm_num) (by simp)
    have e2 : (0:ℝ) - ((i + 1 : ℕ) : ℝ) = -((i + 1 : ℕ) : ℝ) := by ring
    rw [if_neg hy, mul_zero, z, fin_sub, e2, neg_rd hr.toBinary64 (int_rd hr (n := i + 1) (by omega) rfl), half_fin, fin_add]
    have e3 : -((i + 1 : ℕ) : ℝ) + 1 / 2 = -((i : ℝ) + 1 / 2) := by push_cast; ring
    rw [e3, neg_rd hr.toBinary64 (half_rd hr (n := 2 * i + 1) (by omega) (by omega) (by push_cast; ring))]
    have hu : 0 ≤ y - x := by linarith
    rw [abs_sub_comm, abs_of_nonneg hu] at h
    have e4 : Rnd.rd r (fin (x - y)) * fin (-((i : ℝ) + 1 / 2)) = fin ((i : ℝ) + 1 / 2) * Rnd.rd r (fin (y - x)) := by
      obtain ⟨b, hb, _⟩ := pos_near hr hu h
      have : Rnd.rd r (fin (x - y)) = -Rnd.rd r (fin (y - x)) := by
        rw [show x - y = -(y - x) by ring]; exact hr.neg _
      rw [this, hb]
      show fin (-b) * _ = _
      rw [fin_mul, fin_mul]; congr 1; ring
    rw [e4, show (x - y) * (0 - ((i : ℝ) + 1) + 1 / 2) = (y - x) * ((i : ℝ) + 1 / 2) by ring]
    exact cmul_near hr (by linarith) (by linarith) hu h

/-- the default estimator of the numba path -/
theorem loopQd_near {y : ℝ} {xs : List ℝ} (hne : xs ≠ []) (hM : xs.length ≤ 2 ^ 20) (hs : xs.Pairwise (· ≤ ·))
    (hy : |y| ≤ 2 ^ 959) (hx : ∀ x ∈ xs, |x| ≤ 2 ^ 959) :
    SqNear (1 / 2 ^ 1073) (RndLoop.qd r (fin y) (xs.map fin)) (2 * qdSum y 0 (uw xs)) (xs.length + 6) (2 ^ 25) := by
  have hM' : (xs.length : ℝ) ≤ 2 ^ 20 := by exact_mod_cast hM
  have hM1 : (1:ℝ) ≤ xs.length := by exact_mod_cast List.length_pos_iff.mpr hne
  have hM0 : (xs.length : ℝ) ≠ 0 := by linarith
  have hM2 : (0:ℝ) < (xs.length : ℝ) ^ 2 := by positivity
  have hx2 : (xs.length : ℝ) ≤ (xs.length : ℝ) ^ 2 := by nlinarith
  have hd : ∀ x ∈ xs, |x - y| ≤ 2 ^ 960 := fun x h => by
    refine (abs_sub _ _).trans ((add_le_add (hx x h) hy).trans (le_of_eq ?_))
    rw [← two_mul, ← pow_succ']
  have mem : ∀ p ∈ xs.zipIdx, p.1 ∈ xs ∧ p.2 < xs.length := by
    intro p hp
    have := List.mem_zipIdx hp
    refine ⟨?_, by omega⟩
    rw [this.2.2]
    exact List.getElem_mem _
  have t := fun p hp => qdEntry_near hr (y := y) (x := p.1) (mem p hp).2 hM (hd p.1 (mem p hp).1)
  have ev : 2 / (xs.length : ℝ) ^ 2 * ((xs.zipIdx).map fun p => (p.1 - y) * ((xs.length : ℝ) * (if y < p.1 then 1 else 0)
      - ((p.2 : ℝ) + 1) + 1 / 2)).sum = 2 * qdSum y 0 (uw xs) := by
    rw [qdU_zipIdx, qdU_eq y _ hM0]
    unfold uw
    field_simp
    simp
  have h0 : 0 ≤ ((xs.zipIdx).map fun p => (p.1 - y) * ((xs.length : ℝ) * (if y < p.1 then 1 else 0) - ((p.2 : ℝ) + 1) + 1 / 2)).sum :=
    list_sum_nonneg' fun p hp => (t p hp).2.1
  have hb0 : ((xs.zipIdx).map fun p => (p.1 - y) * ((xs.length : ℝ) * (if y < p.1 then 1 else 0) - ((p.2 : ℝ) + 1) + 1 / 2)).sum
      ≤ xs.length * 2 ^ 980 := by
    have := sum_map_le fun p hp => (t p hp).2.2
    rwa [List.length_zipIdx] at this
  have hb : ((xs.zipIdx).map fun p => (p.1 - y) * ((xs.length : ℝ) * (if y < p.1 then 1 else 0) - ((p.2 : ℝ) + 1) + 1 / 2)).sum
      ≤ 2 ^ 1000 := by
    refine hb0.trans ?_
    calc (xs.length : ℝ) * 2 ^ 980 ≤ 2 ^ 20 * 2 ^ 980 := mul_le_mul_of_nonneg_right hM' (by positivity)
      _ = 2 ^ 1000 := by rw [← pow_add]
  obtain ⟨o', s', hl, hsum⟩ := qdLoopR (r := r) y xs.length xs 0 0 hs (Or.inl rfl) (RSum.one (fin 0)) (by simp)
  have ns := hsum.sqNear hr.toBinary64 unit_abs (k := 2) (m := 2 ^ 21) (by norm_num)
    (as := [0] ++ (xs.zipIdx).map fun p => (p.1 - y) * ((xs.length : ℝ) * (if y < p.1 then 1 else 0) - ((p.2 : ℝ) + 1) + 1 / 2))
    ?_ ?_ ?_ ?_
  · rw [List.sum_append, List.sum_singleton, zero_add, List.length_append, List.length_map, List.length_zipIdx,
      List.length_singleton] at ns
    push_cast at ns
    rw [add_comm (1:ℝ) (xs.length:ℝ)] at ns
    have c0 : (0:ℝ) < 2 / (xs.length : ℝ) ^ 2 := by positivity
    have c1 : 2 / (xs.length : ℝ) ^ 2 ≤ 2 := by
      rw [div_le_iff₀ hM2]; nlinarith
    have cl : 1 / 2 ^ 39 ≤ 2 / (xs.length : ℝ) ^ 2 := by
      rw [div_le_div_iff₀ (by positivity) hM2]
      calc 1 * (xs.length : ℝ) ^ 2 ≤ (2 ^ 20) ^ 2 := by rw [one_mul]; exact pow_le_pow_left₀ (Nat.cast_nonneg _) hM' 2
        _ = 2 * 2 ^ 39 := by norm_num
    obtain ⟨b, hbe, hb0', hbc⟩ : ∃ b : ℝ, Rnd.rd r (fin (2 / (xs.length : ℝ) ^ 2)) = fin b ∧ 0 ≤ b ∧
        |b - 2 / (xs.length : ℝ) ^ 2| ≤ 1 / 2 ^ 51 * (2 / (xs.length : ℝ) ^ 2) := by
      generalize 2 / (xs.length : ℝ) ^ 2 = c at *
      obtain ⟨δ, η, hδ, hη, e⟩ := hr.acc (a := c) (by
        rw [abs_of_pos c0]
        calc c ≤ 2 ^ 1 := by linarith
          _ < 2 ^ 1023 := pow_lt_pow_right₀ (by norm_num) (by norm_num))
      have hη' : |η| ≤ 1 / 2 ^ 53 * c := by
        refine hη.trans (le_trans ?_ (mul_le_mul_of_nonneg_left cl (by positivity)))
        rw [one_div_mul_one_div, ← pow_add]
        exact one_div_le_one_div_of_le (by positivity) (pow_le_pow_right₀ (by norm_num) (by norm_num))
      have hd' : |c * (1 + δ) + η - c| ≤ 1 / 2 ^ 51 * c := by
        rw [show c * (1 + δ) + η - c = c * δ + η by ring]
        refine (abs_add_le _ _).trans ?_
        rw [abs_mul, abs_of_pos c0]
        have : c * |δ| ≤ c * (1 / 2 ^ 53) := mul_le_mul_of_nonneg_left hδ c0.le
        norm_num at this hη' ⊢
        linarith
      refine ⟨_, e, ?_, hd'⟩
      have := (abs_le.1 hd').1
      norm_num at this
      linarith
    have kk : (2:ℝ) + (xs.length + 1) + 2 ≤ 2 ^ 50 := by
      clear ns h0 hb hb0 hx2 hbe hbc ev c1 cl c0
      generalize (xs.length : ℝ) = M at *
      norm_num at hM' ⊢; linarith
    have n3 := SqNear.mulrel h0 unit_abs.nonneg (by linarith) (by positivity) hb0' c0.le hbc ns
    rw [ev] at n3
    have q0 : 0 ≤ 2 * qdSum y 0 (uw xs) := by rw [← ev]; positivity
    have q1 : 2 * qdSum y 0 (uw xs) ≤ 2 ^ 1000 := by
      rw [← ev, div_mul_eq_mul_div, div_le_iff₀ hM2]
      have u : (2:ℝ) * 2 ^ 980 ≤ 2 ^ 1000 := by
        rw [← pow_succ']; exact pow_le_pow_right₀ (by norm_num) (by norm_num)
      generalize (2:ℝ) ^ 980 = P at *
      generalize (2:ℝ) ^ 1000 = Q at *
      have hP : 0 ≤ Q := by linarith
      nlinarith
    have mm : 2 * (2 / (xs.length : ℝ) ^ 2) * ((2 ^ 21 + 1) * (xs.length + 1)) ≤ 2 ^ 24 + 8 := by
      rw [show 2 * (2 / (xs.length : ℝ) ^ 2) * ((2 ^ 21 + 1) * (xs.length + 1)) = 4 * (2 ^ 21 + 1) * (xs.length + 1) / (xs.length : ℝ) ^ 2 by
        ring, div_le_iff₀ hM2]
      clear ns n3 h0 hb hb0 hbe hbc ev c1 cl c0 q0 q1 kk hM'
      generalize (xs.length : ℝ) = M at *
      norm_num
      nlinarith
    have n4 := (n3.mono unit_abs.nonneg q0 (le_refl _) mm).rd hr.toBinary64 unit_abs q0 q1 kk (by norm_num)
    have n5 := n4.mono unit_abs.nonneg q0 (k' := xs.length + 6) (m' := 2 ^ 25) (by linarith) (by norm_num)
    unfold RndLoop.qd
    rw [if_neg (by simp)]
    unfold forEnumM
    rw [show ((0, 0) : XF × XF) = (fin 0, fin 0) from rfl, List.length_map, hl]
    dsimp only
    rw [natCast_fin, two_fin, fin_div (by push_cast; exact hM2.ne')]
    push_cast
    rw [hbe]
    exact n5
  · refine List.rel_append (List.forall₂_cons.2 ⟨⟨le_refl _, SqNear.zero (by positivity)⟩, .nil⟩) ?_
    rw [List.forall₂_map_left_iff, List.forall₂_map_right_iff, List.forall₂_same]
    intro p hp
    exact ⟨(t p hp).2.1, (t p hp).1⟩
  · rw [List.sum_append, List.sum_singleton, zero_add]; exact hb
  · rw [List.length_append, List.length_map, List.length_zipIdx, List.length_singleton]
    push_cast
    clear hb hb0 hx2
    generalize (xs.length : ℝ) = M at *
    norm_num at hM' ⊢; linarith
  · rw [List.length_append, List.length_map, List.length_zipIdx, List.length_singleton]
    push_cast
    clear hb hb0 hx2
    generalize (xs.length : ℝ) = M at *
    norm_num at hM' ⊢; linarith

end

end Verif
