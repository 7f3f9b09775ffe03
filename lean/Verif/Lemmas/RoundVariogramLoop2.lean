import Verif.Lemmas.RoundVariogramLoop

/-! The fair form of the variogram score loops with rounding. -/

noncomputable section

open scoped Classical

namespace Verif

open XF Py Mv Spec

theorem upIdx_pairs {α : Type} (h : α → α → ℝ) (d : α) (l : List α) :
    ((upIdx l.length).map fun q => h (l.getD q.1 d) (l.getD q.2 d)).sum = pairsUp h l := by
  rw [← pairsUp_eq_range h l d]
  unfold upIdx
  rw [List.map_flatMap, sum_flatMap_eq, Nat.sub_zero, ← List.range_eq_range']
  simp only [List.map_map, Function.comp_def]

theorem upIdx_ne {n : ℕ} (h : 2 ≤ n) : upIdx n ≠ [] := by
  have : (0, 1) ∈ upIdx n := by
    unfold upIdx
    rw [List.mem_flatMap]
    refine ⟨0, by rw [List.mem_range'_1]; omega, List.mem_map.2 ⟨1, by rw [List.mem_range'_1]; omega, rfl⟩⟩
  exact List.ne_nil_of_mem this

theorem up_fold {A : Type} (n : ℕ) (f : ℕ → ℕ → A → A) (s : A) :
    (List.range' 0 (n - 0)).foldl (fun e k => forRange (k + 1) n e fun m e => f k m e) s
      = (upIdx n).foldl (fun e q => f q.1 q.2 e) s := by
  unfold upIdx forRange
  rw [List.foldl_flatMap]
  simp only [List.foldl_map]

/-- the loop as four sums over explicit lists -/
theorem fair_fold {A : Type} (n D : ℕ) (f : A → ℕ → ℕ → ℕ → A) (g : A → ℕ × ℕ → ℕ → ℕ → A) (s : A × A) :
    (forRange 0 n s fun k e =>
      (forRange 0 D e.1 fun i e1 => forRange 0 D e1 fun j e1 => f e1 k i j,
       forRange (k + 1) n e.2 fun m e2 => forRange 0 D e2 fun i e2 => forRange 0 D e2 fun j e2 => g e2 (k, m) i j))
    = (((List.range' 0 (n - 0)).flatMap fun k => (gridF D).map fun q => (k, q)).foldl (fun e t => f e t.1 t.2.1 t.2.2) s.1,
       ((upIdx n).flatMap fun k => (gridF D).map fun q => (k, q)).foldl (fun e t => g e t.1 t.2.1 t.2.2) s.2) := by
  have e1 : ∀ (e : A) k, (forRange 0 D e fun i e1 => forRange 0 D e1 fun j e1 => f e1 k i j)
      = (gridF D).foldl (fun s q => f s k q.1 q.2) e := fun e k => grid_fold D e fun s i j => f s k i j
  have e2 : ∀ (e : A) k, (forRange 0 D e fun i e1 => forRange 0 D e1 fun j e1 => g e1 k i j)
      = (gridF D).foldl (fun s q => g s k q.1 q.2) e := fun e k => grid_fold D e fun s i j => g s k i j
  have e3 := pair_fold (List.range' 0 (n - 0)) (fun k e => (gridF D).foldl (fun s q => f s k q.1 q.2) e)
    (fun k e => forRange (k + 1) n e fun m e2 => (gridF D).foldl (fun s q => g s (k, m) q.1 q.2) e2) s
  rw [up_fold n (fun k m e2 => (gridF D).foldl (fun s q => g s (k, m) q.1 q.2) e2)] at e3
  simp only [e1, e2]
  rw [List.foldl_flatMap, List.foldl_flatMap]
  simp only [List.foldl_map]
  exact e3

theorem wsize_comm {D : ℕ} (W a b : Fin D → Fin D → ℝ) : wsize W a b = wsize W b a := by
  unfold wsize
  simp only [add_comm (a _ _)]

section
variable {r : ℝ → XF} (hr : Binary64 r) {D : ℕ} {p : ℝ} (hp : 1 / 2 ≤ p) (hp2 : p ≤ 2)
include hr hp hp2

theorem vterm_near {W : Fin D → Fin D → ℝ} (hW : ∀ i j, |W i j| ≤ 2 ^ 100) {a b : Eu D} (ha : ∀ i j, |a i - a j| ≤ 2 ^ 200)
    (hb : ∀ i j, |b i - b j| ≤ 2 ^ 200) (i j : Fin D) :
    Sized (Rnd.wsq r (fin (W i j)) (RndLoop.vrho r p (vec a) i j) (RndLoop.vrho r p (vec b) i j))
      (W i j * (vdiff p a i j - vdiff p b i j) ^ 2)
      (|W i j| * (vdiff p a i j + vdiff p b i j + 1 / 2 ^ 469) ^ 2 + 1 / 2 ^ 938) 35 ∧
    |W i j| * (vdiff p a i j + vdiff p b i j + 1 / 2 ^ 469) ^ 2 + 1 / 2 ^ 938 ≤ 2 ^ 910 := by
  have hv : ∀ (x : Eu D) i j, 0 ≤ vdiff p x i j := fun x i j => Real.rpow_nonneg (abs_nonneg _) _
  have := wsq_near hr (hv a i j) (hv b i j) (vrho_near hr hp hp2 (ha i j)).2 (vrho_near hr hp hp2 (hb i j)).2 (k := 2) le_rfl
    (by norm_num) (hW i j) (m1 := 2) (m2 := 2) (by norm_num) (vrho_near hr hp hp2 (ha i j)).1 (vrho_near hr hp hp2 (hb i j)).1
  exact ⟨this.1.mono (by norm_num), this.2⟩

/-- the sum over a list of pairs of points and all pairs of coordinates -/
theorem vsum_near (hD : 0 < D) {W : Fin D → Fin D → ℝ} (hW : ∀ i j, |W i j| ≤ 2 ^ 100) {α : Type} {l : List α} (hne : l ≠ [])
    {a b : α → Eu D} (ha : ∀ t ∈ l, ∀ i j, |a t i - a t j| ≤ 2 ^ 200) (hb : ∀ t ∈ l, ∀ i j, |b t i - b t j| ≤ 2 ^ 200) {N : ℝ}
    (hN : (l.length : ℝ) * (D : ℝ) ^ 2 ≤ N) (hN2 : N ≤ 2 ^ 40) {s : XF}
    (hs : RSum r ([fin 0] ++ (l.flatMap fun t => (gridF D).map fun q => (t, q)).map fun t =>
      Rnd.wsq r (fin (W t.2.1 t.2.2)) (RndLoop.vrho r p (vec (a t.1)) t.2.1 t.2.2)
        (RndLoop.vrho r p (vec (b t.1)) t.2.1 t.2.2)) s) :
    Sized s (l.map fun t => vdist p W (a t) (b t)).sum (l.map fun t => wsize W (vdiff p (a t)) (vdiff p (b t))).sum (N + 36) ∧
      1 / 2 ^ 938 ≤ (l.map fun t => wsize W (vdiff p (a t)) (vdiff p (b t))).sum ∧
      (l.map fun t => wsize W (vdiff p (a t)) (vdiff p (b t))).sum ≤ 2 ^ 950 := by
  have mem : ∀ t ∈ l.flatMap fun t => (gridF D).map fun q => (t, q), t.1 ∈ l := by
    intro t ht
    obtain ⟨u, hu, hq⟩ := List.mem_flatMap.1 ht
    obtain ⟨q, _, rfl⟩ := List.mem_map.1 hq
    exact hu
  have len : (((l.flatMap fun t => (gridF D).map fun q => (t, q)).length : ℕ) : ℝ) = l.length * (D : ℝ) ^ 2 := by
    rw [List.length_flatMap]
    simp only [List.length_map, gridF_length, List.map_const', List.sum_replicate, smul_eq_mul]
    push_cast; ring
  have sums : ∀ h : α → Fin D → Fin D → ℝ, ((l.flatMap fun t => (gridF D).map fun q => (t, q)).map fun t => h t.1 t.2.1 t.2.2).sum
      = (l.map fun t => ∑ i, ∑ j, h t i j).sum := by
    intro h
    rw [List.map_flatMap, sum_flatMap_eq]
    congr 1
    refine List.map_congr_left fun t _ => ?_
    rw [List.map_map, ← gridF_sum]
    rfl
  have ht := fun t (h : t ∈ l.flatMap fun t => (gridF D).map fun q => (t, q)) =>
    vterm_near hr hp hp2 hW (ha _ (mem t h)) (hb _ (mem t h)) t.2.1 t.2.2
  have up : ((l.flatMap fun t => (gridF D).map fun q => (t, q)).map fun t =>
      |W t.2.1 t.2.2| * (vdiff p (a t.1) t.2.1 t.2.2 + vdiff p (b t.1) t.2.1 t.2.2 + 1 / 2 ^ 469) ^ 2 + 1 / 2 ^ 938).sum
      ≤ 2 ^ 950 := by
    calc _ ≤ ((l.flatMap fun t => (gridF D).map fun q => (t, q)).length : ℝ) * 2 ^ 910 := sum_map_le fun t h => (ht t h).2
      _ ≤ 2 ^ 40 * 2 ^ 910 := by
          rw [len]; exact mul_le_mul_of_nonneg_right (hN.trans hN2) (by positivity)
      _ = 2 ^ 950 := by rw [← pow_add]
  have h := Sized.sumFrom hr hs (by
      rw [← List.length_pos_iff]
      have : (0:ℝ) < l.length * (D : ℝ) ^ 2 :=
        mul_pos (by exact_mod_cast List.length_pos_iff.2 hne) (pow_pos (by exact_mod_cast hD) 2)
      rw [← len] at this
      exact_mod_cast this) (by norm_num : (0:ℝ) ≤ 35)
    (g := fun t => W t.2.1 t.2.2 * (vdiff p (a t.1) t.2.1 t.2.2 - vdiff p (b t.1) t.2.1 t.2.2) ^ 2)
    (c := fun t => |W t.2.1 t.2.2| * (vdiff p (a t.1) t.2.1 t.2.2 + vdiff p (b t.1) t.2.1 t.2.2 + 1 / 2 ^ 469) ^ 2 + 1 / 2 ^ 938)
    (fun t h => (ht t h).1) (fun t _ => le_add_of_nonneg_left (by positivity))
    (up.trans (pow_le_pow_right₀ (by norm_num) (by norm_num))) (by
      rw [len]
      clear ht up
      generalize (l.length : ℝ) * (D : ℝ) ^ 2 = n at *
      norm_num at *; linarith)
  rw [len, sums fun t i j => W i j * (vdiff p (a t) i j - vdiff p (b t) i j) ^ 2,
    sums fun t i j => |W i j| * (vdiff p (a t) i j + vdiff p (b t) i j + 1 / 2 ^ 469) ^ 2 + 1 / 2 ^ 938] at h
  rw [sums fun t i j => |W i j| * (vdiff p (a t) i j + vdiff p (b t) i j + 1 / 2 ^ 469) ^ 2 + 1 / 2 ^ 938] at up
  exact ⟨h.1.mono (by linarith), h.2, up⟩

theorem loopFair_near (hD : 0 < D) {W : Fin D → Fin D → ℝ} (hW : ∀ i j, |W i j| ≤ 2 ^ 99)
    (hW2 : ∀ i j, r (2 * W i j) = fin (2 * W i j)) {y : Eu D}
    {xs : List (Eu D)} (h2 : 2 ≤ xs.length) (hMD : xs.length * D ≤ 2 ^ 20) (hy : ∀ i j, |y i - y j| ≤ 2 ^ 200)
    (hx : ∀ x ∈ xs, ∀ i j, |x i - x j| ≤ 2 ^ 200) :
    Sized (RndLoop.vsFair r (matl W) p (vec y) (xs.map vec)) (Spec.vsFair p W y xs) (fairSize p W y xs)
      ((xs.length : ℝ) ^ 2 * (D : ℝ) ^ 2 + 40) := by
  have hne : xs ≠ [] := by intro e; simp [e] at h2
  have h2' : (2:ℝ) ≤ xs.length := by exact_mod_cast h2
  have hM0 : (0:ℝ) < xs.length := by linarith
  have hD1 : (1:ℝ) ≤ D := by exact_mod_cast hD
  have hMM : (xs.length : ℝ) ^ 2 * (D : ℝ) ^ 2 ≤ 2 ^ 40 := by
    have : (xs.length : ℝ) * D ≤ 2 ^ 20 := by exact_mod_cast hMD
    calc (xs.length : ℝ) ^ 2 * (D : ℝ) ^ 2 = ((xs.length : ℝ) * D) ^ 2 := by ring
      _ ≤ (2 ^ 20) ^ 2 := pow_le_pow_left₀ (by positivity) this 2
      _ = 2 ^ 40 := by rw [← pow_mul]
  have hD2 : (1:ℝ) ≤ (D : ℝ) ^ 2 := one_le_pow₀ hD1
  have hW' : ∀ i j, |W i j| ≤ 2 ^ 100 := fun i j => (hW i j).trans (pow_le_pow_right₀ (by norm_num) (by norm_num))
  have hW3 : ∀ i j, |2 * W i j| ≤ 2 ^ 100 := fun i j => by
    rw [abs_mul, abs_two, show (2:ℝ) ^ 100 = 2 * 2 ^ 99 from pow_succ' _ _]
    exact mul_le_mul_of_nonneg_left (hW i j) (by norm_num)
  have s1 := RSum.fold (r := r) (fun t : ℕ × Fin D × Fin D => Rnd.wsq r (fin (W t.2.1 t.2.2))
    (RndLoop.vrho r p (vat (xs.map vec) t.1) t.2.1 t.2.2) (RndLoop.vrho r p (vec y) t.2.1 t.2.2))
    ((List.range' 0 (xs.length - 0)).flatMap fun k => (gridF D).map fun q => (k, q)) (L := [fin 0]) (s := fin 0) (.one _) (by simp)
  have s2 := RSum.fold (r := r) (fun t : (ℕ × ℕ) × Fin D × Fin D => Rnd.wsq r (fin (2 * W t.2.1 t.2.2))
    (RndLoop.vrho r p (vat (xs.map vec) t.1.1) t.2.1 t.2.2) (RndLoop.vrho r p (vat (xs.map vec) t.1.2) t.2.1 t.2.2))
    ((upIdx xs.length).flatMap fun k => (gridF D).map fun q => (k, q)) (L := [fin 0]) (s := fin 0) (.one _) (by simp)
  have mem1 : ∀ k ∈ List.range' 0 (xs.length - 0), k < xs.length := fun k hk => by rw [List.mem_range'_1] at hk; omega
  have m1 : ∀ t ∈ ((List.range' 0 (xs.length - 0)).flatMap fun k => (gridF D).map fun q => (k, q)), t.1 < xs.length := by
    intro t ht
    obtain ⟨u, hu, hq⟩ := List.mem_flatMap.1 ht
    obtain ⟨q, _, rfl⟩ := List.mem_map.1 hq
    exact mem1 u hu
  have m2 : ∀ t ∈ ((upIdx xs.length).flatMap fun k => (gridF D).map fun q => (k, q)), t.1 ∈ upIdx xs.length := by
    intro t ht
    obtain ⟨u, hu, hq⟩ := List.mem_flatMap.1 ht
    obtain ⟨q, _, rfl⟩ := List.mem_map.1 hq
    exact hu
  rw [List.map_congr_left (g := fun t : ℕ × Fin D × Fin D => Rnd.wsq r (fin (W t.2.1 t.2.2))
    (RndLoop.vrho r p (vec (xs.getD t.1 0)) t.2.1 t.2.2) (RndLoop.vrho r p (vec y) t.2.1 t.2.2))
    (fun t ht => by rw [vat_getD (m1 t ht)])] at s1
  rw [List.map_congr_left (g := fun t : (ℕ × ℕ) × Fin D × Fin D => Rnd.wsq r (fin (2 * W t.2.1 t.2.2))
    (RndLoop.vrho r p (vec (xs.getD t.1.1 0)) t.2.1 t.2.2) (RndLoop.vrho r p (vec (xs.getD t.1.2 0)) t.2.1 t.2.2))
    (fun t ht => by rw [vat_getD (upIdx_mem (m2 t ht)).1, vat_getD (upIdx_mem (m2 t ht)).2])] at s2
  have n1 := vsum_near hr hp hp2 hD hW' (l := List.range' 0 (xs.length - 0)) (a := fun k => xs.getD k 0) (b := fun _ => y)
    (N := (xs.length : ℝ) ^ 2 * (D : ℝ) ^ 2)
    (by rw [← List.length_pos_iff]; simp; omega) (fun k hk => hx _ (getD_mem_eu (mem1 k hk))) (fun _ _ => hy)
    (by
      rw [List.length_range', Nat.sub_zero]
      exact mul_le_mul_of_nonneg_right (by nlinarith) (by positivity)) hMM s1
  have n2 := vsum_near hr hp hp2 hD hW3 (l := upIdx xs.length) (a := fun k => xs.getD k.1 0) (b := fun k => xs.getD k.2 0)
    (N := (xs.length : ℝ) ^ 2 * (D : ℝ) ^ 2)
    (upIdx_ne h2) (fun k hk => hx _ (getD_mem_eu (upIdx_mem hk).1)) (fun k hk => hx _ (getD_mem_eu (upIdx_mem hk).2))
    (by
      refine mul_le_mul_of_nonneg_right ?_ (by positivity)
      have : (upIdx xs.length).length ≤ xs.length ^ 2 := (upIdx_length _).trans (by
        rw [sq]; exact Nat.mul_le_mul_left _ (Nat.sub_le _ _))
      exact_mod_cast this) hMM s2
  rw [Nat.sub_zero, ← List.range_eq_range', map_range_getD xs 0 fun x => vdist p W x y,
    map_range_getD xs 0 fun x => wsize W (vdiff p x) (vdiff p y)] at n1
  rw [upIdx_pairs (fun a b => vdist p (fun i j => 2 * W i j) a b) 0 xs,
    upIdx_pairs (fun a b => wsize (fun i j => 2 * W i j) (vdiff p a) (vdiff p b)) 0 xs] at n2
  have v2 : ∀ a b : Eu D, vdist p (fun i j => 2 * W i j) a b = 2 * vdist p W a b := fun a b => by
    unfold vdist
    simp only [Finset.mul_sum, mul_assoc]
  simp only [v2] at n2
  rw [pairsUp_double _ (vdist_comm p W) (vdist_self p W)] at n2
  have w2 : pairsUp (fun a b : Eu D => wsize (fun i j => 2 * W i j) (vdiff p a) (vdiff p b)) xs
      ≤ pairsAll (fun a b => wsize W (vdiff p a) (vdiff p b)) xs := by
    rw [pairsAll_eq _ fun a b => wsize_comm W _ _]
    have w0 : ∀ a b : Eu D, 0 ≤ wsize W (vdiff p a) (vdiff p b) := fun a b =>
      le_trans (by positivity) (wsize_low hD W _ _)
    have w1 : ∀ a b : Eu D, wsize (fun i j => 2 * W i j) (vdiff p a) (vdiff p b)
        ≤ wsize W (vdiff p a) (vdiff p b) + wsize W (vdiff p a) (vdiff p b) := fun a b => by
      unfold wsize
      rw [← Finset.sum_add_distrib]
      refine Finset.sum_le_sum fun i _ => ?_
      rw [← Finset.sum_add_distrib]
      refine Finset.sum_le_sum fun j _ => ?_
      rw [abs_mul, abs_two]
      have : (0:ℝ) ≤ 1 / 2 ^ 938 := by positivity
      generalize (1:ℝ) / 2 ^ 938 = T at *
      linarith
    have w3 : ∀ l : List (Eu D), pairsUp (fun a b : Eu D => wsize (fun i j => 2 * W i j) (vdiff p a) (vdiff p b)) l
        ≤ pairsUp (fun a b => wsize W (vdiff p a) (vdiff p b)) l + pairsUp (fun a b => wsize W (vdiff p a) (vdiff p b)) l := by
      intro l
      induction l with
      | nil => simp [pairsUp]
      | cons a l ih =>
        simp only [pairsUp]
        have := List.sum_le_sum (l := l) fun b _ => w1 a b
        rw [List.sum_map_add] at this
        linarith
    exact (w3 xs).trans (le_add_of_nonneg_right (list_sum_nonneg' fun a _ => w0 a a))
  obtain ⟨a1, l1, u1⟩ := n1
  obtain ⟨a2, l2, u2⟩ := n2
  have hM20 : (xs.length : ℝ) ^ 2 ≤ 2 ^ 40 := le_trans (le_mul_of_one_le_right (by positivity) hD2) hMM
  have hd1 : 1 ≤ (xs.length : ℝ) * ((xs.length : ℝ) - 1) := by nlinarith only [h2']
  have hd0 : 0 < (xs.length : ℝ) * ((xs.length : ℝ) - 1) := by linarith only [hd1]
  have hdM : (xs.length : ℝ) * ((xs.length : ℝ) - 1) ≤ 2 ^ 40 := le_trans (by nlinarith only [h2']) hM20
  have hM40 : (xs.length : ℝ) ≤ 2 ^ 40 := le_trans (by nlinarith only [h2']) hM20
  have lowd : ∀ {C d : ℝ}, 1 / 2 ^ 938 ≤ C → 0 < d → d ≤ 2 ^ 40 → 1 / 2 ^ 1000 ≤ 1 / 2 * C / d := by
    intro C d hC hd hd2
    rw [le_div_iff₀ hd]
    calc (1:ℝ) / 2 ^ 1000 * d ≤ 1 / 2 ^ 1000 * 2 ^ 40 := mul_le_mul_of_nonneg_left hd2 (by positivity)
      _ = 1 / 2 ^ 960 := by rw [show (1000:ℕ) = 960 + 40 from rfl, pow_add, one_div_mul_eq_div, div_mul_cancel_right₀ (by positivity), one_div]
      _ ≤ 1 / 2 ^ 939 := one_div_le_one_div_of_le (by positivity) (pow_le_pow_right₀ (by norm_num) (by norm_num))
      _ = 1 / 2 * (1 / 2 ^ 938) := by rw [one_div_mul_one_div, ← pow_succ']
      _ ≤ 1 / 2 * C := mul_le_mul_of_nonneg_left hC (by norm_num)
  have c1 := a1.nonneg
  have c2 := a2.nonneg
  have hk : (xs.length : ℝ) ^ 2 * (D : ℝ) ^ 2 + 39 ≤ 2 ^ 50 := by
    generalize (xs.length : ℝ) ^ 2 * (D : ℝ) ^ 2 = n at hMM ⊢
    calc n + 39 ≤ 2 ^ 40 + 39 := by linarith only [hMM]
      _ ≤ 2 ^ 50 := by norm_num
  have p950 : (2:ℝ) ^ 950 + 2 ^ 950 ≤ 2 ^ 1000 := by
    rw [← two_mul, ← pow_succ']; exact pow_le_pow_right₀ (by norm_num) (by norm_num)
  have p1000 : (2:ℝ) ^ 950 ≤ 2 ^ 1000 := pow_le_pow_right₀ (by norm_num) (by norm_num)
  have hN0 : 0 ≤ (xs.length : ℝ) ^ 2 * (D : ℝ) ^ 2 := by positivity
  have f1 : (xs.map fun x => wsize W (vdiff p x) (vdiff p y)).sum / xs.length ≤ 2 ^ 950 :=
    (div_le_self c1 (by linarith only [h2'])).trans u1
  have f2 : 1 / 2 * pairsUp (fun a b : Eu D => wsize (fun i j => 2 * W i j) (vdiff p a) (vdiff p b)) xs ≤ 2 ^ 950 :=
    le_trans (by linarith only [c2]) u2
  have f3 : 1 / 2 * pairsUp (fun a b : Eu D => wsize (fun i j => 2 * W i j) (vdiff p a) (vdiff p b)) xs
      / ((xs.length : ℝ) * ((xs.length : ℝ) - 1)) ≤ 2 ^ 950 :=
    (div_le_self (by positivity) hd1).trans f2
  have q1 := (a1.div hM0 ((lowd l1 hM0 hM40).trans (div_le_div_of_nonneg_right (by linarith only [c1]) hM0.le))).rd hr
    (f1.trans p1000) (by linarith only [hk])
  have q2 := ((a2.half l2).rd hr (f2.trans p1000) (by linarith only [hk])).div hd0 (lowd l2 hd0 hdM) |>.rd hr
    (f3.trans p1000) (by linarith only [hk])
  have q3 := ((q1.mono (k' := (xs.length : ℝ) ^ 2 * (D : ℝ) ^ 2 + 38) (by linarith only [])).sub
    (q2.mono (by linarith only []))).rd hr ((add_le_add f1 f3).trans p950) (by linarith only [hk])
  have ev : Spec.vsFair p W y xs = (xs.map fun x => vdist p W x y).sum / xs.length - 1 / 2 *
      pairsAll (fun a b => vdist p W a b) xs / ((xs.length : ℝ) * ((xs.length : ℝ) - 1)) := by
    unfold Spec.vsFair pairsAll
    rw [mul_comm (2:ℝ), ← div_div]
    ring
  have q4 := (q3.mono (k' := (xs.length : ℝ) ^ 2 * (D : ℝ) ^ 2 + 40) (by linarith only [])).wider (by linarith only [hN0])
    (c' := fairSize p W y xs) (by
      unfold fairSize
      refine add_le_add le_rfl ?_
      rw [mul_div_assoc]
      exact mul_le_mul_of_nonneg_left (div_le_div_of_nonneg_right w2 hd0.le) (by norm_num))
  rw [ev]
  have hw2 : ∀ i j : Fin D, Rnd.rd r (fin (W i j) * 2) = fin (2 * W i j) := fun i j => by
    rw [two_fin, fin_mul, mul_comm]
    exact hW2 i j
  unfold RndLoop.vsFair
  simp only [vec_length, List.length_map]
  rw [fair_fold xs.length D (fun e k i j => Rnd.rd r (e + Rnd.rd r (mget (matl W) i j * Rnd.rd r (Rnd.rd r
      (RndLoop.vrho r p (vat (xs.map vec) k) i j - RndLoop.vrho r p (vec y) i j) ^ 2))))
    (fun e k i j => Rnd.rd r (e + Rnd.rd r (Rnd.rd r (mget (matl W) i j * 2) * Rnd.rd r (Rnd.rd r
      (RndLoop.vrho r p (vat (xs.map vec) k.1) i j - RndLoop.vrho r p (vat (xs.map vec) k.2) i j) ^ 2))))]
  simp only [mget_matl, hw2, natCast_fin, half_fin, natPred_cast h2, Nat.sub_zero, ← List.range_eq_range']
  exact q4

end
end Verif
