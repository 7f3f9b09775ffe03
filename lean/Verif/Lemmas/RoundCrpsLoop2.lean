import Verif.Lemmas.RoundCrpsLoop

/-! The energy forms and the moment form of the numba path. -/

noncomputable section

open scoped Classical

namespace Verif

open XF Py Spec

/-- the pairs visited by the inner loop -/
def upPairs (xs : List ℝ) : List (ℝ × ℝ) :=
  (List.range' 0 (xs.length - 0)).flatMap fun i =>
    (List.range' (i + 1) (xs.length - (i + 1))).map fun j => (xs.getD j 0, xs.getD i 0)

theorem idx_getD {xs : List ℝ} {i : ℕ} (hi : i < xs.length) : idx (xs.map fin) i = fin (xs.getD i 0) := by
  unfold idx
  simp [hi]

theorem getD_mem' {xs : List ℝ} {i : ℕ} (hi : i < xs.length) : xs.getD i 0 ∈ xs := by
  rw [show xs.getD i 0 = xs[i] by simp [hi]]
  exact List.getElem_mem hi

theorem upPairs_mem {xs : List ℝ} {q : ℝ × ℝ} (h : q ∈ upPairs xs) : q.1 ∈ xs ∧ q.2 ∈ xs := by
  unfold upPairs at h
  obtain ⟨i, hi, hq⟩ := List.mem_flatMap.1 h
  obtain ⟨j, hj, rfl⟩ := List.mem_map.1 hq
  rw [List.mem_range'_1] at hi hj
  exact ⟨getD_mem' (by omega), getD_mem' (by omega)⟩

theorem upPairs_length (xs : List ℝ) : (upPairs xs).length ≤ xs.length * (xs.length - 1) := by
  unfold upPairs
  rw [List.length_flatMap]
  refine (List.sum_le_card_nsmul _ (xs.length - 1) ?_).trans ?_
  · intro n hn
    obtain ⟨i, _, rfl⟩ := List.mem_map.1 hn
    simp
    omega
  · simp

theorem pairLoop_rsum (r : ℝ → XF) (y : ℝ) (xs : List ℝ) :
    RSum r ([fin 0] ++ xs.map fun x => Rnd.adiff r (fin x) (fin y)) (RndLoop.pairLoop r (fin y) (xs.map fin)).1 ∧
    RSum r ([fin 0] ++ (upPairs xs).map fun q => Rnd.rd r (2 * Rnd.adiff r (fin q.1) (fin q.2)))
      (RndLoop.pairLoop r (fin y) (xs.map fin)).2 := by
  have := RSum.fold2 (r := r) (fun i => Rnd.adiff r (idx (xs.map fin) i) (fin y))
    (fun i => List.range' (i + 1) ((xs.map fin).length - (i + 1)))
    (fun i j => Rnd.rd r (2 * Rnd.adiff r (idx (xs.map fin) j) (idx (xs.map fin) i)))
    (List.range' 0 ((xs.map fin).length - 0)) (L1 := [fin 0]) (L2 := [fin 0]) (s := (0, 0)) (.one _) (by simp) (.one _) (by simp)
  have e1 : (List.range' 0 ((xs.map fin).length - 0)).map (fun i => Rnd.adiff r (idx (xs.map fin) i) (fin y))
      = xs.map fun x => Rnd.adiff r (fin x) (fin y) := by
    apply List.ext_getElem
    · simp
    · intro i h1 h2
      simp at h1 h2
      simp [idx, h2]
  have e2 : ((List.range' 0 ((xs.map fin).length - 0)).flatMap fun i =>
      (List.range' (i + 1) ((xs.map fin).length - (i + 1))).map fun j =>
        Rnd.rd r (2 * Rnd.adiff r (idx (xs.map fin) j) (idx (xs.map fin) i)))
      = (upPairs xs).map fun q => Rnd.rd r (2 * Rnd.adiff r (fin q.1) (fin q.2)) := by
    unfold upPairs
    rw [List.map_flatMap, List.length_map]
    refine List.flatMap_congr fun i hi => ?_
    rw [List.map_map]
    refine List.map_congr_left fun j hj => ?_
    rw [List.mem_range'_1] at hi hj
    rw [idx_getD (by omega), idx_getD (by omega)]
    rfl
  rw [e1, e2] at this
  exact this

theorem upPairs_sum (xs : List ℝ) : ((upPairs xs).map fun q => 2 * |q.1 - q.2|).sum = sumAbsDiff xs := by
  have h := (pairLoop_rsum fin 0 xs).2.exact
  have h2 := Gufunc.loop_fin 0 xs
  have e : RndLoop.pairLoop fin (fin 0) (xs.map fin) = (fin (sabs 0 xs), fin (spair xs)) := by
    rw [← h2]
    unfold RndLoop.pairLoop
    simp only [rd_fin_eq, Rnd.adiff]
  rw [e] at h
  simp only [rd_fin_eq, Rnd.adiff, fin_sub, fin_abs, two_fin, fin_mul, List.sum_append, List.sum_singleton, sum_map_fin',
    fin_add, zero_add] at h
  rw [← spair_eq]
  exact (XF.fin.inj h).symm

section
variable {r : ℝ → XF} (hr : Binary64 r)
include hr

theorem adiff_zero : Rnd.adiff r (fin 0) (fin 0) = fin 0 := by
  have z : Rnd.rd r (fin 0) = fin 0 := by
    have := hr.nat 0 (by norm_num)
    simpa [Rnd.rd] using this
  unfold Rnd.adiff
  rw [fin_sub, sub_zero, z, fin_abs, abs_zero]

/-- a sum of distances that starts from zero, divided -/
theorem dmean0_near {l : List (ℝ × ℝ)} {d : ℝ} {s : XF} (h : RSum r ([fin 0] ++ l.map fun q => Rnd.adiff r (fin q.1) (fin q.2)) s)
    (hl : l.length + 1 ≤ 2 ^ 40) (hd : 1 ≤ d) (hdl : (l.length : ℝ) + 1 ≤ 2 * d)
    (hb : ∀ q ∈ l, |q.1 - q.2| ≤ 2 ^ 960) :
    SqNear (1 / 2 ^ 1073) (Rnd.rd r (s / fin d))
      ((l.map fun q => |q.1 - q.2|).sum / d) (l.length + 3) 5 ∧ (l.map fun q => |q.1 - q.2|).sum / d ≤ 2 ^ 961 := by
  obtain ⟨S, hS⟩ := exists_rsum r
  have e : [fin 0] ++ l.map (fun q => Rnd.adiff r (fin q.1) (fin q.2))
      = ((0, 0) :: l).map fun q : ℝ × ℝ => Rnd.adiff r (fin q.1) (fin q.2) := by
    rw [List.map_cons, adiff_zero hr]; rfl
  have hS' : ∀ xs, RSum r xs ((fun xs => if xs = [fin 0] ++ l.map (fun q => Rnd.adiff r (fin q.1) (fin q.2)) then s else S xs) xs) := by
    intro xs
    dsimp only
    split_ifs with hx
    · rw [hx]; exact h
    · exact hS xs
  have := dmean_near hr hS' (l := (0, 0) :: l) (d := d) (by simpa using hl) hd (by push_cast [List.length_cons]; exact hdl) (by
    intro q hq
    rcases List.mem_cons.1 hq with rfl | hq
    · simp
    · exact hb q hq)
  rw [← e, if_pos rfl] at this
  simp only [List.map_cons, List.sum_cons, sub_zero, abs_zero, zero_add, List.length_cons] at this
  push_cast at this
  rw [show (l.length : ℝ) + 1 + 2 = l.length + 3 by ring] at this
  exact this

theorem loopPair_near {y : ℝ} {xs : List ℝ} (hne : xs ≠ []) (hM : xs.length ≤ 2 ^ 20) (hy : |y| ≤ 2 ^ 950)
    (hx : ∀ x ∈ xs, |x| ≤ 2 ^ 950) {Q : ℝ} (hQ1 : 1 ≤ Q) (hQ : (xs.length : ℝ) ^ 2 ≤ 2 * Q) :
    ∃ v : ℝ, Rnd.rd r (Rnd.rd r ((RndLoop.pairLoop r (fin y) (xs.map fin)).1 / fin xs.length)
        - Rnd.rd r (Rnd.rd r (fin (1 / 2) * (RndLoop.pairLoop r (fin y) (xs.map fin)).2) / fin Q)) = fin v ∧
      |v - (meanAbs y xs - 1 / 2 * (sumAbsDiff xs / Q))| ≤ (xs.length : ℝ) ^ 2 / 2 ^ 46 * meanAbs y xs + 1 / 2 ^ 1069 := by
  have hM' : (xs.length : ℝ) ≤ 2 ^ 20 := by exact_mod_cast hM
  have hM0 : 0 < xs.length := List.length_pos_iff.mpr hne
  have hM1 : (1:ℝ) ≤ xs.length := by exact_mod_cast hM0
  have hx2 : (xs.length : ℝ) ≤ (xs.length : ℝ) ^ 2 := by nlinarith
  have hMM : (xs.length : ℝ) ^ 2 ≤ 2 ^ 40 := by
    calc (xs.length : ℝ) ^ 2 ≤ (2 ^ 20) ^ 2 := pow_le_pow_left₀ (Nat.cast_nonneg _) hM' 2
      _ = 2 ^ 40 := by rw [← pow_mul]
  have hQ0 : 0 < Q := by linarith
  have dist : ∀ {a b : ℝ}, |a| ≤ 2 ^ 950 → |b| ≤ 2 ^ 950 → |a - b| ≤ 2 ^ 951 := by
    intro a b ha hb
    refine (abs_sub _ _).trans ((add_le_add ha hb).trans (le_of_eq ?_))
    rw [← two_mul, ← pow_succ']
  have u951 : (2:ℝ) ^ 951 ≤ 2 ^ 960 := pow_le_pow_right₀ (by norm_num) (by norm_num)
  obtain ⟨s1, s2⟩ := pairLoop_rsum r y xs
  -- the mean distance
  have n1 := dmean0_near hr (l := xs.map fun x => (x, y)) (d := xs.length) (by rw [List.map_map]; exact s1)
    (by rw [List.length_map]; omega) hM1 (by rw [List.length_map]; linarith) (by
      intro q hq
      obtain ⟨x, hx', rfl⟩ := List.mem_map.1 hq
      exact (dist (hx x hx') hy).trans u951)
  rw [List.map_map, List.length_map] at n1
  obtain ⟨n1, b1⟩ := n1
  change SqNear _ _ (meanAbs y xs) _ _ at n1
  change meanAbs y xs ≤ _ at b1
  -- the pairs
  have L : (upPairs xs).length + 1 ≤ xs.length ^ 2 := by
    have := upPairs_length xs
    obtain ⟨m, hm⟩ : ∃ m, xs.length = m + 1 := ⟨xs.length - 1, by omega⟩
    rw [hm] at this ⊢
    simp only [Nat.add_sub_cancel] at this
    nlinarith
  have L' : ((upPairs xs).length : ℝ) + 1 ≤ (xs.length : ℝ) ^ 2 := by exact_mod_cast L
  have p1 := meanAbs_nonneg' y xs
  have p2 := spair_nonneg' xs
  have hsum : sumAbsDiff xs ≤ 2 ^ 1000 := by
    rw [← upPairs_sum]
    have : ∀ q ∈ upPairs xs, 2 * |q.1 - q.2| ≤ 2 ^ 952 := by
      intro q hq
      have := dist (hx _ (upPairs_mem hq).1) (hx _ (upPairs_mem hq).2)
      calc 2 * |q.1 - q.2| ≤ 2 * 2 ^ 951 := by linarith
        _ = 2 ^ 952 := (pow_succ' _ _).symm
    calc ((upPairs xs).map fun q => 2 * |q.1 - q.2|).sum ≤ ((upPairs xs).length : ℝ) * (2:ℝ) ^ 952 := sum_map_le this
      _ ≤ (2:ℝ) ^ 40 * 2 ^ 952 := mul_le_mul_of_nonneg_right (by linarith only [L', hMM]) (by positivity)
      _ = 2 ^ 992 := by rw [← pow_add]
      _ ≤ 2 ^ 1000 := pow_le_pow_right₀ (by norm_num) (by norm_num)
  have kk : (xs.length : ℝ) ^ 2 + 4 ≤ 2 ^ 49 := by
    clear n1 b1 hsum L' hx2 hQ
    generalize (xs.length : ℝ) ^ 2 = m at *
    clear hM' hM hM1
    norm_num at *; linarith
  have k50 : (2:ℝ) ^ 49 ≤ 2 ^ 50 := pow_le_pow_right₀ (by norm_num) (by norm_num)
  have n2 := s2.sqNear hr unit_abs (k := 2) (m := 3) (by norm_num) (as := [0] ++ (upPairs xs).map fun q => 2 * |q.1 - q.2|)
    ?_ ?_ ?_ ?_
  · rw [List.sum_append, List.sum_singleton, zero_add, upPairs_sum, List.length_append, List.length_map,
      List.length_singleton] at n2
    push_cast at n2
    have n2' := n2.mono unit_abs.nonneg p2 (k' := (xs.length : ℝ) ^ 2 + 2) (m' := 4 * (xs.length : ℝ) ^ 2) (by linarith) (by linarith)
    have h1 : 1 / 2 * sumAbsDiff xs ≤ 2 ^ 1000 := by
      refine le_trans ?_ hsum
      linarith only [p2]
    have n3 := n2'.half.rd hr unit_abs (by linarith) h1 (by linarith) (by
      clear n1 b1 hsum L' hx2 hQ kk n2 n2' h1
      generalize (xs.length : ℝ) ^ 2 = m at *
      clear hM' hM hM1
      norm_num at *; linarith)
    have n4 := n3.div hQ0
    have m5 : (4 * (xs.length : ℝ) ^ 2 / 2 + 1) / Q ≤ 5 := by
      rw [div_le_iff₀ hQ0]; linarith
    have p3 : 0 ≤ 1 / 2 * sumAbsDiff xs / Q := by positivity
    have hpd := sumAbsDiff_le y hne
    have hpq : 1 / 2 * sumAbsDiff xs / Q ≤ 2 * meanAbs y xs := by
      rw [div_le_iff₀ hQ0]
      nlinarith
    have b2 : 1 / 2 * sumAbsDiff xs / Q ≤ 2 ^ 962 := by
      have e : (2:ℝ) ^ 962 = 2 * 2 ^ 961 := pow_succ' _ _
      rw [e]; linarith only [b1, hpq]
    have u1 : (2:ℝ) ^ 962 ≤ 2 ^ 1000 := pow_le_pow_right₀ (by norm_num) (by norm_num)
    have n5 := (n4.mono unit_abs.nonneg p3 (le_refl _) m5).rd hr unit_abs p3 (b2.trans u1) (by linarith) (by norm_num)
    have n5' := n5.mono unit_abs.nonneg p3 (k' := (xs.length : ℝ) ^ 2 + 4) (m' := 6) (by linarith) (by norm_num)
    have n1' := n1.mono unit_abs.nonneg p1 (k' := (xs.length : ℝ) ^ 2 + 4) (m' := 5) (by linarith) (le_refl _)
    have u2 : meanAbs y xs + 1 / 2 * sumAbsDiff xs / Q ≤ 2 ^ 1000 := by
      have u3 : (2:ℝ) ^ 962 + 2 ^ 962 ≤ 2 ^ 1000 := by
        rw [← two_mul, ← pow_succ']; exact pow_le_pow_right₀ (by norm_num) (by norm_num)
      have u4 : (2:ℝ) ^ 961 ≤ 2 ^ 962 := pow_le_pow_right₀ (by norm_num) (by norm_num)
      exact (add_le_add (b1.trans u4) b2).trans u3
    obtain ⟨v, e, hv⟩ := sub_near hr unit_abs n1' n5' p1 p3 (kk.trans k50) (by norm_num) u2
    refine ⟨v, e, ?_⟩
    rw [← mul_div_assoc]
    refine hv.trans (add_le_add ?_ ?_)
    · have f1 : meanAbs y xs + 1 / 2 * sumAbsDiff xs / Q ≤ 3 * meanAbs y xs := by linarith
      have f2 : (xs.length : ℝ) ^ 2 + 4 + 1 ≤ 6 * (xs.length : ℝ) ^ 2 := by nlinarith
      calc _ ≤ (6 * (xs.length : ℝ) ^ 2) * (1 / 2 ^ 51) * (3 * meanAbs y xs) := by gcongr
        _ = 18 / 2 ^ 51 * ((xs.length : ℝ) ^ 2 * meanAbs y xs) := by ring
        _ ≤ 1 / 2 ^ 46 * ((xs.length : ℝ) ^ 2 * meanAbs y xs) := by
          refine mul_le_mul_of_nonneg_right (by norm_num) (by positivity)
        _ = _ := by ring
    · rw [show (1073:ℕ) = 4 + 1069 from rfl, pow_add, ← one_div_mul_one_div, ← mul_assoc]
      have : (0:ℝ) < 1 / 2 ^ 1069 := by positivity
      generalize (1:ℝ) / 2 ^ 1069 = w at *
      norm_num; linarith
  · refine List.rel_append (List.forall₂_cons.2 ⟨⟨le_refl _, SqNear.zero (by positivity)⟩, .nil⟩) ?_
    rw [List.forall₂_map_left_iff, List.forall₂_map_right_iff, List.forall₂_same]
    intro q hq
    have h1 := dist (hx _ (upPairs_mem hq).1) (hx _ (upPairs_mem hq).2)
    have h2 := (adiff_near hr (h1.trans u951)).mulc (c := 2) (by norm_num)
    have h3 : 2 * |q.1 - q.2| ≤ 2 ^ 1000 := by
      calc 2 * |q.1 - q.2| ≤ 2 * 2 ^ 951 := by linarith
        _ = 2 ^ 952 := (pow_succ' _ _).symm
        _ ≤ 2 ^ 1000 := pow_le_pow_right₀ (by norm_num) (by norm_num)
    have h4 := h2.rd hr unit_abs (by positivity) h3 (by norm_num) (by norm_num)
    rw [two_fin]
    exact ⟨by positivity, h4.mono unit_abs.nonneg (by positivity) (by norm_num) (by norm_num)⟩
  · rw [List.sum_append, List.sum_singleton, zero_add, upPairs_sum]; exact hsum
  · rw [List.length_append, List.length_map, List.length_singleton]
    push_cast
    linarith
  · rw [List.length_append, List.length_map, List.length_singleton]
    push_cast
    clear n1 b1 hsum hx2 hQ kk k50
    generalize (xs.length : ℝ) ^ 2 = m at *
    generalize ((upPairs xs).length : ℝ) = n at *
    clear hM' hM hM1 L
    norm_num at *; linarith

end

end Verif
